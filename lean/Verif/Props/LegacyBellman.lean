import Verif.Lemmas.Bellman
import Verif.Props.LegacyWhole
/- C108: least costs with negative weights on the deprecated `SquareGraph`. -/
set_option linter.unusedSectionVars false
namespace LG.Sq
section
variable {N E : Type}
variable {g : G N E} {k : Cfg} {s : Grid} {h v : Nat} {c : Contents NodeIx Axis N E} {val : E → Int}

/-- `edges(u)` yields a reference to `t` with a weight of value `w`. -/
def Arc (g : G N E) (val : E → Int) (u t : NodeIx) (w : Int) : Prop := ∃ r, EdgeTo g u r t ∧ val r.weight = w

theorem mapM_arc : ∀ (l : List (Ref E)), (∀ r ∈ l, r.target k = .ok (tg k r)) →
    l.mapM (fun r => do return (← r.target k, val r.weight)) = (.ok (l.map fun r => (tg k r, val r.weight)) : Res _)
  | [], _ => rfl
  | r :: l, hl => by
    rw [List.mapM_cons, mapM_arc l fun r hr => hl r (List.mem_cons_of_mem _ hr), hl r List.mem_cons_self]
    rfl

theorem sqArcs_iff (hb : Built k h v g c) (hf : k.Fits h v) {x : NodeIx} (hx : (k.grid h v).Node x) {l : List (NodeIx × Int)} :
    sqArcs g val x l ↔ l = (outRefs k (k.grid h v) c x).map fun r => (tg k r, val r.weight) := by
  have hy := outRefs_yields hb hf hx
  have hm := mapM_arc (k := k) (val := val) _ fun r hr => (outRefs_target hb hf hx hr).1
  unfold sqArcs
  rw [hb.stores.cfg]
  constructor
  · rintro ⟨rs, h1, h2⟩
    rw [Yields.unique h1 hy, hm] at h2
    cases h2; rfl
  · rintro rfl
    exact ⟨_, hy, hm⟩

theorem Arc.node (hb : Built k h v g c) (hf : k.Fits h v) {u t : NodeIx} (hu : (k.grid h v).Node u) {w : Int} (hl : Arc g val u t w) :
    (k.grid h v).Node t := by
  obtain ⟨r, h1, -⟩ := hl
  obtain ⟨h2, rfl⟩ := (edgeTo_iff hb hf hu).1 h1
  exact tg_node hb hf hu h2

theorem arc_iff (hb : Built k h v g c) (hf : k.Fits h v) {u t : NodeIx} (hu : (k.grid h v).Node u) {w : Int} :
    Arc g val u t w ↔ ∃ d x, (k.grid h v).step u d = some t ∧
      c.edge (Grid.key u t d).node (Grid.key u t d).axis = some x ∧ val x = w := by
  constructor
  · rintro ⟨r, h1, rfl⟩
    obtain ⟨h2, h3⟩ := (edgeTo_iff hb hf hu).1 h1
    obtain ⟨d, -, hd⟩ := List.mem_filterMap.1 h2
    cases hst : (k.grid h v).step u d with
    | none => rw [refOf_none hst] at hd; cases hd
    | some t' =>
      obtain ⟨x, h4, h5⟩ := refOf_some hb.stores hu hst
      rw [h5] at hd
      cases hd
      have h6 := (view_parts (view_eq (hb.sizes hf) hu hst x)).2.1
      rw [(outRefs_target hb hf hu h2).1, h3] at h6
      cases h6
      exact ⟨d, x, hst, h4, rfl⟩
  · rintro ⟨d, x, hst, h1, rfl⟩
    obtain ⟨x', h4, h5⟩ := refOf_some hb.stores hu hst
    rw [h1] at h4; cases h4
    have hm : (⟨Grid.key u t d, x, d.isFwd, k.sizeInfo h v⟩ : Ref E) ∈ outRefs k (k.grid h v) c u := by
      refine List.mem_filterMap.2 ⟨d, ?_, h5⟩
      rcases d with (_ | _) | (_ | _) <;> decide
    refine ⟨_, (edgeTo_iff hb hf hu).2 ⟨hm, ?_⟩, rfl⟩
    have h6 := (view_parts (view_eq (hb.sizes hf) hu hst x)).2.1
    have h7 := (outRefs_target hb hf hu hm).1
    exact Except.ok.inj (h7.symm.trans h6)

theorem bellman_right (hb : Built k h v g c) (hf : k.Fits h v) (val : E → Int) {a : NodeIx} (ha : (k.grid h v).Node a) :
    ∃ r, g.BellmanFord val a r ∧ (∀ r', g.BellmanFord val a r' → r' = r) ∧ BfRight (k.grid h v).Node (Arc g val) (nodeIdx g) (h * v) a r := by
  have hmem := (c45_nodes_exact (k.grid h v)).2.1
  have hids : Yields (NodeIndices.next g.k) (.new g.horizontalNodeCount g.verticalNodeCount) (k.grid h v).nodes := by
    rw [hb.stores.cfg]; exact c45_node_identifiers_partial hb hf
  have hsw : ∀ es, (∃ ids, Yields (NodeIndices.next g.k) (.new g.horizontalNodeCount g.verticalNodeCount) ids ∧ Swept (sqArcs g val) ids es) ↔
      es = (k.grid h v).nodes.flatMap fun x => ((outRefs k (k.grid h v) c x).map fun r => (tg k r, val r.weight)).map fun e => (x, e.1, e.2) := by
    intro es
    have := swept_iff (k.grid h v).nodes (fun x hx l => sqArcs_iff (val := val) hb hf ((hmem x).1 hx) (l := l)) es
    constructor
    · rintro ⟨ids, h1, h2⟩
      rw [Yields.unique h1 hids] at h2
      exact this.1 h2
    · exact fun h => ⟨_, hids, this.2 h⟩
  have hl : ∀ e : NodeIx × NodeIx × Int, (e ∈ (k.grid h v).nodes.flatMap fun x =>
      ((outRefs k (k.grid h v) c x).map fun r => (tg k r, val r.weight)).map fun e => (x, e.1, e.2)) ↔
      (k.grid h v).Node e.1 ∧ Arc g val e.1 e.2.1 e.2.2 := by
    rintro ⟨u, t, w⟩
    simp only [List.mem_flatMap, List.mem_map]
    constructor
    · rintro ⟨x, h1, -, ⟨r, h2, rfl⟩, h3⟩
      cases h3
      have hc := (hmem _).1 h1
      exact ⟨hc, r, (edgeTo_iff hb hf hc).2 ⟨h2, rfl⟩, rfl⟩
    · rintro ⟨h1, r, h2, rfl⟩
      obtain ⟨h3, rfl⟩ := (edgeTo_iff hb hf h1).1 h2
      exact ⟨u, (hmem _).2 h1, _, ⟨r, h3, rfl⟩, rfl⟩
  obtain ⟨r, h1, h2, h3⟩ := bellman_spec (R := Arc g val) (indexed hb hf) (fun x hx => nodeIdx_eq hb hf hx) hsw hl
    (fun u t w hu h => h.node hb hf hu) (fun x hx => (hmem x).2 hx) (c45_nodes_exact (k.grid h v)).2.2 ha
  have hn := (c45_index_bijection_partial hb hf).1
  refine ⟨r, ?_, ?_, h3⟩
  · unfold G.BellmanFord
    rw [hn]; exact h1
  · intro r' h5
    unfold G.BellmanFord at h5
    rw [hn] at h5
    exact h2 r' h5

theorem zwalk_node (hb : Built k h v g c) (hf : k.Fits h v) {a b : NodeIx} (ha : (k.grid h v).Node a) {n : Nat} {x : Int}
    (hw : ZWalk (Arc g val) a b n x) : (k.grid h v).Node b := by
  induction hw with
  | nil => exact ha
  | snoc _ he ih => exact he.node hb hf ih

theorem zwalk_exists (hb : Built k h v g c) (hf : k.Fits h v) {a b : NodeIx} (ha : (k.grid h v).Node a) (hb' : (k.grid h v).Node b) :
    ∃ n x, ZWalk (Arc g val) a b n x := by
  obtain ⟨n, hw⟩ := costWalk_exists (cost := fun _ : Ref E => 0) hb hf ha hb'
  clear hb'
  induction hw with
  | nil => exact ⟨_, _, .nil⟩
  | step _ he ih =>
    obtain ⟨j, x, h1⟩ := ih
    exact ⟨_, _, h1.snoc ⟨_, he, rfl⟩⟩

/-- **C108.** `bellman_ford` completes on every `SquareGraph`, looped or not, with one result: a negative cycle exactly if some edge of
`edge_references` has a negative weight, since every edge can be used both ways and every cell is within reach. -/
theorem c108_legacy_bellman_ford (hb : Built k h v g c) (hf : k.Fits h v) (val : E → Int) {a : NodeIx} (ha : (k.grid h v).Node a) :
    ∃ r, g.BellmanFord val a r ∧ (∀ r', g.BellmanFord val a r' → r' = r) ∧
      (r = none ↔ ∃ rs, Yields (edgeRefsNext g) (edgeRefsInit g) rs ∧ ∃ e ∈ rs, val e.weight < 0) := by
  obtain ⟨r, h1, h2, h3⟩ := bellman_right hb hf val ha
  refine ⟨r, h1, h2, h3.neg.trans ?_⟩
  obtain ⟨l, h4, h5⟩ := c48_edge_references hb hf
  have hw : l.map Ref.weight = (allViews (k.grid h v) c).map View.weight :=
    Except.ok.inj ((mapM_ok (f := fun r : Ref E => .ok r.weight) l fun _ _ => rfl).symm.trans
      (mapM_view l _ h5 fun r w _ hr => by rw [(view_parts hr).2.2]))
  constructor
  · rintro ⟨b, n, x, j, y, hw1, hc, hlt⟩
    refine Classical.byContradiction fun hno => ?_
    have hbn := zwalk_node hb hf ha hw1
    have key : ∀ {t j y}, ZWalk (Arc g val) b t j y → 0 ≤ y := by
      intro t j y hw'
      induction hw' with
      | nil => exact Int.le_refl _
      | @snoc u t j x w hp he ih =>
        have hu := zwalk_node hb hf hbn hp
        obtain ⟨d, e, g1, g2, rfl⟩ := (arc_iff hb hf hu).1 he
        have hm : ∃ w ∈ allViews (k.grid h v) c, w.weight = e := by
          cases d with
          | foward ax => exact ⟨⟨u, t, e, ⟨u, ax⟩⟩, mem_allViews.2 ⟨hu, g1, g2, rfl⟩, rfl⟩
          | backward ax =>
            exact ⟨⟨t, u, e, ⟨t, ax⟩⟩, mem_allViews.2 ⟨Grid.step_node hu g1, Grid.step_opp hu g1, g2, rfl⟩, rfl⟩
        obtain ⟨w, hw2, rfl⟩ := hm
        have hmem : w.weight ∈ l.map Ref.weight := by rw [hw]; exact List.mem_map.2 ⟨w, hw2, rfl⟩
        obtain ⟨r', hr', e'⟩ := List.mem_map.1 hmem
        have : ¬ val w.weight < 0 := fun hlt' => hno ⟨l, h4, r', hr', by rw [e']; exact hlt'⟩
        omega
    have := key hc
    omega
  · rintro ⟨rs, g1, e, g2, hlt⟩
    rw [Yields.unique g1 h4] at g2
    have hmem : e.weight ∈ (allViews (k.grid h v) c).map View.weight := by rw [← hw]; exact List.mem_map.2 ⟨e, g2, rfl⟩
    obtain ⟨w, hw2, e'⟩ := List.mem_map.1 hmem
    obtain ⟨g3, g4, g5, -⟩ := mem_allViews.1 hw2
    have htn := Grid.step_node g3 g4
    obtain ⟨n, x, hz⟩ := zwalk_exists (val := val) hb hf ha g3
    refine ⟨_, n, x, _, _, hz, (ZWalk.nil.snoc ((arc_iff hb hf g3).2 ⟨_, _, g4, g5, rfl⟩)).snoc
      ((arc_iff hb hf htn).2 ⟨_, _, Grid.step_opp g3 g4, g5, rfl⟩), ?_⟩
    rw [e']
    omega

/-- **C108.** The distances are the least costs, a number for every cell. -/
theorem c108_legacy_distances (hb : Built k h v g c) (hf : k.Fits h v) {a b : NodeIx} (ha : (k.grid h v).Node a) (hb' : (k.grid h v).Node b)
    {st : Bell NodeIx} (hr : g.BellmanFord val a (some st)) :
    ∃ i x, g.toIndex b = .ok i ∧ st.dist[i]? = some (some x) ∧ ZLeast (Arc g val) a b x := by
  obtain ⟨r, h1, h2, h3⟩ := bellman_right hb hf val ha
  have hr' := (h2 _ hr).symm
  obtain ⟨n, y, hz⟩ := zwalk_exists (val := val) hb hf ha hb'
  cases hx : st.d (nodeIdx g) b with
  | none => exact absurd hz ((h3.inf st hr' b hb').1 hx n y)
  | some x =>
    refine ⟨nodeIdx g b, x, nodeIdx_eq hb hf hb', ?_, (h3.dist st hr' b hb' x).1 hx⟩
    have hlt : nodeIdx g b < st.dist.length := by rw [(h3.len st hr').1]; exact (indexed hb hf).lt hb'
    obtain ⟨o, ho⟩ : ∃ o, st.dist[nodeIdx g b]? = some o := ⟨_, List.getElem?_eq_getElem hlt⟩
    unfold Bell.d at hx
    rw [ho] at hx ⊢
    exact congrArg some hx

/-- The predecessor that is returned for a node. -/
def predOf (g : G N E) (st : Bell NodeIx) (x : NodeIx) : Option NodeIx :=
  match g.toIndex x with
  | .ok i => st.pred[i]?.join
  | .error _ => none

/-- **C108.** Following the predecessors back from any cell ends at the source, and is, read forward, a walk of least cost. -/
theorem c108_legacy_predecessors (hb : Built k h v g c) (hf : k.Fits h v) {a b : NodeIx} (ha : (k.grid h v).Node a)
    (hb' : (k.grid h v).Node b) {st : Bell NodeIx} (hr : g.BellmanFord val a (some st)) :
    ∃ p x, Rebuilt (predOf g st) b p ∧ p.head? = some a ∧ ZPath (Arc g val) a b p.reverse x ∧ ZLeast (Arc g val) a b x := by
  obtain ⟨i, x, -, -, hx⟩ := c108_legacy_distances hb hf ha hb' hr
  obtain ⟨r, h1, h2, h3⟩ := bellman_right hb hf val ha
  have hr' := (h2 _ hr).symm
  obtain ⟨p, h4, h5, h6⟩ := h3.way hr' hb' ((h3.dist st hr' b hb' x).2 hx)
  refine ⟨p, x, ?_, h5, h6, hx⟩
  have key : ∀ {u p}, Rebuilt (st.p (nodeIdx g)) u p → (k.grid h v).Node u → Rebuilt (predOf g st) u p := by
    intro u p hre
    have hp : ∀ u, (k.grid h v).Node u → predOf g st u = st.p (nodeIdx g) u := by
      intro u hu
      unfold predOf Bell.p
      rw [nodeIdx_eq hb hf hu]
    induction hre with
    | root hv => exact fun pv => .root (by rw [hp _ pv]; exact hv)
    | step hv _ ih => exact fun pv => .step (by rw [hp _ pv]; exact hv) (ih ((h3.tree st hr').pred_node pv hv))
  exact key h4 hb'
end

/-- The looped 3 × 2 graph: taking 101 off every weight leaves one negative edge, and nothing is returned; taking off less, all costs are. -/
example : ∃ (g : G Nat Nat) (st : Bell NodeIx), g.BellmanFord (fun e => (e : Int) - 101) ⟨2, 1⟩ none ∧
    g.BellmanFord (fun e => (e : Int) - 100) ⟨2, 1⟩ (some st) ∧
    (∃ i x, g.toIndex ⟨0, 0⟩ = .ok i ∧ st.dist[i]? = some (some x) ∧ ZLeast (Arc g fun e => (e : Int) - 100) ⟨2, 1⟩ ⟨0, 0⟩ x) ∧
    ∃ p, Rebuilt (predOf g st) ⟨0, 0⟩ p ∧ p.head? = some ⟨2, 1⟩ := by
  obtain ⟨g, c, hb, hc⟩ := exGraph exCfg (by decide)
  have hf : exCfg.Fits 3 2 := ⟨by decide, by decide⟩
  have h2 : (exCfg.grid 3 2).Node ⟨2, 1⟩ := by decide
  have h0 : (exCfg.grid 3 2).Node ⟨0, 0⟩ := by decide
  obtain ⟨l, h4, h5⟩ := c48_edge_references hb hf
  have hw : l.map Ref.weight = (allViews (exCfg.grid 3 2) c).map View.weight :=
    Except.ok.inj ((mapM_ok (f := fun r : Ref Nat => .ok r.weight) l fun _ _ => rfl).symm.trans
      (mapM_view l _ h5 fun r w _ hr => by rw [(view_parts hr).2.2]))
  have hall : ∀ e ∈ l, 100 ≤ e.weight := by
    intro e he
    have hm : e.weight ∈ (allViews (exCfg.grid 3 2) c).map View.weight := by rw [← hw]; exact List.mem_map.2 ⟨e, he, rfl⟩
    rw [hc] at hm
    revert hm
    generalize e.weight = x
    revert x
    decide
  have hsome : ∃ e ∈ l, e.weight = 100 := by
    have hm : 100 ∈ (allViews (exCfg.grid 3 2) c).map View.weight := by rw [hc]; decide
    rw [← hw] at hm
    exact List.mem_map.1 hm
  obtain ⟨r1, g1, -, g2⟩ := c108_legacy_bellman_ford hb hf (fun e => (e : Int) - 101) h2
  obtain ⟨e, he, he'⟩ := hsome
  cases g2.2 ⟨l, h4, e, he, by rw [he']; decide⟩
  obtain ⟨r2, g3, -, g4⟩ := c108_legacy_bellman_ford hb hf (fun e => (e : Int) - 100) h2
  cases r2 with
  | none =>
    obtain ⟨rs, h6, e, h7, h8⟩ := g4.1 rfl
    rw [Yields.unique h6 h4] at h7
    have := hall e h7
    omega
  | some st =>
    obtain ⟨p, x, h9, h10, -⟩ := c108_legacy_predecessors hb hf h2 h0 g3
    exact ⟨g, st, g1, g3, c108_legacy_distances hb hf h2 h0 g3, p, h9, h10⟩

end LG.Sq
