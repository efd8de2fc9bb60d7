import Verif.Props.Astar
import Verif.Props.LegacySearch
/- C83: A* on the deprecated `SquareGraph`, with `NodeIndex::distance` as the estimate. -/
set_option linter.unusedSectionVars false
namespace LG.Sq
section
variable {N E : Type}
variable {g : G N E} {k : Cfg} {s : Grid} {h v : Nat} {c : Contents NodeIx Axis N E} {cost : Ref E → Nat}

/-- `edges(u)` yields a reference to `t` of cost `w`. -/
def Link (g : G N E) (cost : Ref E → Nat) (u t : NodeIx) (w : Nat) : Prop := ∃ r, EdgeTo g u r t ∧ cost r = w

theorem mapM_target : ∀ (l : List (Ref E)), (∀ r ∈ l, r.target k = .ok (tg k r)) →
    l.mapM (fun r => do return (← r.target k, cost r)) = (.ok (l.map fun r => (tg k r, cost r)) : Res _)
  | [], _ => rfl
  | r :: l, hl => by
    rw [List.mapM_cons, mapM_target l fun r hr => hl r (List.mem_cons_of_mem _ hr), hl r List.mem_cons_self]
    rfl

theorem sqEdges_iff (hb : Built k h v g c) (hf : k.Fits h v) {x : NodeIx} (hx : (k.grid h v).Node x) {l : List (NodeIx × Nat)} :
    sqEdges g cost x l ↔ l = (outRefs k (k.grid h v) c x).map fun r => (tg k r, cost r) := by
  have hy := outRefs_yields hb hf hx
  have hm := mapM_target (k := k) (cost := cost) _ fun r hr => (outRefs_target hb hf hx hr).1
  unfold sqEdges
  rw [hb.stores.cfg]
  constructor
  · rintro ⟨rs, h1, h2⟩
    rw [Yields.unique h1 hy, hm] at h2
    cases h2; rfl
  · rintro rfl
    exact ⟨_, hy, hm⟩

theorem leads_iff (hb : Built k h v g c) (hf : k.Fits h v) {u t : NodeIx} (hu : (k.grid h v).Node u) {w : Nat} :
    Leads (sqEdges g cost) u t w ↔ Link g cost u t w := by
  constructor
  · rintro ⟨l, h1, h2⟩
    rw [(sqEdges_iff hb hf hu).1 h1] at h2
    obtain ⟨r, h3, h4⟩ := List.mem_map.1 h2
    cases h4
    exact ⟨r, (edgeTo_iff hb hf hu).2 ⟨h3, rfl⟩, rfl⟩
  · rintro ⟨r, h1, rfl⟩
    obtain ⟨h2, rfl⟩ := (edgeTo_iff hb hf hu).1 h1
    exact ⟨_, (sqEdges_iff hb hf hu).2 rfl, List.mem_map.2 ⟨r, h2, rfl⟩⟩

theorem Link.node (hb : Built k h v g c) (hf : k.Fits h v) {u t : NodeIx} (hu : (k.grid h v).Node u) {w : Nat}
    (hl : Link g cost u t w) : (k.grid h v).Node t := by
  obtain ⟨r, h1, -⟩ := hl
  obtain ⟨h2, rfl⟩ := (edgeTo_iff hb hf hu).1 h1
  exact tg_node hb hf hu h2

theorem sqGraph (hb : Built k h v g c) (hf : k.Fits h v) (cost : Ref E → Nat) :
    AstGraph (sqEdges g cost) (k.grid h v).Node (k.grid h v).nodes where
  total := fun _ hc => ⟨_, (sqEdges_iff hb hf hc).2 rfl⟩
  one := fun _ _ _ hc h1 h2 => by rw [(sqEdges_iff hb hf hc).1 h1, (sqEdges_iff hb hf hc).1 h2]
  node := fun _ _ _ hc hl => ((leads_iff hb hf hc).1 hl).node hb hf hc
  mem := fun x hc => ((c45_nodes_exact (k.grid h v)).2.1 x).2 hc

theorem aWalk_iff (hb : Built k h v g c) (hf : k.Fits h v) {a t : NodeIx} (ha : (k.grid h v).Node a) {n : Nat} :
    AWalk (sqEdges g cost) a t n ↔ CostWalk g cost a t n := by
  constructor
  · intro hw
    have key : ∀ {b : NodeIx} {m : Nat}, CostWalk g cost b a m → CostWalk g cost b t (m + n) := by
      induction hw with
      | nil => exact fun h => h
      | @cons u x t w n he _ ih =>
        intro b m h1
        obtain ⟨r, h2, rfl⟩ := (leads_iff hb hf ha).1 he
        rw [← Nat.add_assoc]
        exact ih (Link.node (cost := cost) hb hf ha ⟨r, h2, rfl⟩) (.step h1 h2)
    have := key .nil
    rwa [Nat.zero_add] at this
  · intro hw
    induction hw with
    | nil => exact .nil
    | step h1 he ih => exact ih.snoc ((leads_iff hb hf (h1.node hb hf ha)).2 ⟨_, he, rfl⟩)

theorem pathOf_link (hb : Built k h v g c) (hf : k.Fits h v) {p : List NodeIx} {n : Nat}
    (hp : PathOf (Leads (sqEdges g cost)) p n) : ∀ {a}, p.head? = some a → (k.grid h v).Node a → PathOf (Link g cost) p n := by
  induction hp with
  | one => exact fun _ _ => .one
  | cons he _ ih =>
    intro a h1 ha
    cases h1
    have hl := (leads_iff hb hf ha).1 he
    exact .cons hl (ih rfl (hl.node hb hf ha))

/-- **C83.** On every `SquareGraph`, looped or not, no run of `astar` is infinite, each can be completed without a fault, `None` is
returned exactly if no node is a goal, and otherwise the cost of a walk to a goal together with a path to it that costs no more. -/
theorem c83_astar (hb : Built k h v g c) (hf : k.Fits h v) {a : NodeIx} (ha : (k.grid h v).Node a) (cost : Ref E → Nat)
    (est : NodeIx → Nat) (goal : NodeIx → Bool) :
    (∀ run : Nat → Ast NodeIx, run 0 = astNew est a → ¬ ∀ i, AstStep (sqEdges g cost) est goal (run i) (run (i + 1))) ∧
    (∀ st, AstSteps (sqEdges g cost) est goal (astNew est a) st →
      ∃ st' o, AstSteps (sqEdges g cost) est goal st st' ∧ AstReturns goal st' o) ∧
    ∀ o, AstOutcome (sqEdges g cost) est goal a o →
      (o = none ↔ ∀ x, (k.grid h v).Node x → goal x = false) ∧
      ∀ n p, o = some (n, p) → ∃ t m, goal t = true ∧ CostWalk g cost a t n ∧ p.head? = some a ∧ p.getLast? = some t ∧
        PathOf (Link g cost) p m ∧ m ≤ n := by
  refine ⟨fun run h0 => ast_ends (sqGraph hb hf cost) ha run h0, fun _ h1 => ast_completes (sqGraph hb hf cost) ha h1,
    fun o ho => ?_⟩
  obtain ⟨h1, h2⟩ := ast_result (sqGraph hb hf cost) ha ho
  have h2' : ∀ n p, o = some (n, p) → ∃ t m, goal t = true ∧ CostWalk g cost a t n ∧ p.head? = some a ∧ p.getLast? = some t ∧
      PathOf (Link g cost) p m ∧ m ≤ n := fun n p e => by
    obtain ⟨t, m, h3, h4, h5, h6, h7, h8⟩ := h2 n p e
    exact ⟨t, m, h3, (aWalk_iff hb hf ha).1 h4, h5, h6, pathOf_link hb hf h7 h5 ha, h8⟩
  refine ⟨⟨fun e x hx => ?_, fun hall => ?_⟩, h2'⟩
  · cases hg : goal x with
    | false => rfl
    | true =>
      obtain ⟨n, hw⟩ := costWalk_exists (cost := cost) hb hf ha hx
      exact absurd ((aWalk_iff hb hf ha).2 hw) (h1 e x n hg)
  · match o, h2' with
    | none, _ => rfl
    | some (n, p), h2' =>
      obtain ⟨t, m, h3, h4, -⟩ := h2' n p rfl
      rw [hall t (h4.node hb hf ha)] at h3
      cases h3

/-- **C83.** If the estimate never exceeds the cost of a walk to a goal, the cost returned is the least, and it is the cost of the
returned path. -/
theorem c83_least (hb : Built k h v g c) (hf : k.Fits h v) {a : NodeIx} (ha : (k.grid h v).Node a) (cost : Ref E → Nat)
    (est : NodeIx → Nat) (goal : NodeIx → Bool)
    (hadm : ∀ x t n, (k.grid h v).Node x → goal t = true → CostWalk g cost x t n → est x ≤ n) {n : Nat} {p : List NodeIx}
    (ho : AstOutcome (sqEdges g cost) est goal a (some (n, p))) :
    PathOf (Link g cost) p n ∧ ∀ t m, goal t = true → CostWalk g cost a t m → n ≤ m := by
  obtain ⟨h1, h2⟩ := ast_least (sqGraph hb hf cost) ha
    (fun x t n hx hg hw => hadm x t n hx hg ((aWalk_iff hb hf hx).1 hw)) ho
  obtain ⟨t, m, h3, h4, h5, -⟩ := ((c83_astar hb hf ha cost est goal).2.2 _ ho).2 n p rfl
  exact ⟨pathOf_link hb hf h1 h5 ha, fun t m hg hw => h2 t m hg ((aWalk_iff hb hf ha).2 hw)⟩

/-! ### Steps -/

theorem astRelax_scores {V : Type} [DecidableEq V] {est : V → Nat} {x : V} {n : Nat} : ∀ (l : List (V × Nat)) (st : Ast V) {y : V} {i : Nat},
    (astRelax est x n l st).scores y = some i → st.scores y = some i ∨ ∃ w, (y, w) ∈ l ∧ i = n + w := by
  intro l
  induction l with
  | nil => exact fun st y i hi => .inl hi
  | cons e l ih =>
    obtain ⟨t, w⟩ := e
    intro st y i hi
    have change : (astRelax est x n l (st.improve est x t (n + w))).scores y = some i →
        st.scores y = some i ∨ ∃ w', (y, w') ∈ (t, w) :: l ∧ i = n + w' := fun hi => by
      rcases ih _ hi with h1 | ⟨w', h1, h2⟩
      · change (if y = t then some (n + w) else st.scores y) = some i at h1
        split at h1
        · rename_i e
          cases h1
          exact .inr ⟨w, e ▸ List.mem_cons_self, rfl⟩
        · exact .inl h1
      · exact .inr ⟨w', List.mem_cons_of_mem _ h1, h2⟩
    unfold astRelax at hi
    cases ho : st.scores t with
    | none => rw [ho] at hi; exact change hi
    | some old =>
      rw [ho] at hi
      simp only at hi
      split at hi
      · rcases ih _ hi with h1 | ⟨w', h1, h2⟩
        · exact .inl h1
        · exact .inr ⟨w', List.mem_cons_of_mem _ h1, h2⟩
      · exact change hi

theorem link_step (hb : Built k h v g c) (hf : k.Fits h v) {x t : NodeIx} (hx : (k.grid h v).Node x) :
    (∃ w, Link g cost x t w) ↔ ∃ d, (k.grid h v).step x d = some t := by
  constructor
  · rintro ⟨w, r, h1, -⟩
    obtain ⟨h2, rfl⟩ := (edgeTo_iff hb hf hx).1 h1
    exact (outRefs_target hb hf hx h2).2
  · rintro ⟨d, hd⟩
    obtain ⟨w, -, h2⟩ := refOf_some hb.stores hx hd
    have hm : (⟨Grid.key x t d, w, d.isFwd, k.sizeInfo (k.grid h v).h (k.grid h v).v⟩ : Ref E) ∈ outRefs k (k.grid h v) c x :=
      List.mem_filterMap.2 ⟨d, dirs_all d, h2⟩
    refine ⟨_, _, (edgeTo_iff hb hf hx).2 ⟨hm, ?_⟩, rfl⟩
    have h3 := (outRefs_target hb hf hx hm).1
    have := view_eq (hb.sizes hf) hx hd w
    unfold Ref.view at this
    rw [h3] at this
    simp only [bind, Except.bind] at this
    split at this
    · cases this
    · injection this with this
      exact congrArg View.target this

theorem unit_link (hb : Built k h v g c) (hf : k.Fits h v) {x t : NodeIx} (hx : (k.grid h v).Node x) {d : Dir}
    (hd : (k.grid h v).step x d = some t) : Link g (fun _ => 1) x t 1 := by
  obtain ⟨w, r, h1, h2⟩ := (link_step (cost := fun _ => 1) hb hf hx).2 ⟨d, hd⟩
  exact ⟨r, h1, rfl⟩
end

/-- Example: the looped 3 × 2 graph, any costs, no estimate: a run returns, and what it returns is the least cost. -/
example (cost : Ref Nat → Nat) : ∃ (g : G Nat Nat) (n : Nat) (p : List NodeIx),
    AstOutcome (sqEdges g cost) (fun _ => 0) (fun x => decide (x = ⟨2, 1⟩)) ⟨0, 0⟩ (some (n, p)) ∧ PathOf (Link g cost) p n ∧
    ∀ m, CostWalk g cost ⟨0, 0⟩ ⟨2, 1⟩ m → n ≤ m := by
  obtain ⟨g, c, hb, _⟩ := exGraph exCfg (by decide)
  have hf : exCfg.Fits 3 2 := ⟨by decide, by decide⟩
  have ha : (exCfg.grid 3 2).Node ⟨0, 0⟩ := ⟨by decide, by decide⟩
  have ht : (exCfg.grid 3 2).Node ⟨2, 1⟩ := ⟨by decide, by decide⟩
  obtain ⟨-, h1, h2⟩ := c83_astar hb hf ha cost (fun _ => 0) (fun x => decide (x = ⟨2, 1⟩))
  obtain ⟨st, o, h3, h4⟩ := h1 _ .nil
  match o, h4 with
  | none, h4 => exact absurd ((h2 _ ⟨st, h3, h4⟩).1.1 rfl _ ht) (by simp)
  | some (n, p), h4 =>
    obtain ⟨h5, h6⟩ := c83_least hb hf ha cost (fun _ => 0) (fun x => decide (x = ⟨2, 1⟩)) (fun _ _ _ _ _ _ => Nat.zero_le _)
      ⟨st, h3, h4⟩
    exact ⟨g, n, p, ⟨st, h3, h4⟩, h5, fun m => h6 _ m (by simp)⟩
end LG.Sq
