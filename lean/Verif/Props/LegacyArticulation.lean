import Verif.Lemmas.Articulation
import Verif.Props.LegacyCut
import Verif.Props.LegacyPrim
/- C121 for the deprecated `SquareGraph`. -/
namespace LG.Sq
section
variable {N E : Type}
variable {g : G N E} {k : Cfg} {h v : Nat} {c : Contents NodeIx Axis N E}

/-- The numbers of the neighbors of the node of number `i`. -/
def apAdj (g : G N E) (s : Grid) (i : Nat) : List Nat := (s.nbrs (s.nodes[i]?.getD ⟨0, 0⟩)).map (nodeIdx g)

theorem apAdj_eq (hb : Built k h v g c) (hf : k.Fits h v) {n : NodeIx} (hn : (k.grid h v).Node n) :
    apAdj g (k.grid h v) (nodeIdx g n) = ((k.grid h v).nbrs n).map (nodeIdx g) := by
  obtain ⟨n', h1, -, h2⟩ := (c45_index_bijection_partial hb hf).2.1 _ ((indexed hb hf).lt hn)
  have hn' := ((c45_nodes_exact (k.grid h v)).2.1 n').1 (List.mem_of_getElem? h1)
  rw [nodeIdx_eq hb hf hn'] at h2
  have := (indexed hb hf).inj hn' hn (Except.ok.inj h2)
  subst this
  unfold apAdj
  rw [h1]
  rfl

theorem mem_apAdj (hb : Built k h v g c) (hf : k.Fits h v) {n : NodeIx} (hn : (k.grid h v).Node n) (j : Nat) :
    j ∈ apAdj g (k.grid h v) (nodeIdx g n) ↔ ∃ t, Walk g n 1 t ∧ nodeIdx g t = j := by
  rw [apAdj_eq hb hf hn, List.mem_map]
  exact exists_congr fun t => and_congr_left fun _ => (walk_one hb hf hn).symm

theorem walk_one_node (hb : Built k h v g c) (hf : k.Fits h v) {n t : NodeIx} (hn : (k.grid h v).Node n) (h1 : Walk g n 1 t) :
    (k.grid h v).Node t := nbrs_node hn ((walk_one hb hf hn).1 h1)

theorem walk_one_symm (hb : Built k h v g c) (hf : k.Fits h v) {n t : NodeIx} (hn : (k.grid h v).Node n) (h1 : Walk g n 1 t) : Walk g t 1 n := by
  obtain ⟨d, hd⟩ := mem_nbrs_step.1 ((walk_one hb hf hn).1 h1)
  exact (walk_one hb hf (walk_one_node hb hf hn h1)).2 (mem_nbrs_step.2 ⟨_, Grid.step_opp hn hd⟩)

theorem sq_fromIndex (hb : Built k h v g c) (hf : k.Fits h v) {n : NodeIx} (hn : (k.grid h v).Node n) : g.fromIndex (nodeIdx g n) = .ok n := by
  obtain ⟨i', -, h1, h2⟩ := (c45_index_bijection_partial hb hf).2.2 n hn
  rw [nodeIdx_eq hb hf hn] at h1
  rw [Except.ok.inj h1]
  exact h2

theorem ap_graph (hb : Built k h v g c) (hf : k.Fits h v) : ApGraph (sqTo g) (apAdj g (k.grid h v)) (h * v) where
  lists := fun i hi l => by
    obtain ⟨n, hn, rfl⟩ := (indexed hb hf).onto hi
    have h2 := sq_fromIndex hb hf hn
    obtain ⟨rs, h3, h4⟩ := c47_edges hb hf hn
    have h5 : rs.mapM (fun r => do g.toIndex (← r.target g.k)) = .ok (apAdj g (k.grid h v) (nodeIdx g n)) := by
      rw [apAdj_eq hb hf hn, ← (c47_meaning hb hn).1, List.map_map]
      refine mapM_view rs _ h4 fun r w hw hr => ?_
      obtain ⟨h6, h7, h8⟩ := view_parts hr
      rw [hb.stores.cfg, h7]
      simp only [bind, Except.bind]
      exact nodeIdx_eq hb hf (outViews_ends hn hw).2
    constructor
    · rintro ⟨n', rs', g1, g2, g3⟩
      rw [h2] at g1; cases g1
      rw [Yields.unique g2 h3, h5] at g3
      exact (Except.ok.inj g3).symm
    · rintro rfl
      exact ⟨n, rs, h2, h3, h5⟩
  lt := fun i hi j hj => by
    obtain ⟨n, hn, rfl⟩ := (indexed hb hf).onto hi
    obtain ⟨t, h1, rfl⟩ := (mem_apAdj hb hf hn j).1 hj
    exact (indexed hb hf).lt (walk_one_node hb hf hn h1)
  symm := fun i hi j hj => by
    obtain ⟨n, hn, rfl⟩ := (indexed hb hf).onto hi
    obtain ⟨t, h1, rfl⟩ := (mem_apAdj hb hf hn j).1 hj
    exact (mem_apAdj hb hf (walk_one_node hb hf hn h1) _).2 ⟨n, walk_one_symm hb hf hn h1, rfl⟩

theorem ways_exists (hb : Built k h v g c) (hf : k.Fits h v) {a b : NodeIx} (ha : (k.grid h v).Node a) (hn : (k.grid h v).Node b) :
    Ways (Walk g · 1 ·) a b := by
  obtain ⟨j, hp⟩ := path_exists ha hn
  clear hn
  induction hp with
  | nil => exact .nil
  | @step j x t d hp hd ih => exact ih.step ((walk_one hb hf (path_node ha hp)).2 (mem_nbrs_step.2 ⟨d, hd⟩))

theorem articulation_iff (hb : Built k h v g c) (hf : k.Fits h v) {r : Res (List NodeIx)} :
    g.Articulation r ↔ ∃ r', ApLoop (sqTo g) (h * v) (List.range' 0 (h * v)) apInit r' ∧ r = (do (← r').aps.mapM g.fromIndex) := by
  obtain ⟨y4, y5⟩ := c45_node_references hb hf
  have hm : (nodeRefsSizeHint g (nodeRefsInit g)).1 = h * v := by
    obtain ⟨⟨l, h1, h2⟩, -⟩ := c56_node_references hb hf (.refl _)
    rw [h2, Yields.unique h1 y4]
    show (allNodeRefs (k.grid h v) c).length = h * v
    rw [← List.length_map (f := Prod.fst), y5]
    exact (c45_nodes_exact (k.grid h v)).2.2
  unfold G.Articulation
  rw [hm]
  constructor
  · rintro ⟨nrs, ids, r', h1, h2, h3, h4⟩
    have e := Yields.unique h1 y4
    subst e
    rw [mst_nodes hb hf] at h2; cases h2
    exact ⟨r', h3, h4⟩
  · rintro ⟨r', h1, h2⟩
    exact ⟨_, _, r', y4, mst_nodes hb hf, h1, h2⟩

/-- **C121.** On every `SquareGraph` `articulation_points` returns, and with exactly the nodes that cut: those of a single row or column
other than its two ends, unless it is closed to a circle. -/
theorem c121_legacy (hb : Built k h v g c) (hf : k.Fits h v) :
    ∃ l, (∀ r, g.Articulation r ↔ r = .ok l) ∧ (∀ o, o ∈ l ↔ (k.grid h v).Node o ∧ Cuts g (k.grid h v).Node o) ∧
      ∀ o, o ∈ l ↔ (k.grid h v).Node o ∧ ((h = 1 ∧ k.loopV = false ∧ 0 < o.vertical ∧ o.vertical + 1 < v) ∨
        (v = 1 ∧ k.loopH = false ∧ 0 < o.horizontal ∧ o.horizontal + 1 < h)) := by
  have hi := indexed hb hf
  have hg := ap_graph hb hf
  obtain ⟨st, h1, h2⟩ := ap_result hg
  have hfrom : ∀ i ∈ st.aps, g.fromIndex i = .ok ((k.grid h v).nodes[i]?.getD ⟨0, 0⟩) := fun i hi' => by
    obtain ⟨n', h3, h4, -⟩ := (c45_index_bijection_partial hb hf).2.1 i ((h2 i).1 hi').1
    rw [h3]
    exact h4
  have h3 := mapM_ok (f := g.fromIndex) st.aps hfrom
  have hmem : ∀ o, o ∈ st.aps.map (fun i => (k.grid h v).nodes[i]?.getD ⟨0, 0⟩) ↔ (k.grid h v).Node o ∧ Cuts g (k.grid h v).Node o := fun o => by
    have hcut : ∀ {n}, (k.grid h v).Node n → (CutAt (apAdj g (k.grid h v)) (h * v) (nodeIdx g n) ↔ Cuts g (k.grid h v).Node n) := fun {n} hn => by
      rw [cutAt_iff hg hi (R := (Walk g · 1 ·)) (fun u t hu h => walk_one_node hb hf hu h) (fun u hu => mem_apAdj hb hf hu) hn]
      constructor
      · rintro ⟨a, b, h1, h2, h3, h4, -, h5⟩
        exact ⟨a, b, h1, h2, h3, h4, h5⟩
      · rintro ⟨a, b, h1, h2, h3, h4, h5⟩
        exact ⟨a, b, h1, h2, h3, h4, ways_exists hb hf h1 h2, h5⟩
    rw [List.mem_map]
    constructor
    · rintro ⟨i, g1, rfl⟩
      obtain ⟨g2, g3⟩ := (h2 i).1 g1
      obtain ⟨n, hn, rfl⟩ := hi.onto g2
      have := hfrom _ g1
      rw [sq_fromIndex hb hf hn] at this
      rw [← Except.ok.inj this]
      exact ⟨hn, (hcut hn).1 g3⟩
    · rintro ⟨ho, g1⟩
      have g2 := (h2 _).2 ⟨hi.lt ho, (hcut ho).2 g1⟩
      have := hfrom _ g2
      rw [sq_fromIndex hb hf ho] at this
      exact ⟨_, g2, (Except.ok.inj this).symm⟩
  refine ⟨_, fun r => ?_, hmem, fun o => (hmem o).trans (and_congr_right fun ho => c114_legacy_node hb hf ho)⟩
  rw [articulation_iff hb hf]
  constructor
  · rintro ⟨r', g1, rfl⟩
    rw [(h1 r').1 g1]
    exact h3
  · rintro rfl
    exact ⟨_, (h1 _).2 rfl, h3.symm⟩
end

/-! ### Cases -/

/-- The 3 × 2 grid has no node that cuts; nothing is returned. -/
example : ∃ g : G Nat Nat, g.Articulation (.ok []) := by
  obtain ⟨g, c, hb, _⟩ := exGraph exCfg (by decide)
  have hf : exCfg.Fits 3 2 := ⟨by decide, by decide⟩
  obtain ⟨l, h1, -, h2⟩ := c121_legacy hb hf
  have : l = [] := List.eq_nil_iff_forall_not_mem.2 fun o ho => by
    rcases ((h2 o).1 ho).2 with h | h
    · exact absurd h.1 (by decide)
    · exact absurd h.1 (by decide)
  exact ⟨g, (h1 _).2 (by rw [this])⟩
/-- A single row of three nodes, its columns closed to circles: the one in the middle. -/
example : ∃ (g : G Nat Nat) (l : List NodeIx), g.Articulation (.ok l) ∧ ⟨1, 0⟩ ∈ l ∧ ⟨0, 0⟩ ∉ l := by
  obtain ⟨g, h1, _⟩ := newWith_ok (N := Nat) (E := Nat) { exCfg with loopH := false, loopV := true } (h := 3) (v := 1) (by decide) (by decide)
    (by decide) (fun u i j => (10 * i + j, u)) (fun u i j a => ((if a = .horizontal then 100 else 200) + 10 * i + j, u)) ()
  have hf : ({ exCfg with loopH := false, loopV := true } : Cfg).Fits 3 1 := ⟨by decide, by decide⟩
  have hb := Built.new h1 (by decide)
  obtain ⟨l, h2, -, h3⟩ := c121_legacy hb hf
  exact ⟨g, l, (h2 _).2 rfl, (h3 ⟨1, 0⟩).2 ⟨⟨by decide, by decide⟩, .inr (by decide)⟩, fun h => absurd ((h3 _).1 h).2 (by decide)⟩
end LG.Sq
