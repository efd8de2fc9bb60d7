import Verif.Lemmas.Articulation
import Verif.Props.Cut
import Verif.Props.Prim
import Verif.Props.Floyd
/- C121: `articulation_points`. -/
set_option linter.unusedSectionVars false
namespace LG
section
variable {C A D N E : Type} [DecidableEq C] [DecidableEq A] [DecidableEq D]
variable {g : Graph C A D N E} {s : Shape C A D} {L : Lat C A D} {rep : C → Prop} {k : Contents C A N E}

/-- The numbers of the targets of the edges of the node of number `i`. -/
def apAdj (L : Lat C A D) (k : Contents C A N E) (g : Graph C A D N E) (i : Nat) : List Nat :=
  (outEdges L k (L.at i)).map fun r => nodeIdx g r.target

theorem mem_apAdj (hs : Lawful s L rep) (hb : Built s L g k) {c : C} (hc : L.Node c) (j : Nat) :
    j ∈ apAdj L k g (nodeIdx g c) ↔ ∃ t, Adjacent g c t ∧ nodeIdx g t = j := by
  unfold apAdj
  rw [at_nodeIdx hs hb hc, List.mem_map]
  constructor
  · rintro ⟨r, h1, rfl⟩
    exact ⟨r.target, (adjacent_edge hs hb hc).2 ⟨r, (edgeOf_iff hs hb hc).2 h1, rfl⟩, rfl⟩
  · rintro ⟨t, h1, rfl⟩
    obtain ⟨r, h2, rfl⟩ := (adjacent_edge hs hb hc).1 h1
    exact ⟨r, (edgeOf_iff hs hb hc).1 h2, rfl⟩

theorem ap_graph (hs : Lawful s L rep) (hb : Built s L g k) : ApGraph (latTo g) (apAdj L k g) (L.width * L.height) where
  lists := fun i hi l => by
    have hc : L.Node (L.at i) := Lat.at_node hi
    have hfi : g.fromIndex i = .ok (L.at i) := (hb.good hs).impl.indexToCoordinate hi
    obtain ⟨it, h1, h2⟩ := c58_edges_partial hs.storable hb hc (hs.readable hc)
    have h3 : (outEdges L k (L.at i)).mapM (fun r => g.toIndex r.target) = .ok (apAdj L k g i) :=
      mapM_ok _ fun r hr => (nodeIdx_spec hs hb (hs.laws.nbr_node hc ((mem_outEdges hs.laws.dir).1 hr).2.1)).1
    constructor
    · rintro ⟨c, it', rs, g1, g2, g3, g4⟩
      rw [hfi] at g1; cases g1
      rw [h1] at g2; cases g2
      rw [Yields.unique g3 h2, h3] at g4
      exact (Except.ok.inj g4).symm
    · rintro rfl
      exact ⟨_, it, _, hfi, h1, h2, h3⟩
  lt := fun i hi j hj => by
    obtain ⟨c, hc, rfl⟩ := (nodes_indexed hs hb).onto hi
    obtain ⟨t, h1, rfl⟩ := (mem_apAdj hs hb hc j).1 hj
    exact (nodes_indexed hs hb).lt (adjacent_node hs hb hc h1)
  symm := fun i hi j hj => by
    obtain ⟨c, hc, rfl⟩ := (nodes_indexed hs hb).onto hi
    obtain ⟨t, h1, rfl⟩ := (mem_apAdj hs hb hc j).1 hj
    exact (mem_apAdj hs hb (adjacent_node hs hb hc h1) _).2 ⟨c, adjacent_symm hs hb hc h1, rfl⟩

theorem articulationIn_iff (hs : Lawful s L rep) (hb : Built s L g k) {m : Nat} {r : Res (List C)} :
    g.ArticulationIn m r ↔ ∃ r', ApLoop (latTo g) m (List.range' 0 (L.width * L.height)) apInit r' ∧ r = (do (← r').aps.mapM g.fromIndex) := by
  constructor
  · rintro ⟨nrs, ids, r', h1, h2, h3, h4⟩
    have e := Yields.unique h1 (c06_node_references hs hb)
    subst e
    rw [node_ids hs hb] at h2; cases h2
    exact ⟨r', h3, h4⟩
  · rintro ⟨r', h1, h2⟩
    exact ⟨_, _, r', c06_node_references hs hb, node_ids hs hb, h1, h2⟩

/-- **C121.** On every graph that has a node, `articulation_points` panics: `node_references` says that it may have no items at all, so
the tables are empty. On a graph without nodes it returns nothing. -/
theorem c121_panics (hs : Lawful s L rep) (hb : Built s L g k) (r : Res (List C)) :
    g.Articulation r ↔ ((∃ c, L.Node c) ∧ r = .error .panic) ∨ ((¬ ∃ c, L.Node c) ∧ r = .ok []) := by
  have h0 : g.Articulation r ↔ g.ArticulationIn 0 r := by
    constructor
    · rintro ⟨m, hi, h1, h2⟩
      cases h1
      exact h2
    · exact fun h => ⟨0, none, rfl, h⟩
  rw [h0, articulationIn_iff hs hb]
  by_cases h : L.width * L.height = 0
  · have hno : ¬ ∃ c, L.Node c := fun ⟨c, hc⟩ => by
      have := (nodes_indexed hs hb).lt hc; omega
    rw [h]
    constructor
    · rintro ⟨r', h1, h2⟩
      cases h1
      exact .inr ⟨hno, h2⟩
    · rintro (h1 | h1)
      · exact absurd h1.1 hno
      · exact ⟨_, .nil, h1.2⟩
  · have hyes : ∃ c, L.Node c := ⟨_, Lat.at_node (i := 0) (by omega)⟩
    have hne : List.range' 0 (L.width * L.height) ≠ [] := fun e => h (by
      have := congrArg List.length e
      rwa [List.length_range'] at this)
    constructor
    · rintro ⟨r', h1, h2⟩
      rw [(ap_empty hne r').1 h1] at h2
      exact .inl ⟨hyes, h2⟩
    · rintro (h1 | h1)
      · exact ⟨_, (ap_empty hne _).2 rfl, h1.2⟩
      · exact absurd hyes h1.1

/-- **C121.** With tables of `node_bound` entries it would return, and with exactly the nodes without which two others fall apart: nodes
between which there is a way, but none around the node. -/
theorem c121_points_partial (hs : Lawful s L rep) (hb : Built s L g k) {m : Nat} (hm : g.nodeBound = .ok m) :
    ∃ l, (∀ r, g.ArticulationIn m r ↔ r = .ok l) ∧ ∀ c, c ∈ l ↔ L.Node c ∧
      ∃ a b, L.Node a ∧ L.Node b ∧ a ≠ c ∧ b ≠ c ∧ Ways (Adjacent g) a b ∧ ¬ Ways (Around (Adjacent g) c) a b := by
  have hi := nodes_indexed hs hb
  have hg := ap_graph hs hb
  have em : m = L.width * L.height := by
    rw [nodeBound_eq hs hb] at hm
    exact (Except.ok.inj hm).symm
  subst em
  obtain ⟨st, h1, h2⟩ := ap_result hg
  have h3 : st.aps.mapM g.fromIndex = .ok (st.aps.map L.at) := mapM_ok _ fun i hi => (hb.good hs).impl.indexToCoordinate ((h2 i).1 hi).1
  refine ⟨st.aps.map L.at, fun r => ?_, fun c => ?_⟩
  · rw [articulationIn_iff hs hb]
    constructor
    · rintro ⟨r', g1, rfl⟩
      rw [(h1 r').1 g1]
      exact h3
    · rintro rfl
      exact ⟨_, (h1 _).2 rfl, h3.symm⟩
  · rw [List.mem_map]
    constructor
    · rintro ⟨i, g1, rfl⟩
      obtain ⟨g2, g3⟩ := (h2 i).1 g1
      have hc : L.Node (L.at i) := Lat.at_node g2
      rw [← nodeIdx_at hs hb g2] at g3
      exact ⟨hc, (cutAt_iff hg hi (fun u t hu h => adjacent_node hs hb hu h) (fun u hu => mem_apAdj hs hb hu) hc).1 g3⟩
    · rintro ⟨hc, g1⟩
      exact ⟨nodeIdx g c, (h2 _).2 ⟨hi.lt hc, (cutAt_iff hg hi (fun u t hu h => adjacent_node hs hb hu h) (fun u hu => mem_apAdj hs hb hu) hc).2 g1⟩,
        at_nodeIdx hs hb hc⟩

theorem ways_exists (hs : Sound s L rep) (hb : Built s L g k) {a b : C} (ha : L.Node a) (hn : L.Node b) : Ways (Adjacent g) a b := by
  obtain ⟨n, hw⟩ := costWalk_exists (cost := fun _ => 0) hs hb ha hn
  clear hn
  induction hw with
  | nil => exact .nil
  | step h1 h2 ih => exact ih.step ((adjacent_edge hs.lawful hb (h1.node hs.lawful hb ha)).2 ⟨_, h2, rfl⟩)

/-- **C121.** On the lattices of the crate these are the nodes that cut, which `c114_square` and its kin say in closed form. -/
theorem c121_cuts_partial (hs : Sound s L rep) (hb : Built s L g k) {m : Nat} (hm : g.nodeBound = .ok m) {l : List C}
    (h : g.ArticulationIn m (.ok l)) (c : C) : c ∈ l ↔ L.Node c ∧ Cuts g L.Node c := by
  obtain ⟨l', h1, h2⟩ := c121_points_partial hs.lawful hb hm
  have e := Except.ok.inj ((h1 _).1 h)
  subst e
  rw [h2 c]
  refine and_congr_right fun _ => ⟨?_, ?_⟩
  · rintro ⟨a, b, h1, h2, h3, h4, -, h5⟩
    exact ⟨a, b, h1, h2, h3, h4, h5⟩
  · rintro ⟨a, b, h1, h2, h3, h4, h5⟩
    exact ⟨a, b, h1, h2, h3, h4, ways_exists hs hb h1 h2, h5⟩
end

/-! ### Cases -/

/-- A single column of three nodes: it panics; with tables of three entries it would return the one in the middle. -/
example : ∃ g : Graph Offset SquareAxis DSquareAxis Unit Unit, g.Articulation (.error .panic) ∧ (∀ l, ¬ g.Articulation (.ok l)) ∧
    ∃ l, g.ArticulationIn 3 (.ok l) ∧ ⟨0, 1⟩ ∈ l ∧ ⟨0, 0⟩ ∉ l := by
  have hs := Sound.square m64 1 3
  obtain ⟨g, hb⟩ := hs.lawful.exists_built (by decide) (fun u _ => ((), u)) (fun u _ _ => ((), u)) ()
  have hP : (squareLat 1 3).Node = fun c => c.horizontal < 1 ∧ c.vertical < 3 := funext fun c => propext (rect_nodes_iff rfl rfl rfl c)
  have hyes : ∃ c, (squareLat 1 3).Node c := ⟨_, Lat.at_node (L := squareLat 1 3) (i := 0) (by decide)⟩
  have hm : g.nodeBound = .ok 3 := nodeBound_eq hs.lawful hb
  obtain ⟨l, h1, -⟩ := c121_points_partial hs.lawful hb hm
  have hl := (h1 _).2 rfl
  obtain ⟨h2, -⟩ := c114_square hs.lawful hb
  refine ⟨g, (c121_panics hs.lawful hb _).2 (.inl ⟨hyes, rfl⟩), fun l h => ?_, l, hl, ?_, fun h => ?_⟩
  · rcases (c121_panics hs.lawful hb _).1 h with h | h
    · cases h.2
    · exact h.1 hyes
  · refine (c121_cuts_partial hs hb hm hl _).2 ?_
    rw [hP]
    exact ⟨by decide, (h2 0 1 (by decide) (by decide)).2 (by decide)⟩
  · have := ((c121_cuts_partial hs hb hm hl _).1 h).2
    rw [hP] at this
    exact absurd ((h2 0 0 (by decide) (by decide)).1 this) (by decide)
/-- A graph without nodes. -/
example : ∃ g : Graph Offset SquareAxis DSquareAxis Unit Unit, g.Articulation (.ok []) := by
  have hs := Sound.square m64 0 0
  obtain ⟨g, hb⟩ := hs.lawful.exists_built (by decide) (fun u _ => ((), u)) (fun u _ _ => ((), u)) ()
  refine ⟨g, (c121_panics hs.lawful hb _).2 (.inr ⟨fun ⟨c, hc⟩ => ?_, rfl⟩)⟩
  have := (nodes_indexed hs.lawful hb).lt hc
  exact absurd this (Nat.not_lt_zero _)
end LG
