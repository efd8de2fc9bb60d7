import Verif.Lemmas.Whole
import Verif.Props.Astar
/- C84: all shortest paths at once, from `edge_references`, the compact node indices and `is_directed`. -/
set_option linter.unusedSectionVars false
namespace LG

theorem mapM_ok {α β : Type} {f : α → Res β} {F : α → β} : ∀ (l : List α), (∀ r ∈ l, f r = .ok (F r)) → l.mapM f = .ok (l.map F)
  | [], _ => rfl
  | a :: l, h => by
    rw [List.mapM_cons, h a List.mem_cons_self, mapM_ok l fun r hr => h r (List.mem_cons_of_mem _ hr)]
    rfl

section
variable {C A D N E : Type} [DecidableEq C] [DecidableEq A] [DecidableEq D]
variable {g : Graph C A D N E} {s : Shape C A D} {L : Lat C A D} {rep : C → Prop} {k : Contents C A N E}

/-- The index of a node. -/
def nodeIdx (g : Graph C A D N E) (c : C) : Nat :=
  match g.toIndex c with
  | .ok i => i
  | .error _ => 0

theorem nodeIdx_spec (hs : Lawful s L rep) (hb : Built s L g k) {c : C} (hc : L.Node c) :
    g.toIndex c = .ok (nodeIdx g c) ∧ nodeIdx g c < L.width * L.height := by
  obtain ⟨i, h1, h2, -⟩ := c04_to_index hs hb hc
  unfold nodeIdx
  rw [h1]
  exact ⟨rfl, h2⟩

theorem nodeIdx_inj (hs : Lawful s L rep) (hb : Built s L g k) {c c' : C} (hc : L.Node c) (hc' : L.Node c')
    (h : nodeIdx g c = nodeIdx g c') : c = c' :=
  c04_to_index_inj hs hb hc hc' (by rw [(nodeIdx_spec hs hb hc).1, (nodeIdx_spec hs hb hc').1, h])

theorem nodeBound_eq (hs : Lawful s L rep) (hb : Built s L g k) : g.nodeBound = .ok (L.width * L.height) := by
  rw [c04_node_count hs hb, (hb.good hs).impl.width.symm, (hb.good hs).impl.height.symm, (hb.good hs).shape]

/-- The edges by index, as the crate enumerates them. -/
def idxEdges (L : Lat C A D) (k : Contents C A N E) (g : Graph C A D N E) (cost : E → Nat) : List (Nat × Nat × Nat) :=
  (allEdges L k).map fun r => (nodeIdx g r.source, nodeIdx g r.target, cost r.weight)

theorem allEdges_nodes (hs : Lawful s L rep) {r : EdgeRef C D E} (hr : r ∈ allEdges L k) :
    L.Node r.source ∧ L.Node r.target := by
  obtain ⟨h1, -, h2, -⟩ := (mem_allEdges hs.laws.dir).1 hr
  exact ⟨h1, hs.laws.nbr_node h1 h2⟩

theorem edgeIndices_iff (hs : Lawful s L rep) (hb : Built s L g k) (cost : E → Nat) {es : List (Nat × Nat × Nat)} :
    edgeIndices g cost es ↔ es = idxEdges L k g cost := by
  have hm : (allEdges L k).mapM (fun r => do return (← g.toIndex r.source, ← g.toIndex r.target, cost r.weight)) =
      .ok (idxEdges L k g cost) := by
    refine mapM_ok _ fun r hr => ?_
    obtain ⟨h1, h2⟩ := allEdges_nodes hs hr
    rw [(nodeIdx_spec hs hb h1).1, (nodeIdx_spec hs hb h2).1]
    rfl
  constructor
  · rintro ⟨rs, h1, h2⟩
    rw [Yields.unique h1 (c13_edge_references hs hb), hm] at h2
    cases h2; rfl
  · rintro rfl
    exact ⟨_, c13_edge_references hs hb, hm⟩

theorem idxEdges_lt (hs : Lawful s L rep) (hb : Built s L g k) (cost : E → Nat) :
    ∀ e ∈ idxEdges L k g cost, e.1 < L.width * L.height ∧ e.2.1 < L.width * L.height := by
  intro e he
  obtain ⟨r, hr, rfl⟩ := List.mem_map.1 he
  obtain ⟨h1, h2⟩ := allEdges_nodes hs hr
  exact ⟨(nodeIdx_spec hs hb h1).2, (nodeIdx_spec hs hb h2).2⟩

/-- Each reference of `edge_references` is one of `edges` of its source. -/
theorem allEdges_out (hs : Lawful s L rep) {r : EdgeRef C D E} (hr : r ∈ allEdges L k) : r ∈ outEdges L k r.source := by
  obtain ⟨h1, h2, h3, h4⟩ := (mem_allEdges hs.laws.dir).1 hr
  refine (mem_outEdges hs.laws.dir).2 ⟨rfl, h3, ?_⟩
  unfold Lat.key
  rw [if_pos h2]
  exact h4

/-- The edges by index are the links of `edges`, both directions of each link for undirected graphs. -/
theorem idxEdge_iff (hs : Lawful s L rep) (hb : Built s L g k) (cost : E → Nat) {i j w : Nat} :
    IdxEdge g.isDirected (idxEdges L k g cost) i j w ↔
    ∃ u t, L.Node u ∧ nodeIdx g u = i ∧ nodeIdx g t = j ∧ Link g (fun r => cost r.weight) u t w := by
  have hg := hb.good hs
  constructor
  · rintro (h | ⟨hd, h⟩)
    · obtain ⟨r, hr, e⟩ := List.mem_map.1 h
      cases e
      have hn := (allEdges_nodes hs hr).1
      exact ⟨_, _, hn, rfl, rfl, r, (edgeOf_iff hs hb hn).2 (allEdges_out hs hr), rfl, rfl⟩
    · obtain ⟨r, hr, e⟩ := List.mem_map.1 h
      cases e
      obtain ⟨h1, h2⟩ := c11_undirected_weight hs hb hd (allEdges_nodes hs hr).1 (allEdges_out hs hr)
      exact ⟨_, _, h1, rfl, rfl, _, (edgeOf_iff hs hb h1).2 h2, rfl, rfl⟩
  · rintro ⟨u, t, hu, rfl, rfl, r, h1, rfl, rfl⟩
    obtain ⟨h2, h3, h4⟩ := (mem_outEdges hg.laws.dir).1 ((edgeOf_iff hs hb hu).1 h1)
    have ht := hg.laws.nbr_node hu h3
    unfold Lat.key at h4
    by_cases e : L.fwd (L.ax r.direction) = r.direction
    · rw [if_pos e] at h4
      exact .inl (List.mem_map.2 ⟨r, (mem_allEdges hg.laws.dir).2 ⟨by rw [h2]; exact hu, e, by rw [h2]; exact h3, by rw [h2]; exact h4⟩,
        by rw [h2]⟩)
    · rw [if_neg e] at h4
      obtain ⟨h5, h6⟩ := (hg.laws.dir.fwd_ax r.direction).resolve_left e
      have h7 : L.ax (L.opp r.direction) = L.ax r.direction := by rw [← h6, hg.laws.dir.ax_fwd]
      refine .inr ⟨by rw [Graph.isDirected, hg.impl.axis.directed]; exact h5, List.mem_map.2 ⟨⟨r.target, u, r.weight, L.opp r.direction⟩, ?_, rfl⟩⟩
      exact (mem_allEdges hg.laws.dir).2 ⟨ht, by rw [h7]; exact h6, hg.laws.nbr_opp hu h3, by rw [h7]; exact h4⟩

/-- Walks by index are the walks along `edges`. -/
theorem gWalk_iff (hs : Lawful s L rep) (hb : Built s L g k) (cost : E → Nat) {a b : C} (ha : L.Node a) (hb' : L.Node b) {n : Nat} :
    GWalk (IdxEdge g.isDirected (idxEdges L k g cost)) (nodeIdx g a) (nodeIdx g b) n ↔ CostWalk g (fun r => cost r.weight) a b n := by
  rw [← aWalk_iff hs hb ha]
  constructor
  · intro h
    have key : ∀ {i j n}, GWalk (IdxEdge g.isDirected (idxEdges L k g cost)) i j n → ∀ a, L.Node a → nodeIdx g a = i → nodeIdx g b = j →
        AWalk (latEdges g (fun r => cost r.weight)) a b n := by
      intro i j n h
      induction h with
      | nil =>
        intro a ha e1 e2
        rw [nodeIdx_inj hs hb ha hb' (e1.trans e2.symm)]; exact .nil
      | cons e _ ih =>
        intro a ha e1 e2
        obtain ⟨u, t, hu, h1, h2, h3⟩ := (idxEdge_iff hs hb cost).1 e
        have := nodeIdx_inj hs hb ha hu (e1.trans h1.symm)
        subst this
        exact .cons ((leads_iff hs hb ha).2 h3) (ih t (h3.node hs hb ha) h2 e2)
    exact key h a ha rfl rfl
  · intro h
    induction h with
    | nil => exact .nil
    | cons e _ ih =>
      have hl := (leads_iff hs hb ha).1 e
      exact .cons ((idxEdge_iff hs hb cost).2 ⟨_, _, ha, rfl, rfl, hl⟩) (ih (hl.node hs hb ha) hb')

/-- **C84.** `floyd_warshall` completes on every graph, with one entry per pair of nodes: the least total cost of a walk along `edges`
from the one to the other, and `max()` exactly if there is none. -/
theorem c84_floyd_warshall (hs : Lawful s L rep) (hb : Built s L g k) (cost : E → Nat) :
    (∃ m, Floyd g cost (s.horizontal * s.vertical) m) ∧
    ∀ n m, Floyd g cost n m → n = s.horizontal * s.vertical ∧
      ∀ a b, L.Node a → L.Node b → ∃ i j, g.toIndex a = .ok i ∧ g.toIndex b = .ok j ∧ i < n ∧ j < n ∧
        (∀ x, m i j = some x ↔
          CostWalk g (fun r => cost r.weight) a b x ∧ ∀ y, CostWalk g (fun r => cost r.weight) a b y → x ≤ y) ∧
        (m i j = none ↔ ∀ y, ¬ CostWalk g (fun r => cost r.weight) a b y) := by
  have hn := nodeBound_eq hs hb
  have hn' := c04_node_count hs hb
  rw [hn] at hn'
  have hwh : L.width * L.height = s.horizontal * s.vertical := Except.ok.inj hn'
  have hids : L.nodes.mapM g.toIndex = .ok (L.nodes.map (nodeIdx g)) :=
    mapM_ok _ fun c hc => (nodeIdx_spec hs hb (Lat.mem_nodes.1 hc)).1
  have hmem : ∀ i, i ∈ L.nodes.map (nodeIdx g) ↔ i < L.width * L.height := by
    intro i
    constructor
    · intro h
      obtain ⟨c, hc, rfl⟩ := List.mem_map.1 h
      exact (nodeIdx_spec hs hb (Lat.mem_nodes.1 hc)).2
    · intro h
      obtain ⟨c, -, hc, h1⟩ := c04_from_index hs hb h
      refine List.mem_map.2 ⟨c, Lat.mem_nodes.2 hc, ?_⟩
      rw [(nodeIdx_spec hs hb hc).1] at h1
      cases h1; rfl
  obtain ⟨m, h1, h2⟩ := fwRun_spec (directed := g.isDirected) (idxEdges_lt hs hb cost) hmem
  refine ⟨⟨m, c04_node_count hs hb, _, _, _, (edgeIndices_iff hs hb cost).2 rfl, c05_node_identifiers hs hb, hids, by rw [← hwh]; exact h1⟩, ?_⟩
  rintro n m' ⟨h3, es, cs, ids, h4, h5, h6, h7⟩
  rw [hn] at h3; cases h3
  rw [(edgeIndices_iff hs hb cost).1 h4] at h7
  rw [Yields.unique h5 (c05_node_identifiers hs hb), hids] at h6
  cases h6
  rw [h1] at h7; cases h7
  refine ⟨hwh, fun a b ha hb' => ?_⟩
  obtain ⟨ha1, ha2⟩ := nodeIdx_spec hs hb ha
  obtain ⟨hb1, hb2⟩ := nodeIdx_spec hs hb hb'
  obtain ⟨h8, h9⟩ := h2 _ _ ha2 hb2
  simp only [gWalk_iff hs hb cost ha hb'] at h8 h9
  exact ⟨_, _, ha1, hb1, ha2, hb2, h8, h9⟩

/-- **C84.** On connected shapes every entry is a number. -/
theorem c84_connected (hs : Sound s L rep) (hb : Built s L g k) (cost : E → Nat) {n : Nat} {m : Mat} (hm : Floyd g cost n m) {a b : C}
    (ha : L.Node a) (hb' : L.Node b) : ∃ i j x, g.toIndex a = .ok i ∧ g.toIndex b = .ok j ∧ m i j = some x := by
  obtain ⟨i, j, h1, h2, -, -, -, h3⟩ := ((c84_floyd_warshall hs.lawful hb cost).2 n m hm).2 a b ha hb'
  obtain ⟨y, hw⟩ := costWalk_exists (cost := fun r => cost r.weight) hs hb ha hb'
  cases hx : m i j with
  | none => exact absurd hw (h3.1 hx y)
  | some x => exact ⟨i, j, x, h1, h2, hx⟩

theorem Walk.cost (hs : Lawful s L rep) (hb : Built s L g k) {a b : C} {n : Nat} (ha : L.Node a) (hw : Walk g.s a n b) :
    CostWalk g (fun _ => 1) a b n := by
  have hp := hw.path hs hb ha
  clear hw
  induction hp with
  | nil => exact .nil
  | @step j b c d hp hd ih =>
    have hbn := hp.node hs.laws ha
    have hm : c ∈ (outEdges L k b).map EdgeRef.target := by
      rw [(c10_targets hs hb hbn).1]
      exact List.mem_filterMap.2 ⟨d, hs.laws.dir.dirs_mem d, hd⟩
    obtain ⟨r, hr, rfl⟩ := List.mem_map.1 hm
    exact .step ih ((edgeOf_iff hs hb hbn).2 hr)

/-- **C84.** With every edge at cost one the entries are the least numbers of steps. -/
theorem c84_steps (hs : Lawful s L rep) (hb : Built s L g k) {n : Nat} {m : Mat} (hm : Floyd g (fun _ => 1) n m) {a b : C}
    (ha : L.Node a) (hb' : L.Node b) {d : Nat} (hd : ShortestWalk g.s a b d) :
    ∃ i j, g.toIndex a = .ok i ∧ g.toIndex b = .ok j ∧ m i j = some d := by
  obtain ⟨i, j, h1, h2, -, -, h3, -⟩ := ((c84_floyd_warshall hs hb (fun _ => 1)).2 n m hm).2 a b ha hb'
  refine ⟨i, j, h1, h2, (h3 d).2 ⟨hd.1.cost hs hb ha, fun y hy => ?_⟩⟩
  obtain ⟨q, h4, h5⟩ := CostWalk.steps (q := 1) hs hb (fun _ _ _ _ => Nat.le_refl 1) ha hy
  have := hd.2 q h4
  omega
end

/-- **C84** for squares: with every edge at cost one, the entries are the Manhattan distances. -/
theorem c84_square {N E : Type} {rep : Offset → Prop} {w h : Nat} {s : Shape Offset SquareAxis DSquareAxis}
    {g : Graph Offset SquareAxis DSquareAxis N E} {k : Contents Offset SquareAxis N E} (hs : Lawful s (squareLat w h) rep)
    (hb : Built s (squareLat w h) g k) {n : Nat} {m : Mat} (hm : Floyd g (fun _ => 1) n m) {x y x' y' : Nat}
    (hx : x < w) (hy : y < h) (hx' : x' < w) (hy' : y' < h) :
    ∃ i j, g.toIndex ⟨x, y⟩ = .ok i ∧ g.toIndex ⟨x', y'⟩ = .ok j ∧
      m i j = some (((x : Int) - x').natAbs + ((y : Int) - y').natAbs) :=
  c84_steps hs hb hm ⟨x, y, hx, hy, rfl⟩ ⟨x', y', hx', hy', rfl⟩ (c59_square hs hb hx hy hx' hy')

/-- the 3 × 2 square graph: three steps from one corner to the opposite one -/
example : ∃ (g : Graph Offset SquareAxis DSquareAxis Nat Nat) (m : Mat) (i j : Nat), Floyd g (fun _ => 1) 6 m ∧
    g.toIndex ⟨0, 0⟩ = .ok i ∧ g.toIndex ⟨2, 1⟩ = .ok j ∧ m i j = some 3 := by
  obtain ⟨g, hb⟩ := exSquare
  have hs := (Sound.square m64 3 2).lawful
  obtain ⟨m, hm⟩ := (c84_floyd_warshall hs hb (fun _ => 1)).1
  obtain ⟨i, j, h1, h2, h3⟩ := c84_square hs hb hm (x := 0) (y := 0) (x' := 2) (y' := 1) (by decide) (by decide) (by decide) (by decide)
  exact ⟨g, m, i, j, hm, h1, h2, h3⟩

example : ∃ (g : Graph Offset SquareAxis DSquareAxis Nat Nat) (m m1 : Mat) (i j x i1 j1 : Nat), Floyd g id 6 m ∧ m i j = some x ∧
    Floyd g (fun _ => 1) 6 m1 ∧ g.toIndex ⟨0, 1⟩ = .ok i1 ∧ g.toIndex ⟨2, 0⟩ = .ok j1 ∧ m1 i1 j1 = some 3 := by
  obtain ⟨g, hb⟩ := exSquare
  have hs := Sound.square m64 3 2
  have hn : (squareLat 3 2).Node ⟨0, 1⟩ := ⟨0, 1, by decide, by decide, rfl⟩
  have hn' : (squareLat 3 2).Node ⟨2, 0⟩ := ⟨2, 0, by decide, by decide, rfl⟩
  obtain ⟨m, hm⟩ := (c84_floyd_warshall hs.lawful hb id).1
  obtain ⟨m1, hm1⟩ := (c84_floyd_warshall hs.lawful hb (fun _ => 1)).1
  obtain ⟨i, j, x, -, -, h3⟩ := c84_connected hs hb id hm hn hn'
  obtain ⟨i1, j1, h4, h5, h6⟩ := c84_steps hs.lawful hb hm1 hn hn' (c59_square hs.lawful hb (by decide) (by decide) (by decide) (by decide))
  exact ⟨g, m, m1, i, j, x, i1, j1, hm, h3, hm1, h4, h5, h6⟩

end LG
