import Verif.Props.Stored
import Verif.Props.Nodes
/- C71: node numbering, node iteration and adjacency queries on every built-in shape. -/
set_option linter.unusedSectionVars false
namespace LG
section
variable {C A D N E σ : Type} [DecidableEq C] [DecidableEq A] [DecidableEq D]
variable {g : Graph C A D N E} {s : Shape C A D} {L : Lat C A D} {rep : C → Prop} {k : Contents C A N E}

theorem GoodBase.toIndex (hg : GoodBase s L rep g k) {x y : Nat} (hx : x < L.width) (hy : y < L.height) :
    g.toIndex (L.coord x y) = .ok (x * L.height + y) := by
  have hi := hg.impl
  have h1 : x * L.height ≤ L.width * L.height := Nat.mul_le_mul_right _ (by omega)
  have h2 := idx_lt hx hy
  have h3 := hi.small
  have h4 := g.s.m.half_ge
  simp only [Graph.toIndex, Shape.toIndex, hi.toOffset_coord hx hy, bind, Except.bind, Shape.offsetToIndex,
    hi.height, umul_ok (m := g.s.m) (a := x) (b := L.height) (by omega), uadd]
  rw [if_pos (by omega)]

/-- **C71.** `node_count` is `horizontal × vertical`; `to_index` and `from_index` are inverse bijections between the nodes and
the numbers below it. A representable coordinate that is not a node makes `to_index` panic. -/
theorem c71_indices (hs : Storable s L rep) (hb : Built s L g k) :
    g.nodeBound = .ok (s.horizontal * s.vertical) ∧
    (∀ c, L.Node c → ∃ i, g.toIndex c = .ok i ∧ i < s.horizontal * s.vertical ∧ g.fromIndex i = .ok c) ∧
    (∀ i, i < s.horizontal * s.vertical → ∃ c, g.fromIndex i = .ok c ∧ L.Node c ∧ g.toIndex c = .ok i) ∧
    (∀ c, rep c → ¬ L.Node c → g.toIndex c = .error .panic) := by
  have hg := hs.good hb
  have hw : s.horizontal = L.width := by rw [← hg.shape]; exact hg.impl.width
  have hh : s.vertical = L.height := by rw [← hg.shape]; exact hg.impl.height
  rw [hw, hh]
  refine ⟨hg.impl.nodeCount, ?_, ?_, ?_⟩
  · rintro c ⟨x, y, hx, hy, rfl⟩
    refine ⟨_, hg.toIndex hx hy, idx_lt hx hy, ?_⟩
    rw [Graph.fromIndex, hg.impl.indexToCoordinate (idx_lt hx hy), Lat.at_idx hy]
  · intro i hi
    refine ⟨L.at i, hg.impl.indexToCoordinate hi, Lat.at_node hi, ?_⟩
    have h := hg.toIndex (div_lt_w hi) (mod_lt_h hi)
    rwa [idx_eta] at h
  · intro c hr hn
    simp only [Graph.toIndex, Shape.toIndex, hg.impl.toOffset_none hr hn, bind, Except.bind]

/-- **C71.** `node_identifiers` yields every node exactly once, in index order, and nothing else. -/
theorem c71_node_identifiers (hs : Storable s L rep) (hb : Built s L g k) :
    Yields (nodeIndicesNext g.s) 0 L.nodes ∧ L.nodes.Nodup ∧ (∀ c, c ∈ L.nodes ↔ L.Node c) ∧
    ∀ (i : Nat) (h : i < L.nodes.length), g.toIndex L.nodes[i] = .ok i := by
  have hg := hs.good hb
  have h := nodeIndices_yields hg.impl (L.width * L.height) 0 (by omega)
  rw [← List.range_eq_range', ← L.nodes_eq] at h
  refine ⟨h, Lat.nodes_nodup hs.base, fun c => Lat.mem_nodes, fun i hi => ?_⟩
  have hlen : L.nodes.length = L.width * L.height := by rw [L.nodes_eq, List.length_map, List.length_range]
  have h4 : L.nodes[i] = L.at i := by simp [L.nodes_eq]
  have hi' : i < L.width * L.height := by omega
  have h := hg.toIndex (div_lt_w hi') (mod_lt_h hi')
  rw [idx_eta] at h
  rw [h4]
  exact h

/-- **C71.** `new_with` makes no call twice: the node closure exactly for the nodes, the edge closure exactly for the edges
announced by `move_coord`. -/
theorem c71_calls (hs : Storable s L rep) (c : C) (a : A) :
    (callSeq L).Nodup ∧ (Call.node c ∈ callSeq L ↔ L.Node c) ∧ (Call.edge c a ∈ callSeq L ↔ L.HasEdge c a) :=
  ⟨callSeq_nodup hs.base, mem_callSeq_node, mem_callSeq_edge hs.base.dir⟩

/-- **C71.** `is_adjacent(a, b)` is true iff `b` is among the items of `neighbors(a)`, for any coordinate `b`, node or not. -/
theorem c71_is_adjacent (hs : Single s L rep) (hb : Built s L g k) {a : C} (ha : L.Node a) (b : C) {la : List C}
    (hla : Yields (neighborsNext g.s a) 0 la) : g.isAdjacent a b = .ok (decide (b ∈ la)) := by
  rw [hla.unique (c57_neighbors hs.storable hb ha)]
  have hg := hs.storable.good hb
  have := hs.impl hg.constructible
  rw [← hg.shape] at this
  exact isNeighbor_eq this ha

/-- **C71.** `get_direction(a, b)` returns the first direction whose move leads from `a` to `b`, if any does. -/
theorem c71_get_direction (hs : Storable s L rep) (hb : Built s L g k) {a : C} (ha : L.Node a) (b : C) :
    (∃ r, g.s.getDirection a b = .ok r) ∧
    (∀ d, g.s.getDirection a b = .ok (some d) → g.s.moveCoord a d = .ok (some b)) ∧
    (g.s.getDirection a b = .ok none → ∀ d, g.s.moveCoord a d ≠ .ok (some b)) := by
  have hg := hs.good hb
  rw [getDirection_eq hg.impl ha]
  refine ⟨⟨_, rfl⟩, fun d h => ?_, fun h d hd => ?_⟩
  · simp only [Except.ok.injEq] at h
    rw [hg.impl.move ha]
    congr 1
    simpa using List.find?_some h
  · simp only [Except.ok.injEq, List.find?_eq_none, decide_eq_true_eq] at h
    rw [hg.impl.move ha] at hd
    exact h d (hs.base.dir.dirs_mem d) (by simpa using hd)

end

/-- On a looped axial map of three rows: a cell outside the graph is reported adjacent to the last cell of a sheared row. -/
example : ∃ g : Graph Axial AxisR AxisDR Nat Nat,
    (∃ st, newWith (hexAxRLew m64 (isizeTy m64) oddR 2 3) (fun n _ => (n, n + 1)) (fun n _ _ => (n, n + 1)) 0 = .ok (g, st)) ∧
    g.isAdjacent ⟨0, 2⟩ ⟨1, 2⟩ = .ok true ∧ g.isAdjacent ⟨0, 2⟩ ⟨5, 5⟩ = .ok false ∧ g.toIndex ⟨1, 2⟩ = .error .panic ∧
    g.toIndex ⟨0, 2⟩ = .ok 5 := by
  have ht : Holds (isizeTy m64) oddR.isFlatTop 2 3 := .isize (by decide) (by decide)
  have hs := Single.hexAxRLew m64 (isizeTy m64) oddR rfl 2 3 ht
  obtain ⟨g, h1, h2⟩ := c57_new_with hs.storable (by decide) (fun (n : Nat) _ => (n, n + 1)) (fun (n : Nat) _ _ => (n, n + 1)) 0
  have hn : (axLatRLoop oddR.isEven 2 3).Node ⟨0, 2⟩ := ⟨1, 2, by decide, by decide, by decide⟩
  have hy := c57_neighbors hs.storable h2 hn
  refine ⟨g, ⟨_, h1⟩, ?_, ?_, ?_, ?_⟩
  · rw [c71_is_adjacent hs h2 hn _ hy]; exact congrArg _ (by decide)
  · rw [c71_is_adjacent hs h2 hn _ hy]; exact congrArg _ (by decide)
  · refine (c71_indices hs.storable h2).2.2.2 _ (by unfold axRep; decide) ?_
    rw [← Lat.mem_nodes]
    decide
  · exact (c71_node_identifiers hs.storable h2).2.2.2 5 (by decide)

example : Call.edge (A := AxisR) ⟨0, 2⟩ .E ∈ callSeq (axLatRLoop oddR.isEven 2 3) ∧
    (callSeq (axLatRLoop oddR.isEven 2 3)).Nodup := by
  have hs := (Single.hexAxRLew m64 (isizeTy m64) oddR rfl 2 3 (.isize (by decide) (by decide))).storable
  have h := c71_calls hs ⟨0, 2⟩ AxisR.E
  exact ⟨by decide, h.1⟩
example : ∃ (g : Graph Axial AxisR AxisDR Nat Nat) (d : AxisDR),
    (∃ st, newWith (hexAxRLew m64 (isizeTy m64) oddR 2 3) (fun n _ => (n, n + 1)) (fun n _ _ => (n, n + 1)) 0 = .ok (g, st)) ∧
    g.s.getDirection ⟨0, 2⟩ ⟨1, 2⟩ = .ok (some d) ∧ g.s.moveCoord ⟨0, 2⟩ d = .ok (some ⟨1, 2⟩) ∧
    ∀ d, g.s.moveCoord ⟨0, 2⟩ d ≠ .ok (some ⟨5, 5⟩) := by
  have ht : Holds (isizeTy m64) oddR.isFlatTop 2 3 := .isize (by decide) (by decide)
  have hs := (Single.hexAxRLew m64 (isizeTy m64) oddR rfl 2 3 ht).storable
  obtain ⟨g, h1, h2⟩ := c57_new_with hs (by decide) (fun (n : Nat) _ => (n, n + 1)) (fun (n : Nat) _ _ => (n, n + 1)) 0
  have hn : (axLatRLoop oddR.isEven 2 3).Node ⟨0, 2⟩ := ⟨1, 2, by decide, by decide, by decide⟩
  have e1 : g.s = hexAxRLew m64 (isizeTy m64) oddR 2 3 := (hs.good h2).shape
  obtain ⟨⟨r, hr⟩, hd, -⟩ := c71_get_direction hs h2 hn ⟨1, 2⟩
  cases r with
  | none => rw [e1] at hr; cases hr
  | some d =>
    refine ⟨g, d, ⟨_, h1⟩, hr, hd d hr, (c71_get_direction hs h2 hn ⟨5, 5⟩).2.2 ?_⟩
    rw [e1]; rfl

end LG
