import Verif.Props.Ex
/- C04 – C09: node indices, node iterators, neighbours, adjacency. -/
set_option linter.unusedSectionVars false
namespace LG
section
variable {C A D N E σ : Type} [DecidableEq C] [DecidableEq A] [DecidableEq D]
variable {g : Graph C A D N E} {s : Shape C A D} {L : Lat C A D} {rep : C → Prop} {k : Contents C A N E}

theorem Good.toIndex (hg : Good s L rep g k) {x y : Nat} (hx : x < L.width) (hy : y < L.height) :
    g.toIndex (L.coord x y) = .ok (x * L.height + y) := by
  have hi := hg.impl
  have h1 : x * L.height ≤ L.width * L.height := Nat.mul_le_mul_right _ (by omega)
  have h2 := idx_lt hx hy
  have h3 := hi.small
  have h4 := g.s.m.half_ge
  simp only [Graph.toIndex, Shape.toIndex, hi.toOffset_coord hx hy, bind, Except.bind, Shape.offsetToIndex,
    hi.height, umul_ok (m := g.s.m) (a := x) (b := L.height) (by omega), uadd]
  rw [if_pos (by omega)]

/-- **C04.** `node_count` (= `node_bound`) is `horizontal × vertical`; no overflow happens computing it. -/
theorem c04_node_count (hs : Lawful s L rep) (hb : Built s L g k) : g.nodeBound = .ok (s.horizontal * s.vertical) := by
  have hg := hb.good hs
  rw [Graph.nodeBound, hg.impl.nodeCount, ← hg.shape, hg.impl.width, hg.impl.height]

/-- **C04.** Every node has an index below `node_bound`, and `from_index` leads back to the node. -/
theorem c04_to_index (hs : Lawful s L rep) (hb : Built s L g k) {c : C} (hc : L.Node c) :
    ∃ i, g.toIndex c = .ok i ∧ i < L.width * L.height ∧ g.fromIndex i = .ok c := by
  have hg := hb.good hs
  obtain ⟨x, y, hx, hy, rfl⟩ := hc
  refine ⟨_, hg.toIndex hx hy, idx_lt hx hy, ?_⟩
  rw [Graph.fromIndex, hg.impl.indexToCoordinate (idx_lt hx hy), Lat.at_idx hy]

/-- **C04.** Every index below `node_bound` belongs to a node, and `to_index` leads back to the index. -/
theorem c04_from_index (hs : Lawful s L rep) (hb : Built s L g k) {i : Nat} (hi : i < L.width * L.height) :
    ∃ c, g.fromIndex i = .ok c ∧ L.Node c ∧ g.toIndex c = .ok i := by
  have hg := hb.good hs
  refine ⟨L.at i, hg.impl.indexToCoordinate hi, Lat.at_node hi, ?_⟩
  have h := hg.toIndex (div_lt_w hi) (mod_lt_h hi)
  rw [idx_eta] at h
  exact h

/-- **C04.** Different nodes have different indices. -/
theorem c04_to_index_inj (hs : Lawful s L rep) (hb : Built s L g k) {c c' : C} (hc : L.Node c) (hc' : L.Node c')
    (h : g.toIndex c = g.toIndex c') : c = c' := by
  obtain ⟨i, h1, _, h2⟩ := c04_to_index hs hb hc
  obtain ⟨j, h3, _, h4⟩ := c04_to_index hs hb hc'
  rw [h1, h3] at h
  cases h
  rw [h2] at h4
  exact Except.ok.inj h4

example : ∃ g : Graph Offset SquareAxis DSquareAxis Nat Nat, Built (squareShape m64 3 2) (squareLat 3 2) g exK ∧
    g.nodeBound = .ok 6 ∧ (∃ i, g.toIndex ⟨2, 1⟩ = .ok i ∧ g.fromIndex i = .ok ⟨2, 1⟩) ∧
    (∃ c, g.fromIndex 3 = .ok c ∧ g.toIndex c = .ok 3) := by
  obtain ⟨g, hb⟩ := exSquare
  refine ⟨g, hb, c04_node_count (.square _ _ _) hb, ?_, ?_⟩
  · obtain ⟨i, h1, _, h2⟩ := c04_to_index (.square _ _ _) hb (c := ⟨2, 1⟩) ⟨2, 1, by decide, by decide, rfl⟩
    exact ⟨i, h1, h2⟩
  · obtain ⟨i, h1, _, h2⟩ := c04_from_index (.square _ _ _) hb (i := 3) (by decide)
    exact ⟨i, h1, h2⟩

/-- **C05.** `node_identifiers` yields exactly the nodes. -/
theorem c05_node_identifiers (hs : Lawful s L rep) (hb : Built s L g k) : Yields (nodeIndicesNext g.s) g.nodeIdentifiers L.nodes := by
  have h := nodeIndices_yields (hb.good hs).impl (L.width * L.height) 0 (by omega)
  rwa [← List.range_eq_range', ← L.nodes_eq] at h

/-- **C05.** The list has no repetitions, contains every node and nothing else, and its `i`-th entry is the node of index
`i`. -/
theorem c05_nodes_exact (hs : Lawful s L rep) (hb : Built s L g k) :
    L.nodes.Nodup ∧ (∀ c, c ∈ L.nodes ↔ L.Node c) ∧
    (∀ (i : Nat) (h : i < L.nodes.length), g.toIndex L.nodes[i] = .ok i ∧ g.fromIndex i = .ok L.nodes[i]) := by
  refine ⟨Lat.nodes_nodup hs.laws, fun c => Lat.mem_nodes, ?_⟩
  intro i h
  have hlen : L.nodes.length = L.width * L.height := by rw [L.nodes_eq, List.length_map, List.length_range]
  have hi : i < L.width * L.height := by omega
  obtain ⟨c, h1, _, h3⟩ := c04_from_index hs hb hi
  have h4 : L.nodes[i] = L.at i := by simp [L.nodes_eq]
  have h5 : g.fromIndex i = .ok (L.at i) := (hb.good hs).impl.indexToCoordinate hi
  rw [h5] at h1
  cases h1
  rw [h4]
  exact ⟨h3, h5⟩

/-- **C05.** At every point of the iteration `len()` (and so `size_hint`) is exactly the number of items still to come, and
the iterator stays exhausted. -/
theorem c05_len (hs : Lawful s L rep) (hb : Built s L g k) {i : Nat} (hr : Reaches (nodeIndicesNext g.s) g.nodeIdentifiers i) :
    ∃ l, Yields (nodeIndicesNext g.s) i l ∧ nodeIndicesSizeHint g.s i = .ok (l.length, some l.length) ∧
      exactLen (nodeIndicesSizeHint g.s i) = .ok l.length ∧ FusedAt (nodeIndicesNext g.s) i := by
  have hi := (hb.good hs).impl
  have hle : i ≤ L.width * L.height := hr.inv (P := fun i => i ≤ L.width * L.height) (Nat.zero_le _)
    (fun h hn => nodeIndicesNext_le hi h hn)
  have hint : nodeIndicesSizeHint g.s i = .ok (L.width * L.height - i, some (L.width * L.height - i)) := by
    simp only [nodeIndicesSizeHint, hi.nodeCount, bind, Except.bind, usub_ok hle]
  refine ⟨_, nodeIndices_yields hi (L.width * L.height - i) i (by omega), ?_, ?_, ?_⟩
  · rw [hint, List.length_map, List.length_range']
  · rw [hint, List.length_map, List.length_range']
    simp [exactLen, bind, Except.bind]
  · intro j hj
    by_cases hlt : i < L.width * L.height
    · rw [nodeIndicesNext_lt hi hlt] at hj; simp at hj
    · rw [nodeIndicesNext_ge hi hlt] at hj
      simp only [Except.ok.injEq, Prod.mk.injEq, true_and] at hj
      subst hj
      exact ⟨_, nodeIndicesNext_ge hi hlt⟩

example : ∃ g : Graph Offset SquareAxis DSquareAxis Nat Nat, Built (squareShape m64 3 2) (squareLat 3 2) g exK ∧
    Yields (nodeIndicesNext g.s) 0 [⟨0, 0⟩, ⟨0, 1⟩, ⟨1, 0⟩, ⟨1, 1⟩, ⟨2, 0⟩, ⟨2, 1⟩] := by
  obtain ⟨g, hb⟩ := exSquare
  exact ⟨g, hb, c05_node_identifiers (.square _ _ _) hb⟩

/-- **C06.** `node_references` yields, in index order, every node with its weight, in every reachable graph state. -/
theorem c06_node_references (hs : Lawful s L rep) (hb : Built s L g k) : Yields (nodeRefsNext g) g.nodeReferences (allNodes L k) := by
  have hg := hb.good hs
  have h := nodeRefs_yields hg.impl hg.inv hg.total (L.width * L.height) 0 (by omega)
  rwa [← List.range_eq_range', ← L.nodes_eq] at h

/-- **C06.** The nodes in that list are all the nodes in index order, and each weight is what `node_weight` returns. -/
theorem c06_node_references_exact (hs : Lawful s L rep) (hb : Built s L g k) :
    (allNodes L k).map Prod.fst = L.nodes ∧ ∀ p ∈ allNodes L k, g.nodeWeight p.1 = .ok (some p.2) := by
  have hg := hb.good hs
  constructor
  · have : ∀ l : List C, (∀ c ∈ l, L.Node c) →
        (l.filterMap fun c => (k.node c).map fun w => (c, w)).map Prod.fst = l := by
      intro l
      induction l with
      | nil => intro _; rfl
      | cons c l ih =>
        intro h
        obtain ⟨w, hw⟩ := hg.total.node_some (h c (by simp))
        rw [List.filterMap_cons, hw]
        simp [ih fun c hc => h c (by simp [hc])]
    exact this L.nodes fun c hc => Lat.mem_nodes.1 hc
  · rintro ⟨c, w⟩ hp
    simp only [allNodes, List.mem_filterMap, Option.map_eq_some_iff, Prod.mk.injEq] at hp
    obtain ⟨c', hc', w', hw', rfl, rfl⟩ := hp
    rw [nodeWeight_eq hg.impl hg.inv hg.total (.inl (Lat.mem_nodes.1 hc')), hw']

example : ∃ g : Graph Offset SquareAxis DSquareAxis Nat Nat, Built (squareShape m64 3 2) (squareLat 3 2) g exK ∧
    Yields (nodeRefsNext g) 0 [(⟨0, 0⟩, 0), (⟨0, 1⟩, 1), (⟨1, 0⟩, 10), (⟨1, 1⟩, 11), (⟨2, 0⟩, 20), (⟨2, 1⟩, 21)] := by
  obtain ⟨g, hb⟩ := exSquare
  exact ⟨g, hb, c06_node_references (.square _ _ _) hb⟩

/-- **C07.** `neighbors(a)` yields, in direction order, the cell in each direction that has one. -/
theorem c07_neighbors (hs : Lawful s L rep) (hb : Built s L g k) {a : C} (ha : L.Node a) :
    Yields (neighborsNext g.s a) 0 (L.nbrs a) := by
  have h := neighbors_yields (hb.good hs).impl ha L.dirs.length 0 (by omega)
  rwa [List.drop_zero] at h

/-- The iterator with its node and the counter alone do the same. -/
theorem NeighborsIt.yields {a : C} {i : Nat} {l : List C} (h : Yields (neighborsNext s a) i l) :
    Yields (NeighborsIt.next s) ⟨a, i⟩ l := by
  induction h with
  | @done _ i' h => exact .done (s' := ⟨a, i'⟩) (by simp only [NeighborsIt.next, h, bind, Except.bind])
  | @step _ i' _ _ h _ ih => exact .step (s' := ⟨a, i'⟩) (by simp only [NeighborsIt.next, h, bind, Except.bind]) ih

/-- **C07.** The same for the iterator `neighbors(a)` returns. -/
theorem c07_neighbors_call (hs : Lawful s L rep) (hb : Built s L g k) {a : C} (ha : L.Node a) :
    Yields (NeighborsIt.next g.s) (g.neighbors a) (L.dirs.filterMap (L.nbr a)) :=
  NeighborsIt.yields (c07_neighbors hs hb ha)

/-- **C07.** Every item is a node; every node in some direction is an item. -/
theorem c07_neighbors_exact (hs : Lawful s L rep) {a : C} (ha : L.Node a) (b : C) :
    (b ∈ L.nbrs a ↔ ∃ d, L.nbr a d = some b) ∧ (b ∈ L.nbrs a → L.Node b) := by
  have h : b ∈ L.nbrs a ↔ ∃ d, L.nbr a d = some b := by simp [Lat.nbrs, hs.laws.dir.dirs_mem]
  refine ⟨h, fun hb => ?_⟩
  obtain ⟨d, hd⟩ := h.1 hb
  exact hs.laws.nbr_node ha hd

/-- **C07.** Distinct directions contribute at most one item each: there are at most `UNDIRECTED_COUNT` items. -/
theorem c07_neighbors_length (hs : Lawful s L rep) (hb : Built s L g k) (a : C) :
    (L.nbrs a).length ≤ g.s.axis.undirectedCount := by
  rw [(hb.good hs).impl.axis.undirectedCount]
  exact List.length_filterMap_le _ _

example : ∃ g : Graph Offset SquareAxis DSquareAxis Nat Nat, Built (squareShape m64 3 2) (squareLat 3 2) g exK ∧
    Yields (neighborsNext g.s ⟨1, 0⟩) 0 [⟨2, 0⟩, ⟨1, 1⟩, ⟨0, 0⟩] := by
  obtain ⟨g, hb⟩ := exSquare
  exact ⟨g, hb, c07_neighbors (.square _ _ _) hb ⟨1, 0, by decide, by decide, rfl⟩⟩
/-- On the cylinder of circumference 2 a neighbour is listed once per direction leading to it. -/
example : (offLatRLoop false 2 2).nbrs ⟨0, 0⟩ = [⟨0, 1⟩, ⟨1, 0⟩, ⟨1, 0⟩, ⟨1, 1⟩] := by decide

/-- **C08.** `b` occurs among the items of `neighbors(a)` as often as `a` among those of `neighbors(b)`. -/
theorem c08_symmetric (hs : Lawful s L rep) (hb : Built s L g k) {a b : C} (ha : L.Node a) (hb' : L.Node b)
    {la lb : List C} (hla : Yields (neighborsNext g.s a) 0 la) (hlb : Yields (neighborsNext g.s b) 0 lb) :
    la.count b = lb.count a := by
  rw [hla.unique (c07_neighbors hs hb ha), hlb.unique (c07_neighbors hs hb hb')]
  exact nbrs_count_symm hs.laws ha hb'

example : ((offLatRLoop false 2 2).nbrs ⟨0, 0⟩).count ⟨1, 0⟩ = 2 ∧
    ((offLatRLoop false 2 2).nbrs ⟨1, 0⟩).count ⟨0, 0⟩ = 2 := by decide

/-- **C08.** `neighbors_directed(a, d)` yields `b` once per direction leading from `a` to `b` (`Outgoing`), or once per direction
leading from `b` to `a` (`Incoming`), though it looks at the directions leading from `a` in both cases. -/
theorem c08_neighbors_directed (hs : Lawful s L rep) (hb : Built s L g k) {a : C} (ha : L.Node a) (d : PDir) :
    ∃ l, Yields (NeighborsIt.next g.s) (g.neighborsDirected a d) l ∧ (∀ b ∈ l, L.Node b) ∧ ∀ b, L.Node b →
      l.count b = match d with
        | .outgoing => L.dirs.countP fun x => decide (L.nbr a x = some b)
        | .incoming => L.dirs.countP fun x => decide (L.nbr b x = some a) := by
  have e : ∀ u v : C, (L.nbrs u).count v = L.dirs.countP fun x => decide (L.nbr u x = some v) := by
    intro u v
    unfold Lat.nbrs
    rw [List.count_filterMap]
    congr 1
    funext x
    rw [Bool.eq_iff_iff]
    simp only [beq_iff_eq, decide_eq_true_eq]
  refine ⟨_, NeighborsIt.yields (c07_neighbors hs hb ha), fun b h => (c07_neighbors_exact hs ha b).2 h, fun b hb' => ?_⟩
  cases d with
  | outgoing => exact e a b
  | incoming => exact (nbrs_count_symm hs.laws ha hb').trans (e b a)

/-- On a directed grid as well. -/
example : ∃ (g : Graph Offset DSquareAxis DSquareAxis Nat Nat) (k : _) (l : List Offset),
    Built (squareShapeDirected m64 3 2) (squareLatDirected 3 2) g k ∧
    Yields (NeighborsIt.next g.s) (g.neighborsDirected ⟨0, 0⟩ .incoming) l ∧ l.count ⟨1, 0⟩ = 1 ∧ l.count ⟨2, 0⟩ = 0 := by
  obtain ⟨g, hb⟩ := (Lawful.squareDirected m64 3 2).exists_built (by decide) (fun u _ => (0, u)) (fun u _ _ => (0, u)) ()
  obtain ⟨l, h1, _, h3⟩ := c08_neighbors_directed (.squareDirected _ _ _) hb (a := ⟨0, 0⟩) ⟨0, 0, by decide, by decide, rfl⟩ .incoming
  exact ⟨g, _, l, hb, h1, (h3 ⟨1, 0⟩ ⟨1, 0, by decide, by decide, rfl⟩).trans (by decide),
    (h3 ⟨2, 0⟩ ⟨2, 0, by decide, by decide, rfl⟩).trans (by decide)⟩

/-- **C09.** `is_adjacent(a, b)` is true iff `b` is among the neighbours of `a`, for any coordinate `b`. -/
theorem c09_is_adjacent (hs : Lawful s L rep) (hb : Built s L g k) {a : C} (ha : L.Node a) (b : C) {la : List C}
    (hla : Yields (neighborsNext g.s a) 0 la) : g.isAdjacent a b = .ok (decide (b ∈ la)) := by
  rw [hla.unique (c07_neighbors hs hb ha)]
  exact isNeighbor_eq (hb.good hs).full ha

/-- **C09.** `get_direction(a, b)` returns the first direction (in index order) leading from `a` to `b`. -/
theorem c09_get_direction (hs : Lawful s L rep) (hb : Built s L g k) {a : C} (ha : L.Node a) (b : C) :
    g.s.getDirection a b = .ok (L.dirs.find? fun d => decide (L.nbr a d = some b)) :=
  getDirection_eq (hb.good hs).impl ha

/-- **C09.** In particular it returns some direction exactly for the neighbours, and that direction leads to `b`. -/
theorem c09_get_direction_sound (hs : Lawful s L rep) (hb : Built s L g k) {a : C} (ha : L.Node a) (b : C) :
    (b ∈ L.nbrs a ↔ ∃ d, g.s.getDirection a b = .ok (some d)) ∧
    ∀ d, g.s.getDirection a b = .ok (some d) → L.nbr a d = some b := by
  rw [c09_get_direction hs hb ha]
  constructor
  · simp only [Except.ok.injEq]
    rw [← Option.isSome_iff_exists, List.isSome_find?]
    simp [Lat.nbrs, List.any_eq_true]
  · intro d h
    simp only [Except.ok.injEq] at h
    simpa using List.find?_some h

example : ∃ g : Graph Offset SquareAxis DSquareAxis Nat Nat, Built (squareShape m64 3 2) (squareLat 3 2) g exK ∧
    g.isAdjacent ⟨1, 0⟩ ⟨1, 1⟩ = .ok true ∧ g.isAdjacent ⟨1, 0⟩ ⟨2, 1⟩ = .ok false ∧ g.isAdjacent ⟨1, 0⟩ ⟨9, 9⟩ = .ok false ∧
    g.s.getDirection ⟨1, 0⟩ ⟨0, 0⟩ = .ok (some .RX) := by
  obtain ⟨g, hb⟩ := exSquare
  have hn : (squareLat 3 2).Node ⟨1, 0⟩ := ⟨1, 0, by decide, by decide, rfl⟩
  have hy := c07_neighbors (.square _ _ _) hb hn
  exact ⟨g, hb, c09_is_adjacent (.square _ _ _) hb hn _ hy, c09_is_adjacent (.square _ _ _) hb hn _ hy,
    c09_is_adjacent (.square _ _ _) hb hn _ hy, c09_get_direction (.square _ _ _) hb hn _⟩

/-! Instances of the remaining theorems, on the 3 × 2 square grid. -/

example : ∃ g : Graph Offset SquareAxis DSquareAxis Nat Nat, Built (squareShape m64 3 2) (squareLat 3 2) g exK ∧
    g.toIndex ⟨1, 0⟩ ≠ g.toIndex ⟨0, 1⟩ ∧ (g.toIndex ⟨2, 0⟩ = .ok 4 ∧ g.fromIndex 4 = .ok ⟨2, 0⟩) := by
  obtain ⟨g, hb⟩ := exSquare
  exact ⟨g, hb, fun h => absurd (c04_to_index_inj (.square _ _ _) hb ⟨1, 0, by decide, by decide, rfl⟩ ⟨0, 1, by decide, by decide, rfl⟩ h)
    (by decide), (c05_nodes_exact (.square _ _ _) hb).2.2 4 (by decide)⟩

/-- Two calls of `next` leave four nodes. -/
example : ∃ g : Graph Offset SquareAxis DSquareAxis Nat Nat, Built (squareShape m64 3 2) (squareLat 3 2) g exK ∧
    exactLen (nodeIndicesSizeHint g.s 2) = .ok 4 := by
  obtain ⟨g, hb⟩ := exSquare
  have e := (hb.good (.square _ _ _)).shape
  obtain ⟨l, h1, -, h2, -⟩ := c05_len (.square _ _ _) hb (i := 2) (by rw [e]; exact .step (.step (.refl 0) rfl) rfl)
  have h3 : Yields (nodeIndicesNext g.s) 2 [⟨1, 0⟩, ⟨1, 1⟩, ⟨2, 0⟩, ⟨2, 1⟩] := by
    rw [e]
    exact .step rfl (.step rfl (.step rfl (.step rfl (.done rfl))))
  rw [h1.unique h3] at h2
  exact ⟨g, hb, h2⟩

example : ∃ g : Graph Offset SquareAxis DSquareAxis Nat Nat, Built (squareShape m64 3 2) (squareLat 3 2) g exK ∧
    g.nodeWeight ⟨2, 1⟩ = .ok (some 21) := by
  obtain ⟨g, hb⟩ := exSquare
  exact ⟨g, hb, (c06_node_references_exact (.square _ _ _) hb).2 (⟨2, 1⟩, 21) (by decide)⟩

example : ∃ g : Graph Offset SquareAxis DSquareAxis Nat Nat, Built (squareShape m64 3 2) (squareLat 3 2) g exK ∧
    Yields (NeighborsIt.next g.s) (g.neighbors ⟨2, 1⟩) [⟨1, 1⟩, ⟨2, 0⟩] ∧ ((squareLat 3 2).nbrs ⟨1, 0⟩).length ≤ g.s.axis.undirectedCount := by
  obtain ⟨g, hb⟩ := exSquare
  exact ⟨g, hb, c07_neighbors_call (.square _ _ _) hb ⟨2, 1, by decide, by decide, rfl⟩, c07_neighbors_length (.square _ _ _) hb _⟩
example : ∃ d, (squareLat 3 2).nbr ⟨1, 0⟩ d = some ⟨1, 1⟩ :=
  (c07_neighbors_exact (.square m64 3 2) ⟨1, 0, by decide, by decide, rfl⟩ _).1.1 (by decide)

/-- Twice in both, around the cylinder of circumference 2. -/
example : ∃ g : Graph Offset AxisR AxisDR Nat Nat, ∀ {la lb : List Offset}, Yields (neighborsNext g.s ⟨0, 0⟩) 0 la →
    Yields (neighborsNext g.s ⟨1, 0⟩) 0 lb → la.count ⟨1, 0⟩ = lb.count ⟨0, 0⟩ := by
  obtain ⟨g, hb⟩ := (Lawful.hexOffRLew m64 oddR 2 2).exists_built (by decide) (fun u _ => (0, u)) (fun u _ _ => (0, u)) ()
  exact ⟨g, c08_symmetric (.hexOffRLew _ _ _ _) hb ⟨0, 0, by decide, by decide, rfl⟩ ⟨1, 0, by decide, by decide, rfl⟩⟩

example : ∃ g : Graph Offset SquareAxis DSquareAxis Nat Nat, Built (squareShape m64 3 2) (squareLat 3 2) g exK ∧
    (∃ d, g.s.getDirection ⟨1, 0⟩ ⟨1, 1⟩ = .ok (some d)) ∧ ¬ ∃ d, g.s.getDirection ⟨1, 0⟩ ⟨2, 1⟩ = .ok (some d) := by
  obtain ⟨g, hb⟩ := exSquare
  have h := fun b => (c09_get_direction_sound (.square _ _ _) hb (a := ⟨1, 0⟩) ⟨1, 0, by decide, by decide, rfl⟩ b).1
  exact ⟨g, hb, (h _).1 (by decide), fun h' => absurd ((h _).2 h') (by decide)⟩

end
end LG
