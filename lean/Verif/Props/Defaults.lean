import Verif.Model.Defaults
import Verif.Props.StoredNodes
import Verif.Props.LegacyBuild
/- C78: `new` and the constructors that take the shape from `Default`. C79: orders and conversions of coordinates. -/
set_option linter.unusedSectionVars false
namespace LG
section
variable {C A D N E σ : Type} [DecidableEq C] [DecidableEq A] [DecidableEq D]
variable {g : Graph C A D N E} {s : Shape C A D} {L : Lat C A D} {rep : C → Prop} {k : Contents C A N E}

/-- `g` has weight `dn` on every node, `de` on every edge, and nothing else. -/
def Uniform (L : Lat C A D) (rep : C → Prop) (g : Graph C A D N E) (dn : N) (de : E) : Prop :=
  (∀ c, L.Node c → g.nodeWeight c = .ok (some dn)) ∧ (∀ c, rep c → ¬ L.Node c → g.nodeWeight c = .ok none) ∧
  (∀ c a, L.HasEdge c a → g.edgeWeight c a = .ok (some de)) ∧
  (∀ c a, L.Node c ∨ rep c → ¬ L.HasEdge c a → g.edgeWeight c a = .ok none)

/-- **C78.** `new` puts the default weights on every node and every edge. It panics exactly on the sizes ndarray rejects. -/
theorem c78_new (hs : Storable s L rep) (dn : N) (de : E) :
    (Constructible s → ∃ (g : Graph C A D N E) (k : Contents C A N E), newDefault s dn de = .ok g ∧ Built s L g k ∧ Uniform L rep g dn de) ∧
    (¬ Constructible s → (newDefault s dn de : Res (Graph C A D N E)) = .error .panic) := by
  constructor
  · intro hc
    obtain ⟨g, h1, h2⟩ := c57_new_with hs hc (fun u c => (dn, u)) (fun u c a => (de, u)) ()
    have h3 := runCalls_pure (fun _ => dn) (fun _ _ => de) (callSeq L) (emptyContents : Contents C A N E)
    have h4 := fun c => mem_callSeq_node (L := L) (c := c)
    have h5 := fun c a => mem_callSeq_edge hs.base.dir (L := L) (c := c) (a := a)
    have h6 := fun c a => (c57_weights hs h2 c a).1
    refine ⟨g, _, by simp only [newDefault, h1, bind, Except.bind], h2, fun c hn => ?_, fun c hr hn => ?_, fun c a he => ?_,
      fun c a hn he => ?_⟩
    · have hd := hs.good h2
      rw [nodeWeight_eq hd.impl hd.inv hd.total (.inl hn), h3.1, if_pos ((h4 c).2 hn)]
    · have hd := hs.good h2
      rw [nodeWeight_eq hd.impl hd.inv hd.total (.inr hr), h3.1, if_neg (mt (h4 c).1 hn)]
      rfl
    · rw [(h6 c a (.inl he.1)).2, h3.2, if_pos ((h5 c a).2 he)]
    · rw [(h6 c a hn).2, h3.2, if_neg (mt (h5 c a).1 he)]
      rfl
  · intro hc
    simp only [newDefault, newWith_panic hc, bind, Except.bind]

/-- A graph of a shape with a side of length 0: it has no node, no edge, and every question about a coordinate is answered so. -/
theorem empty_graph (hs : Storable s L rep) (hb : Built s L g k) (h0 : s.horizontal = 0 ∨ s.vertical = 0) :
    g.nodeBound = .ok 0 ∧ Yields (nodeIndicesNext g.s) 0 [] ∧ Yields (edgeRefsNext g) edgeRefsInit [] ∧
    ∀ c, rep c → g.nodeWeight c = .ok none ∧ (∀ a, g.edgeWeight c a = .ok none) ∧ g.toIndex c = .error .panic := by
  have hg := hs.good hb
  have hw : s.horizontal = L.width := by rw [← hg.shape]; exact hg.impl.width
  have hh : s.vertical = L.height := by rw [← hg.shape]; exact hg.impl.height
  have hn : ∀ c, ¬ L.Node c := by
    rintro c ⟨x, y, hx, hy, -⟩
    omega
  have hz : s.horizontal * s.vertical = 0 := by rcases h0 with h | h <;> simp [h]
  have h1 := c71_indices hs hb
  have h2 := c71_node_identifiers hs hb
  have hnil : L.nodes = [] := List.eq_nil_iff_forall_not_mem.2 fun c hc => hn c ((h2.2.2.1 c).1 hc)
  refine ⟨by rw [h1.1, hz], hnil ▸ h2.1, ?_, fun c hr => ⟨?_, fun a => ?_, h1.2.2.2 c hr (hn c)⟩⟩
  · have h3 := (c57_edge_references hs hb).1
    have : allEdges L k = [] := by simp [allEdges, hnil]
    rwa [this] at h3
  · rw [nodeWeight_eq hg.impl hg.inv hg.total (.inr hr)]
    cases h4 : k.node c with
    | none => rfl
    | some w => exact absurd ((hg.total.node c).1 (by rw [h4]; rfl)) (hn c)
  · rw [edgeWeight_eq hg.impl hg.inv hg.total (.inr hr)]
    cases h4 : k.edge c a with
    | none => rfl
    | some w => exact absurd ((hg.total.edge c a).1 (by rw [h4]; rfl)).1 (hn c)

end

section
variable {N E σ : Type}

/-- **C78.** The default square graphs are empty: `SquareShape` derives `Default`, so both sides are 0. -/
theorem c78_square_default (m : Machine) (dn : N) (de : E) :
    (∃ g : Graph Offset SquareAxis DSquareAxis N E, graphDefault (squareShapeDefault m) dn de = .ok g ∧
      newS (squareShapeDefault m) dn de = .ok g ∧ g.nodeBound = .ok 0 ∧ Yields (nodeIndicesNext g.s) 0 [] ∧
      Yields (edgeRefsNext g) edgeRefsInit [] ∧
      ∀ c, g.nodeWeight c = .ok none ∧ (∀ a, g.edgeWeight c a = .ok none) ∧ g.toIndex c = .error .panic) ∧
    (∃ g : Graph Offset DSquareAxis DSquareAxis N E, graphDefault (squareShapeDirectedDefault m) dn de = .ok g ∧
      newS (squareShapeDirectedDefault m) dn de = .ok g ∧ g.nodeBound = .ok 0 ∧ Yields (nodeIndicesNext g.s) 0 [] ∧
      Yields (edgeRefsNext g) edgeRefsInit [] ∧
      ∀ c, g.nodeWeight c = .ok none ∧ (∀ a, g.edgeWeight c a = .ok none) ∧ g.toIndex c = .error .panic) := by
  have hm := m.half_ge
  constructor
  · have hs := (Lawful.square m 0 0).storable
    obtain ⟨g, k, h1, h2, -⟩ := (c78_new hs dn de).1 (by show 1 * 1 < m.half; omega)
    obtain ⟨a, b, c, d⟩ := empty_graph hs h2 (.inl rfl)
    exact ⟨g, h1, h1, a, b, c, fun x => d x trivial⟩
  · have hs := (Lawful.squareDirected m 0 0).storable
    obtain ⟨g, k, h1, h2, -⟩ := (c78_new hs dn de).1 (by show 1 * 1 < m.half; omega)
    obtain ⟨a, b, c, d⟩ := empty_graph hs h2 (.inl rfl)
    exact ⟨g, h1, h1, a, b, c, fun x => d x trivial⟩

/-- **C78.** `new_s`, `default`, `new_with_s` and `new_uninit_s`, for any shape type whose default value `d` follows a lattice: the
graph has the nodes of `d`, with the default weights, or with the results of the closures, called as in C01. -/
theorem c78_new_s {C A D : Type} [DecidableEq C] [DecidableEq A] [DecidableEq D] {d : Shape C A D} {L : Lat C A D} {rep : C → Prop}
    (hs : Storable d L rep) (hc : Constructible d) (dn : N) (de : E) (n : σ → C → N × σ) (e : σ → C → A → E × σ) (st : σ) :
    (∃ g : Graph C A D N E, newS d dn de = .ok g ∧ graphDefault d dn de = .ok g ∧ g.nodeBound = .ok (d.horizontal * d.vertical) ∧
      Uniform L rep g dn de) ∧
    (∃ g : Graph C A D N E, newWithS d n e st = .ok (g, (runCalls n e (callSeq L) st emptyContents).2) ∧
      Built d L g (runCalls n e (callSeq L) st emptyContents).1) ∧
    ∃ g : Graph C A D N E, newUninitS d = .ok g ∧ Inv g L emptyContents := by
  refine ⟨?_, c57_new_with hs hc n e st, ?_⟩
  · obtain ⟨g, k, h1, h2, h3⟩ := (c78_new hs dn de).1 hc
    exact ⟨g, h1, h1, (c71_indices hs h2).1, h3⟩
  · obtain ⟨g, h1, -, h2⟩ := newUninit_spec (N := N) (E := E) (hs.impl hc).width (hs.impl hc).height (hs.impl hc).axis.count hc
    exact ⟨g, h1, h2⟩

/-- **C78.** The const-size shapes: `new_s` has `H × V` nodes, all with the default weight, for every marker and loop. -/
theorem c78_const (m : Machine) (k : Marker) (H V : Nat) (hc : (if H = 0 then 1 else H) * (if V = 0 then 1 else V) < m.half)
    (dn : N) (de : E) :
    (∃ g, newS (constHexOffsetDefault (hexOffR m k) H V) dn de = .ok g ∧ g.nodeBound = .ok (H * V) ∧
      ∀ x y, x < H → y < V → g.nodeWeight ⟨x, y⟩ = .ok (some dn)) ∧
    (∃ g, newS (constHexOffsetDefault (hexOffRLew m k) H V) dn de = .ok g ∧ g.nodeBound = .ok (H * V) ∧
      ∀ x y, x < H → y < V → g.nodeWeight ⟨x, y⟩ = .ok (some dn)) ∧
    (∃ g, newS (constHexOffsetDefault (hexOffQ m k) H V) dn de = .ok g ∧ g.nodeBound = .ok (H * V) ∧
      ∀ x y, x < H → y < V → g.nodeWeight ⟨x, y⟩ = .ok (some dn)) ∧
    (∃ g, newS (constHexOffsetDefault (hexOffQLew m k) H V) dn de = .ok g ∧ g.nodeBound = .ok (H * V) ∧
      ∀ x y, x < H → y < V → g.nodeWeight ⟨x, y⟩ = .ok (some dn)) ∧
    (∃ g, newS (constDoubleCoordDefault m H V) dn de = .ok g ∧ g.nodeBound = .ok (H * V) ∧
      ∀ x y, x < H → y < V → g.nodeWeight ⟨2 * x + y % 2, y⟩ = .ok (some dn)) := by
  refine ⟨?_, ?_, ?_, ?_, ?_⟩
  · obtain ⟨g, h1, -, h2, h3⟩ := (c78_new_s (Lawful.hexOffR m k H V).storable hc dn de (fun u _ => (dn, u)) (fun u _ _ => (de, u)) ()).1
    exact ⟨g, h1, h2, fun x y hx hy => h3.1 _ ⟨x, y, hx, hy, rfl⟩⟩
  · obtain ⟨g, h1, -, h2, h3⟩ := (c78_new_s (Lawful.hexOffRLew m k H V).storable hc dn de (fun u _ => (dn, u)) (fun u _ _ => (de, u)) ()).1
    exact ⟨g, h1, h2, fun x y hx hy => h3.1 _ ⟨x, y, hx, hy, rfl⟩⟩
  · obtain ⟨g, h1, -, h2, h3⟩ := (c78_new_s (Single.hexOffQ m k H V).storable hc dn de (fun u _ => (dn, u)) (fun u _ _ => (de, u)) ()).1
    exact ⟨g, h1, h2, fun x y hx hy => h3.1 _ ⟨x, y, hx, hy, rfl⟩⟩
  · obtain ⟨g, h1, -, h2, h3⟩ := (c78_new_s (Single.hexOffQLew m k H V).storable hc dn de (fun u _ => (dn, u)) (fun u _ _ => (de, u)) ()).1
    exact ⟨g, h1, h2, fun x y hx hy => h3.1 _ ⟨x, y, hx, hy, rfl⟩⟩
  · obtain ⟨g, h1, -, h2, h3⟩ := (c78_new_s (Stored.double m H V).storable hc dn de (fun u _ => (dn, u)) (fun u _ _ => (de, u)) ()).1
    exact ⟨g, h1, h2, fun x y hx hy => h3.1 _ ⟨x, y, hx, hy, rfl⟩⟩

/-- **C78.** The same for the axial shapes, with the coordinate type `t` (`HexAxial`, or `hex2d::Coordinate<I>` holding the map). -/
theorem c78_const_axial (m : Machine) (t : CoordTy) (k : Marker) (H V : Nat) (ht : Holds t k.isFlatTop H V)
    (hc : (if H = 0 then 1 else H) * (if V = 0 then 1 else V) < m.half) (dn : N) (de : E) :
    (∃ g, newS (constHexAxialDefault (hexAxR m t k) H V) dn de = .ok g ∧ g.nodeBound = .ok (H * V) ∧
      ∀ x y, x < H → y < V → g.nodeWeight (axCoord k.isEven k.isFlatTop x y) = .ok (some dn)) ∧
    (k.isFlatTop = false → ∃ g, newS (constHexAxialDefault (hexAxRLew m t k) H V) dn de = .ok g ∧ g.nodeBound = .ok (H * V) ∧
      ∀ x y, x < H → y < V → g.nodeWeight (axCoord k.isEven k.isFlatTop x y) = .ok (some dn)) ∧
    (∃ g, newS (constHexAxialDefault (hexAxQ m t k) H V) dn de = .ok g ∧ g.nodeBound = .ok (H * V) ∧
      ∀ x y, x < H → y < V → g.nodeWeight (axCoord k.isEven k.isFlatTop x y) = .ok (some dn)) := by
  refine ⟨?_, ?_, ?_⟩
  · obtain ⟨g, h1, -, h2, h3⟩ := (c78_new_s (Lawful.hexAxR m t k H V ht).storable hc dn de (fun u _ => (dn, u)) (fun u _ _ => (de, u)) ()).1
    exact ⟨g, h1, h2, fun x y hx hy => h3.1 _ ⟨x, y, hx, hy, rfl⟩⟩
  · intro hk
    obtain ⟨g, h1, -, h2, h3⟩ := (c78_new_s (Single.hexAxRLew m t k hk H V ht).storable hc dn de (fun u _ => (dn, u)) (fun u _ _ => (de, u)) ()).1
    exact ⟨g, h1, h2, fun x y hx hy => h3.1 _ ⟨x, y, hx, hy, by rw [hk]; rfl⟩⟩
  · obtain ⟨g, h1, -, h2, h3⟩ := (c78_new_s (Lawful.hexAxQ m t k H V ht).storable hc dn de (fun u _ => (dn, u)) (fun u _ _ => (de, u)) ()).1
    exact ⟨g, h1, h2, fun x y hx hy => h3.1 _ ⟨x, y, hx, hy, rfl⟩⟩

/-! Default and const-size graphs that exist. -/
example : ∃ g : Graph Offset SquareAxis DSquareAxis Nat Nat, graphDefault (squareShapeDefault m64) 7 9 = .ok g ∧ g.nodeBound = .ok 0 := by
  obtain ⟨g, h1, -, h2, -⟩ := (c78_square_default m64 7 9).1
  exact ⟨g, h1, h2⟩
example : ∃ g, newS (constHexOffsetDefault (hexOffR m64 oddR) 5 4) 7 9 = .ok g ∧ g.nodeBound = .ok 20 ∧ g.nodeWeight ⟨4, 3⟩ = .ok (some 7) := by
  obtain ⟨g, h1, h2, h3⟩ := (c78_const m64 oddR 5 4 (by decide) 7 9).1
  exact ⟨g, h1, h2, h3 4 3 (by decide) (by decide)⟩

end

/-! ## C79: orders and pairs -/

section
variable {A D N E : Type} [DecidableEq A] [DecidableEq D]

theorem lex_idx {h x y x' y' : Nat} (hy : y < h) (hy' : y' < h) :
    lexCmp (compare x x') (compare y y') = compare (x * h + y) (x' * h + y') := by
  rcases Nat.lt_trichotomy x x' with hx | hx | hx
  · have h1 : (x + 1) * h ≤ x' * h := Nat.mul_le_mul_right _ hx
    rw [Nat.add_mul, Nat.one_mul] at h1
    rw [Nat.compare_eq_lt.2 hx, Nat.compare_eq_lt.2 (show x * h + y < x' * h + y' by omega)]; rfl
  · subst hx
    rw [Nat.compare_eq_eq.2 rfl]
    show compare y y' = _
    rcases Nat.lt_trichotomy y y' with h | h | h
    · rw [Nat.compare_eq_lt.2 h, Nat.compare_eq_lt.2 (by omega)]
    · rw [Nat.compare_eq_eq.2 h, Nat.compare_eq_eq.2 (by omega)]
    · rw [Nat.compare_eq_gt.2 h, Nat.compare_eq_gt.2 (by omega)]
  · have h1 : (x' + 1) * h ≤ x * h := Nat.mul_le_mul_right _ hx
    rw [Nat.add_mul, Nat.one_mul] at h1
    rw [Nat.compare_eq_gt.2 hx, Nat.compare_eq_gt.2 (show x' * h + y' < x * h + y by omega)]; rfl

/-- **C79.** On every map whose coordinates are positions in the storage (square and hex offset maps) the derived order of coordinates is the
order of the node indices. -/
theorem c79_offset_order {s : Shape Offset A D} {L : Lat Offset A D} {rep : Offset → Prop} {g : Graph Offset A D N E}
    {k : Contents Offset A N E} (hs : Storable s L rep) (hb : Built s L g k) (hL : L.coord = Offset.mk) {a b : Offset} (ha : L.Node a)
    (hb' : L.Node b) : ∃ i j, g.toIndex a = .ok i ∧ g.toIndex b = .ok j ∧ a.cmp b = compare i j := by
  have hg := hs.good hb
  obtain ⟨x, y, hx, hy, rfl⟩ := ha
  obtain ⟨x', y', hx', hy', rfl⟩ := hb'
  refine ⟨_, _, hg.toIndex hx hy, hg.toIndex hx' hy', ?_⟩
  rw [hL]
  exact lex_idx hy hy'

/-- **C79.** So it is on flat-top axial maps. -/
theorem c79_flat_order {s : Shape Axial A D} {L : Lat Axial A D} {rep : Axial → Prop} {g : Graph Axial A D N E}
    {k : Contents Axial A N E} (hs : Storable s L rep) (hb : Built s L g k) {even : Bool} (hL : L.coord = axCoord even true) {a b : Axial}
    (ha : L.Node a) (hb' : L.Node b) : ∃ i j, g.toIndex a = .ok i ∧ g.toIndex b = .ok j ∧ a.cmp b = compare i j := by
  have hg := hs.good hb
  obtain ⟨x, y, hx, hy, rfl⟩ := ha
  obtain ⟨x', y', hx', hy', rfl⟩ := hb'
  refine ⟨_, _, hg.toIndex hx hy, hg.toIndex hx' hy', ?_⟩
  rw [hL, ← lex_idx hy hy']
  show lexCmp (compare (x : Int) x') (compare ((y : Int) - axShift even x) (y' - axShift even x')) = _
  rcases Nat.lt_trichotomy x x' with h | h | h
  · rw [Nat.compare_eq_lt.2 h, Int.compare_eq_lt.2 (by omega)]; rfl
  · subst h
    rw [Nat.compare_eq_eq.2 rfl, Int.compare_eq_eq.2 rfl]
    show compare _ _ = compare y y'
    rcases Nat.lt_trichotomy y y' with h | h | h
    · rw [Nat.compare_eq_lt.2 h, Int.compare_eq_lt.2 (by omega)]
    · rw [Nat.compare_eq_eq.2 h, Int.compare_eq_eq.2 (by omega)]
    · rw [Nat.compare_eq_gt.2 h, Int.compare_eq_gt.2 (by omega)]
  · rw [Nat.compare_eq_gt.2 h, Int.compare_eq_gt.2 (by omega)]; rfl

/-- **C79.** It is not on any point-top axial map with three rows or more: of the nodes with indices 0 and 2 the second is the smaller. -/
theorem c79_point_order {s : Shape Axial A D} {L : Lat Axial A D} {rep : Axial → Prop} {g : Graph Axial A D N E}
    {k : Contents Axial A N E} (hs : Storable s L rep) (hb : Built s L g k) {even : Bool} (hL : L.coord = axCoord even false)
    (hw : 0 < L.width) (hh : 2 < L.height) :
    ∃ a b, L.Node a ∧ L.Node b ∧ g.toIndex a = .ok 0 ∧ g.toIndex b = .ok 2 ∧ b.cmp a = .lt := by
  have hg := hs.good hb
  refine ⟨_, _, ⟨0, 0, hw, by omega, rfl⟩, ⟨0, 2, hw, hh, rfl⟩, by rw [hg.toIndex hw (by omega), Nat.zero_mul],
    by rw [hg.toIndex hw hh, Nat.zero_mul], ?_⟩
  rw [hL]
  cases even <;> decide

/-- **C79.** Nor on any double-coordinate map with three rows or more: of the nodes with indices 1 and 2 the second is the smaller. -/
theorem c79_double_order {s : Shape DCoord A D} {L : Lat DCoord A D} {rep : DCoord → Prop} {g : Graph DCoord A D N E}
    {k : Contents DCoord A N E} (hs : Storable s L rep) (hb : Built s L g k) (hL : ∀ x y, L.coord x y = ⟨2 * x + y % 2, y⟩)
    (hw : 0 < L.width) (hh : 2 < L.height) :
    ∃ a b, L.Node a ∧ L.Node b ∧ g.toIndex a = .ok 1 ∧ g.toIndex b = .ok 2 ∧ b.cmp a = .lt := by
  have hg := hs.good hb
  refine ⟨_, _, ⟨0, 1, hw, by omega, rfl⟩, ⟨0, 2, hw, hh, rfl⟩, by rw [hg.toIndex hw (by omega), Nat.zero_mul],
    by rw [hg.toIndex hw hh, Nat.zero_mul], ?_⟩
  rw [hL, hL]
  decide

end

/-- The index of a legacy node. -/
theorem Sq.toIndex_eq {N E : Type} {k : Sq.Cfg} {h v : Nat} {g : Sq.G N E} {c : Contents Sq.NodeIx Sq.Axis N E} (hb : Sq.Built k h v g c)
    (hf : k.Fits h v) {n : Sq.NodeIx} (hn : (k.grid h v).Node n) : g.toIndex n = .ok (n.horizontal * v + n.vertical) := by
  have hs := hb.stores
  have h1 : n.horizontal < h := hn.1
  have h2 : n.vertical < v := hn.2
  have h3 := idx_lt h1 h2
  have h4 : h * v < k.m.half := (hb.sizes hf).small
  have h5 : g.verticalNodeCount = v := hs.nodes.cols
  unfold Sq.G.toIndex
  rw [h5, hs.cfg, umul_ok (by omega)]
  simp only [bind, Except.bind]
  exact uadd_ok (by omega)

/-- **C79.** The order of the legacy `NodeIndex` is the order of the node indices. -/
theorem c79_legacy_order {N E : Type} {k : Sq.Cfg} {h v : Nat} {g : Sq.G N E} {c : Contents Sq.NodeIx Sq.Axis N E} (hb : Sq.Built k h v g c)
    (hf : k.Fits h v) {a b : Sq.NodeIx} (ha : (k.grid h v).Node a) (hb' : (k.grid h v).Node b) :
    ∃ i j, g.toIndex a = .ok i ∧ g.toIndex b = .ok j ∧ a.cmp b = compare i j := by
  exact ⟨_, _, Sq.toIndex_eq hb hf ha, Sq.toIndex_eq hb hf hb', lex_idx ha.2 hb'.2⟩

/-- **C79.** Pairs. `Offset` and `SquareOffset` come back from pairs unchanged. A legacy `NodeIndex` made from a pair equals it exactly if
both parts fit the index type: `NodeIndex::<u8>::from((256, 0))` is silently `(0, 0)`. -/
theorem c79_pairs (k : Sq.Cfg) (p : Nat × Nat) :
    (Offset.ofPair id p).toPair id = p ∧ (∀ c : Offset, Offset.ofPair id (c.toPair id) = c) ∧
    squareOffsetEq (squareOffsetOf p) p = true ∧ (∀ c, squareOffsetEq c p = true ↔ c = squareOffsetOf p) ∧
    ((Sq.NodeIx.ofPair k p.1 p.2).eqPair p = true ↔ p.1 < k.ix ∧ p.2 < k.ix) ∧
    (∀ n : Sq.NodeIx, n.eqPair p = true ↔ n.toPair = p) := by
  have hp := k.ix_pos
  have hm : ∀ a, a % k.ix = a ↔ a < k.ix := fun a =>
    ⟨fun h => h ▸ Nat.mod_lt a hp, Nat.mod_eq_of_lt⟩
  refine ⟨rfl, fun _ => rfl, by simp [squareOffsetEq, squareOffsetOf], fun c => ?_, ?_, fun n => ?_⟩
  · cases c
    simp [squareOffsetEq, squareOffsetOf, Offset.mk.injEq]
  · rw [← hm p.1, ← hm p.2]
    obtain ⟨x, y⟩ := p
    simp [Sq.NodeIx.eqPair, Sq.NodeIx.ofPair, Sq.Cfg.new]
  · simp [Sq.NodeIx.eqPair, Sq.NodeIx.toPair]

/-! The orders on graphs that exist: a square map, an axial map with rows sheared, a double-coordinate map. -/
example : ∃ g : Graph Offset SquareAxis DSquareAxis Nat Nat, newDefault (squareShape m64 4 5) 0 0 = .ok g ∧
    ∃ i j, g.toIndex ⟨1, 4⟩ = .ok i ∧ g.toIndex ⟨2, 0⟩ = .ok j ∧ Ordering.lt = compare i j := by
  obtain ⟨g, k, h1, h2, -⟩ := (c78_new (N := Nat) (E := Nat) (Lawful.square m64 4 5).storable 0 0).1 (by decide)
  exact ⟨g, h1, c79_offset_order (Lawful.square m64 4 5).storable h2 rfl ⟨1, 4, by decide, by decide, rfl⟩ ⟨2, 0, by decide, by decide, rfl⟩⟩
example : ∃ (g : Graph Axial AxisR AxisDR Nat Nat) (a b : Axial), newDefault (hexAxR m64 (isizeTy m64) oddR 4 5) 0 0 = .ok g ∧
    g.toIndex a = .ok 0 ∧ g.toIndex b = .ok 2 ∧ b.cmp a = .lt := by
  have hl := (Lawful.hexAxR m64 (isizeTy m64) oddR 4 5 (.isize (by decide) (by decide))).storable
  obtain ⟨g, k, h1, h2, -⟩ := (c78_new (N := Nat) (E := Nat) hl 0 0).1 (by decide)
  obtain ⟨a, b, -, -, h3, h4, h5⟩ := c79_point_order hl h2 rfl (by decide) (by decide)
  exact ⟨g, a, b, h1, h3, h4, h5⟩
example : ∃ (g : Graph DCoord AxisR AxisDR Nat Nat) (a b : DCoord), newDefault (dblShape m64 4 5) 0 0 = .ok g ∧
    g.toIndex a = .ok 1 ∧ g.toIndex b = .ok 2 ∧ b.cmp a = .lt := by
  have hl := (Stored.double m64 4 5).storable
  obtain ⟨g, k, h1, h2, -⟩ := (c78_new (N := Nat) (E := Nat) hl 0 0).1 (by decide)
  obtain ⟨a, b, -, -, h3, h4, h5⟩ := c79_double_order hl h2 (fun _ _ => rfl) (by decide) (by decide)
  exact ⟨g, a, b, h1, h3, h4, h5⟩

example : ∃ g : Graph Offset SquareAxis DSquareAxis Nat Nat, newS (squareShape m64 3 2) 7 9 = .ok g ∧ g.nodeBound = .ok 6 := by
  obtain ⟨g, h1, -, h2, -⟩ := (c78_new_s (Lawful.square m64 3 2).storable (by decide) 7 9 (fun (u : Unit) _ => (0, u)) (fun u _ _ => (0, u)) ()).1
  exact ⟨g, h1, h2⟩
example : ∃ g, newS (constHexAxialDefault (hexAxR m64 (isizeTy m64) oddR) 5 4) 7 9 = .ok g ∧ g.nodeBound = .ok 20 ∧
    g.nodeWeight ⟨1, 3⟩ = .ok (some 7) := by
  obtain ⟨g, h1, h2, h3⟩ := (c78_const_axial m64 (isizeTy m64) oddR 5 4 (.isize (by decide) (by decide)) (by decide) 7 9).1
  exact ⟨g, h1, h2, h3 2 3 (by decide) (by decide)⟩
example : ∃ (g : Graph Axial AxisQ AxisDQ Nat Nat) (i j : Nat), g.toIndex ⟨1, 4⟩ = .ok i ∧ g.toIndex ⟨2, -1⟩ = .ok j ∧ Ordering.lt = compare i j := by
  have hl := (Lawful.hexAxQ m64 (isizeTy m64) ⟨false, true⟩ 4 5 (.isize (by decide) (by decide))).storable
  obtain ⟨g, k, h1, h2, -⟩ := (c78_new (N := Nat) (E := Nat) hl 0 0).1 (by decide)
  obtain ⟨i, j, h3, h4, h5⟩ := c79_flat_order hl h2 (even := false) rfl (a := ⟨1, 4⟩) (b := ⟨2, -1⟩) (Lat.mem_nodes.1 (by decide)) (Lat.mem_nodes.1 (by decide))
  exact ⟨g, i, j, h3, h4, h5⟩
example : ∃ (g : Sq.G Nat Nat) (i j : Nat), g.toIndex ⟨1, 1⟩ = .ok i ∧ g.toIndex ⟨2, 0⟩ = .ok j ∧ Ordering.lt = compare i j := by
  obtain ⟨g, c, hb, -⟩ := Sq.exGraph Sq.exCfg (by decide)
  obtain ⟨i, j, h⟩ := c79_legacy_order hb ⟨by decide, by decide⟩ (a := ⟨1, 1⟩) (b := ⟨2, 0⟩) (by decide) (by decide)
  exact ⟨g, i, j, h⟩
example : (Sq.NodeIx.ofPair Sq.exCfg 3 300).eqPair (3, 300) = false ∧ (Sq.NodeIx.ofPair Sq.exCfg 3 200).eqPair (3, 200) = true :=
  ⟨by rw [Bool.eq_false_iff]; exact fun h => absurd ((c79_pairs Sq.exCfg (3, 300)).2.2.2.2.1.1 h).2 (by decide),
    (c79_pairs Sq.exCfg (3, 200)).2.2.2.2.1.2 ⟨by decide, by decide⟩⟩

end LG
