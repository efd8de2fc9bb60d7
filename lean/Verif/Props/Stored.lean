import Verif.Lemmas.Stored
import Verif.Props.Edges
/- C57, C58: storage on the shapes whose moves do not form a lattice. -/
set_option linter.unusedSectionVars false
namespace LG
section
variable {C A D N E σ : Type} [DecidableEq C] [DecidableEq A] [DecidableEq D]
variable {g : Graph C A D N E} {s : Shape C A D} {L : Lat C A D} {rep : C → Prop} {k : Contents C A N E}

/-- **C57.** `new_with` succeeds on every such shape of an acceptable size, calling the node closure once per node and the edge
closure once per announced edge, in the order of C01. -/
theorem c57_new_with (hs : Storable s L rep) (hc : Constructible s) (n : σ → C → N × σ) (e : σ → C → A → E × σ) (st : σ) :
    ∃ g : Graph C A D N E, newWith s n e st = .ok (g, (runCalls n e (callSeq L) st emptyContents).2) ∧
      Built s L g (runCalls n e (callSeq L) st emptyContents).1 := by
  obtain ⟨g, h, _⟩ := newWith_base (hs.impl hc) hs.base hc n e st
  exact ⟨g, h, .new h⟩

/-- **C57.** `node_weight` and `edge_weight` agree with the contents in every reachable state, and the contents have exactly
the nodes and the announced edges. -/
theorem c57_weights (hs : Storable s L rep) (hb : Built s L g k) (c : C) (a : A) :
    (L.Node c ∨ rep c → g.nodeWeight c = .ok (k.node c) ∧ g.edgeWeight c a = .ok (k.edge c a)) ∧
    ((k.node c).isSome ↔ L.Node c) ∧ ((k.edge c a).isSome ↔ L.HasEdge c a) := by
  have hg := hs.good hb
  exact ⟨fun h => ⟨nodeWeight_eq hg.impl hg.inv hg.total h, edgeWeight_eq hg.impl hg.inv hg.total h⟩,
    hg.total.node c, hg.total.edge c a⟩

/-- **C57.** `node_references` yields every node with its weight, in index order. -/
theorem c57_node_references (hs : Storable s L rep) (hb : Built s L g k) : Yields (nodeRefsNext g) 0 (allNodes L k) := by
  have hg := hs.good hb
  have h := nodeRefs_yields hg.impl hg.inv hg.total (L.width * L.height) 0 (by omega)
  rwa [← List.range_eq_range', ← L.nodes_eq] at h

/-- **C57.** `edge_references` yields every stored edge with its weight, and never reads an unwritten slot. -/
theorem c57_edge_references (hs : Storable s L rep) (hb : Built s L g k) :
    Yields (edgeRefsNext g) edgeRefsInit (allEdges L k) ∧
    ∀ r : EdgeRef C D E, r ∈ allEdges L k ↔ L.Node r.source ∧ L.fwd (L.ax r.direction) = r.direction ∧
      L.nbr r.source r.direction = some r.target ∧ g.edgeWeight r.source (L.ax r.direction) = .ok (some r.weight) := by
  have hg := hs.good hb
  refine ⟨edgeRefs_yields hs.base.dir hg.impl hg.inv hg.total, fun r => ?_⟩
  rw [mem_allEdges hs.base.dir]
  constructor
  · rintro ⟨h1, h2, h3, h4⟩
    exact ⟨h1, h2, h3, by rw [edgeWeight_eq hg.impl hg.inv hg.total (.inl h1), h4]⟩
  · rintro ⟨h1, h2, h3, h4⟩
    rw [edgeWeight_eq hg.impl hg.inv hg.total (.inl h1)] at h4
    exact ⟨h1, h2, h3, by simpa using h4⟩

/-- **C57.** `neighbors` yields the moves the shape makes. -/
theorem c57_neighbors (hs : Storable s L rep) (hb : Built s L g k) {a : C} (ha : L.Node a) :
    Yields (neighborsNext g.s a) 0 (L.nbrs a) := by
  have h := neighbors_yields (hs.good hb).impl ha L.dirs.length 0 (by omega)
  rwa [List.drop_zero] at h

/-- **C58** for nodes all of whose edges were announced: `edges` yields them. The full claim has no such hypothesis; it fails
in exactly the remaining cases, see `c58_edges_ub`, `c58_offQ`, `c58_offQLew`. -/
theorem c58_edges_partial (hs : Storable s L rep) (hb : Built s L g k) {a : C} (ha : L.Node a) (hr : L.Readable a) :
    ∃ it, g.edgesOf a = .ok it ∧ Yields (edgesNext g) it (outEdges L k a) := (hs.good hb).edges_yields hs.base ha hr

/-- **C58**, what happens otherwise: if the edge in some direction has its slot in the graph but was not announced, iterating
`edges` reads uninitialised memory. -/
theorem c58_edges_ub (hs : Storable s L rep) (hb : Built s L g k) {a : C} (ha : L.Node a)
    (hkn : ∀ d t, L.nbr a d = some t → L.Node (L.key a d t).1) (hr : ¬ L.Readable a) :
    ∃ it, g.edgesOf a = .ok it ∧ Fails (edgesNext g) it .ub := (hs.good hb).edges_fails hs.base ha hkn hr

end

/-! ### Which nodes are concerned -/

theorem node_mk {A D : Type} {L : Lat Offset A D} (hco : L.coord = Offset.mk) {c : Offset} :
    L.Node c ↔ c.horizontal < L.width ∧ c.vertical < L.height := by
  unfold Lat.Node
  rw [hco]
  constructor
  · rintro ⟨x, y, hx, hy, rfl⟩; exact ⟨hx, hy⟩
  · rintro ⟨hx, hy⟩; exact ⟨_, _, hx, hy, rfl⟩

theorem qNbr_isSome {even : Bool} {h v : Nat} {c : Offset} {d : AxisDQ} : (qNbr even h v c d).isSome ↔
    0 ≤ (c.horizontal : Int) + (qStep d (upRow even c.vertical)).1 ∧ c.horizontal + (qStep d (upRow even c.vertical)).1 < h ∧
    0 ≤ (c.vertical : Int) + (qStep d (upRow even c.vertical)).2 ∧
    (c.vertical + (qStep d (upRow even c.vertical)).2 < (v : Int) ∨ d = .NE) := by
  unfold qNbr
  simp only
  split <;> simp_all

theorem qLewNbr_isSome {even : Bool} {h v : Nat} {c : Offset} {d : AxisDQ} (hx : c.horizontal < h) :
    (qLewNbr even h v c d).isSome ↔
    ((qLewStep d (upRow even c.vertical)).2 = true ∨
      0 ≤ (c.horizontal : Int) + (qLewStep d (upRow even c.vertical)).1.1 ∧
      c.horizontal + (qLewStep d (upRow even c.vertical)).1.1 < (h : Int)) ∧
    0 ≤ (c.vertical : Int) + (qLewStep d (upRow even c.vertical)).1.2 ∧
    c.vertical + (qLewStep d (upRow even c.vertical)).1.2 < (v : Int) := by
  have hr := qLewStep_range d (upRow even c.vertical)
  unfold qLewNbr wrapCol
  obtain ⟨cx, cy⟩ := c
  simp only at hx hr ⊢
  generalize qLewStep d (upRow even cy) = p at hr ⊢
  obtain ⟨⟨dx, dy⟩, b⟩ := p
  simp only at hr ⊢
  cases b <;> simp only [Bool.false_eq_true, if_true, if_false, true_or, false_or, true_and]
  · split <;> simp only [Option.isSome_some, Option.isSome_none, Bool.false_eq_true, true_iff, false_iff] <;> omega
  · by_cases h1 : (cx : Int) + dx < 0
    · simp only [h1, if_true]
      split <;> simp only [Option.isSome_some, Option.isSome_none, Bool.false_eq_true, true_iff, false_iff] <;> omega
    · by_cases h2 : (h : Int) ≤ cx + dx
      · simp only [h1, h2, if_true, if_false]
        split <;> simp only [Option.isSome_some, Option.isSome_none, Bool.false_eq_true, true_iff, false_iff] <;> omega
      · simp only [h1, h2, if_false]
        split <;> simp only [Option.isSome_some, Option.isSome_none, Bool.false_eq_true, true_iff, false_iff] <;> omega

/-- **C58**, flat-top offset shapes: `edges(c)` is fine except in the last row when that row is not an `upRow`, and there
except in the last column. -/
theorem c58_offQ {even : Bool} {h v : Nat} {c : Offset} (hc : (offLatQ even h v).Node c) :
    (∀ d t, (offLatQ even h v).nbr c d = some t → (offLatQ even h v).Node ((offLatQ even h v).key c d t).1) ∧
    ((offLatQ even h v).Readable c ↔ ¬ (c.vertical + 1 = v ∧ upRow even c.vertical = false ∧ c.horizontal + 1 < h)) := by
  have hc' := (node_mk rfl).1 hc
  obtain ⟨x, y⟩ := c
  simp only [offLatQ, hexLatQ] at hc'
  refine ⟨?_, ?_, ?_⟩
  · intro d t hn
    rw [node_mk rfl]
    have hq := qNbr_iff.1 hn
    cases hb : upRow even y <;> cases d <;> simp [offLatQ, hexLatQ, Lat.key, qStep, hb] at hq ⊢ <;> omega
  · rintro hr ⟨h1, h2, h3⟩
    simp only at h1 h2 h3
    have hn : (offLatQ even h v).nbr ⟨x, y⟩ .NW = some ⟨x + 1, y⟩ := by
      show qNbr _ _ _ _ _ = _
      rw [qNbr_iff]
      simp [qStep, h2]
      omega
    have := (hr _ _ hn).2
    simp only [offLatQ, hexLatQ, Lat.key] at this
    simp [qNbr_isSome, qStep, h2] at this
    omega
  · intro hbad d t hn
    have hq := qNbr_iff.1 hn
    obtain ⟨tx, ty⟩ := t
    have hs := fun d => qNbr_isSome (even := even) (h := h) (v := v) (c := ⟨tx, ty⟩) (d := d)
    refine ⟨?_, ?_⟩
    · rw [node_mk rfl]
      cases hb : upRow even y <;> cases d <;> simp [offLatQ, hexLatQ, Lat.key, qStep, hb] at hq ⊢ <;> omega
    · have hrow : ty + 1 = y → upRow even ty = !upRow even y := by
        rintro rfl; rw [upRow_succ]; simp
      cases d with
      | N | NE | SE => simp only [offLatQ, hexLatQ, Lat.key, if_true]; simp only [offLatQ, hexLatQ] at hn; rw [hn]; rfl
      | S =>
        simp [offLatQ, hexLatQ, Lat.key, hs, qStep] at hq ⊢; omega
      | SW =>
        cases hb : upRow even y
        · simp [qStep, hb] at hq
          obtain rfl : ty = y := by omega
          simp [offLatQ, hexLatQ, Lat.key, hs, qStep, hb]; omega
        · simp [qStep, hb] at hq
          have := hrow (by omega)
          simp [offLatQ, hexLatQ, Lat.key, hs, qStep, hb, this]; omega
      | NW =>
        cases hb : upRow even y
        · simp [qStep, hb] at hq
          obtain rfl : ty = y := by omega
          simp only [hb, true_and] at hbad
          simp [offLatQ, hexLatQ, Lat.key, hs, qStep, hb]; omega
        · simp [qStep, hb] at hq
          have := hrow (by omega)
          simp [offLatQ, hexLatQ, Lat.key, hs, qStep, hb, this]; omega

/-- **C58**, looped flat-top offset shapes: `edges(c)` is fine except in rows that are not an `upRow`, for the last row beyond
the first column and for the first row before the last column. -/
theorem c58_offQLew {even : Bool} {h v : Nat} {c : Offset} (hc : (offLatQLoop even h v).Node c) :
    (∀ d t, (offLatQLoop even h v).nbr c d = some t → (offLatQLoop even h v).Node ((offLatQLoop even h v).key c d t).1) ∧
    ((offLatQLoop even h v).Readable c ↔ ¬ (upRow even c.vertical = false ∧
      (c.vertical + 1 = v ∧ 1 ≤ c.horizontal ∨ c.vertical = 0 ∧ c.horizontal + 1 < h))) := by
  have hc' := (node_mk rfl).1 hc
  obtain ⟨x, y⟩ := c
  simp only [offLatQLoop, hexLatQ] at hc'
  refine ⟨?_, ?_, ?_⟩
  · intro d t hn
    rw [node_mk rfl]
    have hq := (qLewNbr_iff hc'.1).1 hn
    unfold Lat.key
    split
    · exact hc'
    · exact ⟨hq.1, hq.2.1⟩
  · rintro hr ⟨h2, h3⟩
    simp only at h2 h3
    rcases h3 with ⟨h1, h3⟩ | ⟨h1, h3⟩
    · have hn : (offLatQLoop even h v).nbr ⟨x, y⟩ .SW = some ⟨x - 1, y⟩ := by
        show qLewNbr _ _ _ _ _ = _
        rw [qLewNbr_iff hc'.1]
        simp [qLewStep, h2]
        omega
      have := (hr _ _ hn).2
      simp only [offLatQLoop, hexLatQ, Lat.key] at this
      simp [qLewNbr_isSome (c := ⟨x - 1, y⟩) (show x - 1 < h by omega), qLewStep, h2] at this
      omega
    · have hn : (offLatQLoop even h v).nbr ⟨x, y⟩ .NW = some ⟨x + 1, y⟩ := by
        show qLewNbr _ _ _ _ _ = _
        rw [qLewNbr_iff hc'.1]
        simp [qLewStep, h2]
        omega
      have := (hr _ _ hn).2
      simp only [offLatQLoop, hexLatQ, Lat.key] at this
      simp [qLewNbr_isSome (c := ⟨x + 1, y⟩) h3, qLewStep, h2] at this
      omega
  · intro hbad d t hn
    have hq := (qLewNbr_iff hc'.1).1 hn
    obtain ⟨tx, ty⟩ := t
    have hs := fun d => qLewNbr_isSome (even := even) (v := v) (c := ⟨tx, ty⟩) (d := d) hq.1
    refine ⟨?_, ?_⟩
    · rw [node_mk rfl]
      unfold Lat.key
      split
      · exact hc'
      · exact ⟨hq.1, hq.2.1⟩
    · have hrow : ty + 1 = y → upRow even ty = !upRow even y := by
        rintro rfl; rw [upRow_succ]; simp
      have hrow' : ty = y + 1 → upRow even ty = !upRow even y := by
        rintro rfl; rw [upRow_succ]
      cases d with
      | N | NE | SE =>
        simp only [offLatQLoop, hexLatQ, Lat.key, if_true]; simp only [offLatQLoop, hexLatQ] at hn; rw [hn]; rfl
      | S =>
        simp [offLatQLoop, hexLatQ, Lat.key, hs, qLewStep] at hq ⊢; omega
      | SW =>
        cases hb : upRow even y
        · simp [qLewStep, hb] at hq
          obtain rfl : ty = y := by omega
          simp only [hb, true_and] at hbad
          simp [offLatQLoop, hexLatQ, Lat.key, hs, qLewStep, hb]; omega
        · simp [qLewStep, hb] at hq
          have := hrow (by omega)
          simp [offLatQLoop, hexLatQ, Lat.key, hs, qLewStep, hb, this]; omega
      | NW =>
        cases hb : upRow even y
        · simp [qLewStep, hb] at hq
          obtain rfl : ty = y := by omega
          simp only [hb, true_and] at hbad
          simp [offLatQLoop, hexLatQ, Lat.key, hs, qLewStep, hb]; omega
        · simp [qLewStep, hb] at hq
          have := hrow' (by omega)
          simp [offLatQLoop, hexLatQ, Lat.key, hs, qLewStep, hb, this]; omega

/-- **C58**, directed flat-top offset shapes: `edges` is always fine, each node holds all its outgoing edges. -/
theorem c58_offQDirected {even : Bool} {h v : Nat} {c : Offset} (hc : (offLatDQ even h v).Node c) :
    (offLatDQ even h v).Readable c := by
  intro d t hn
  have hk : (offLatDQ even h v).key c d t = (c, d) := by simp [offLatDQ, hexLatDQ, Lat.key]
  rw [hk]
  refine ⟨hc, ?_⟩
  show ((offLatDQ even h v).nbr c d).isSome
  rw [hn]; rfl

theorem axLewNbr_isSome {even : Bool} {h v : Nat} {c : Axial} {u : Int × Int} :
    (axLewNbr even h v c u).isSome ↔ 0 ≤ c.q + u.2 ∧ c.q + u.2 < v := by
  unfold axLewNbr displaced
  simp only
  repeat' split
  all_goals simp
  all_goals omega

theorem axLewNbr_back {even : Bool} {h v : Nat} {c t : Axial} (hc : InAxial even h v c) {u : Int × Int}
    (hu : u = (0, -1) ∨ u = (-1, 0) ∨ u = (-1, 1)) (hn : axLewNbr even h v c u = some t) :
    InAxial even h v t ∧ t.q = c.q + u.2 := by
  have h1 := axShift_step even c.q
  rw [← shear_eq, ← shear_eq, ← shear_eq] at h1
  unfold InAxial at *
  obtain ⟨r, q⟩ := c
  obtain ⟨tr, tq⟩ := t
  unfold axLewNbr displaced column at hn
  simp only at *
  split at hn
  · cases hn
  · split at hn
    · simp only [Option.some.injEq, Axial.mk.injEq] at hn
      obtain ⟨rfl, rfl⟩ := hn
      rcases hu with rfl | rfl | rfl <;> simp only [Int.add_zero, and_true] at * <;> omega
    · split at hn
      · rename_i h3
        rcases hu with rfl | rfl | rfl <;> simp only [Int.add_zero] at * <;> omega
      · simp only [Option.some.injEq, Axial.mk.injEq] at hn
        obtain ⟨rfl, rfl⟩ := hn
        rcases hu with rfl | rfl | rfl <;> simp only [Int.add_zero, and_true] at * <;> omega

/-- **C58**, looped axial shapes: `edges` of a node is always fine (though it may name cells outside the graph, C31). -/
theorem c58_axRLew {even : Bool} {h v : Nat} {c : Axial} (hc : (axLatRLoop even h v).Node c) :
    (axLatRLoop even h v).Readable c := by
  intro d t hn
  have hi : InAxial even h v c := inAxial_iff.2 (axIn_iff.2 hc)
  have hq : 0 ≤ c.q ∧ c.q < v := by unfold InAxial at hi; omega
  cases d with
  | NE | E | SE => exact ⟨hc, by simp only [axLatRLoop, hexLatR, Lat.key] at hn ⊢; simp [hn]⟩
  | SW | W | NW =>
    obtain ⟨h1, h2⟩ := axLewNbr_back hi (by simp [axialStepR]) hn
    refine ⟨axIn_iff.1 (inAxial_iff.1 h1), ?_⟩
    simp only [axLatRLoop, hexLatR, Lat.key, reduceCtorEq, if_false]
    rw [axLewNbr_isSome, h2]
    simp only [axialStepR]
    omega

/-- **C58**, the same with flat-top directions. -/
theorem c58_axQLew {even : Bool} {h v : Nat} {c : Axial} (hc : (axLatQLoop even h v).Node c) :
    (axLatQLoop even h v).Readable c := by
  intro d t hn
  have hi : InAxial even h v c := inAxial_iff.2 (axIn_iff.2 hc)
  have hq : 0 ≤ c.q ∧ c.q < v := by unfold InAxial at hi; omega
  cases d with
  | N | NE | SE => exact ⟨hc, by simp only [axLatQLoop, hexLatQ, Lat.key] at hn ⊢; simp [hn]⟩
  | S | SW | NW =>
    obtain ⟨h1, h2⟩ := axLewNbr_back hi (by simp [axialStepQ]) hn
    refine ⟨axIn_iff.1 (inAxial_iff.1 h1), ?_⟩
    simp only [axLatQLoop, hexLatQ, Lat.key, reduceCtorEq, if_false]
    rw [axLewNbr_isSome, h2]
    simp only [axialStepQ]
    omega

/-- **C58**, directed looped axial shapes: each node holds all its outgoing edges. -/
theorem c58_axDRLew {even : Bool} {h v : Nat} {c : Axial} (hc : (axLatDRLoop even h v).Node c) :
    (axLatDRLoop even h v).Readable c := by
  intro d t hn
  have hk : (axLatDRLoop even h v).key c d t = (c, d) := by simp [axLatDRLoop, hexLatDR, Lat.key]
  rw [hk]
  refine ⟨hc, ?_⟩
  show ((axLatDRLoop even h v).nbr c d).isSome
  rw [hn]; rfl

/-- **C58**, the same with flat-top directions. -/
theorem c58_axDQLew {even : Bool} {h v : Nat} {c : Axial} (hc : (axLatDQLoop even h v).Node c) :
    (axLatDQLoop even h v).Readable c := by
  intro d t hn
  have hk : (axLatDQLoop even h v).key c d t = (c, d) := by simp [axLatDQLoop, hexLatDQ, Lat.key]
  rw [hk]
  refine ⟨hc, ?_⟩
  show ((axLatDQLoop even h v).nbr c d).isSome
  rw [hn]; rfl

/-- **C58** fails: every `OddQ` graph with at least two columns and an odd number of rows, and every `EvenQ` one with an even
number of rows, has a node whose `edges` reads uninitialised memory. -/
theorem c58_offQ_fails (m : Machine) (k : Marker) (h v : Nat) (hh : 2 ≤ h) (hv : upRow k.isEven v = true)
    (hv0 : 1 ≤ v) (hc : Constructible (hexOffQ m k h v)) {N E σ : Type} (n : σ → Offset → N × σ)
    (e : σ → Offset → AxisQ → E × σ) (st : σ) :
    ∃ g st', newWith (hexOffQ m k h v) n e st = .ok (g, st') ∧
      ∃ it, g.edgesOf ⟨0, v - 1⟩ = .ok it ∧ Fails (edgesNext g) it .ub := by
  obtain ⟨g, h1, h2⟩ := c57_new_with (.single (.hexOffQ m k h v)) hc n e st
  have hn : (offLatQ k.isEven h v).Node ⟨0, v - 1⟩ := (node_mk rfl).2 ⟨by simp only [offLatQ, hexLatQ]; omega, by
    simp only [offLatQ, hexLatQ]; omega⟩
  have hb := c58_offQ hn
  refine ⟨g, _, h1, c58_edges_ub (.single (.hexOffQ m k h v)) h2 hn hb.1 (fun hr => hb.2.1 hr ⟨?_, ?_, by simp only; omega⟩)⟩
  · simp only; omega
  · have := upRow_succ k.isEven (v - 1)
    rw [show v - 1 + 1 = v by omega, hv] at this
    simpa using this.symm

/-- **C58** fails on the looped shape too: the first row of every `OddQ` graph with at least two columns. -/
theorem c58_offQLew_fails (m : Machine) (k : Marker) (h v : Nat) (hh : 2 ≤ h) (hv0 : 1 ≤ v) (hk : k.isEven = false)
    (hc : Constructible (hexOffQLew m k h v)) {N E σ : Type} (n : σ → Offset → N × σ)
    (e : σ → Offset → AxisQ → E × σ) (st : σ) :
    ∃ g st', newWith (hexOffQLew m k h v) n e st = .ok (g, st') ∧
      ∃ it, g.edgesOf ⟨0, 0⟩ = .ok it ∧ Fails (edgesNext g) it .ub := by
  obtain ⟨g, h1, h2⟩ := c57_new_with (.single (.hexOffQLew m k h v)) hc n e st
  have hn : (offLatQLoop k.isEven h v).Node ⟨0, 0⟩ := (node_mk rfl).2 ⟨by simp only [offLatQLoop, hexLatQ]; omega, by
    simp only [offLatQLoop, hexLatQ]; omega⟩
  have hb := c58_offQLew hn
  refine ⟨g, _, h1, c58_edges_ub (.single (.hexOffQLew m k h v)) h2 hn hb.1 (fun hr => hb.2.1 hr ⟨?_, .inr ⟨rfl, by simp only; omega⟩⟩)⟩
  rw [hk]; rfl

example : ∃ g st', newWith (hexOffQ m64 ⟨false, false⟩ 3 3) (fun u c => (c.vertical, u)) (fun u c _ => (c.horizontal, u)) () =
      .ok (g, st') ∧ ∃ it, g.edgesOf ⟨0, 2⟩ = .ok it ∧ Fails (edgesNext g) it .ub :=
  c58_offQ_fails m64 _ 3 3 (by decide) (by decide) (by decide) (by decide) _ _ ()
example : (offLatQ false 3 3).Node ⟨2, 2⟩ ∧ (offLatQ false 3 3).Readable ⟨2, 2⟩ :=
  have h : (offLatQ false 3 3).Node ⟨2, 2⟩ := ⟨2, 2, by decide, by decide, rfl⟩
  ⟨h, (c58_offQ h).2.2 (by decide)⟩
example : (axLatRLoop false 4 4).Node ⟨2, 3⟩ ∧ (axLatRLoop false 4 4).nbrs ⟨2, 3⟩ ≠ [] :=
  ⟨⟨3, 3, by decide, by decide, by decide⟩, by decide⟩

/-! ### Instances: the looped axial shape (2 × 3, its moves are not those of the lattice) and the flat-top offset shape -/
example : ∃ (g : Graph Axial AxisR AxisDR Nat Nat) (k : Contents Axial AxisR Nat Nat),
    Built (hexAxRLew m64 (isizeTy m64) oddR 2 3) (axLatRLoop oddR.isEven 2 3) g k ∧
    g.nodeWeight ⟨0, 2⟩ = .ok (k.node ⟨0, 2⟩) ∧ (k.node ⟨0, 2⟩).isSome ∧ ¬ (k.node ⟨2, 2⟩).isSome ∧
    Yields (nodeRefsNext g) 0 (allNodes (axLatRLoop oddR.isEven 2 3) k) ∧
    Yields (edgeRefsNext g) edgeRefsInit (allEdges (axLatRLoop oddR.isEven 2 3) k) := by
  have hs := (Single.hexAxRLew m64 (isizeTy m64) oddR rfl 2 3 (.isize (by decide) (by decide))).storable
  obtain ⟨g, -, h2⟩ := c57_new_with hs (by decide) (fun (n : Nat) _ => (n, n + 1)) (fun (n : Nat) _ _ => (n, n + 1)) 0
  have hn : (axLatRLoop oddR.isEven 2 3).Node ⟨0, 2⟩ := ⟨1, 2, by decide, by decide, by decide⟩
  have hw := c57_weights hs h2 ⟨0, 2⟩ .NE
  refine ⟨g, _, h2, (hw.1 (.inl hn)).1, hw.2.1.2 hn, fun hc => ?_, c57_node_references hs h2, (c57_edge_references hs h2).1⟩
  have := (c57_weights hs h2 ⟨2, 2⟩ .NE).2.1.1 hc
  rw [← Lat.mem_nodes] at this
  revert this; decide
example : ∃ (g : Graph Offset AxisQ AxisDQ Nat Nat) (k : Contents Offset AxisQ Nat Nat),
    Built (hexOffQ m64 ⟨false, false⟩ 3 3) (offLatQ false 3 3) g k ∧
    ∃ it, g.edgesOf ⟨1, 2⟩ = .ok it ∧ Fails (edgesNext g) it .ub := by
  have hs := (Single.hexOffQ m64 ⟨false, false⟩ 3 3).storable
  obtain ⟨g, -, h2⟩ := c57_new_with hs (by decide) (fun (n : Nat) _ => (n, n + 1)) (fun (n : Nat) _ _ => (n, n + 1)) 0
  have hn : (offLatQ false 3 3).Node ⟨1, 2⟩ := ⟨1, 2, by decide, by decide, rfl⟩
  have hb := c58_offQ hn
  exact ⟨g, _, h2, c58_edges_ub hs h2 hn hb.1 fun hr => hb.2.1 hr (by decide)⟩
example : ¬ (offLatQLoop false 3 4).Readable ⟨1, 0⟩ ∧ (offLatQLoop false 3 4).Readable ⟨1, 1⟩ := by
  have h0 : (offLatQLoop false 3 4).Node ⟨1, 0⟩ := ⟨1, 0, by decide, by decide, rfl⟩
  have h1 : (offLatQLoop false 3 4).Node ⟨1, 1⟩ := ⟨1, 1, by decide, by decide, rfl⟩
  exact ⟨fun hr => (c58_offQLew h0).2.1 hr (by decide), (c58_offQLew h1).2.2 (by decide)⟩
example : (offLatDQ false 3 3).Readable ⟨1, 2⟩ := c58_offQDirected ⟨1, 2, by decide, by decide, rfl⟩
example : (axLatQLoop false 4 4).Readable ⟨2, 2⟩ := c58_axQLew ⟨3, 2, by decide, by decide, by decide⟩
example : (axLatDRLoop false 4 4).Readable ⟨2, 3⟩ := c58_axDRLew ⟨3, 3, by decide, by decide, by decide⟩
example : (axLatDQLoop false 4 4).Readable ⟨2, 2⟩ := c58_axDQLew ⟨3, 2, by decide, by decide, by decide⟩
example : ∃ g st', newWith (hexOffQLew m64 ⟨false, false⟩ 3 4) (fun u c => (c.vertical, u)) (fun u c _ => (c.horizontal, u)) () =
      .ok (g, st') ∧ ∃ it, g.edgesOf ⟨0, 0⟩ = .ok it ∧ Fails (edgesNext g) it .ub :=
  c58_offQLew_fails m64 _ 3 4 (by decide) (by decide) rfl (by decide) _ _ ()

end LG
