import Verif.Props.Orders
import Verif.Props.Floyd
/- C109: where the derived comparisons of identifiers agree with the numbering, and the order of the iterators. -/
set_option linter.unusedSectionVars false
namespace LG

/-- The axis types of the crate with their derived comparisons. -/
inductive Compared : {A D : Type} → Axis A D → (A → A → Ordering) → Prop where
  | square (m : Machine) : Compared (squareAxis m) (declCmp SquareAxis.ctorIdx)
  | squareDirected (m : Machine) : Compared (dSquareAxis m) (declCmp DSquareAxis.ctorIdx)
  | diag (m : Machine) : Compared (diagAxis m) (declCmp DiagAxis.ctorIdx)
  | diagDirected (m : Machine) : Compared (dDiagAxis m) (declCmp DDiagAxis.ctorIdx)
  | hexR (m : Machine) : Compared (axisR m) (declCmp AxisR.ctorIdx)
  | hexRDirected (m : Machine) : Compared (axisDR m) (declCmp AxisDR.ctorIdx)
  | hexQ (m : Machine) : Compared (axisQ m) (declCmp AxisQ.ctorIdx)
  | hexQDirected (m : Machine) : Compared (axisDQ m) (declCmp AxisDQ.ctorIdx)

theorem Compared.toIndex {A D : Type} {ax : Axis A D} {cmp : A → A → Ordering} (hc : Compared ax cmp) (a b : A) :
    cmp a b = compare (ax.toIndex a) (ax.toIndex b) := by
  cases hc <;> cases a <;> cases b <;> rfl

theorem Compared.total {A D : Type} {ax : Axis A D} {cmp : A → A → Ordering} (hc : Compared ax cmp) : TotalOrder cmp := by
  cases hc with
  | square m => exact (c79_axes m).1.2.2.1
  | squareDirected m => exact (c79_axes m).2.1.2.2.1
  | diag m => exact (c79_axes m).2.2.1.2.2.1
  | diagDirected m => exact (c79_axes m).2.2.2.1.2.2.1
  | hexR m => exact (c79_axes m).2.2.2.2.1.2.2.1
  | hexRDirected m => exact (c79_axes m).2.2.2.2.2.1.2.2.1
  | hexQ m => exact (c79_axes m).2.2.2.2.2.2.1.2.2.1
  | hexQDirected m => exact (c79_axes m).2.2.2.2.2.2.2.2.2.1

/-- **C109.** `Direction<T>` values compare like their numbers, the forward ones in the order of the axes and then the backward
ones; and this is a total order in which only equal directions compare equal. -/
theorem c109_directions {A D : Type} {ax : Axis A D} {cmp : A → A → Ordering} (hc : Compared ax cmp) :
    (∀ d e, Direction.cmp cmp d e = compare (Direction.dirToIndex ax d) (Direction.dirToIndex ax e)) ∧ TotalOrder (Direction.cmp cmp) := by
  refine ⟨fun d e => ?_, ?_⟩
  · cases hc <;> obtain a | a := d <;> obtain b | b := e <;> cases a <;> cases b <;> rfl
  · have h := hc.total
    refine ⟨fun a b => ?_, fun a b => ?_, fun a b c => ?_⟩
    · cases a <;> cases b <;> simp only [Direction.cmp, reduceCtorEq, h.eq_iff, Direction.foward.injEq, Direction.backward.injEq]
    · cases a <;> cases b <;> first | rfl | exact h.swap _ _
    · cases a <;> cases b <;> cases c <;> simp only [Direction.cmp, reduceCtorEq, false_implies, implies_true, true_implies] <;>
        first | exact h.trans _ _ _ | skip

/-- **C109.** So is the order of edge ids. -/
theorem c109_edge_ids {C A D : Type} {cmp : C → C → Ordering} (h : TotalOrder cmp) {ax : Axis A D} {cmpA : A → A → Ordering}
    (hc : Compared ax cmpA) : TotalOrder (edgeIdCmp cmp cmpA) :=
  h.lex hc.total fun _ _ h1 h2 => Prod.ext h1 h2

/-! ### Nodes -/

section
variable {C A D N E : Type} [DecidableEq C] [DecidableEq A] [DecidableEq D]
variable {s : Shape C A D} {L : Lat C A D} {rep : C → Prop} {g : Graph C A D N E} {k : Contents C A N E}

/-- Comparing nodes and comparing their numbers is the same. -/
def Agrees (g : Graph C A D N E) (L : Lat C A D) (cmp : C → C → Ordering) : Prop :=
  ∀ a b, L.Node a → L.Node b → ∃ i j, g.toIndex a = .ok i ∧ g.toIndex b = .ok j ∧ cmp a b = compare i j

/-- The list is strictly ascending. -/
def Ascending {α : Type} (cmp : α → α → Ordering) (l : List α) : Prop := l.Pairwise fun a b => cmp a b = .lt

/-- Agreement in terms of positions. -/
theorem agrees_iff (hs : Storable s L rep) (hb : Built s L g k) {cmp : C → C → Ordering} : Agrees g L cmp ↔
    ∀ x y x' y', x < L.width → y < L.height → x' < L.width → y' < L.height →
      cmp (L.coord x y) (L.coord x' y') = compare (x * L.height + y) (x' * L.height + y') := by
  have hg := hs.good hb
  constructor
  · intro h x y x' y' hx hy hx' hy'
    obtain ⟨i, j, h1, h2, h3⟩ := h _ _ ⟨x, y, hx, hy, rfl⟩ ⟨x', y', hx', hy', rfl⟩
    rw [hg.toIndex hx hy] at h1
    rw [hg.toIndex hx' hy'] at h2
    cases h1; cases h2
    exact h3
  · rintro h a b ⟨x, y, hx, hy, rfl⟩ ⟨x', y', hx', hy', rfl⟩
    exact ⟨_, _, hg.toIndex hx hy, hg.toIndex hx' hy', h x y x' y' hx hy hx' hy'⟩

/-- **C109.** Nodes compare like their numbers on every map whose coordinates are the positions (every square, diagonal and offset
map of the crate). -/
theorem c109_offset {s : Shape Offset A D} {L : Lat Offset A D} {rep : Offset → Prop} {g : Graph Offset A D N E}
    {k : Contents Offset A N E} (hs : Storable s L rep) (hb : Built s L g k) (hc : L.coord = Offset.mk) : Agrees g L Offset.cmp :=
  fun _ _ ha hb' => c79_offset_order hs hb hc ha hb'

/-- **C109.** On an axial map they do so exactly if no row is shifted: the map has no column, or at most two rows (one row, for the
even layout). -/
theorem c109_axial {s : Shape Axial A D} {L : Lat Axial A D} {rep : Axial → Prop} {g : Graph Axial A D N E}
    {k : Contents Axial A N E} (hs : Storable s L rep) (hb : Built s L g k) {even : Bool}
    (hc : ∀ x y, L.coord x y = axCoord even false x y) :
    Agrees g L Axial.cmp ↔ L.width = 0 ∨ L.height + (if even then 1 else 0) ≤ 2 := by
  rw [agrees_iff hs hb]
  have hcc : ∀ x y, L.coord x y = ⟨x - axShift even y, y⟩ := fun x y => by rw [hc]; rfl
  constructor
  · intro h
    by_cases h1 : L.width = 0
    · exact .inl h1
    · refine .inr (Nat.not_lt.1 fun h2 => ?_)
      cases even with
      | false =>
        simp only [Bool.false_eq_true, if_false] at h2
        have := h 0 0 0 2 (by omega) (by omega) (by omega) (by omega)
        rw [hcc, hcc, Nat.compare_eq_lt.2 (by omega)] at this
        exact absurd this (by decide)
      | true =>
        simp only [if_true] at h2
        have := h 0 0 0 1 (by omega) (by omega) (by omega) (by omega)
        rw [hcc, hcc, Nat.compare_eq_lt.2 (by omega)] at this
        exact absurd this (by decide)
  · intro h x y x' y' hx hy hx' hy'
    have hsh : ∀ y : Nat, y < L.height → axShift even y = 0 := by
      intro y hy
      unfold axShift
      cases even <;> simp only [Bool.false_eq_true, if_false, if_true] at h ⊢ <;> omega
    have hci : ∀ a b : Nat, compare (a : Int) (b : Int) = compare a b := by
      intro a b
      rcases Nat.lt_trichotomy a b with h | h | h
      · rw [Nat.compare_eq_lt.2 h, Int.compare_eq_lt.2 (by omega)]
      · rw [Nat.compare_eq_eq.2 h, Int.compare_eq_eq.2 (by omega)]
      · rw [Nat.compare_eq_gt.2 h, Int.compare_eq_gt.2 (by omega)]
    rw [hcc, hcc, hsh y hy, hsh y' hy', Int.sub_zero, Int.sub_zero, ← lex_idx hy hy', ← hci, ← hci]
    rfl

/-- **C109.** On a map with double coordinates they do so exactly if it has no column or at most two rows. -/
theorem c109_double {s : Shape DCoord A D} {L : Lat DCoord A D} {rep : DCoord → Prop} {g : Graph DCoord A D N E}
    {k : Contents DCoord A N E} (hs : Storable s L rep) (hb : Built s L g k) (hc : ∀ x y, L.coord x y = ⟨2 * x + y % 2, y⟩) :
    Agrees g L DCoord.cmp ↔ L.width = 0 ∨ L.height ≤ 2 := by
  rw [agrees_iff hs hb]
  constructor
  · intro h
    by_cases h1 : L.width = 0
    · exact .inl h1
    · refine .inr (Nat.not_lt.1 fun h2 => ?_)
      have := h 0 1 0 2 (by omega) (by omega) (by omega) (by omega)
      rw [hc, hc, Nat.compare_eq_lt.2 (by omega)] at this
      exact absurd this (by decide)
  · intro h x y x' y' hx hy hx' hy'
    rw [hc, hc, ← lex_idx hy hy']
    show lexCmp (compare (2 * x + y % 2) (2 * x' + y' % 2)) (compare y y') = _
    rcases Nat.lt_trichotomy x x' with h1 | h1 | h1
    · rw [Nat.compare_eq_lt.2 h1, (Nat.compare_eq_lt (a := 2 * x + y % 2)).2 (by omega)]
    · rw [Nat.compare_eq_eq.2 h1]
      rcases Nat.lt_trichotomy y y' with h2 | h2 | h2
      · rw [Nat.compare_eq_lt.2 h2, (Nat.compare_eq_lt (a := 2 * x + y % 2)).2 (by omega)]; rfl
      · rw [Nat.compare_eq_eq.2 h2, (Nat.compare_eq_eq (a := 2 * x + y % 2)).2 (by omega)]
      · rw [Nat.compare_eq_gt.2 h2, (Nat.compare_eq_gt (a := 2 * x + y % 2)).2 (by omega)]; rfl
    · rw [Nat.compare_eq_gt.2 h1, (Nat.compare_eq_gt (a := 2 * x + y % 2)).2 (by omega)]

theorem at_ascending (hs : Storable s L rep) (hb : Built s L g k) {cmp : C → C → Ordering} (h : Agrees g L cmp) :
    Ascending cmp L.nodes := by
  unfold Ascending
  rw [L.nodes_eq, List.pairwise_map]
  refine List.pairwise_lt_range.imp_of_mem fun {i j} hi hj hij => ?_
  rw [List.mem_range] at hi hj
  show cmp (L.coord _ _) (L.coord _ _) = .lt
  rw [(agrees_iff hs hb).1 h _ _ _ _ (div_lt_w hi) (mod_lt_h hi) (div_lt_w hj) (mod_lt_h hj), idx_eta, idx_eta]
  exact Nat.compare_eq_lt.2 hij

/-- **C109.** `node_identifiers()` comes in strictly ascending order exactly if nodes compare like their numbers. -/
theorem c109_node_identifiers (hs : Storable s L rep) (hb : Built s L g k) {cmp : C → C → Ordering} (ht : TotalOrder cmp) :
    ∃ l, Yields (nodeIndicesNext g.s) 0 l ∧ (∀ c, c ∈ l ↔ L.Node c) ∧ (Ascending cmp l ↔ Agrees g L cmp) := by
  have h := c71_node_identifiers hs hb
  refine ⟨L.nodes, h.1, h.2.2.1, fun ha => ?_, at_ascending hs hb⟩
  rw [agrees_iff hs hb]
  unfold Ascending at ha
  rw [L.nodes_eq, List.pairwise_map, List.pairwise_iff_getElem] at ha
  have key : ∀ i j, j < L.width * L.height → i < j → cmp (L.at i) (L.at j) = .lt := by
    intro i j hj hij
    have := ha i j (by rw [List.length_range]; omega) (by rw [List.length_range]; omega) hij
    rwa [List.getElem_range, List.getElem_range] at this
  intro x y x' y' hx hy hx' hy'
  rw [← L.at_idx hy, ← L.at_idx hy']
  have h1 := idx_lt hx hy
  have h2 := idx_lt hx' hy'
  rcases Nat.lt_trichotomy (x * L.height + y) (x' * L.height + y') with h | h | h
  · rw [Nat.compare_eq_lt.2 h, key _ _ h2 h]
  · rw [Nat.compare_eq_eq.2 h, h]
    exact (ht.eq_iff _ _).2 rfl
  · rw [Nat.compare_eq_gt.2 h, ht.swap (L.at (x' * L.height + y')), key _ _ h1 h]; rfl

/-! ### Edges -/

theorem axes_ascending (hl : DirLaws L) {ax : Axis A D} (hi : AxisImpl ax L) {cmpA : A → A → Ordering}
    (ha : ∀ a b, cmpA a b = compare (ax.toIndex a) (ax.toIndex b)) : Ascending cmpA L.axes := by
  unfold Ascending
  rw [List.pairwise_iff_getElem]
  have e : ∀ i (h : i < L.axes.length), ax.toIndex L.axes[i] = i := by
    intro i hx
    have h1 := hi.toIndex L.axes[i]
    obtain ⟨h2, h3⟩ := List.getElem?_eq_some_iff.1 h1
    exact (List.getElem_inj hl.axes_nodup).1 h3
  intro i j h1 h2 hij
  rw [ha, e i h1, e j h2]
  exact Nat.compare_eq_lt.2 hij

/-- **C109.** If nodes compare like their numbers, the ids of `edge_references()` come in strictly ascending order. -/
theorem c109_edge_references (hs : Storable s L rep) (hb : Built s L g k) {cmp : C → C → Ordering} (ht : TotalOrder cmp)
    (h : Agrees g L cmp) {cmpA : A → A → Ordering} (ha : Compared s.axis cmpA) :
    ∃ rs ids, Yields (edgeRefsNext g) edgeRefsInit rs ∧ rs.mapM (EdgeRef.id g.s.axis) = .ok ids ∧
      Ascending (edgeIdCmp cmp cmpA) ids ∧ ∀ c a, (c, a) ∈ ids ↔ ∃ w, L.Node c ∧ g.edgeWeight c a = .ok (some w) ∧
        ∃ t, L.nbr c (L.fwd a) = some t := by
  have hg := hs.good hb
  have hl := hs.base.dir
  have hy := c57_edge_references hs hb
  refine ⟨_, (allEdges L k).map fun r => (r.source, L.ax r.direction), hy.1, ?_, ?_, fun c a => ?_⟩
  · refine mapM_ok _ fun r _ => ?_
    simp only [EdgeRef.id, hg.impl.axis.fromDirection, bind, Except.bind]
  · unfold Ascending allEdges
    rw [List.pairwise_map, List.pairwise_flatMap]
    have hshape : g.s = s := hg.shape
    have hax := axes_ascending hl (hshape ▸ hg.impl.axis) (ha.toIndex)
    refine ⟨fun c _ => ?_, ?_⟩
    · rw [List.pairwise_filterMap]
      refine hax.imp fun {a b} hab r hr r' hr' => ?_
      simp only [Option.bind_eq_some_iff, Option.map_eq_some_iff] at hr hr'
      obtain ⟨t, -, w, -, rfl⟩ := hr
      obtain ⟨t', -, w', -, rfl⟩ := hr'
      simp only [edgeIdCmp, hl.ax_fwd, (ht.eq_iff c c).2 rfl, hab]
      rfl
    · refine (at_ascending hs hb h).imp fun {c c'} hcc r hr r' hr' => ?_
      simp only [List.mem_filterMap, Option.bind_eq_some_iff, Option.map_eq_some_iff] at hr hr'
      obtain ⟨a, -, t, -, w, -, rfl⟩ := hr
      obtain ⟨a', -, t', -, w', -, rfl⟩ := hr'
      simp only [edgeIdCmp, hcc]
      rfl
  · rw [List.mem_map]
    constructor
    · rintro ⟨r, hr, e⟩
      cases e
      obtain ⟨h1, h2, h3, h4⟩ := (hy.2 r).1 hr
      exact ⟨_, h1, h4, _, by rw [h2]; exact h3⟩
    · rintro ⟨w, h1, h2, t, h3⟩
      refine ⟨⟨c, t, w, L.fwd a⟩, (hy.2 _).2 ⟨h1, ?_, h3, ?_⟩, ?_⟩
      · rw [hl.ax_fwd]
      · rw [hl.ax_fwd]; exact h2
      · rw [hl.ax_fwd]

/-! ### Examples -/

/-- A 3 × 2 square map: nodes ascend, and so do edges. -/
example : ∃ (g : Graph Offset SquareAxis DSquareAxis Nat Nat) (l : List Offset) (ids : List (Offset × SquareAxis)),
    Agrees g (squareLat 3 2) Offset.cmp ∧ Yields (nodeIndicesNext g.s) 0 l ∧ Ascending Offset.cmp l ∧
    Ascending (edgeIdCmp Offset.cmp (declCmp SquareAxis.ctorIdx)) ids ∧ (⟨1, 0⟩, .Y) ∈ ids := by
  have hs := (Stored.sound (.square m64 3 2)).storable
  obtain ⟨g, -, hb⟩ := c57_new_with hs (by decide) (fun (n : Nat) _ => (n, n + 1)) (fun (n : Nat) _ _ => (n, n + 1)) 0
  have h := c109_offset hs hb rfl
  have ht := c79_total.1
  obtain ⟨l, h1, -, h3⟩ := c109_node_identifiers hs hb ht
  obtain ⟨rs, ids, -, -, h5, h6⟩ := c109_edge_references hs hb ht h (.square m64)
  refine ⟨g, l, ids, h, h1, h3.2 h, h5, (h6 _ _).2 ?_⟩
  have hy := c57_edge_references hs hb
  obtain ⟨w, hw⟩ := Option.isSome_iff_exists.1 (((hs.good hb).total.edge ⟨1, 0⟩ .Y).2 ⟨⟨1, 0, by decide, by decide, rfl⟩, rfl⟩)
  refine ⟨w, ⟨1, 0, by decide, by decide, rfl⟩, ?_, ⟨1, 1⟩, rfl⟩
  exact ((hy.2 ⟨⟨1, 0⟩, ⟨1, 1⟩, w, .Y⟩).1 ((mem_allEdges hs.base.dir).2 ⟨⟨1, 0, by decide, by decide, rfl⟩, rfl, rfl, hw⟩)).2.2.2

/-- An axial map of three rows: (-1, 2) comes before (0, 0) in the order, but after it in the numbering. -/
example : ∃ g : Graph Axial AxisR AxisDR Nat Nat, ¬ Agrees g (axLatR false false 2 3) Axial.cmp ∧
    g.toIndex ⟨0, 0⟩ = .ok 0 ∧ g.toIndex ⟨-1, 2⟩ = .ok 2 ∧ Axial.cmp ⟨-1, 2⟩ ⟨0, 0⟩ = .lt := by
  have hs := (Stored.sound (.hexAxR m64 (isizeTy m64) oddR 2 3 (.isize (by decide) (by decide)))).storable
  obtain ⟨g, -, hb⟩ := c57_new_with hs (by decide) (fun (n : Nat) _ => (n, n + 1)) (fun (n : Nat) _ _ => (n, n + 1)) 0
  have h := c109_axial hs hb (even := false) fun _ _ => rfl
  have hg := hs.good hb
  refine ⟨g, fun ha => absurd (h.1 ha) (by decide), ?_, ?_, rfl⟩
  · exact hg.toIndex (x := 0) (y := 0) (by decide) (by decide)
  · exact hg.toIndex (x := 0) (y := 2) (by decide) (by decide)

/-- Double coordinates: four rows disagree, two rows agree. -/
example : ∃ g g' : Graph DCoord AxisR AxisDR Nat Nat, ¬ Agrees g (dblLat 3 4) DCoord.cmp ∧ Agrees g' (dblLat 3 2) DCoord.cmp := by
  have hs := Storable.double m64 3 4
  have hs' := Storable.double m64 3 2
  obtain ⟨g, -, hb⟩ := c57_new_with hs (by decide) (fun (n : Nat) _ => (n, n + 1)) (fun (n : Nat) _ _ => (n, n + 1)) 0
  obtain ⟨g', -, hb'⟩ := c57_new_with hs' (by decide) (fun (n : Nat) _ => (n, n + 1)) (fun (n : Nat) _ _ => (n, n + 1)) 0
  exact ⟨g, g', fun h => absurd ((c109_double hs hb fun _ _ => rfl).1 h) (by decide),
    (c109_double hs' hb' fun _ _ => rfl).2 (.inr (by decide))⟩

example : Direction.cmp (declCmp AxisR.ctorIdx) (.foward .SE) (.backward .NE) = .lt ∧
    edgeIdCmp Offset.cmp (declCmp AxisR.ctorIdx) (⟨1, 2⟩, .SE) (⟨1, 2⟩, .SE) = .eq := by
  have h := (c109_directions (.hexR m64)).1 (.foward .SE) (.backward .NE)
  exact ⟨h.trans rfl, ((c109_edge_ids c79_total.1 (.hexR m64)).eq_iff _ _).2 rfl⟩

end
end LG
