import Verif.Props.Distance
import Verif.Props.Hints
/- C60: how many edges there are. -/
set_option linter.unusedSectionVars false
namespace LG

/-! ### Counting cells of a rectangle -/

theorem countP_range_lt (n c : Nat) : (List.range n).countP (fun x => decide (x + c < n)) = n - c := by
  have key : ∀ m j : Nat, (List.range m).countP (fun x => decide (x < j)) = min m j := by
    intro m j
    induction m with
    | zero => simp
    | succ m ih =>
      rw [List.range_succ, List.countP_append, ih]
      simp only [List.countP_cons, List.countP_nil, Nat.zero_add]
      split <;> rename_i h <;> simp only [decide_eq_true_eq] at h <;> omega
  rw [← show min n (n - c) = n - c by omega, ← key n (n - c)]
  refine List.countP_congr fun x _ => ?_
  simp only [decide_eq_true_eq]
  omega

theorem sum_const {α : Type} (l : List α) (n : Nat) : (l.map fun _ => n).sum = l.length * n := by
  induction l with
  | nil => simp
  | cons a l ih => rw [List.map_cons, List.sum_cons, ih, List.length_cons, Nat.succ_mul, Nat.add_comm]

theorem sum_add {α : Type} (l : List α) (f g : α → Nat) :
    (l.map fun a => f a + g a).sum = (l.map f).sum + (l.map g).sum := by
  induction l with
  | nil => rfl
  | cons a l ih => simp only [List.map_cons, List.sum_cons, ih]; omega

section
variable {C A D : Type} {L : Lat C A D}

/-- Number of cells with a neighbour in direction `d`, row by row. -/
theorem cnt_rows {d : D} {w h : Nat} (hw : L.width = w) (hh : L.height = h) {p : Nat → Nat → Bool}
    (hp : ∀ x y, x < w → y < h → (L.nbr (L.coord x y) d).isSome = p x y) :
    L.cnt d = ((List.range h).map fun y => (List.range w).countP fun x => p x y).sum := by
  subst hw hh
  unfold Lat.cnt Lat.nodes
  rw [List.countP_flatMap, ← sum_countP_comm]
  congr 1
  refine List.map_congr_left fun x hx => ?_
  rw [Function.comp, List.countP_map]
  refine List.countP_congr fun y hy => ?_
  rw [Function.comp, hp x y (List.mem_range.1 hx) (List.mem_range.1 hy)]

/-- Rows: the first `h - j` of them have `f y` each. -/
theorem sum_rows_low (h j : Nat) (f : Nat → Nat) :
    ((List.range h).map fun y => if y + j < h then f y else 0).sum = ((List.range (h - j)).map f).sum := by
  by_cases hj : h ≤ j
  · rw [show h - j = 0 by omega]
    rw [List.map_congr_left (g := fun _ => 0) fun y _ => if_neg (by omega), sum_const]
    simp
  · obtain ⟨n, rfl⟩ : ∃ n, h = n + j := ⟨h - j, by omega⟩
    rw [List.range_add, List.map_append, List.sum_append, List.map_map]
    rw [List.map_congr_left (l := List.range n) (g := f) fun y hy => if_pos (by have := List.mem_range.1 hy; omega)]
    rw [List.map_congr_left (l := List.range j) (g := fun _ => 0) fun y hy => by
      simp only [Function.comp]; exact if_neg (by omega), sum_const, Nat.add_sub_cancel]
    simp

/-- Rows: all but the first `j` have `f` of the row minus `j`. -/
theorem sum_rows_high (h j : Nat) (f : Nat → Nat) :
    ((List.range h).map fun y => if j ≤ y then f (y - j) else 0).sum = ((List.range (h - j)).map f).sum := by
  by_cases hj : h ≤ j
  · rw [show h - j = 0 by omega]
    rw [List.map_congr_left (g := fun _ => 0) fun y hy => if_neg (by have := List.mem_range.1 hy; omega), sum_const]
    simp
  · obtain ⟨n, rfl⟩ : ∃ n, h = j + n := ⟨h - j, by omega⟩
    rw [List.range_add, List.map_append, List.sum_append, List.map_map]
    rw [List.map_congr_left (l := List.range j) (g := fun _ => 0) fun y hy => if_neg (by have := List.mem_range.1 hy; omega),
      List.map_congr_left (l := List.range n) (g := f) fun y hy => by
        simp only [Function.comp]; rw [if_pos (by omega)]; congr 1; omega, sum_const]
    rw [show j + n - j = n by omega]
    simp

theorem countP_and (b : Prop) [Decidable b] (w c : Nat) :
    (List.range w).countP (fun x => decide (b ∧ x + c < w)) = if b then w - c else 0 := by
  split <;> rename_i hb
  · rw [← countP_range_lt w c]
    exact List.countP_congr fun x _ => by simp [hb]
  · rw [List.countP_eq_zero]
    intro x _
    simp [hb]

/-- Moves `j` rows up and `δ y` columns right. -/
theorem cnt_up {d : D} {w h : Nat} (hw : L.width = w) (hh : L.height = h) (j : Nat) (δ : Nat → Nat)
    (hp : ∀ x y, x < w → y < h → ((L.nbr (L.coord x y) d).isSome = true ↔ y + j < h ∧ x + δ y < w)) :
    L.cnt d = ((List.range (h - j)).map fun y => w - δ y).sum := by
  rw [cnt_rows hw hh (p := fun x y => decide (y + j < h ∧ x + δ y < w)) fun x y hx hy => by
    rw [Bool.eq_iff_iff, hp x y hx hy, decide_eq_true_eq]]
  rw [← sum_rows_low h j]
  congr 1
  exact List.map_congr_left fun y _ => countP_and ..

/-- Moves `j` rows down and `δ` columns right, `δ` being that of the lower row. -/
theorem cnt_down {d : D} {w h : Nat} (hw : L.width = w) (hh : L.height = h) (j : Nat) (δ : Nat → Nat)
    (hp : ∀ x y, x < w → y < h → ((L.nbr (L.coord x y) d).isSome = true ↔ j ≤ y ∧ x + δ (y - j) < w)) :
    L.cnt d = ((List.range (h - j)).map fun y => w - δ y).sum := by
  rw [cnt_rows hw hh (p := fun x y => decide (j ≤ y ∧ x + δ (y - j) < w)) fun x y hx hy => by
    rw [Bool.eq_iff_iff, hp x y hx hy, decide_eq_true_eq]]
  rw [← sum_rows_high h j]
  congr 1
  refine List.map_congr_left fun y _ => ?_
  rw [countP_and]

theorem cnt_up_const {d : D} {w h : Nat} (hw : L.width = w) (hh : L.height = h) (j i : Nat)
    (hp : ∀ x y, x < w → y < h → ((L.nbr (L.coord x y) d).isSome = true ↔ y + j < h ∧ x + i < w)) :
    L.cnt d = (h - j) * (w - i) := by
  rw [cnt_up hw hh j (fun _ => i) hp, sum_const, List.length_range]

theorem cnt_down_const {d : D} {w h : Nat} (hw : L.width = w) (hh : L.height = h) (j i : Nat)
    (hp : ∀ x y, x < w → y < h → ((L.nbr (L.coord x y) d).isSome = true ↔ j ≤ y ∧ x + i < w)) :
    L.cnt d = (h - j) * (w - i) := by
  rw [cnt_down hw hh j (fun _ => i) hp, sum_const, List.length_range]

/-- The two slanted directions together: where one needs a column more, the other does not. -/
theorem cnt_slanted {d e : D} {w h : Nat} (hw : L.width = w) (hh : L.height = h) (δ ε : Nat → Nat)
    (hδ : ∀ y, δ y + ε y = 1)
    (hd : ∀ x y, x < w → y < h → ((L.nbr (L.coord x y) d).isSome = true ↔ y + 1 < h ∧ x + δ y < w))
    (he : ∀ x y, x < w → y < h → ((L.nbr (L.coord x y) e).isSome = true ↔ 1 ≤ y ∧ x + ε (y - 1) < w)) :
    L.cnt d + L.cnt e = (h - 1) * (2 * w - 1) := by
  rw [cnt_up hw hh 1 δ hd, cnt_down hw hh 1 ε he, ← sum_add]
  rw [List.map_congr_left (g := fun _ => 2 * w - 1) fun y _ => by have := hδ y; omega, sum_const, List.length_range]

end

/-! ### The lattices -/

theorem rectNbr_isSome {w h : Nat} {c : Offset} {v : Int × Int} : (rectNbr w h c v).isSome = true ↔
    (0 ≤ (c.horizontal : Int) + v.1 ∧ (c.horizontal : Int) + v.1 < w) ∧
      (0 ≤ (c.vertical : Int) + v.2 ∧ (c.vertical : Int) + v.2 < h) := by
  unfold rectNbr inRect
  split <;> simp <;> omega

theorem inRect_isSome {w h : Nat} {x y : Int} : (inRect w h x y).isSome = true ↔
    (0 ≤ x ∧ x < w) ∧ (0 ≤ y ∧ y < h) := by
  unfold inRect
  split <;> simp <;> omega

theorem axNbr_isSome {even flat : Bool} {w h : Nat} {c : Axial} {v : Int × Int} :
    (axNbr even flat w h c v).isSome = true ↔ axIn even flat w h ⟨c.r + v.1, c.q + v.2⟩ = true := by
  unfold axNbr
  split <;> simp_all

theorem squareLat_count (w h : Nat) :
    (squareLat w h).cnt .X = h * (w - 1) ∧ (squareLat w h).cnt .Y = (h - 1) * w := by
  constructor
  · refine cnt_up_const (w := w) (h := h) rfl rfl 0 1 fun x y hx hy => ?_
    simp only [squareLat, rectNbr_isSome, DSquareAxis.vec]
    omega
  · refine cnt_up_const (w := w) (h := h) rfl rfl 1 0 fun x y hx hy => ?_
    simp only [squareLat, rectNbr_isSome, DSquareAxis.vec]
    omega

theorem diagLat_count (w h : Nat) :
    (diagLat w h).cnt .N = (h - 1) * w ∧ (diagLat w h).cnt .NE = (h - 1) * (w - 1) ∧
      (diagLat w h).cnt .E = h * (w - 1) ∧ (diagLat w h).cnt .SE = (h - 1) * (w - 1) := by
  refine ⟨?_, ?_, ?_, ?_⟩
  · refine cnt_up_const (w := w) (h := h) rfl rfl 1 0 fun x y hx hy => ?_
    simp only [diagLat, rectNbr_isSome, DDiagAxis.vec]
    omega
  · refine cnt_up_const (w := w) (h := h) rfl rfl 1 1 fun x y hx hy => ?_
    simp only [diagLat, rectNbr_isSome, DDiagAxis.vec]
    omega
  · refine cnt_up_const (w := w) (h := h) rfl rfl 0 1 fun x y hx hy => ?_
    simp only [diagLat, rectNbr_isSome, DDiagAxis.vec]
    omega
  · refine cnt_down_const (w := w) (h := h) rfl rfl 1 1 fun x y hx hy => ?_
    simp only [diagLat, rectNbr_isSome, DDiagAxis.vec]
    omega

theorem offLatR_count (even : Bool) (w h : Nat) :
    (offLatR even w h).cnt .E = h * (w - 1) ∧
      (offLatR even w h).cnt .NE + (offLatR even w h).cnt .SE = (h - 1) * (2 * w - 1) := by
  constructor
  · refine cnt_up_const (w := w) (h := h) rfl rfl 0 1 fun x y hx hy => ?_
    simp only [offLatR, hexLatR, offNbr, offAt, offPos, inRect_isSome, AxisDR.vec, Int.add_zero]
    omega
  · refine cnt_slanted (w := w) (h := h) rfl rfl (fun y => (rowShift even y).toNat) (fun y => 1 - (rowShift even y).toNat) ?_ ?_ ?_
    · intro y
      have := rowShift_01 even y
      omega
    · intro x y hx hy
      have := rowShift_cases even y
      simp only [offLatR, hexLatR, offNbr, offAt, offPos, inRect_isSome, AxisDR.vec]
      omega
    · intro x y hx hy
      have := rowShift_cases even y
      simp only [offLatR, hexLatR, offNbr, offAt, offPos, inRect_isSome, AxisDR.vec]
      cases y with
      | zero => simp
      | succ y =>
        simp only [Nat.add_sub_cancel, Int.natCast_add, Int.natCast_one] at *
        rw [show (y : Int) + 1 + -1 = y by omega] at *
        omega

theorem offNbrLoop_isSome {even : Bool} {w h : Nat} {x y : Nat} {d : AxisDR} (hx : x < w) :
    (offNbrLoop even w h ⟨x, y⟩ d).isSome = true ↔ 0 ≤ (y : Int) + d.vec.2 ∧ (y : Int) + d.vec.2 < h := by
  simp only [offNbrLoop, offAtLoop, inRect_isSome, offPos]
  have h1 := Int.emod_nonneg ((2 * (x : Int) + rowShift even y + d.vec.1 - rowShift even (y + d.vec.2)) / 2)
    (show (w : Int) ≠ 0 by omega)
  have h2 := Int.emod_lt_of_pos ((2 * (x : Int) + rowShift even y + d.vec.1 - rowShift even (y + d.vec.2)) / 2)
    (show (0 : Int) < w by omega)
  omega

theorem offLatRLoop_count (even : Bool) (w h : Nat) :
    (offLatRLoop even w h).cnt .E = h * w ∧ (offLatRLoop even w h).cnt .NE = (h - 1) * w ∧
      (offLatRLoop even w h).cnt .SE = (h - 1) * w := by
  refine ⟨?_, ?_, ?_⟩
  · refine cnt_up_const (w := w) (h := h) rfl rfl 0 0 fun x y hx hy => ?_
    simp only [offLatRLoop, hexLatR, offNbrLoop_isSome hx, AxisDR.vec]
    omega
  · refine cnt_up_const (w := w) (h := h) rfl rfl 1 0 fun x y hx hy => ?_
    simp only [offLatRLoop, hexLatR, offNbrLoop_isSome hx, AxisDR.vec]
    omega
  · refine cnt_down_const (w := w) (h := h) rfl rfl 1 0 fun x y hx hy => ?_
    simp only [offLatRLoop, hexLatR, offNbrLoop_isSome hx, AxisDR.vec]
    omega

/-- The three axial displacements owning an edge, in a map sheared by rows. -/
theorem axial_count {A D : Type} {L : Lat Axial A D} {even : Bool} {w h : Nat} {e u s : D} (hw : L.width = w)
    (hh : L.height = h) (hc : L.coord = axCoord even false) (he : ∀ c, L.nbr c e = axNbr even false w h c (1, 0))
    (hu : ∀ c, L.nbr c u = axNbr even false w h c (0, 1)) (hs : ∀ c, L.nbr c s = axNbr even false w h c (1, -1)) :
    L.cnt e = h * (w - 1) ∧ L.cnt u + L.cnt s = (h - 1) * (2 * w - 1) := by
  constructor
  · refine cnt_up_const hw hh 0 1 fun x y hx hy => ?_
    simp only [hc, he, axNbr_isSome, axIn, axCoord, Bool.false_eq_true, ite_false, decide_eq_true_eq, Int.add_zero]
    omega
  · refine cnt_slanted hw hh (fun y => (axShift even (y + 1) - axShift even y).toNat)
      (fun y => (1 - (axShift even (y + 1) - axShift even y)).toNat) ?_ ?_ ?_
    · intro y
      have := axShift_cases even y
      omega
    · intro x y hx hy
      have := axShift_cases even y
      simp only [hc, hu, axNbr_isSome, axIn, axCoord, Bool.false_eq_true, ite_false, decide_eq_true_eq, Int.add_zero]
      omega
    · intro x y hx hy
      simp only [hc, hs, axNbr_isSome, axIn, axCoord, Bool.false_eq_true, ite_false, decide_eq_true_eq]
      cases y with
      | zero => simp
      | succ y =>
        have := axShift_cases even y
        simp only [Nat.add_sub_cancel, Int.natCast_add, Int.natCast_one] at *
        rw [show (y : Int) + 1 + -1 = y by omega] at *
        omega

/-- Rows and columns exchanged. -/
def Lat.transpose {C A D : Type} (L : Lat C A D) : Lat C A D :=
  { L with width := L.height, height := L.width, coord := fun x y => L.coord y x }

theorem cnt_transpose {C A D : Type} (L : Lat C A D) (d : D) : L.transpose.cnt d = L.cnt d := by
  rw [cnt_rows (L := L) rfl rfl (p := fun x y => (L.nbr (L.coord x y) d).isSome) fun _ _ _ _ => rfl,
    cnt_rows (L := L.transpose) rfl rfl (p := fun x y => (L.nbr (L.coord y x) d).isSome) fun _ _ _ _ => rfl]
  exact (sum_countP_comm (fun y x => (L.nbr (L.coord x y) d).isSome) (List.range L.height) (List.range L.width)).symm

/-- The same in a map sheared by columns; the third displacement is taken backwards. -/
theorem axial_count_flat {A D : Type} {L : Lat Axial A D} {even : Bool} {w h : Nat} {e u s : D} (hw : L.width = w)
    (hh : L.height = h) (hc : L.coord = axCoord even true) (he : ∀ c, L.nbr c e = axNbr even true w h c (0, 1))
    (hu : ∀ c, L.nbr c u = axNbr even true w h c (1, 0)) (hs : ∀ c, L.nbr c s = axNbr even true w h c (-1, 1)) :
    L.cnt e = w * (h - 1) ∧ L.cnt u + L.cnt s = (w - 1) * (2 * h - 1) := by
  rw [← cnt_transpose L e, ← cnt_transpose L u, ← cnt_transpose L s]
  constructor
  · refine cnt_up_const (L := L.transpose) hh hw 0 1 fun x y hx hy => ?_
    simp only [Lat.transpose, hc, he, axNbr_isSome, axIn, axCoord, ite_true, decide_eq_true_eq, Int.add_zero]
    omega
  · refine cnt_slanted (L := L.transpose) hh hw (fun y => (axShift even (y + 1) - axShift even y).toNat)
      (fun y => (1 - (axShift even (y + 1) - axShift even y)).toNat) ?_ ?_ ?_
    · intro y
      have := axShift_cases even y
      omega
    · intro x y hx hy
      have := axShift_cases even y
      simp only [Lat.transpose, hc, hu, axNbr_isSome, axIn, axCoord, ite_true, decide_eq_true_eq, Int.add_zero]
      omega
    · intro x y hx hy
      simp only [Lat.transpose, hc, hs, axNbr_isSome, axIn, axCoord, ite_true, decide_eq_true_eq]
      cases y with
      | zero => simp
      | succ y =>
        have := axShift_cases even y
        simp only [Nat.add_sub_cancel, Int.natCast_add, Int.natCast_one] at *
        rw [show (y : Int) + 1 + -1 = y by omega] at *
        omega

/-- Edges of a hexagonal `w × h` map with shifted rows. -/
def hexEdges (w h : Nat) : Nat := h * (w - 1) + (h - 1) * (2 * w - 1)

/-- Edges of an axial map: columns are shifted instead of rows in flat-top maps. -/
def axEdges (flat : Bool) (w h : Nat) : Nat := if flat then hexEdges h w else hexEdges w h

theorem axial_total {A D : Type} {L : Lat Axial A D} (hl : LatLaws L) {even flat : Bool} {w h : Nat} {e u s : D}
    (hw : L.width = w) (hh : L.height = h) (hc : L.coord = axCoord even flat)
    (he : ∀ c, L.nbr c e = axNbr even flat w h c (1, 0)) (hu : ∀ c, L.nbr c u = axNbr even flat w h c (0, 1))
    (hs : ∀ c, L.nbr c s = axNbr even flat w h c (1, -1)) (hs' : ∀ c, L.nbr c (L.opp s) = axNbr even flat w h c (-1, 1)) :
    L.cnt e + L.cnt u + L.cnt s = axEdges flat w h := by
  unfold axEdges hexEdges
  cases flat
  · have := axial_count hw hh hc he hu hs
    simp only [Bool.false_eq_true, ite_false]
    omega
  · have := axial_count_flat hw hh hc hu he hs'
    rw [cnt_opp hl] at this
    simp only [ite_true]
    omega

/-! ### C60 -/
section
variable {C A D N E : Type} [DecidableEq C] [DecidableEq A] [DecidableEq D]
variable {g : Graph C A D N E} {s : Shape C A D} {L : Lat C A D} {rep : C → Prop} {k : Contents C A N E}

/-- The graph has `n` edges: `edge_references` yields `n` items, and `new_with` made `n` calls of the edge closure. -/
def HasEdges (g : Graph C A D N E) (L : Lat C A D) (n : Nat) : Prop :=
  (∃ l, Yields (edgeRefsNext g) edgeRefsInit l ∧ l.length = n) ∧
  ((callSeq L).filter fun c => match c with | .edge .. => true | .node _ => false).length = n

theorem callSeq_edges : ((callSeq L).filter fun c => match c with | .edge .. => true | .node _ => false).length =
    (L.axes.map fun a => L.cnt (L.fwd a)).sum := by
  unfold callSeq Lat.cnt
  rw [← sum_countP_comm fun c a => (L.nbr c (L.fwd a)).isSome]
  induction L.nodes with
  | nil => rfl
  | cons c l ih =>
    rw [List.flatMap_cons, List.filter_append, List.length_append, ih, List.map_cons, List.sum_cons]
    congr 1
    rw [List.filter_cons]
    simp only [Bool.false_eq_true, ite_false]
    rw [List.countP_eq_length_filter, List.filter_eq_self.2, List.length_map]
    intro x hx
    obtain ⟨a, -, rfl⟩ := List.mem_map.1 hx
    rfl

theorem hasEdges_of (hs : Lawful s L rep) (hb : Built s L g k) {n : Nat}
    (h : (L.axes.map fun a => L.cnt (L.fwd a)).sum = n) : HasEdges g L n :=
  ⟨⟨_, c13_edge_references hs hb, by rw [allEdges_length (hb.good hs).total, h]⟩, by rw [callSeq_edges, h]⟩

/-- On a directed lattice all the directions of the undirected one are counted, each with its opposite. -/
theorem hasEdges_dir (hs : Lawful s L rep) (hb : Built s L g k) {n : Nat} {ds : List D}
    (hd : L.axes.map L.fwd = ds ++ ds.map L.opp) (h : (ds.map L.cnt).sum = n) : HasEdges g L (2 * n) := by
  refine hasEdges_of hs hb ?_
  have e : (L.axes.map fun a => L.cnt (L.fwd a)) = (L.axes.map L.fwd).map L.cnt := by rw [List.map_map]; rfl
  rw [e, hd, List.map_append, List.sum_append, List.map_map]
  have e2 : (ds.map (L.cnt ∘ L.opp)) = ds.map L.cnt := List.map_congr_left fun d _ => cnt_opp hs.laws d
  rw [e2, h]
  omega
end

section
variable {N E : Type} {rep : Offset → Prop} {repA : Axial → Prop} {w h : Nat} {even flat : Bool}

/-- **C60.** A square graph has `h(w-1) + (h-1)w` edges. -/
theorem c60_square {s : Shape Offset SquareAxis DSquareAxis} {g : Graph Offset SquareAxis DSquareAxis N E}
    {k : Contents Offset SquareAxis N E} (hs : Lawful s (squareLat w h) rep) (hb : Built s (squareLat w h) g k) :
    HasEdges g (squareLat w h) (h * (w - 1) + (h - 1) * w) :=
  hasEdges_of hs hb (by
    have := squareLat_count w h
    show (squareLat w h).cnt .X + ((squareLat w h).cnt .Y + 0) = _
    omega)

/-- **C60.** A directed square graph has twice as many. -/
theorem c60_square_directed {s : Shape Offset DSquareAxis DSquareAxis} {g : Graph Offset DSquareAxis DSquareAxis N E}
    {k : Contents Offset DSquareAxis N E} (hs : Lawful s (squareLatDirected w h) rep)
    (hb : Built s (squareLatDirected w h) g k) :
    HasEdges g (squareLatDirected w h) (2 * (h * (w - 1) + (h - 1) * w)) :=
  hasEdges_dir hs hb (ds := [.X, .Y]) rfl (by
    have := squareLat_count w h
    show (squareLat w h).cnt .X + ((squareLat w h).cnt .Y + 0) = _
    omega)

/-- **C60.** With diagonals: `h(w-1) + (h-1)w + 2(h-1)(w-1)`. -/
theorem c60_diag {s : Shape Offset DiagAxis DDiagAxis} {g : Graph Offset DiagAxis DDiagAxis N E}
    {k : Contents Offset DiagAxis N E} (hs : Lawful s (diagLat w h) rep) (hb : Built s (diagLat w h) g k) :
    HasEdges g (diagLat w h) (h * (w - 1) + (h - 1) * w + 2 * ((h - 1) * (w - 1))) :=
  hasEdges_of hs hb (by
    have := diagLat_count w h
    show (diagLat w h).cnt .N + ((diagLat w h).cnt .NE + ((diagLat w h).cnt .E + ((diagLat w h).cnt .SE + 0))) = _
    omega)

/-- **C60.** Directed with diagonals. -/
theorem c60_diag_directed {s : Shape Offset DDiagAxis DDiagAxis} {g : Graph Offset DDiagAxis DDiagAxis N E}
    {k : Contents Offset DDiagAxis N E} (hs : Lawful s (diagLatDirected w h) rep) (hb : Built s (diagLatDirected w h) g k) :
    HasEdges g (diagLatDirected w h) (2 * (h * (w - 1) + (h - 1) * w + 2 * ((h - 1) * (w - 1)))) :=
  hasEdges_dir hs hb (ds := [.N, .NE, .E, .SE]) rfl (by
    have := diagLat_count w h
    show (diagLat w h).cnt .N + ((diagLat w h).cnt .NE + ((diagLat w h).cnt .E + ((diagLat w h).cnt .SE + 0))) = _
    omega)

/-- **C60.** Hexagons in offset coordinates: `h(w-1) + (h-1)(2w-1)`, whichever rows are shifted. -/
theorem c60_offset {s : Shape Offset AxisR AxisDR} {g : Graph Offset AxisR AxisDR N E}
    {k : Contents Offset AxisR N E} (hs : Lawful s (offLatR even w h) rep) (hb : Built s (offLatR even w h) g k) :
    HasEdges g (offLatR even w h) (hexEdges w h) :=
  hasEdges_of hs hb (by
    have := offLatR_count even w h
    show (offLatR even w h).cnt .NE + ((offLatR even w h).cnt .E + ((offLatR even w h).cnt .SE + 0)) = _
    unfold hexEdges
    omega)

/-- **C60.** Directed. -/
theorem c60_offset_directed {s : Shape Offset AxisDR AxisDR} {g : Graph Offset AxisDR AxisDR N E}
    {k : Contents Offset AxisDR N E} (hs : Lawful s (offLatDR even w h) rep) (hb : Built s (offLatDR even w h) g k) :
    HasEdges g (offLatDR even w h) (2 * hexEdges w h) :=
  hasEdges_dir hs hb (ds := [.NE, .E, .SE]) rfl (by
    have := offLatR_count even w h
    show (offLatR even w h).cnt .NE + ((offLatR even w h).cnt .E + ((offLatR even w h).cnt .SE + 0)) = _
    unfold hexEdges
    omega)

/-- **C60.** On the cylinder: `hw + 2(h-1)w`. -/
theorem c60_loop {s : Shape Offset AxisR AxisDR} {g : Graph Offset AxisR AxisDR N E}
    {k : Contents Offset AxisR N E} (hs : Lawful s (offLatRLoop even w h) rep) (hb : Built s (offLatRLoop even w h) g k) :
    HasEdges g (offLatRLoop even w h) (h * w + 2 * ((h - 1) * w)) :=
  hasEdges_of hs hb (by
    have := offLatRLoop_count even w h
    show (offLatRLoop even w h).cnt .NE + ((offLatRLoop even w h).cnt .E + ((offLatRLoop even w h).cnt .SE + 0)) = _
    omega)

/-- **C60.** Axial maps have as many edges as the offset maps they are sheared from. -/
theorem c60_axial {s : Shape Axial AxisR AxisDR} {g : Graph Axial AxisR AxisDR N E} {k : Contents Axial AxisR N E}
    (hs : Lawful s (axLatR even flat w h) repA) (hb : Built s (axLatR even flat w h) g k) :
    HasEdges g (axLatR even flat w h) (axEdges flat w h) :=
  hasEdges_of hs hb (by
    have := axial_total (L := axLatR even flat w h) hs.laws (w := w) (h := h) (e := .E) (u := .NE) (s := .SE) rfl rfl rfl (fun _ => rfl)
      (fun _ => rfl) (fun _ => rfl) (fun _ => rfl)
    show (axLatR even flat w h).cnt .NE + ((axLatR even flat w h).cnt .E + ((axLatR even flat w h).cnt .SE + 0)) = _
    omega)

/-- **C60.** Directed. -/
theorem c60_axial_directed {s : Shape Axial AxisDR AxisDR} {g : Graph Axial AxisDR AxisDR N E}
    {k : Contents Axial AxisDR N E} (hs : Lawful s (axLatDR even flat w h) repA) (hb : Built s (axLatDR even flat w h) g k) :
    HasEdges g (axLatDR even flat w h) (2 * axEdges flat w h) :=
  hasEdges_dir hs hb (ds := [.NE, .E, .SE]) rfl (by
    have := axial_total (L := axLatDR even flat w h) hs.laws (w := w) (h := h) (e := .E) (u := .NE) (s := .SE) rfl rfl rfl (fun _ => rfl)
      (fun _ => rfl) (fun _ => rfl) (fun _ => rfl)
    show (axLatDR even flat w h).cnt .NE + ((axLatDR even flat w h).cnt .E + ((axLatDR even flat w h).cnt .SE + 0)) = _
    omega)

/-- **C60.** With flat-top directions. -/
theorem c60_axial_flat {s : Shape Axial AxisQ AxisDQ} {g : Graph Axial AxisQ AxisDQ N E} {k : Contents Axial AxisQ N E}
    (hs : Lawful s (axLatQ even flat w h) repA) (hb : Built s (axLatQ even flat w h) g k) :
    HasEdges g (axLatQ even flat w h) (axEdges flat w h) :=
  hasEdges_of hs hb (by
    have := axial_total (L := axLatQ even flat w h) hs.laws (w := w) (h := h) (e := .NE) (u := .N) (s := .SE) rfl rfl rfl (fun _ => rfl)
      (fun _ => rfl) (fun _ => rfl) (fun _ => rfl)
    show (axLatQ even flat w h).cnt .N + ((axLatQ even flat w h).cnt .NE + ((axLatQ even flat w h).cnt .SE + 0)) = _
    omega)

/-- **C60.** With flat-top directions, directed. -/
theorem c60_axial_flat_directed {s : Shape Axial AxisDQ AxisDQ} {g : Graph Axial AxisDQ AxisDQ N E}
    {k : Contents Axial AxisDQ N E} (hs : Lawful s (axLatDQ even flat w h) repA) (hb : Built s (axLatDQ even flat w h) g k) :
    HasEdges g (axLatDQ even flat w h) (2 * axEdges flat w h) :=
  hasEdges_dir hs hb (ds := [.N, .NE, .SE]) rfl (by
    have := axial_total (L := axLatDQ even flat w h) hs.laws (w := w) (h := h) (e := .NE) (u := .N) (s := .SE) rfl rfl rfl (fun _ => rfl)
      (fun _ => rfl) (fun _ => rfl) (fun _ => rfl)
    show (axLatDQ even flat w h).cnt .N + ((axLatDQ even flat w h).cnt .NE + ((axLatDQ even flat w h).cnt .SE + 0)) = _
    omega)
end

/-- The 3 × 2 square graph has 7 edges. -/
example : ∃ g : Graph Offset SquareAxis DSquareAxis Nat Nat, Built (squareShape m64 3 2) (squareLat 3 2) g exK ∧
    HasEdges g (squareLat 3 2) 7 := by
  obtain ⟨g, hb⟩ := exSquare
  exact ⟨g, hb, c60_square (Lawful.square m64 3 2) hb⟩

/-- The 4 × 3 even-row hexagonal graph has 23, 2 × 3 on the cylinder (with double edges) 14. -/
example : (∃ g : Graph Offset AxisR AxisDR Unit Unit, HasEdges g (offLatR true 4 3) 23) ∧
    ∃ g : Graph Offset AxisR AxisDR Unit Unit, HasEdges g (offLatRLoop true 2 3) 14 := by
  constructor
  · obtain ⟨g, hb⟩ := (Lawful.hexOffR m64 evenR 4 3).exists_built (by decide) (fun u _ => ((), u)) (fun u _ _ => ((), u)) ()
    exact ⟨g, c60_offset (Lawful.hexOffR m64 evenR 4 3) hb⟩
  · obtain ⟨g, hb⟩ := (Lawful.hexOffRLew m64 evenR 2 3).exists_built (by decide) (fun u _ => ((), u)) (fun u _ _ => ((), u)) ()
    exact ⟨g, c60_loop (Lawful.hexOffRLew m64 evenR 2 3) hb⟩

/-- **C18** fails on every release target, 64-bit ones included: there is a directed square graph (of zero-sized weights, or
the allocation fails) whose `edge_references` promises at most `u` items but yields more. -/
theorem c18_edge_references_wrong_bound (m : Machine) (hm : m.mode = .release) :
    ∃ (w h : Nat) (g : Graph Offset DSquareAxis DSquareAxis Unit Unit) (k : _) (u : Nat) (l : List _),
      Built (squareShapeDirected m w h) (squareLatDirected w h) g k ∧
      edgeRefsSizeHint g edgeRefsInit = .ok (0, some u) ∧ Yields (edgeRefsNext g) edgeRefsInit l ∧ u < l.length := by
  have hh := m.half_ge
  have hc : Constructible (squareShapeDirected m 2 ((m.half - 1) / 2)) := by
    have h2 : (m.half - 1) / 2 ≠ 0 := by omega
    simp [Constructible, squareShapeDirected, h2]
    omega
  have hs := Lawful.squareDirected m 2 ((m.half - 1) / 2)
  obtain ⟨g, hb⟩ := hs.exists_built (N := Unit) (E := Unit) (σ := Unit) hc (fun _ _ => ((), ())) (fun _ _ _ => ((), ())) ()
  obtain ⟨⟨l, h1, h2⟩, -⟩ := c60_square_directed hs hb
  have h3 := c18_edge_references_overflow hs.storable hb (by
    show 2 * m.half ≤ 2 * ((m.half - 1) / 2) * 4
    omega)
  refine ⟨_, _, g, _, 2 * ((m.half - 1) / 2) * 4 % (2 * m.half), l, hb, ?_, h1, ?_⟩
  · rw [h3]
    have : (squareShapeDirected m 2 ((m.half - 1) / 2)).m.mode = .release := hm
    rw [this]
    rfl
  · rw [h2, show 2 * ((m.half - 1) / 2) * 4 = (2 * ((m.half - 1) / 2) * 4 - 2 * m.half) + 2 * m.half by omega,
      Nat.add_mod_right, Nat.mod_eq_of_lt (by omega)]
    omega

/-! ### Instances -/
example : ∃ g : Graph Offset DSquareAxis DSquareAxis Nat Nat, Built (squareShapeDirected m64 3 2) (squareLatDirected 3 2) g exKD ∧
    HasEdges g (squareLatDirected 3 2) 14 := by
  obtain ⟨g, hb⟩ := exSquareD m64 rfl
  exact ⟨g, hb, c60_square_directed (Lawful.squareDirected m64 3 2) hb⟩
example : ∃ g : Graph Offset DiagAxis DDiagAxis Unit Unit, HasEdges g (diagLat 3 2) 11 := by
  obtain ⟨g, hb⟩ := (Lawful.diag m64 3 2).exists_built (by decide) (fun u _ => ((), u)) (fun u _ _ => ((), u)) ()
  exact ⟨g, c60_diag (Lawful.diag m64 3 2) hb⟩
example : ∃ g : Graph Offset DDiagAxis DDiagAxis Unit Unit, HasEdges g (diagLatDirected 3 2) 22 := by
  obtain ⟨g, hb⟩ := (Lawful.diagDirected m64 3 2).exists_built (by decide) (fun u _ => ((), u)) (fun u _ _ => ((), u)) ()
  exact ⟨g, c60_diag_directed (Lawful.diagDirected m64 3 2) hb⟩
example : ∃ g : Graph Offset AxisDR AxisDR Unit Unit, HasEdges g (offLatDR true 4 3) 46 := by
  obtain ⟨g, hb⟩ := (Lawful.hexOffRDirected m64 evenR 4 3).exists_built (by decide) (fun u _ => ((), u)) (fun u _ _ => ((), u)) ()
  exact ⟨g, c60_offset_directed (Lawful.hexOffRDirected m64 evenR 4 3) hb⟩
example : ∃ g : Graph Axial AxisR AxisDR Unit Unit, HasEdges g (axLatR true false 4 3) 23 := by
  have hs := Lawful.hexAxR m64 (isizeTy m64) evenR 4 3 (.isize (by decide) (by decide))
  obtain ⟨g, hb⟩ := hs.exists_built (by decide) (fun u _ => ((), u)) (fun u _ _ => ((), u)) ()
  exact ⟨g, c60_axial hs hb⟩
example : ∃ g : Graph Axial AxisDR AxisDR Unit Unit, HasEdges g (axLatDR true false 4 3) 46 := by
  have hs := Lawful.hexAxRDirected m64 (isizeTy m64) evenR 4 3 (.isize (by decide) (by decide))
  obtain ⟨g, hb⟩ := hs.exists_built (by decide) (fun u _ => ((), u)) (fun u _ _ => ((), u)) ()
  exact ⟨g, c60_axial_directed hs hb⟩
example : ∃ g : Graph Axial AxisQ AxisDQ Unit Unit, HasEdges g (axLatQ false oddQ.isFlatTop 4 2) (axEdges oddQ.isFlatTop 4 2) := by
  have hs := Lawful.hexAxQ m64 (isizeTy m64) oddQ 4 2 (.isize (by decide) (by decide))
  obtain ⟨g, hb⟩ := hs.exists_built (by decide) (fun u _ => ((), u)) (fun u _ _ => ((), u)) ()
  exact ⟨g, c60_axial_flat hs hb⟩
example : ∃ g : Graph Axial AxisDQ AxisDQ Unit Unit, HasEdges g (axLatDQ false oddQ.isFlatTop 4 2) (2 * axEdges oddQ.isFlatTop 4 2) := by
  have hs := Lawful.hexAxQDirected m64 (isizeTy m64) oddQ 4 2 (.isize (by decide) (by decide))
  obtain ⟨g, hb⟩ := hs.exists_built (by decide) (fun u _ => ((), u)) (fun u _ _ => ((), u)) ()
  exact ⟨g, c60_axial_flat_directed hs hb⟩
example : axEdges true 4 2 = 13 ∧ axEdges false 4 2 = 13 ∧ axEdges true 4 3 = 23 ∧ axEdges false 3 5 = 30 := by decide
example := c18_edge_references_wrong_bound m64r rfl

end LG
