import Verif.Props.Distance
import Verif.Props.Dijkstra
/- C111: how far apart two nodes can be. -/
set_option linter.unusedSectionVars false
namespace LG

/-- `n` steps along `neighbors` lead from any node to any other, and no fewer do for some two nodes. -/
def Diameter {C A D : Type} (s : Shape C A D) (Node : C → Prop) (n : Nat) : Prop :=
  (∀ a b, Node a → Node b → ∃ m, m ≤ n ∧ Walk s a m b) ∧ ∃ a b, Node a ∧ Node b ∧ ∀ m, Walk s a m b → n ≤ m

theorem Diameter.unique {C A D : Type} {s : Shape C A D} {Node : C → Prop} {n n' : Nat} (h : Diameter s Node n)
    (h' : Diameter s Node n') : n = n' := by
  obtain ⟨h1, a, b, ha, hb, h2⟩ := h
  obtain ⟨h1', a', b', ha', hb', h2'⟩ := h'
  obtain ⟨m, h3, h4⟩ := h1 a' b' ha' hb'
  obtain ⟨m', h3', h4'⟩ := h1' a b ha hb
  have := h2 _ h4'
  have := h2' _ h4
  omega

section
variable {C A D N E : Type} [DecidableEq C] [DecidableEq A] [DecidableEq D]
variable {g : Graph C A D N E} {s : Shape C A D} {L : Lat C A D} {rep : C → Prop} {k : Contents C A N E}

theorem Steppy.diameter {dist : C → C → Nat} (hd : Steppy L dist) (hs : Lawful s L rep) (hb : Built s L g k) {n : Nat}
    (hle : ∀ x y x' y', x < L.width → y < L.height → x' < L.width → y' < L.height → dist (L.coord x y) (L.coord x' y') ≤ n)
    {x y x' y' : Nat} (hx : x < L.width) (hy : y < L.height) (hx' : x' < L.width) (hy' : y' < L.height)
    (hge : n ≤ dist (L.coord x y) (L.coord x' y')) : Diameter g.s L.Node n := by
  constructor
  · rintro _ _ ⟨x, y, h1, h2, rfl⟩ ⟨x', y', h3, h4, rfl⟩
    exact ⟨_, hle x y x' y' h1 h2 h3 h4, (hd.shortest hs hb ⟨x, y, h1, h2, rfl⟩ ⟨x', y', h3, h4, rfl⟩).1⟩
  · exact ⟨_, _, ⟨x, y, hx, hy, rfl⟩, ⟨x', y', hx', hy', rfl⟩, fun m hm =>
      Nat.le_trans hge ((hd.shortest hs hb ⟨x, y, hx, hy, rfl⟩ ⟨x', y', hx', hy', rfl⟩).2 m hm)⟩
end

section
variable {w h : Nat} {even : Bool}

theorem manhattan_span {x y x' y' : Nat} (hx : x < w) (hy : y < h) (hx' : x' < w) (hy' : y' < h) :
    manhattan ⟨x, y⟩ ⟨x', y'⟩ ≤ w + h - 2 := by
  simp only [manhattan]; omega

theorem chebyshev_span {x y x' y' : Nat} (hx : x < w) (hy : y < h) (hx' : x' < w) (hy' : y' < h) :
    chebyshev ⟨x, y⟩ ⟨x', y'⟩ ≤ max w h - 1 := by
  simp only [chebyshev]; omega

/-- The greatest hexagonal distance in a map of `w` columns and `h` rows, every other row of which is shifted. -/
def hexSpan (w h : Nat) : Nat := max (h - 1) (w - 1 + h / 2)

/-- The same when the rows are closed to circles. -/
def cylSpan (w h : Nat) : Nat := max (h - 1) ((w + h - 1) / 2)

theorem offDist_span {x y x' y' : Nat} (hx : x < w) (hy : y < h) (hx' : x' < w) (hy' : y' < h) :
    offDist even ⟨x, y⟩ ⟨x', y'⟩ ≤ hexSpan w h := by
  cases even <;> simp only [offDist, hexSpan, hexLen, offPos, rowShift] <;> simp <;> omega

/-- The corners that are farthest apart. -/
def farX (even : Bool) (w : Nat) : Nat × Nat := if even then (w - 1, 0) else (0, w - 1)

theorem farX_lt (hw : 0 < w) : (farX even w).1 < w ∧ (farX even w).2 < w := by
  cases even <;> simp only [farX] <;> simp <;> omega

theorem offDist_far (hw : 0 < w) (hh : 0 < h) :
    hexSpan w h ≤ offDist even ⟨(farX even w).1, 0⟩ ⟨(farX even w).2, h - 1⟩ := by
  cases even <;> simp only [offDist, hexSpan, hexLen, offPos, rowShift, farX] <;> simp <;> omega

theorem cylDist_span {x y x' y' : Nat} (hx : x < w) (hy : y < h) (hx' : x' < w) (hy' : y' < h) :
    cylDist even w ⟨x, y⟩ ⟨x', y'⟩ ≤ cylSpan w h := by
  cases even <;> simp only [cylDist, cylSpan, hexLen, around, offPos, rowShift] <;> simp <;> omega

/-- The columns of two cells of the first and the last row of a cylinder that are farthest apart. -/
def farLoopX (even : Bool) (w h : Nat) : Nat × Nat :=
  if even then ((w - (h - 1) % 2) / 2, 0) else (0, (w - (h - 1) % 2) / 2)

theorem farLoopX_lt (hw : 0 < w) : (farLoopX even w h).1 < w ∧ (farLoopX even w h).2 < w := by
  cases even <;> simp only [farLoopX] <;> simp <;> omega

theorem cylDist_far (hw : 0 < w) (hh : 0 < h) :
    cylSpan w h ≤ cylDist even w ⟨(farLoopX even w h).1, 0⟩ ⟨(farLoopX even w h).2, h - 1⟩ := by
  cases even <;> simp only [cylDist, cylSpan, hexLen, around, offPos, rowShift, farLoopX] <;> simp <;> omega

theorem axDist_span_le {flat : Bool} {x y x' y' : Nat} (hx : x < w) (hy : y < h) (hx' : x' < w) (hy' : y' < h) :
    axDist (axCoord even flat x y) (axCoord even flat x' y') ≤ if flat then hexSpan h w else hexSpan w h := by
  cases even <;> cases flat <;> simp only [axDist, axCoord, axShift, hexSpan] <;> simp <;> omega

/-- The same corners in an axial map. -/
def farAx (even flat : Bool) (w h : Nat) : (Nat × Nat) × (Nat × Nat) :=
  if flat then ((0, (farX even h).1), (w - 1, (farX even h).2)) else (((farX even w).1, 0), ((farX even w).2, h - 1))

theorem farAx_lt {flat : Bool} (hw : 0 < w) (hh : 0 < h) : (farAx even flat w h).1.1 < w ∧ (farAx even flat w h).1.2 < h ∧
    (farAx even flat w h).2.1 < w ∧ (farAx even flat w h).2.2 < h := by
  cases even <;> cases flat <;> simp only [farAx, farX] <;> simp <;> omega

theorem axDist_far {flat : Bool} (hw : 0 < w) (hh : 0 < h) :
    (if flat then hexSpan h w else hexSpan w h) ≤
      axDist (axCoord even flat (farAx even flat w h).1.1 (farAx even flat w h).1.2)
        (axCoord even flat (farAx even flat w h).2.1 (farAx even flat w h).2.2) := by
  cases even <;> cases flat <;> simp only [axDist, axCoord, axShift, hexSpan, farAx, farX] <;> simp <;> omega
end

/-! ### Degrees -/

section
variable {C A D : Type} {L : Lat C A D}

theorem nbrs_length (L : Lat C A D) (a : C) : (L.nbrs a).length = (L.dirs.map fun d => (L.nbr a d).isSome.toNat).sum := by
  unfold Lat.nbrs
  induction L.dirs with
  | nil => rfl
  | cons d l ih =>
    rw [List.filterMap_cons, List.map_cons, List.sum_cons, ← ih]
    cases h : L.nbr a d <;> simp [Nat.add_comm]
end

section
variable {w h : Nat} {even : Bool}

/-- 1 if there is a cell on that side, else 0. -/
def has (p : Prop) [Decidable p] : Nat := (decide p).toNat

theorem isSome_inRect (X Y : Int) : (inRect w h X Y).isSome = decide (0 ≤ X ∧ X < w ∧ 0 ≤ Y ∧ Y < h) := by
  unfold inRect
  split <;> simp_all

/-- Sides on which there is a cell, as the number of adjacent cells. -/
def squareDegree (w h x y : Nat) : Nat := has (0 < x) + has (x + 1 < w) + has (0 < y) + has (y + 1 < h)
/-- The cells of the surrounding 3 × 3 block without the cell itself. -/
def diagDegree (w h x y : Nat) : Nat := (1 + has (0 < x) + has (x + 1 < w)) * (1 + has (0 < y) + has (y + 1 < h)) - 1
/-- In the rows above and below the cell has a neighbor in its own column, and one to the right if its row is shifted right, to the
left otherwise. -/
def hexDegree (even : Bool) (w h x y : Nat) : Nat :=
  has (0 < x) + has (x + 1 < w) +
    (has (0 < y) + has (y + 1 < h)) * (1 + if rowShift even y = 1 then has (x + 1 < w) else has (0 < x))
/-- On a cylinder there are two neighbors in the own row and in each adjacent one. -/
def ringDegree (h y : Nat) : Nat := 2 + 2 * (has (0 < y) + has (y + 1 < h))

theorem square_degree {x y : Nat} (hx : x < w) (hy : y < h) : ((squareLat w h).nbrs ⟨x, y⟩).length = squareDegree w h x y := by
  rw [nbrs_length]
  simp only [squareLat, List.map, List.sum_cons, List.sum_nil, rectNbr, isSome_inRect, DSquareAxis.vec, squareDegree, has]
  have e1 : decide (0 ≤ (x : Int) + 1 ∧ (x : Int) + 1 < w ∧ 0 ≤ (y : Int) + 0 ∧ (y : Int) + 0 < h) = decide (x + 1 < w) := decide_eq_decide.2 (by omega)
  have e2 : decide (0 ≤ (x : Int) + 0 ∧ (x : Int) + 0 < w ∧ 0 ≤ (y : Int) + 1 ∧ (y : Int) + 1 < h) = decide (y + 1 < h) := decide_eq_decide.2 (by omega)
  have e3 : decide (0 ≤ (x : Int) + -1 ∧ (x : Int) + -1 < w ∧ 0 ≤ (y : Int) + 0 ∧ (y : Int) + 0 < h) = decide (0 < x) := decide_eq_decide.2 (by omega)
  have e4 : decide (0 ≤ (x : Int) + 0 ∧ (x : Int) + 0 < w ∧ 0 ≤ (y : Int) + -1 ∧ (y : Int) + -1 < h) = decide (0 < y) := decide_eq_decide.2 (by omega)
  rw [e1, e2, e3, e4]
  omega

theorem diag_degree {x y : Nat} (hx : x < w) (hy : y < h) : ((diagLat w h).nbrs ⟨x, y⟩).length = diagDegree w h x y := by
  rw [nbrs_length]
  simp only [diagLat, List.map, List.sum_cons, List.sum_nil, rectNbr, isSome_inRect, DDiagAxis.vec, diagDegree, has]
  have c1 : (0 ≤ (x : Int) + 1 ∧ (x : Int) + 1 < w) ↔ x + 1 < w := by omega
  have c0 : (0 ≤ (x : Int) + 0 ∧ (x : Int) + 0 < w) ↔ True := iff_true_intro (by omega)
  have c2 : (0 ≤ (x : Int) + -1 ∧ (x : Int) + -1 < w) ↔ 0 < x := by omega
  have r1 : (0 ≤ (y : Int) + 1 ∧ (y : Int) + 1 < h) ↔ y + 1 < h := by omega
  have r0 : (0 ≤ (y : Int) + 0 ∧ (y : Int) + 0 < h) ↔ True := iff_true_intro (by omega)
  have r2 : (0 ≤ (y : Int) + -1 ∧ (y : Int) + -1 < h) ↔ 0 < y := by omega
  simp only [← and_assoc (b := _ < (w : Int)), c1, c0, c2, r1, r0, r2, and_true, true_and, Bool.decide_and]
  cases decide (0 < x) <;> cases decide (x + 1 < w) <;> cases decide (0 < y) <;> cases decide (y + 1 < h) <;> rfl

theorem off_degree {x y : Nat} (hx : x < w) (hy : y < h) : ((offLatR even w h).nbrs ⟨x, y⟩).length = hexDegree even w h x y := by
  rw [nbrs_length]
  simp only [offLatR, hexLatR, List.map, List.sum_cons, List.sum_nil, offNbr, offAt, offPos, isSome_inRect, AxisDR.vec, hexDegree, has]
  have r1 : (0 ≤ (y : Int) + 1 ∧ (y : Int) + 1 < h) ↔ y + 1 < h := by omega
  have r0 : (0 ≤ (y : Int) + 0 ∧ (y : Int) + 0 < h) ↔ True := iff_true_intro (by omega)
  have r2 : (0 ≤ (y : Int) + -1 ∧ (y : Int) + -1 < h) ↔ 0 < y := by omega
  have s0 : rowShift even ((y : Int) + 0) = rowShift even y := by rw [Int.add_zero]
  have s1 : rowShift even ((y : Int) + 1) = 1 - rowShift even y := by unfold rowShift; split <;> omega
  have s2 : rowShift even ((y : Int) + -1) = 1 - rowShift even y := by unfold rowShift; split <;> omega
  have s3 : rowShift even (y : Int) = 0 ∨ rowShift even (y : Int) = 1 := by unfold rowShift; split <;> omega
  rw [s0, s1, s2]
  generalize rowShift even (y : Int) = t at s3
  rcases s3 with rfl | rfl
  · have c1 : ∀ z : Int, z = x + 1 → ((0 ≤ z ∧ z < w) ↔ x + 1 < w) := by omega
    have c0 : ∀ z : Int, z = x → ((0 ≤ z ∧ z < w) ↔ True) := fun z hz => iff_true_intro (by omega)
    have c2 : ∀ z : Int, z = x - 1 → ((0 ≤ z ∧ z < w) ↔ 0 < x) := by omega
    simp only [← and_assoc (b := _ < (w : Int)), c1 ((2 * (x : Int) + 0 + 2 - 0) / 2) (by omega), c2 ((2 * (x : Int) + 0 + -2 - 0) / 2) (by omega),
      c0 ((2 * (x : Int) + 0 + 1 - (1 - 0)) / 2) (by omega), c2 ((2 * (x : Int) + 0 + -1 - (1 - 0)) / 2) (by omega),
      r1, r0, r2, and_true, true_and, Bool.decide_and]
    cases decide (0 < x) <;> cases decide (x + 1 < w) <;> cases decide (0 < y) <;> cases decide (y + 1 < h) <;> rfl
  · have c1 : ∀ z : Int, z = x + 1 → ((0 ≤ z ∧ z < w) ↔ x + 1 < w) := by omega
    have c0 : ∀ z : Int, z = x → ((0 ≤ z ∧ z < w) ↔ True) := fun z hz => iff_true_intro (by omega)
    have c2 : ∀ z : Int, z = x - 1 → ((0 ≤ z ∧ z < w) ↔ 0 < x) := by omega
    simp only [← and_assoc (b := _ < (w : Int)), c1 ((2 * (x : Int) + 1 + 2 - 1) / 2) (by omega), c2 ((2 * (x : Int) + 1 + -2 - 1) / 2) (by omega),
      c1 ((2 * (x : Int) + 1 + 1 - (1 - 1)) / 2) (by omega), c0 ((2 * (x : Int) + 1 + -1 - (1 - 1)) / 2) (by omega),
      r1, r0, r2, and_true, true_and, Bool.decide_and]
    cases decide (0 < x) <;> cases decide (x + 1 < w) <;> cases decide (0 < y) <;> cases decide (y + 1 < h) <;> rfl

theorem loop_degree {x y : Nat} (hx : x < w) (hy : y < h) : ((offLatRLoop even w h).nbrs ⟨x, y⟩).length = ringDegree h y := by
  rw [nbrs_length]
  simp only [offLatRLoop, hexLatR, List.map, List.sum_cons, List.sum_nil, offNbrLoop, offAtLoop, offPos, isSome_inRect, AxisDR.vec, ringDegree, has]
  have r1 : (0 ≤ (y : Int) + 1 ∧ (y : Int) + 1 < h) ↔ y + 1 < h := by omega
  have r0 : (0 ≤ (y : Int) + 0 ∧ (y : Int) + 0 < h) ↔ True := iff_true_intro (by omega)
  have r2 : (0 ≤ (y : Int) + -1 ∧ (y : Int) + -1 < h) ↔ 0 < y := by omega
  have c : ∀ z : Int, (0 ≤ z % w ∧ z % w < w) ↔ True := fun z =>
    iff_true_intro ⟨Int.emod_nonneg _ (by omega), Int.emod_lt_of_pos _ (by omega)⟩
  simp only [← and_assoc (b := _ < (w : Int)), c, r1, r0, r2, and_true, true_and]
  cases decide (0 < y) <;> cases decide (y + 1 < h) <;> rfl

theorem isSome_axNbr {flat : Bool} (c : Axial) (v : Int × Int) : (axNbr even flat w h c v).isSome = axIn even flat w h ⟨c.r + v.1, c.q + v.2⟩ := by
  unfold axNbr
  split <;> simp_all

/-- Is the cell `(dx, dy)` away in axial coordinates from row `y`, column `x` in a map with sheared rows? -/
def shIn (even : Bool) (w h x y : Nat) (dx dy : Int) : Bool :=
  decide (0 ≤ (y : Int) + dy ∧ (y : Int) + dy < h ∧ 0 ≤ (x : Int) - axShift even y + dx + axShift even ((y : Int) + dy) ∧
    (x : Int) - axShift even y + dx + axShift even ((y : Int) + dy) < w)

theorem sh_degree {x y : Nat} (hx : x < w) (hy : y < h) :
    (shIn even w h x y 1 0).toNat + (shIn even w h x y (-1) 0).toNat + (shIn even w h x y 0 1).toNat + (shIn even w h x y (-1) 1).toNat +
      (shIn even w h x y 0 (-1)).toNat + (shIn even w h x y 1 (-1)).toNat = hexDegree even w h x y := by
  have s0 : axShift even ((y : Int) + 0) = axShift even y := by rw [Int.add_zero]
  have s1 : axShift even ((y : Int) + 1) = axShift even y + rowShift even y := by unfold rowShift axShift; cases even <;> simp <;> omega
  have s2 : axShift even ((y : Int) + -1) = axShift even y + rowShift even y - 1 := by unfold rowShift axShift; cases even <;> simp <;> omega
  have s3 : rowShift even (y : Int) = 0 ∨ rowShift even (y : Int) = 1 := by unfold rowShift; split <;> omega
  rcases s3 with ht | ht
  · have e0 : shIn even w h x y 1 0 = decide (x + 1 < w) := by rw [shIn, s0]; exact decide_eq_decide.2 (by omega)
    have e1 : shIn even w h x y (-1) 0 = decide (0 < x) := by rw [shIn, s0]; exact decide_eq_decide.2 (by omega)
    have e2 : shIn even w h x y 0 1 = decide (y + 1 < h) := by rw [shIn, s1]; exact decide_eq_decide.2 (by omega)
    have e3 : shIn even w h x y (-1) 1 = decide (0 < x ∧ y + 1 < h) := by rw [shIn, s1]; exact decide_eq_decide.2 (by omega)
    have e4 : shIn even w h x y 0 (-1) = decide (0 < x ∧ 0 < y) := by rw [shIn, s2]; exact decide_eq_decide.2 (by omega)
    have e5 : shIn even w h x y 1 (-1) = decide (0 < y) := by rw [shIn, s2]; exact decide_eq_decide.2 (by omega)
    rw [e0, e1, e2, e3, e4, e5, hexDegree, ht]
    simp only [Bool.decide_and, has]
    cases decide (0 < x) <;> cases decide (x + 1 < w) <;> cases decide (0 < y) <;> cases decide (y + 1 < h) <;> rfl
  · have e0 : shIn even w h x y 1 0 = decide (x + 1 < w) := by rw [shIn, s0]; exact decide_eq_decide.2 (by omega)
    have e1 : shIn even w h x y (-1) 0 = decide (0 < x) := by rw [shIn, s0]; exact decide_eq_decide.2 (by omega)
    have e2 : shIn even w h x y 0 1 = decide (x + 1 < w ∧ y + 1 < h) := by rw [shIn, s1]; exact decide_eq_decide.2 (by omega)
    have e3 : shIn even w h x y (-1) 1 = decide (y + 1 < h) := by rw [shIn, s1]; exact decide_eq_decide.2 (by omega)
    have e4 : shIn even w h x y 0 (-1) = decide (0 < y) := by rw [shIn, s2]; exact decide_eq_decide.2 (by omega)
    have e5 : shIn even w h x y 1 (-1) = decide (x + 1 < w ∧ 0 < y) := by rw [shIn, s2]; exact decide_eq_decide.2 (by omega)
    rw [e0, e1, e2, e3, e4, e5, hexDegree, ht]
    simp only [Bool.decide_and, has]
    cases decide (0 < x) <;> cases decide (x + 1 < w) <;> cases decide (0 < y) <;> cases decide (y + 1 < h) <;> rfl

theorem axIn_rows {x y : Nat} (dx dy : Int) : axIn even false w h ⟨(axCoord even false x y).r + dx, (axCoord even false x y).q + dy⟩ = shIn even w h x y dx dy := rfl
theorem axIn_cols {x y : Nat} (dx dy : Int) : axIn even true w h ⟨(axCoord even true x y).r + dx, (axCoord even true x y).q + dy⟩ = shIn even h w y x dy dx := rfl

theorem axR_degree {flat : Bool} {x y : Nat} (hx : x < w) (hy : y < h) : ((axLatR even flat w h).nbrs (axCoord even flat x y)).length =
    if flat then hexDegree even h w y x else hexDegree even w h x y := by
  rw [nbrs_length]
  simp only [axLatR, hexLatR, List.map, List.sum_cons, List.sum_nil, isSome_axNbr, AxisDR.axial]
  cases flat
  · simp only [axIn_rows, Bool.false_eq_true, if_false, ← sh_degree hx hy]; omega
  · simp only [axIn_cols, if_true, ← sh_degree hy hx]; omega

theorem axQ_degree {flat : Bool} {x y : Nat} (hx : x < w) (hy : y < h) : ((axLatQ even flat w h).nbrs (axCoord even flat x y)).length =
    if flat then hexDegree even h w y x else hexDegree even w h x y := by
  rw [nbrs_length]
  simp only [axLatQ, hexLatQ, List.map, List.sum_cons, List.sum_nil, isSome_axNbr, AxisDQ.axial]
  cases flat
  · simp only [axIn_rows, Bool.false_eq_true, if_false, ← sh_degree hx hy]; omega
  · simp only [axIn_cols, if_true, ← sh_degree hy hx]; omega
end

section
variable {C A D N E : Type} [DecidableEq C] [DecidableEq A] [DecidableEq D]
variable {g : Graph C A D N E} {s : Shape C A D} {L : Lat C A D} {rep : C → Prop} {k : Contents C A N E}

/-- `neighbors(a)` and `edges(a)` yield `n` items each. -/
def Degree (g : Graph C A D N E) (a : C) (n : Nat) : Prop :=
  ∃ l it rs, Yields (NeighborsIt.next g.s) (g.neighbors a) l ∧ g.edgesOf a = .ok it ∧ Yields (edgesNext g) it rs ∧
    l.length = n ∧ rs.length = n

theorem degree_nbrs (hs : Lawful s L rep) (hb : Built s L g k) {a : C} (ha : L.Node a) {n : Nat} (hn : (L.nbrs a).length = n) :
    Degree g a n := by
  obtain ⟨it, h1, h2⟩ := c58_edges_partial hs.storable hb ha (hs.readable ha)
  exact ⟨_, it, _, c07_neighbors_call hs hb ha, h1, h2, hn, by
    rw [← hn, ← (c10_targets hs hb ha).1, List.length_map]⟩
end

section
variable {N E : Type} {rep : Offset → Prop} {repA : Axial → Prop} {w h : Nat} {even flat : Bool}

/-- **C111.** Squares: a node has a neighbor on every side but those that are the border, and the farthest nodes are opposite corners. -/
theorem c111_square {s : Shape Offset SquareAxis DSquareAxis} {g : Graph Offset SquareAxis DSquareAxis N E} {k : Contents Offset SquareAxis N E}
    (hs : Lawful s (squareLat w h) rep) (hb : Built s (squareLat w h) g k) :
    (∀ x y, x < w → y < h → Degree g ⟨x, y⟩ (squareDegree w h x y)) ∧
    (0 < w → 0 < h → Diameter g.s (fun c => c.horizontal < w ∧ c.vertical < h) (w + h - 2)) := by
  constructor
  · exact fun x y hx hy => degree_nbrs hs hb ⟨x, y, hx, hy, rfl⟩ (square_degree hx hy)
  · intro hw hh
    have e : (fun c : Offset => c.horizontal < w ∧ c.vertical < h) = (squareLat w h).Node := funext fun c => propext
      ⟨fun ⟨h1, h2⟩ => ⟨c.horizontal, c.vertical, h1, h2, rfl⟩, fun ⟨_, _, h1, h2, e⟩ => e ▸ ⟨h1, h2⟩⟩
    rw [e]
    exact steppy_square.diameter hs hb (fun _ _ _ _ h1 h2 h3 h4 => manhattan_span h1 h2 h3 h4) (x := 0) (y := 0) (x' := w - 1) (y' := h - 1)
      (by simp only [squareLat]; omega) (by simp only [squareLat]; omega) (by simp only [squareLat]; omega) (by simp only [squareLat]; omega) (by simp only [manhattan, squareLat]; omega)

/-- **C111.** The same on directed squares. -/
theorem c111_square_directed {s : Shape Offset DSquareAxis DSquareAxis} {g : Graph Offset DSquareAxis DSquareAxis N E} {k : Contents Offset DSquareAxis N E}
    (hs : Lawful s (squareLatDirected w h) rep) (hb : Built s (squareLatDirected w h) g k) :
    (∀ x y, x < w → y < h → Degree g ⟨x, y⟩ (squareDegree w h x y)) ∧
    (0 < w → 0 < h → Diameter g.s (fun c => c.horizontal < w ∧ c.vertical < h) (w + h - 2)) := by
  constructor
  · exact fun x y hx hy => degree_nbrs hs hb ⟨x, y, hx, hy, rfl⟩ (square_degree hx hy)
  · intro hw hh
    have e : (fun c : Offset => c.horizontal < w ∧ c.vertical < h) = (squareLatDirected w h).Node := funext fun c => propext
      ⟨fun ⟨h1, h2⟩ => ⟨c.horizontal, c.vertical, h1, h2, rfl⟩, fun ⟨_, _, h1, h2, e⟩ => e ▸ ⟨h1, h2⟩⟩
    rw [e]
    exact steppy_squareDirected.diameter hs hb (fun _ _ _ _ h1 h2 h3 h4 => manhattan_span h1 h2 h3 h4) (x := 0) (y := 0) (x' := w - 1) (y' := h - 1)
      (by simp only [squareLatDirected]; omega) (by simp only [squareLatDirected]; omega) (by simp only [squareLatDirected]; omega) (by simp only [squareLatDirected]; omega) (by simp only [manhattan, squareLatDirected]; omega)

/-- **C111.** Squares with diagonals. -/
theorem c111_diag {s : Shape Offset DiagAxis DDiagAxis} {g : Graph Offset DiagAxis DDiagAxis N E} {k : Contents Offset DiagAxis N E}
    (hs : Lawful s (diagLat w h) rep) (hb : Built s (diagLat w h) g k) :
    (∀ x y, x < w → y < h → Degree g ⟨x, y⟩ (diagDegree w h x y)) ∧
    (0 < w → 0 < h → Diameter g.s (fun c => c.horizontal < w ∧ c.vertical < h) (max w h - 1)) := by
  constructor
  · exact fun x y hx hy => degree_nbrs hs hb ⟨x, y, hx, hy, rfl⟩ (diag_degree hx hy)
  · intro hw hh
    have e : (fun c : Offset => c.horizontal < w ∧ c.vertical < h) = (diagLat w h).Node := funext fun c => propext
      ⟨fun ⟨h1, h2⟩ => ⟨c.horizontal, c.vertical, h1, h2, rfl⟩, fun ⟨_, _, h1, h2, e⟩ => e ▸ ⟨h1, h2⟩⟩
    rw [e]
    exact steppy_diag.diameter hs hb (fun _ _ _ _ h1 h2 h3 h4 => chebyshev_span h1 h2 h3 h4) (x := 0) (y := 0) (x' := w - 1) (y' := h - 1)
      (by simp only [diagLat]; omega) (by simp only [diagLat]; omega) (by simp only [diagLat]; omega) (by simp only [diagLat]; omega) (by simp only [chebyshev, diagLat]; omega)

/-- **C111.** The same, directed. -/
theorem c111_diag_directed {s : Shape Offset DDiagAxis DDiagAxis} {g : Graph Offset DDiagAxis DDiagAxis N E} {k : Contents Offset DDiagAxis N E}
    (hs : Lawful s (diagLatDirected w h) rep) (hb : Built s (diagLatDirected w h) g k) :
    (∀ x y, x < w → y < h → Degree g ⟨x, y⟩ (diagDegree w h x y)) ∧
    (0 < w → 0 < h → Diameter g.s (fun c => c.horizontal < w ∧ c.vertical < h) (max w h - 1)) := by
  constructor
  · exact fun x y hx hy => degree_nbrs hs hb ⟨x, y, hx, hy, rfl⟩ (diag_degree hx hy)
  · intro hw hh
    have e : (fun c : Offset => c.horizontal < w ∧ c.vertical < h) = (diagLatDirected w h).Node := funext fun c => propext
      ⟨fun ⟨h1, h2⟩ => ⟨c.horizontal, c.vertical, h1, h2, rfl⟩, fun ⟨_, _, h1, h2, e⟩ => e ▸ ⟨h1, h2⟩⟩
    rw [e]
    exact steppy_diagDirected.diameter hs hb (fun _ _ _ _ h1 h2 h3 h4 => chebyshev_span h1 h2 h3 h4) (x := 0) (y := 0) (x' := w - 1) (y' := h - 1)
      (by simp only [diagLatDirected]; omega) (by simp only [diagLatDirected]; omega) (by simp only [diagLatDirected]; omega) (by simp only [diagLatDirected]; omega) (by simp only [chebyshev, diagLatDirected]; omega)

/-- **C111.** Point-top hexagons in offset coordinates. -/
theorem c111_offset {s : Shape Offset AxisR AxisDR} {g : Graph Offset AxisR AxisDR N E} {k : Contents Offset AxisR N E}
    (hs : Lawful s (offLatR even w h) rep) (hb : Built s (offLatR even w h) g k) :
    (∀ x y, x < w → y < h → Degree g ⟨x, y⟩ (hexDegree even w h x y)) ∧
    (0 < w → 0 < h → Diameter g.s (fun c => c.horizontal < w ∧ c.vertical < h) (hexSpan w h)) := by
  constructor
  · exact fun x y hx hy => degree_nbrs hs hb ⟨x, y, hx, hy, rfl⟩ (off_degree hx hy)
  · intro hw hh
    have e : (fun c : Offset => c.horizontal < w ∧ c.vertical < h) = (offLatR even w h).Node := funext fun c => propext
      ⟨fun ⟨h1, h2⟩ => ⟨c.horizontal, c.vertical, h1, h2, rfl⟩, fun ⟨_, _, h1, h2, e⟩ => e ▸ ⟨h1, h2⟩⟩
    rw [e]
    exact steppy_off.diameter hs hb (fun _ _ _ _ h1 h2 h3 h4 => offDist_span h1 h2 h3 h4) (x := (farX even w).1) (y := 0) (x' := (farX even w).2) (y' := h - 1)
      (farX_lt hw).1 hh (farX_lt hw).2 (Nat.pred_lt_self hh) (offDist_far hw hh)

/-- **C111.** The same, directed. -/
theorem c111_offset_directed {s : Shape Offset AxisDR AxisDR} {g : Graph Offset AxisDR AxisDR N E} {k : Contents Offset AxisDR N E}
    (hs : Lawful s (offLatDR even w h) rep) (hb : Built s (offLatDR even w h) g k) :
    (∀ x y, x < w → y < h → Degree g ⟨x, y⟩ (hexDegree even w h x y)) ∧
    (0 < w → 0 < h → Diameter g.s (fun c => c.horizontal < w ∧ c.vertical < h) (hexSpan w h)) := by
  constructor
  · exact fun x y hx hy => degree_nbrs hs hb ⟨x, y, hx, hy, rfl⟩ (off_degree hx hy)
  · intro hw hh
    have e : (fun c : Offset => c.horizontal < w ∧ c.vertical < h) = (offLatDR even w h).Node := funext fun c => propext
      ⟨fun ⟨h1, h2⟩ => ⟨c.horizontal, c.vertical, h1, h2, rfl⟩, fun ⟨_, _, h1, h2, e⟩ => e ▸ ⟨h1, h2⟩⟩
    rw [e]
    exact steppy_offDirected.diameter hs hb (fun _ _ _ _ h1 h2 h3 h4 => offDist_span h1 h2 h3 h4) (x := (farX even w).1) (y := 0) (x' := (farX even w).2) (y' := h - 1)
      (farX_lt hw).1 hh (farX_lt hw).2 (Nat.pred_lt_self hh) (offDist_far hw hh)

/-- **C111.** With `LoopEW`: every node of a row has as many neighbors (a node may be its own neighbor or occur twice on narrow maps). -/
theorem c111_loop {s : Shape Offset AxisR AxisDR} {g : Graph Offset AxisR AxisDR N E} {k : Contents Offset AxisR N E}
    (hs : Lawful s (offLatRLoop even w h) rep) (hb : Built s (offLatRLoop even w h) g k) :
    (∀ x y, x < w → y < h → Degree g ⟨x, y⟩ (ringDegree h y)) ∧
    (0 < w → 0 < h → Diameter g.s (fun c => c.horizontal < w ∧ c.vertical < h) (cylSpan w h)) := by
  constructor
  · exact fun x y hx hy => degree_nbrs hs hb ⟨x, y, hx, hy, rfl⟩ (loop_degree hx hy)
  · intro hw hh
    have e : (fun c : Offset => c.horizontal < w ∧ c.vertical < h) = (offLatRLoop even w h).Node := funext fun c => propext
      ⟨fun ⟨h1, h2⟩ => ⟨c.horizontal, c.vertical, h1, h2, rfl⟩, fun ⟨_, _, h1, h2, e⟩ => e ▸ ⟨h1, h2⟩⟩
    rw [e]
    exact steppy_loop.diameter hs hb (fun _ _ _ _ h1 h2 h3 h4 => cylDist_span h1 h2 h3 h4) (x := (farLoopX even w h).1) (y := 0) (x' := (farLoopX even w h).2) (y' := h - 1)
      (farLoopX_lt hw).1 hh (farLoopX_lt hw).2 (Nat.pred_lt_self hh) (cylDist_far hw hh)

/-- **C111.** Axial maps: the same numbers as in offset coordinates; with sheared columns those of the transposed map. -/
theorem c111_axial {s : Shape Axial AxisR AxisDR} {g : Graph Axial AxisR AxisDR N E} {k : Contents Axial AxisR N E}
    (hs : Lawful s (axLatR even flat w h) repA) (hb : Built s (axLatR even flat w h) g k) :
    (∀ x y, x < w → y < h → Degree g (axCoord even flat x y) (if flat then hexDegree even h w y x else hexDegree even w h x y)) ∧
    (0 < w → 0 < h → Diameter g.s (fun c => axIn even flat w h c = true) (if flat then hexSpan h w else hexSpan w h)) := by
  constructor
  · exact fun x y hx hy => degree_nbrs hs hb ⟨x, y, hx, hy, rfl⟩ (axR_degree hx hy)
  · intro hw hh
    have e : (fun c => axIn even flat w h c = true) = (axLatR even flat w h).Node := funext fun c => propext axIn_iff
    rw [e]
    exact steppy_axR.diameter hs hb (fun _ _ _ _ h1 h2 h3 h4 => axDist_span_le h1 h2 h3 h4) (x := (farAx even flat w h).1.1)
      (y := (farAx even flat w h).1.2) (x' := (farAx even flat w h).2.1) (y' := (farAx even flat w h).2.2)
      (farAx_lt hw hh).1 (farAx_lt hw hh).2.1 (farAx_lt hw hh).2.2.1 (farAx_lt hw hh).2.2.2 (axDist_far hw hh)

/-- **C111.** The same, directed. -/
theorem c111_axial_directed {s : Shape Axial AxisDR AxisDR} {g : Graph Axial AxisDR AxisDR N E} {k : Contents Axial AxisDR N E}
    (hs : Lawful s (axLatDR even flat w h) repA) (hb : Built s (axLatDR even flat w h) g k) :
    (∀ x y, x < w → y < h → Degree g (axCoord even flat x y) (if flat then hexDegree even h w y x else hexDegree even w h x y)) ∧
    (0 < w → 0 < h → Diameter g.s (fun c => axIn even flat w h c = true) (if flat then hexSpan h w else hexSpan w h)) := by
  constructor
  · exact fun x y hx hy => degree_nbrs hs hb ⟨x, y, hx, hy, rfl⟩ (axR_degree hx hy)
  · intro hw hh
    have e : (fun c => axIn even flat w h c = true) = (axLatDR even flat w h).Node := funext fun c => propext axIn_iff
    rw [e]
    exact steppy_axDR.diameter hs hb (fun _ _ _ _ h1 h2 h3 h4 => axDist_span_le h1 h2 h3 h4) (x := (farAx even flat w h).1.1)
      (y := (farAx even flat w h).1.2) (x' := (farAx even flat w h).2.1) (y' := (farAx even flat w h).2.2)
      (farAx_lt hw hh).1 (farAx_lt hw hh).2.1 (farAx_lt hw hh).2.2.1 (farAx_lt hw hh).2.2.2 (axDist_far hw hh)

/-- **C111.** The same with flat-top directions. -/
theorem c111_axial_flat {s : Shape Axial AxisQ AxisDQ} {g : Graph Axial AxisQ AxisDQ N E} {k : Contents Axial AxisQ N E}
    (hs : Lawful s (axLatQ even flat w h) repA) (hb : Built s (axLatQ even flat w h) g k) :
    (∀ x y, x < w → y < h → Degree g (axCoord even flat x y) (if flat then hexDegree even h w y x else hexDegree even w h x y)) ∧
    (0 < w → 0 < h → Diameter g.s (fun c => axIn even flat w h c = true) (if flat then hexSpan h w else hexSpan w h)) := by
  constructor
  · exact fun x y hx hy => degree_nbrs hs hb ⟨x, y, hx, hy, rfl⟩ (axQ_degree hx hy)
  · intro hw hh
    have e : (fun c => axIn even flat w h c = true) = (axLatQ even flat w h).Node := funext fun c => propext axIn_iff
    rw [e]
    exact steppy_axQ.diameter hs hb (fun _ _ _ _ h1 h2 h3 h4 => axDist_span_le h1 h2 h3 h4) (x := (farAx even flat w h).1.1)
      (y := (farAx even flat w h).1.2) (x' := (farAx even flat w h).2.1) (y' := (farAx even flat w h).2.2)
      (farAx_lt hw hh).1 (farAx_lt hw hh).2.1 (farAx_lt hw hh).2.2.1 (farAx_lt hw hh).2.2.2 (axDist_far hw hh)

/-- **C111.** The same with flat-top directions, directed. -/
theorem c111_axial_flat_directed {s : Shape Axial AxisDQ AxisDQ} {g : Graph Axial AxisDQ AxisDQ N E} {k : Contents Axial AxisDQ N E}
    (hs : Lawful s (axLatDQ even flat w h) repA) (hb : Built s (axLatDQ even flat w h) g k) :
    (∀ x y, x < w → y < h → Degree g (axCoord even flat x y) (if flat then hexDegree even h w y x else hexDegree even w h x y)) ∧
    (0 < w → 0 < h → Diameter g.s (fun c => axIn even flat w h c = true) (if flat then hexSpan h w else hexSpan w h)) := by
  constructor
  · exact fun x y hx hy => degree_nbrs hs hb ⟨x, y, hx, hy, rfl⟩ (axQ_degree hx hy)
  · intro hw hh
    have e : (fun c => axIn even flat w h c = true) = (axLatDQ even flat w h).Node := funext fun c => propext axIn_iff
    rw [e]
    exact steppy_axDQ.diameter hs hb (fun _ _ _ _ h1 h2 h3 h4 => axDist_span_le h1 h2 h3 h4) (x := (farAx even flat w h).1.1)
      (y := (farAx even flat w h).1.2) (x' := (farAx even flat w h).2.1) (y' := (farAx even flat w h).2.2)
      (farAx_lt hw hh).1 (farAx_lt hw hh).2.1 (farAx_lt hw hh).2.2.1 (farAx_lt hw hh).2.2.2 (axDist_far hw hh)
end

/-! ### Instances -/
example : ∃ g : Graph Offset SquareAxis DSquareAxis Unit Unit, Degree g ⟨1, 1⟩ 3 ∧ Diameter g.s (fun c => c.horizontal < 3 ∧ c.vertical < 2) 3 := by
  have hs := Lawful.square m64 3 2
  obtain ⟨g, hb⟩ := hs.exists_built (by decide) (fun u _ => ((), u)) (fun u _ _ => ((), u)) ()
  exact ⟨g, (c111_square hs hb).1 1 1 (by decide) (by decide), (c111_square hs hb).2 (by decide) (by decide)⟩
example : ∃ g : Graph Offset DSquareAxis DSquareAxis Unit Unit, Degree g ⟨1, 1⟩ 4 ∧ Diameter g.s (fun c => c.horizontal < 3 ∧ c.vertical < 3) 4 := by
  have hs := Lawful.squareDirected m64 3 3
  obtain ⟨g, hb⟩ := hs.exists_built (by decide) (fun u _ => ((), u)) (fun u _ _ => ((), u)) ()
  exact ⟨g, (c111_square_directed hs hb).1 1 1 (by decide) (by decide), (c111_square_directed hs hb).2 (by decide) (by decide)⟩
example : ∃ g : Graph Offset DiagAxis DDiagAxis Unit Unit, Degree g ⟨0, 1⟩ 5 ∧ Diameter g.s (fun c => c.horizontal < 5 ∧ c.vertical < 4) 4 := by
  have hs := Lawful.diag m64 5 4
  obtain ⟨g, hb⟩ := hs.exists_built (by decide) (fun u _ => ((), u)) (fun u _ _ => ((), u)) ()
  exact ⟨g, (c111_diag hs hb).1 0 1 (by decide) (by decide), (c111_diag hs hb).2 (by decide) (by decide)⟩
example : ∃ g : Graph Offset DDiagAxis DDiagAxis Unit Unit, Degree g ⟨1, 1⟩ 8 ∧ Diameter g.s (fun c => c.horizontal < 5 ∧ c.vertical < 4) 4 := by
  have hs := Lawful.diagDirected m64 5 4
  obtain ⟨g, hb⟩ := hs.exists_built (by decide) (fun u _ => ((), u)) (fun u _ _ => ((), u)) ()
  exact ⟨g, (c111_diag_directed hs hb).1 1 1 (by decide) (by decide), (c111_diag_directed hs hb).2 (by decide) (by decide)⟩
example : ∃ g : Graph Offset AxisR AxisDR Unit Unit, Degree g ⟨0, 1⟩ 5 ∧ Diameter g.s (fun c => c.horizontal < 7 ∧ c.vertical < 4) 8 := by
  have hs := Lawful.hexOffR m64 oddR 7 4
  obtain ⟨g, hb⟩ := hs.exists_built (by decide) (fun u _ => ((), u)) (fun u _ _ => ((), u)) ()
  exact ⟨g, (c111_offset hs hb).1 0 1 (by decide) (by decide), (c111_offset hs hb).2 (by decide) (by decide)⟩
example : ∃ g : Graph Offset AxisDR AxisDR Unit Unit, Degree g ⟨0, 1⟩ 3 ∧ Diameter g.s (fun c => c.horizontal < 7 ∧ c.vertical < 4) 8 := by
  have hs := Lawful.hexOffRDirected m64 evenR 7 4
  obtain ⟨g, hb⟩ := hs.exists_built (by decide) (fun u _ => ((), u)) (fun u _ _ => ((), u)) ()
  exact ⟨g, (c111_offset_directed hs hb).1 0 1 (by decide) (by decide), (c111_offset_directed hs hb).2 (by decide) (by decide)⟩
example : ∃ g : Graph Offset AxisR AxisDR Unit Unit, Degree g ⟨0, 1⟩ 6 ∧ Diameter g.s (fun c => c.horizontal < 7 ∧ c.vertical < 4) 5 := by
  have hs := Lawful.hexOffRLew m64 oddR 7 4
  obtain ⟨g, hb⟩ := hs.exists_built (by decide) (fun u _ => ((), u)) (fun u _ _ => ((), u)) ()
  exact ⟨g, (c111_loop hs hb).1 0 1 (by decide) (by decide), (c111_loop hs hb).2 (by decide) (by decide)⟩
example : ∃ g : Graph Axial AxisR AxisDR Unit Unit, Degree g ⟨-1, 1⟩ 3 ∧ Diameter g.s (fun c => axIn true false 4 3 c = true) 4 := by
  have hs := Lawful.hexAxR m64 (isizeTy m64) evenR 4 3 (.isize (by decide) (by decide))
  obtain ⟨g, hb⟩ := hs.exists_built (by decide) (fun u _ => ((), u)) (fun u _ _ => ((), u)) ()
  exact ⟨g, (c111_axial hs hb).1 0 1 (by decide) (by decide), (c111_axial hs hb).2 (by decide) (by decide)⟩
example : ∃ g : Graph Axial AxisDR AxisDR Unit Unit, Degree g ⟨0, 1⟩ 5 ∧ Diameter g.s (fun c => axIn false false 4 3 c = true) 4 := by
  have hs := Lawful.hexAxRDirected m64 (isizeTy m64) oddR 4 3 (.isize (by decide) (by decide))
  obtain ⟨g, hb⟩ := hs.exists_built (by decide) (fun u _ => ((), u)) (fun u _ _ => ((), u)) ()
  exact ⟨g, (c111_axial_directed hs hb).1 0 1 (by decide) (by decide), (c111_axial_directed hs hb).2 (by decide) (by decide)⟩
example : ∃ g : Graph Axial AxisQ AxisDQ Unit Unit, Degree g ⟨1, 1⟩ 4 ∧ Diameter g.s (fun c => axIn false false 4 2 c = true) 4 := by
  have hs := Lawful.hexAxQ m64 (isizeTy m64) oddQ 4 2 (.isize (by decide) (by decide))
  obtain ⟨g, hb⟩ := hs.exists_built (by decide) (fun u _ => ((), u)) (fun u _ _ => ((), u)) ()
  exact ⟨g, (c111_axial_flat hs hb).1 1 1 (by decide) (by decide), (c111_axial_flat hs hb).2 (by decide) (by decide)⟩
example : ∃ g : Graph Axial AxisDQ AxisDQ Unit Unit, Degree g ⟨0, 0⟩ 2 ∧ Diameter g.s (fun c => axIn false false 4 2 c = true) 4 := by
  have hs := Lawful.hexAxQDirected m64 (isizeTy m64) oddQ 4 2 (.isize (by decide) (by decide))
  obtain ⟨g, hb⟩ := hs.exists_built (by decide) (fun u _ => ((), u)) (fun u _ _ => ((), u)) ()
  exact ⟨g, (c111_axial_flat_directed hs hb).1 0 0 (by decide) (by decide), (c111_axial_flat_directed hs hb).2 (by decide) (by decide)⟩

end LG
