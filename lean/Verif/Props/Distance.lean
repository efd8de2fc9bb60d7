import Verif.Props.Walks
import Verif.Props.Geometry
/- C59: the number of steps between two nodes is the lattice distance. -/
set_option linter.unusedSectionVars false
namespace LG

section
variable {C A D N E : Type} [DecidableEq C] [DecidableEq A] [DecidableEq D]
variable {g : Graph C A D N E} {s : Shape C A D} {L : Lat C A D} {rep : C → Prop} {k : Contents C A N E}

/-! ### The metrics (integer geometry only) -/

/-- Distance in the square lattice. -/
def manhattan (a b : Offset) : Nat :=
  ((a.horizontal : Int) - b.horizontal).natAbs + ((a.vertical : Int) - b.vertical).natAbs

/-- Distance in the square lattice with diagonals. -/
def chebyshev (a b : Offset) : Nat :=
  max ((a.horizontal : Int) - b.horizontal).natAbs ((a.vertical : Int) - b.vertical).natAbs

/-- Hexagonal distance of two cells that are `u` apart horizontally and `v` vertically in the doubled plane. -/
def hexLen (u v : Nat) : Nat := max v ((u + v) / 2)

/-- Distance in the point-top offset lattice. -/
def offDist (even : Bool) (a b : Offset) : Nat :=
  hexLen ((offPos even a).1 - (offPos even b).1).natAbs ((offPos even a).2 - (offPos even b).2).natAbs

/-- Distance on a circle of circumference `n` of two points at most `n` apart. -/
def around (n u : Nat) : Nat := min u (n - u)

/-- Distance in the point-top offset lattice on a cylinder. -/
def cylDist (even : Bool) (w : Nat) (a b : Offset) : Nat :=
  hexLen (around (2 * w) ((offPos even a).1 - (offPos even b).1).natAbs) ((offPos even a).2 - (offPos even b).2).natAbs

/-- Distance of axial coordinates: half the sum of the three cube coordinates' differences. -/
def axDist (a b : Axial) : Nat :=
  max (a.r - b.r).natAbs (max (a.q - b.q).natAbs ((a.r - b.r) + (a.q - b.q)).natAbs)

/-- `dist` counts steps of the lattice. -/
structure Steppy (L : Lat C A D) (dist : C → C → Nat) : Prop where
  refl : ∀ {a}, L.Node a → dist a a = 0
  zero : ∀ {a b}, L.Node a → L.Node b → dist a b = 0 → a = b
  le : ∀ {a b c d}, L.Node a → L.Node b → L.nbr b d = some c → dist a c ≤ dist a b + 1
  toward : ∀ {a b}, L.Node a → L.Node b → dist a b ≠ 0 → ∃ d c, L.nbr a d = some c ∧ dist c b + 1 = dist a b

theorem Steppy.lower {dist : C → C → Nat} (hl : LatLaws L) (hd : Steppy L dist) {a b : C} {n : Nat} (ha : L.Node a)
    (h : Path L a n b) : dist a b ≤ n := by
  induction h with
  | nil => rw [hd.refl ha]; exact Nat.le_refl _
  | step hp hn ih => exact Nat.le_trans (hd.le ha (hp.node hl ha) hn) (by omega)

theorem Steppy.path {dist : C → C → Nat} (hl : LatLaws L) (hd : Steppy L dist) {b : C} (hb : L.Node b) :
    ∀ {n : Nat} {a : C}, L.Node a → dist a b = n → Path L a n b
  | 0, a, ha, h => by rw [hd.zero ha hb h]; exact .nil
  | n + 1, a, ha, h => by
    obtain ⟨d, c, h1, h2⟩ := hd.toward ha hb (by omega)
    have h3 := hd.path hl hb (hl.nbr_node ha h1) (n := n) (by omega)
    have h4 : Path L a 1 c := .step .nil h1
    rw [Nat.add_comm]
    exact h4.trans h3

/-- The distance is attained by a walk, and no walk is shorter. -/
theorem Steppy.shortest {dist : C → C → Nat} (hd : Steppy L dist) (hs : Lawful s L rep) (hb : Built s L g k) {a b : C}
    (ha : L.Node a) (hb' : L.Node b) :
    Walk g.s a (dist a b) b ∧ ∀ n, Walk g.s a n b → dist a b ≤ n :=
  ⟨(hd.path hs.laws hb' ha rfl).walk hs hb ha, fun _ hw => hd.lower hs.laws ha (hw.path hs hb ha)⟩

end

/-! ### The lattices -/

theorem manhattan_toward {w h : Nat} {a b : Offset} (ha : a.horizontal < w ∧ a.vertical < h)
    (hb : b.horizontal < w ∧ b.vertical < h) (hab : manhattan a b ≠ 0) :
    ∃ (d : DSquareAxis) (c : Offset), rectNbr w h a d.vec = some c ∧ manhattan c b + 1 = manhattan a b := by
  obtain ⟨ax, ay⟩ := a
  obtain ⟨bx, bY⟩ := b
  simp only [manhattan] at *
  by_cases h1 : ax < bx
  · exact ⟨.X, ⟨ax + 1, ay⟩, by rw [rectNbr_iff]; simp only [DSquareAxis.vec]; omega, by simp only; omega⟩
  by_cases h2 : bx < ax
  · exact ⟨.RX, ⟨ax - 1, ay⟩, by rw [rectNbr_iff]; simp only [DSquareAxis.vec]; omega, by simp only; omega⟩
  by_cases h3 : ay < bY
  · exact ⟨.Y, ⟨ax, ay + 1⟩, by rw [rectNbr_iff]; simp only [DSquareAxis.vec]; omega, by simp only; omega⟩
  · exact ⟨.RY, ⟨ax, ay - 1⟩, by rw [rectNbr_iff]; simp only [DSquareAxis.vec]; omega, by simp only; omega⟩

theorem manhattan_le {w h : Nat} {a b c : Offset} {d : DSquareAxis} (hn : rectNbr w h b d.vec = some c) :
    manhattan a c ≤ manhattan a b + 1 := by
  rw [rectNbr_iff] at hn
  unfold manhattan
  cases d <;> simp only [DSquareAxis.vec] at hn <;> omega

theorem chebyshev_toward {w h : Nat} {a b : Offset} (ha : a.horizontal < w ∧ a.vertical < h)
    (hb : b.horizontal < w ∧ b.vertical < h) (hab : chebyshev a b ≠ 0) :
    ∃ (d : DDiagAxis) (c : Offset), rectNbr w h a d.vec = some c ∧ chebyshev c b + 1 = chebyshev a b := by
  obtain ⟨ax, ay⟩ := a
  obtain ⟨bx, bY⟩ := b
  simp only [chebyshev] at *
  by_cases h1 : ax < bx
  · by_cases h3 : ay < bY
    · exact ⟨.NE, ⟨ax + 1, ay + 1⟩, by rw [rectNbr_iff]; simp only [DDiagAxis.vec]; omega, by simp only; omega⟩
    by_cases h4 : bY < ay
    · exact ⟨.SE, ⟨ax + 1, ay - 1⟩, by rw [rectNbr_iff]; simp only [DDiagAxis.vec]; omega, by simp only; omega⟩
    · exact ⟨.E, ⟨ax + 1, ay⟩, by rw [rectNbr_iff]; simp only [DDiagAxis.vec]; omega, by simp only; omega⟩
  by_cases h2 : bx < ax
  · by_cases h3 : ay < bY
    · exact ⟨.NW, ⟨ax - 1, ay + 1⟩, by rw [rectNbr_iff]; simp only [DDiagAxis.vec]; omega, by simp only; omega⟩
    by_cases h4 : bY < ay
    · exact ⟨.SW, ⟨ax - 1, ay - 1⟩, by rw [rectNbr_iff]; simp only [DDiagAxis.vec]; omega, by simp only; omega⟩
    · exact ⟨.W, ⟨ax - 1, ay⟩, by rw [rectNbr_iff]; simp only [DDiagAxis.vec]; omega, by simp only; omega⟩
  by_cases h3 : ay < bY
  · exact ⟨.N, ⟨ax, ay + 1⟩, by rw [rectNbr_iff]; simp only [DDiagAxis.vec]; omega, by simp only; omega⟩
  · exact ⟨.S, ⟨ax, ay - 1⟩, by rw [rectNbr_iff]; simp only [DDiagAxis.vec]; omega, by simp only; omega⟩

theorem chebyshev_le {w h : Nat} {a b c : Offset} {d : DDiagAxis} (hn : rectNbr w h b d.vec = some c) :
    chebyshev a c ≤ chebyshev a b + 1 := by
  rw [rectNbr_iff] at hn
  unfold chebyshev
  cases d <;> simp only [DDiagAxis.vec] at hn <;> omega

theorem rect_node {A D : Type} {L : Lat Offset A D} (hc : L.coord = Offset.mk) {c : Offset} (h : L.Node c) :
    c.horizontal < L.width ∧ c.vertical < L.height := by
  obtain ⟨x, y, hx, hy, rfl⟩ := h
  rw [hc]
  exact ⟨hx, hy⟩

theorem steppy_square {w h : Nat} : Steppy (squareLat w h) manhattan where
  refl := fun {a} _ => by simp [manhattan]
  zero := fun {a b} _ _ hd => by
    cases a; cases b
    simp only [manhattan] at hd
    simp only [Offset.mk.injEq]
    omega
  le := fun _ _ hn => manhattan_le hn
  toward := fun ha hb hd => manhattan_toward (rect_node rfl ha) (rect_node rfl hb) hd

theorem steppy_squareDirected {w h : Nat} : Steppy (squareLatDirected w h) manhattan :=
  ⟨steppy_square.refl, steppy_square.zero, steppy_square.le, steppy_square.toward⟩

theorem steppy_diag {w h : Nat} : Steppy (diagLat w h) chebyshev where
  refl := fun {a} _ => by simp [chebyshev]
  zero := fun {a b} _ _ hd => by
    cases a; cases b
    simp only [chebyshev] at hd
    simp only [Offset.mk.injEq]
    omega
  le := fun _ _ hn => chebyshev_le hn
  toward := fun ha hb hd => chebyshev_toward (rect_node rfl ha) (rect_node rfl hb) hd

theorem steppy_diagDirected {w h : Nat} : Steppy (diagLatDirected w h) chebyshev :=
  ⟨steppy_diag.refl, steppy_diag.zero, steppy_diag.le, steppy_diag.toward⟩

theorem rowShift_01 (even : Bool) (y : Int) : rowShift even y = 0 ∨ rowShift even y = 1 := by
  cases even <;> simp [rowShift] <;> omega

/-- Equal rows are shifted equally; parity of the row distance is that of the shifts' difference. -/
theorem rowShift_parity (even : Bool) (y z : Int) : (y - z) % 2 = (rowShift even y - rowShift even z) % 2 := by
  cases even <;> simp [rowShift] <;> omega

theorem hexLen_diag {u v u' v' : Nat} (hv : v = v' + 1) (hp : (u + v) % 2 = 0) (hu : u = u' + 1 ∨ (u = 0 ∧ u' = 1)) :
    hexLen u' v' + 1 = hexLen u v := by
  unfold hexLen
  omega

theorem hexLen_flat {u u' : Nat} (hu : u = u' + 2) : hexLen u' 0 + 1 = hexLen u 0 := by
  unfold hexLen
  omega

theorem hexLen_le {u v u' v' : Nat} (hu : u' + v' ≤ u + v + 2) (hv : v' ≤ v + 1) : hexLen u' v' ≤ hexLen u v + 1 := by
  unfold hexLen
  omega

theorem offPos_parity (even : Bool) (a b : Offset) :
    ((offPos even a).1 - (offPos even b).1) % 2 = ((offPos even a).2 - (offPos even b).2) % 2 := by
  have := rowShift_parity even a.vertical b.vertical
  simp only [offPos]
  omega

/-- Taking a diagonal step towards the target, or sideways when straight above or below it. -/
theorem diag_toward {x y x' y' vx vy : Int} (hp : (x - x') % 2 = (y - y') % 2) (hx : vx = 1 ∨ vx = -1)
    (hy : vy = 1 ∧ y < y' ∨ vy = -1 ∧ y' < y) (hvx : (vx = 1 → x ≤ x') ∧ (vx = -1 → x' ≤ x)) :
    hexLen ((x + vx) - x').natAbs ((y + vy) - y').natAbs + 1 = hexLen (x - x').natAbs (y - y').natAbs := by
  apply hexLen_diag <;> omega

theorem flat_toward {x y x' vx : Int} (hp : (x - x') % 2 = 0) (hvx : (vx = 2 ∧ x < x') ∨ (vx = -2 ∧ x' < x)) :
    hexLen ((x + vx) - x').natAbs ((y + 0) - y).natAbs + 1 = hexLen (x - x').natAbs (y - y).natAbs := by
  have e1 : ((y + 0) - y).natAbs = 0 := by omega
  have e2 : (y - y).natAbs = 0 := by omega
  rw [e1, e2]
  apply hexLen_flat
  omega

/-- A step in the plane, seen from the target. -/
theorem offDist_of {even : Bool} {a b c : Offset} {v : Int × Int} (h1 : (offPos even c).1 = (offPos even a).1 + v.1)
    (h2 : (offPos even c).2 = (offPos even a).2 + v.2)
    (h : hexLen (((offPos even a).1 + v.1) - (offPos even b).1).natAbs (((offPos even a).2 + v.2) - (offPos even b).2).natAbs
      + 1 = offDist even a b) : offDist even c b + 1 = offDist even a b := by
  rw [← h]
  unfold offDist
  rw [h1, h2]

/-- The cell one step up or down, on the side `vx`, when it is in the map. -/
theorem off_diag_cell {even : Bool} {w h : Nat} {a : Offset} {d : AxisDR} {x y : Nat} (hv : (d.vec.2 = 1 ∨ d.vec.2 = -1))
    (hy : (y : Int) = a.vertical + d.vec.2) (hyh : y < h) (hxw : x < w)
    (hx : (x : Int) = a.horizontal + (if d.vec.1 = 1 then rowShift even a.vertical else rowShift even a.vertical - 1)) :
    offNbr even w h a d = some ⟨x, y⟩ := by
  have hs := rowShift_cases even a.vertical
  rw [offNbr_iff]
  simp only [offPos, hy]
  cases d <;> simp only [AxisDR.vec] at * <;> simp at * <;> omega

theorem offDist_toward {even : Bool} {w h : Nat} {a b : Offset} (ha : a.horizontal < w ∧ a.vertical < h)
    (hb : b.horizontal < w ∧ b.vertical < h) (hab : offDist even a b ≠ 0) :
    ∃ (d : AxisDR) (c : Offset), offNbr even w h a d = some c ∧ offDist even c b + 1 = offDist even a b := by
  have hp := offPos_parity even a b
  have key : ∃ (d : AxisDR) (c : Offset), offNbr even w h a d = some c ∧
      hexLen (((offPos even a).1 + d.vec.1) - (offPos even b).1).natAbs
        (((offPos even a).2 + d.vec.2) - (offPos even b).2).natAbs + 1 = offDist even a b := by
    unfold offDist at hab ⊢
    have h01 := rowShift_01 even b.vertical
    have h01' := rowShift_01 even a.vertical
    have e1 : (offPos even a).1 = 2 * a.horizontal + rowShift even a.vertical := rfl
    have e2 : (offPos even b).1 = 2 * b.horizontal + rowShift even b.vertical := rfl
    have e3 : (offPos even a).2 = a.vertical := rfl
    have e4 : (offPos even b).2 = b.vertical := rfl
    by_cases hy : a.vertical = b.vertical
    · have e5 : (offPos even a).2 = (offPos even b).2 := by rw [e3, e4, hy]
      have e6 : rowShift even a.vertical = rowShift even b.vertical := by rw [hy]
      by_cases h2 : a.horizontal < b.horizontal
      · refine ⟨.E, ⟨a.horizontal + 1, a.vertical⟩, offNbr_right (by omega) ha.2, ?_⟩
        rw [← e5]
        exact flat_toward (by omega) (.inl ⟨rfl, by omega⟩)
      · have h3 : a.horizontal ≠ b.horizontal := by
          intro h3
          rw [show (offPos even a).1 = (offPos even b).1 by omega, e5] at hab
          simp [hexLen] at hab
        refine ⟨.W, ⟨a.horizontal - 1, a.vertical⟩, ?_, ?_⟩
        · rw [offNbr_iff]
          simp only [offPos, AxisDR.vec]
          omega
        · rw [← e5]
          exact flat_toward (by omega) (.inr ⟨rfl, by omega⟩)
    · have hpos : ∃ vx : Int, (vx = 1 ∨ vx = -1) ∧ ((vx = 1 → (offPos even a).1 ≤ (offPos even b).1) ∧
          (vx = -1 → (offPos even b).1 ≤ (offPos even a).1)) ∧
          ∃ x : Nat, x < w ∧ (x : Int) = a.horizontal +
            (if vx = 1 then rowShift even a.vertical else rowShift even a.vertical - 1) := by
        by_cases h2 : (offPos even a).1 < (offPos even b).1 ∨
            ((offPos even a).1 = (offPos even b).1 ∧ rowShift even a.vertical = 0)
        · exact ⟨1, .inl rfl, by omega, a.horizontal + (rowShift even a.vertical).toNat, by omega, by simp; omega⟩
        · exact ⟨-1, .inr rfl, by omega, a.horizontal - (1 - rowShift even a.vertical).toNat, by omega, by simp; omega⟩
      obtain ⟨vx, hvx, hside, x, hxw, hx⟩ := hpos
      by_cases h1 : a.vertical < b.vertical
      · rcases hvx with rfl | rfl
        · exact ⟨.NE, ⟨x, a.vertical + 1⟩, off_diag_cell (.inl rfl) (by simp [AxisDR.vec]) (by omega) hxw hx,
            diag_toward hp (.inl rfl) (.inl ⟨rfl, by omega⟩) hside⟩
        · exact ⟨.NW, ⟨x, a.vertical + 1⟩, off_diag_cell (.inl rfl) (by simp [AxisDR.vec]) (by omega) hxw hx,
            diag_toward hp (.inr rfl) (.inl ⟨rfl, by omega⟩) hside⟩
      · rcases hvx with rfl | rfl
        · exact ⟨.SE, ⟨x, a.vertical - 1⟩, off_diag_cell (.inr rfl) (by simp [AxisDR.vec]; omega) (by omega) hxw hx,
            diag_toward hp (.inl rfl) (.inr ⟨rfl, by omega⟩) hside⟩
        · exact ⟨.SW, ⟨x, a.vertical - 1⟩, off_diag_cell (.inr rfl) (by simp [AxisDR.vec]; omega) (by omega) hxw hx,
            diag_toward hp (.inr rfl) (.inr ⟨rfl, by omega⟩) hside⟩
  obtain ⟨d, c, h1, h2⟩ := key
  have h3 := offNbr_iff.1 h1
  exact ⟨d, c, h1, offDist_of h3.2.2.1 h3.2.2.2 h2⟩

theorem AxisDR.vec_len (d : AxisDR) : d.vec.1.natAbs + d.vec.2.natAbs = 2 ∧ d.vec.2.natAbs ≤ 1 := by cases d <;> decide

theorem offDist_le {even : Bool} {w h : Nat} {a b c : Offset} {d : AxisDR} (hn : offNbr even w h b d = some c) :
    offDist even a c ≤ offDist even a b + 1 := by
  rw [offNbr_iff] at hn
  have hd := d.vec_len
  apply hexLen_le <;> omega

theorem offDist_zero {even : Bool} {a b : Offset} (h : offDist even a b = 0) : a = b := by
  obtain ⟨ax, ay⟩ := a
  obtain ⟨bx, bY⟩ := b
  simp only [offDist, hexLen, offPos] at h
  obtain rfl : ay = bY := by omega
  have h2 := rowShift_01 even ay
  simp only [Offset.mk.injEq, and_true]
  generalize rowShift even ay = z at *
  omega

theorem steppy_off {even : Bool} {w h : Nat} : Steppy (offLatR even w h) (offDist even) where
  refl := fun {a} _ => by simp [offDist, hexLen]
  zero := fun _ _ hd => offDist_zero hd
  le := fun _ _ hn => offDist_le hn
  toward := fun ha hb hd => offDist_toward (rect_node rfl ha) (rect_node rfl hb) hd

theorem steppy_offDirected {even : Bool} {w h : Nat} : Steppy (offLatDR even w h) (offDist even) :=
  ⟨steppy_off.refl, steppy_off.zero, steppy_off.le, steppy_off.toward⟩

/-! Cylinder -/

theorem offPos_range (even : Bool) {w : Nat} {a : Offset} (ha : a.horizontal < w) :
    0 ≤ (offPos even a).1 ∧ (offPos even a).1 < 2 * w := by
  have := rowShift_01 even a.vertical
  simp only [offPos]
  omega

/-- `t` is `x` displaced by `v`, up to one turn. -/
def Turn (w : Nat) (x v t : Int) : Prop := t = x + v ∨ t + 2 * w = x + v ∨ t - 2 * w = x + v

/-- One step goes around at most once. -/
theorem turn_cases {w : Nat} {x t v k : Int} (hx : 0 ≤ x ∧ x < 2 * w) (ht : 0 ≤ t ∧ t < 2 * w) (hv : -2 ≤ v ∧ v ≤ 2)
    (h : t + 2 * w * k = x + v) : Turn w x v t := by
  have hw : 0 < (w : Int) := by omega
  unfold Turn
  by_cases h2 : 2 ≤ k
  · have := Int.mul_le_mul_of_nonneg_left h2 (show 0 ≤ 2 * (w : Int) by omega)
    omega
  by_cases h3 : k ≤ -2
  · have := Int.mul_le_mul_of_nonneg_left h3 (show 0 ≤ 2 * (w : Int) by omega)
    omega
  obtain rfl | rfl | rfl : k = -1 ∨ k = 0 ∨ k = 1 := by omega
  · right; right; omega
  · left; omega
  · right; left; omega

theorem AxisDR.vec_range (d : AxisDR) : -2 ≤ d.vec.1 ∧ d.vec.1 ≤ 2 := by cases d <;> decide

/-- Where a step on the cylinder leads. -/
theorem offNbrLoop_turn {even : Bool} {w h : Nat} {b c : Offset} {d : AxisDR} (hb : b.horizontal < w)
    (hn : offNbrLoop even w h b d = some c) : Turn w (offPos even b).1 d.vec.1 (offPos even c).1 ∧
    (offPos even c).2 = (offPos even b).2 + d.vec.2 := by
  rw [offNbrLoop_iff] at hn
  obtain ⟨h1, -, ⟨k, h3⟩, h4⟩ := hn
  exact ⟨turn_cases (offPos_range even hb) (offPos_range even h1) d.vec_range h3, h4⟩

theorem offNbrLoop_exists {even : Bool} {w h : Nat} {a : Offset} (ha : a.horizontal < w) {d : AxisDR}
    (h1 : 0 ≤ (a.vertical : Int) + d.vec.2) (h2 : (a.vertical : Int) + d.vec.2 < h) :
    ∃ c, offNbrLoop even w h a d = some c := by
  unfold offNbrLoop offAtLoop inRect
  have hw : (w : Int) ≠ 0 := by omega
  rw [if_pos]
  · exact ⟨_, rfl⟩
  · refine ⟨Int.emod_nonneg _ hw, Int.emod_lt_of_pos _ (by omega), h1, h2⟩

/-- The way round from `x` to `x'` is at least as short eastwards. -/
def East (w : Nat) (x x' : Int) : Prop := (0 ≤ x' - x ∧ x' - x ≤ w) ∨ x' - x < -w

theorem around_one {w : Nat} {x x' t v : Int} (hx : 0 ≤ x ∧ x < 2 * w) (hx' : 0 ≤ x' ∧ x' < 2 * w)
    (ht : 0 ≤ t ∧ t < 2 * w) (h : Turn w x v t) (hv : (v = 1 ∧ East w x x') ∨ (v = -1 ∧ ¬ East w x x')) :
    around (2 * w) (x - x').natAbs = around (2 * w) (t - x').natAbs + 1 ∨
      (around (2 * w) (x - x').natAbs = 0 ∧ around (2 * w) (t - x').natAbs = 1) := by
  unfold around Turn East at *
  omega

theorem around_two {w : Nat} {x x' t v : Int} (hx : 0 ≤ x ∧ x < 2 * w) (hx' : 0 ≤ x' ∧ x' < 2 * w)
    (ht : 0 ≤ t ∧ t < 2 * w) (hp : (x - x') % 2 = 0) (hne : x ≠ x') (h : Turn w x v t)
    (hv : (v = 2 ∧ East w x x') ∨ (v = -2 ∧ ¬ East w x x')) :
    around (2 * w) (x - x').natAbs = around (2 * w) (t - x').natAbs + 2 := by
  unfold around Turn East at *
  omega

theorem around_step {w : Nat} {x x' t v : Int} (hx : 0 ≤ x ∧ x < 2 * w) (hx' : 0 ≤ x' ∧ x' < 2 * w)
    (ht : 0 ≤ t ∧ t < 2 * w) (h : Turn w x v t) :
    around (2 * w) (x' - t).natAbs ≤ around (2 * w) (x' - x).natAbs + v.natAbs := by
  unfold around Turn at *
  omega

theorem around_parity {w : Nat} {x x' y y' : Int} (hx : 0 ≤ x ∧ x < 2 * w) (hx' : 0 ≤ x' ∧ x' < 2 * w)
    (hp : (x - x') % 2 = (y - y') % 2) : (around (2 * w) (x - x').natAbs + (y - y').natAbs) % 2 = 0 := by
  unfold around
  omega

theorem cylDist_toward {even : Bool} {w h : Nat} {a b : Offset} (ha : a.horizontal < w ∧ a.vertical < h)
    (hb : b.horizontal < w ∧ b.vertical < h) (hab : cylDist even w a b ≠ 0) :
    ∃ (d : AxisDR) (c : Offset), offNbrLoop even w h a d = some c ∧ cylDist even w c b + 1 = cylDist even w a b := by
  have ra := offPos_range even ha.1
  have rb := offPos_range even hb.1
  have hp := offPos_parity even a b
  have ea : (offPos even a).2 = a.vertical := rfl
  have eb : (offPos even b).2 = b.vertical := rfl
  by_cases hy : a.vertical = b.vertical
  · have e5 : (offPos even a).2 = (offPos even b).2 := by rw [ea, eb, hy]
    have hne : (offPos even a).1 ≠ (offPos even b).1 := by
      intro hx
      simp [cylDist, hx, e5, hexLen, around] at hab
    obtain ⟨d, hd, hd2⟩ : ∃ d : AxisDR, ((d.vec.1 = 2 ∧ East w (offPos even a).1 (offPos even b).1) ∨
        (d.vec.1 = -2 ∧ ¬ East w (offPos even a).1 (offPos even b).1)) ∧ d.vec.2 = 0 := by
      by_cases hE : East w (offPos even a).1 (offPos even b).1
      · exact ⟨.E, .inl ⟨rfl, hE⟩, rfl⟩
      · exact ⟨.W, .inr ⟨rfl, hE⟩, rfl⟩
    obtain ⟨c, hc⟩ := offNbrLoop_exists (even := even) (h := h) ha.1 (d := d) (by omega) (by omega)
    have ht := offNbrLoop_turn ha.1 hc
    have rc := offPos_range even (offNbrLoop_iff.1 hc).1
    refine ⟨d, c, hc, ?_⟩
    unfold cylDist
    rw [show ((offPos even c).2 - (offPos even b).2).natAbs = 0 by omega,
      show ((offPos even a).2 - (offPos even b).2).natAbs = 0 by omega]
    exact hexLen_flat (around_two ra rb rc (by omega) hne ht.1 hd)
  · obtain ⟨d, hd, hd2⟩ : ∃ d : AxisDR, ((d.vec.1 = 1 ∧ East w (offPos even a).1 (offPos even b).1) ∨
        (d.vec.1 = -1 ∧ ¬ East w (offPos even a).1 (offPos even b).1)) ∧
        ((d.vec.2 = 1 ∧ a.vertical < b.vertical) ∨ (d.vec.2 = -1 ∧ b.vertical < a.vertical)) := by
      by_cases hE : East w (offPos even a).1 (offPos even b).1 <;> by_cases hy : a.vertical < b.vertical
      · exact ⟨.NE, .inl ⟨rfl, hE⟩, .inl ⟨rfl, hy⟩⟩
      · exact ⟨.SE, .inl ⟨rfl, hE⟩, .inr ⟨rfl, by omega⟩⟩
      · exact ⟨.NW, .inr ⟨rfl, hE⟩, .inl ⟨rfl, hy⟩⟩
      · exact ⟨.SW, .inr ⟨rfl, hE⟩, .inr ⟨rfl, by omega⟩⟩
    obtain ⟨c, hc⟩ := offNbrLoop_exists (even := even) (h := h) ha.1 (d := d) (by omega) (by omega)
    have ht := offNbrLoop_turn ha.1 hc
    have rc := offPos_range even (offNbrLoop_iff.1 hc).1
    exact ⟨d, c, hc, hexLen_diag (by omega) (around_parity ra rb hp) (around_one ra rb rc ht.1 hd)⟩

theorem cylDist_le {even : Bool} {w h : Nat} {a b c : Offset} {d : AxisDR} (ha : a.horizontal < w) (hb : b.horizontal < w)
    (hn : offNbrLoop even w h b d = some c) : cylDist even w a c ≤ cylDist even w a b + 1 := by
  have ht := offNbrLoop_turn hb hn
  have h1 := around_step (offPos_range even hb) (offPos_range even ha) (offPos_range even (offNbrLoop_iff.1 hn).1) ht.1
  have hd := d.vec_len
  apply hexLen_le <;> omega

theorem cylDist_zero {even : Bool} {w : Nat} {a b : Offset} (ha : a.horizontal < w) (hb : b.horizontal < w)
    (h : cylDist even w a b = 0) : a = b := by
  have ra := offPos_range even ha
  have rb := offPos_range even hb
  have hp := offPos_parity even a b
  unfold cylDist hexLen around at h
  exact offDist_zero (even := even) (by unfold offDist hexLen; omega)

theorem steppy_loop {even : Bool} {w h : Nat} : Steppy (offLatRLoop even w h) (cylDist even w) where
  refl := fun {a} _ => by simp [cylDist, hexLen, around]
  zero := fun ha hb hd =>
    cylDist_zero (w := w) (rect_node (L := offLatRLoop even w h) rfl ha).1 (rect_node (L := offLatRLoop even w h) rfl hb).1 hd
  le := fun ha hb hn =>
    cylDist_le (w := w) (rect_node (L := offLatRLoop even w h) rfl ha).1 (rect_node (L := offLatRLoop even w h) rfl hb).1 hn
  toward := fun ha hb hd => cylDist_toward (rect_node (L := offLatRLoop even w h) rfl ha) (rect_node (L := offLatRLoop even w h) rfl hb) hd

/-! Axial maps -/

/-- The six axial displacements. -/
def axVecs : List (Int × Int) := [(1, 0), (0, 1), (1, -1), (-1, 0), (0, -1), (-1, 1)]

/-- Length of an axial displacement. -/
def axLen (r q : Int) : Nat := max r.natAbs (max q.natAbs (r + q).natAbs)

theorem axLen_step {r q : Int} {v : Int × Int}
    (h : (v = (0, 1) ∧ q < 0 ∧ 2 * r + q ≤ 0) ∨ (v = (-1, 1) ∧ q < 0 ∧ 0 ≤ 2 * r + q) ∨
      (v = (1, -1) ∧ 0 < q ∧ 2 * r + q ≤ 0) ∨ (v = (0, -1) ∧ 0 < q ∧ 0 ≤ 2 * r + q) ∨
      (v = (1, 0) ∧ q = 0 ∧ r < 0) ∨ (v = (-1, 0) ∧ q = 0 ∧ 0 < r)) :
    axLen (r + v.1) (q + v.2) + 1 = axLen r q := by
  rcases h with ⟨rfl, h1, h2⟩ | ⟨rfl, h1, h2⟩ | ⟨rfl, h1, h2⟩ | ⟨rfl, h1, h2⟩ | ⟨rfl, h1, h2⟩ | ⟨rfl, h1, h2⟩ <;>
    simp only [axLen] <;> omega

theorem axLen_le {r q : Int} {v : Int × Int} (h : v ∈ axVecs) : axLen (r - v.1) (q - v.2) ≤ axLen r q + 1 := by
  simp only [axVecs, List.mem_cons, List.not_mem_nil, or_false] at h
  rcases h with rfl | rfl | rfl | rfl | rfl | rfl <;> simp only [axLen] <;> omega

theorem axShift_cases (even : Bool) (y : Int) :
    (axShift even (y + 1) = axShift even y ∧ axShift even (y - 1) = axShift even y - 1 ∧
      2 * axShift even y = y + (if even then 1 else 0)) ∨
    (axShift even (y + 1) = axShift even y + 1 ∧ axShift even (y - 1) = axShift even y ∧
      2 * axShift even y = y - 1 + (if even then 1 else 0)) := by
  cases even <;> simp only [axShift, Bool.false_eq_true, ite_false, ite_true] <;> omega

/-- In a map sheared by rows: some step leads closer and stays in the map. -/
theorem shear_toward {even : Bool} {w h : Nat} {r q r' q' : Int} (hq : 0 ≤ q ∧ q < h)
    (hr : 0 ≤ r + axShift even q ∧ r + axShift even q < w) (hq' : 0 ≤ q' ∧ q' < h)
    (hr' : 0 ≤ r' + axShift even q' ∧ r' + axShift even q' < w) (hne : r ≠ r' ∨ q ≠ q') :
    ∃ v ∈ axVecs, (0 ≤ q + v.2 ∧ q + v.2 < h ∧ 0 ≤ r + v.1 + axShift even (q + v.2) ∧
      r + v.1 + axShift even (q + v.2) < w) ∧ axLen (r - r' + v.1) (q - q' + v.2) + 1 = axLen (r - r') (q - q') := by
  have hc := axShift_cases even q
  have hc' := axShift_cases even q'
  have e0 : q + 0 = q := by omega
  have e1 : q + -1 = q - 1 := by omega
  generalize (if even then (1 : Int) else 0) = e at *
  by_cases h1 : q = q'
  · subst h1
    by_cases h2 : r < r'
    · refine ⟨(1, 0), by simp [axVecs], ?_, axLen_step (.inr (.inr (.inr (.inr (.inl ⟨rfl, by omega, by omega⟩)))))⟩
      simp only [e0]
      omega
    · refine ⟨(-1, 0), by simp [axVecs], ?_, axLen_step (.inr (.inr (.inr (.inr (.inr ⟨rfl, by omega, by omega⟩)))))⟩
      simp only [e0]
      omega
  by_cases h2 : 2 * r + q < 2 * r' + q' ∨ (2 * r + q = 2 * r' + q' ∧ 2 * axShift even q = q + e)
  · by_cases h3 : q < q'
    · refine ⟨(0, 1), by simp [axVecs], ?_, axLen_step (.inl ⟨rfl, by omega, by omega⟩)⟩
      simp only
      omega
    · refine ⟨(1, -1), by simp [axVecs], ?_, axLen_step (.inr (.inr (.inl ⟨rfl, by omega, by omega⟩)))⟩
      simp only [e1]
      omega
  · by_cases h3 : q < q'
    · refine ⟨(-1, 1), by simp [axVecs], ?_, axLen_step (.inr (.inl ⟨rfl, by omega, by omega⟩))⟩
      simp only
      omega
    · refine ⟨(0, -1), by simp [axVecs], ?_, axLen_step (.inr (.inr (.inr (.inl ⟨rfl, by omega, by omega⟩))))⟩
      simp only [e1]
      omega

theorem axLen_swap (r q : Int) : axLen r q = axLen q r := by
  unfold axLen
  omega

theorem axDist_eq (a b : Axial) : axDist a b = axLen (a.r - b.r) (a.q - b.q) := rfl

theorem axDist_toward {even flat : Bool} {w h : Nat} {a b : Axial} (ha : axIn even flat w h a = true)
    (hb : axIn even flat w h b = true) (hab : axDist a b ≠ 0) :
    ∃ v ∈ axVecs, ∃ c, axNbr even flat w h a v = some c ∧ axDist c b + 1 = axDist a b := by
  have hne : a.r ≠ b.r ∨ a.q ≠ b.q := by
    unfold axDist at hab
    omega
  have e : ∀ x y z : Int, x + z - y = x - y + z := fun x y z => by omega
  cases flat
  · simp only [axIn, Bool.false_eq_true, ite_false, decide_eq_true_eq] at ha hb
    obtain ⟨v, hv, h1, h2⟩ := shear_toward (even := even) (w := w) (h := h) (by omega) (by omega) (by omega) (by omega) hne
    refine ⟨v, hv, ⟨a.r + v.1, a.q + v.2⟩, axNbr_some.2 ⟨?_, rfl⟩, ?_⟩
    · simp only [axIn, Bool.false_eq_true, ite_false, decide_eq_true_eq]
      omega
    · simp only [axDist_eq, e]
      exact h2
  · simp only [axIn, ite_true, decide_eq_true_eq] at ha hb
    obtain ⟨v, hv, h1, h2⟩ := shear_toward (even := even) (w := h) (h := w) (r := a.q) (q := a.r) (r' := b.q) (q' := b.r)
      (by omega) (by omega) (by omega) (by omega) hne.symm
    have hv' : (v.2, v.1) ∈ axVecs := by
      simp only [axVecs, List.mem_cons, List.not_mem_nil, or_false] at hv ⊢
      rcases hv with rfl | rfl | rfl | rfl | rfl | rfl <;> decide
    refine ⟨(v.2, v.1), hv', ⟨a.r + v.2, a.q + v.1⟩, axNbr_some.2 ⟨?_, rfl⟩, ?_⟩
    · simp only [axIn, ite_true, decide_eq_true_eq]
      omega
    · simp only [axDist_eq, e]
      rw [axLen_swap, axLen_swap (a.r - b.r)]
      exact h2

theorem axDist_le {even flat : Bool} {w h : Nat} {a b c : Axial} {v : Int × Int} (hv : v ∈ axVecs)
    (hn : axNbr even flat w h b v = some c) : axDist a c ≤ axDist a b + 1 := by
  rw [axNbr_some] at hn
  have := axLen_le (r := a.r - b.r) (q := a.q - b.q) hv
  simp only [axDist_eq, hn.2]
  rw [show a.r - (b.r + v.1) = a.r - b.r - v.1 by omega, show a.q - (b.q + v.2) = a.q - b.q - v.2 by omega]
  exact this

theorem axDist_zero {a b : Axial} (h : axDist a b = 0) : a = b := by
  cases a; cases b
  simp only [axDist] at h
  simp only [Axial.mk.injEq]
  omega

theorem AxisDR.axial_mem (d : AxisDR) : d.axial ∈ axVecs := by cases d <;> decide
theorem AxisDQ.axial_mem (d : AxisDQ) : d.axial ∈ axVecs := by cases d <;> decide

theorem AxisDR.of_axial {v : Int × Int} (h : v ∈ axVecs) : ∃ d : AxisDR, d.axial = v := by
  simp only [axVecs, List.mem_cons, List.not_mem_nil, or_false] at h
  rcases h with rfl | rfl | rfl | rfl | rfl | rfl
  · exact ⟨.E, rfl⟩
  · exact ⟨.NE, rfl⟩
  · exact ⟨.SE, rfl⟩
  · exact ⟨.W, rfl⟩
  · exact ⟨.SW, rfl⟩
  · exact ⟨.NW, rfl⟩

theorem AxisDQ.of_axial {v : Int × Int} (h : v ∈ axVecs) : ∃ d : AxisDQ, d.axial = v := by
  simp only [axVecs, List.mem_cons, List.not_mem_nil, or_false] at h
  rcases h with rfl | rfl | rfl | rfl | rfl | rfl
  · exact ⟨.NE, rfl⟩
  · exact ⟨.N, rfl⟩
  · exact ⟨.SE, rfl⟩
  · exact ⟨.SW, rfl⟩
  · exact ⟨.S, rfl⟩
  · exact ⟨.NW, rfl⟩

theorem steppy_axR {even flat : Bool} {w h : Nat} : Steppy (axLatR even flat w h) axDist where
  refl := fun {a} _ => by simp [axDist]
  zero := fun _ _ hd => axDist_zero hd
  le := fun {_ _ _ d} _ _ hn => axDist_le d.axial_mem hn
  toward := fun ha hb hd => by
    obtain ⟨v, hv, c, h1, h2⟩ := axDist_toward (axIn_iff.2 ha) (axIn_iff.2 hb) hd
    obtain ⟨d, rfl⟩ := AxisDR.of_axial hv
    exact ⟨d, c, h1, h2⟩

theorem steppy_axDR {even flat : Bool} {w h : Nat} : Steppy (axLatDR even flat w h) axDist :=
  ⟨steppy_axR.refl, steppy_axR.zero, steppy_axR.le, steppy_axR.toward⟩

theorem steppy_axQ {even flat : Bool} {w h : Nat} : Steppy (axLatQ even flat w h) axDist where
  refl := fun {a} _ => by simp [axDist]
  zero := fun _ _ hd => axDist_zero hd
  le := fun {_ _ _ d} _ _ hn => axDist_le d.axial_mem hn
  toward := fun ha hb hd => by
    obtain ⟨v, hv, c, h1, h2⟩ := axDist_toward (axIn_iff.2 ha) (axIn_iff.2 hb) hd
    obtain ⟨d, rfl⟩ := AxisDQ.of_axial hv
    exact ⟨d, c, h1, h2⟩

theorem steppy_axDQ {even flat : Bool} {w h : Nat} : Steppy (axLatDQ even flat w h) axDist :=
  ⟨steppy_axQ.refl, steppy_axQ.zero, steppy_axQ.le, steppy_axQ.toward⟩

/-! ### C59 -/

section
variable {N E : Type} {m : Machine} {rep : Offset → Prop} {w h : Nat}

/-- `d` is the least number of `neighbors` steps from `a` to `b`. -/
def ShortestWalk {C A D : Type} (s : Shape C A D) (a b : C) (d : Nat) : Prop :=
  Walk s a d b ∧ ∀ n, Walk s a n b → d ≤ n

/-- **C59.** Squares: the least number of steps between two nodes is the sum of the coordinate differences. -/
theorem c59_square {s : Shape Offset SquareAxis DSquareAxis} {g : Graph Offset SquareAxis DSquareAxis N E}
    {k : Contents Offset SquareAxis N E} (hs : Lawful s (squareLat w h) rep) (hb : Built s (squareLat w h) g k)
    {x y x' y' : Nat} (hx : x < w) (hy : y < h) (hx' : x' < w) (hy' : y' < h) :
    ShortestWalk g.s ⟨x, y⟩ ⟨x', y'⟩ (((x : Int) - x').natAbs + ((y : Int) - y').natAbs) :=
  steppy_square.shortest hs hb ⟨x, y, hx, hy, rfl⟩ ⟨x', y', hx', hy', rfl⟩

/-- **C59.** The same on directed squares. -/
theorem c59_square_directed {s : Shape Offset DSquareAxis DSquareAxis} {g : Graph Offset DSquareAxis DSquareAxis N E}
    {k : Contents Offset DSquareAxis N E} (hs : Lawful s (squareLatDirected w h) rep) (hb : Built s (squareLatDirected w h) g k)
    {x y x' y' : Nat} (hx : x < w) (hy : y < h) (hx' : x' < w) (hy' : y' < h) :
    ShortestWalk g.s ⟨x, y⟩ ⟨x', y'⟩ (((x : Int) - x').natAbs + ((y : Int) - y').natAbs) :=
  steppy_squareDirected.shortest hs hb ⟨x, y, hx, hy, rfl⟩ ⟨x', y', hx', hy', rfl⟩

/-- **C59.** Squares with diagonals: the larger of the coordinate differences. -/
theorem c59_diag {s : Shape Offset DiagAxis DDiagAxis} {g : Graph Offset DiagAxis DDiagAxis N E}
    {k : Contents Offset DiagAxis N E} (hs : Lawful s (diagLat w h) rep) (hb : Built s (diagLat w h) g k)
    {x y x' y' : Nat} (hx : x < w) (hy : y < h) (hx' : x' < w) (hy' : y' < h) :
    ShortestWalk g.s ⟨x, y⟩ ⟨x', y'⟩ (max ((x : Int) - x').natAbs ((y : Int) - y').natAbs) :=
  steppy_diag.shortest hs hb ⟨x, y, hx, hy, rfl⟩ ⟨x', y', hx', hy', rfl⟩

/-- **C59.** The same, directed. -/
theorem c59_diag_directed {s : Shape Offset DDiagAxis DDiagAxis} {g : Graph Offset DDiagAxis DDiagAxis N E}
    {k : Contents Offset DDiagAxis N E} (hs : Lawful s (diagLatDirected w h) rep) (hb : Built s (diagLatDirected w h) g k)
    {x y x' y' : Nat} (hx : x < w) (hy : y < h) (hx' : x' < w) (hy' : y' < h) :
    ShortestWalk g.s ⟨x, y⟩ ⟨x', y'⟩ (max ((x : Int) - x').natAbs ((y : Int) - y').natAbs) :=
  steppy_diagDirected.shortest hs hb ⟨x, y, hx, hy, rfl⟩ ⟨x', y', hx', hy', rfl⟩

/-- **C59.** Point-top hexagons in offset coordinates: the hexagonal distance, for both row parities. -/
theorem c59_offset {even : Bool} {s : Shape Offset AxisR AxisDR} {g : Graph Offset AxisR AxisDR N E}
    {k : Contents Offset AxisR N E} (hs : Lawful s (offLatR even w h) rep) (hb : Built s (offLatR even w h) g k)
    {x y x' y' : Nat} (hx : x < w) (hy : y < h) (hx' : x' < w) (hy' : y' < h) :
    ShortestWalk g.s ⟨x, y⟩ ⟨x', y'⟩ (offDist even ⟨x, y⟩ ⟨x', y'⟩) :=
  steppy_off.shortest hs hb ⟨x, y, hx, hy, rfl⟩ ⟨x', y', hx', hy', rfl⟩

/-- **C59.** The same, directed. -/
theorem c59_offset_directed {even : Bool} {s : Shape Offset AxisDR AxisDR} {g : Graph Offset AxisDR AxisDR N E}
    {k : Contents Offset AxisDR N E} (hs : Lawful s (offLatDR even w h) rep) (hb : Built s (offLatDR even w h) g k)
    {x y x' y' : Nat} (hx : x < w) (hy : y < h) (hx' : x' < w) (hy' : y' < h) :
    ShortestWalk g.s ⟨x, y⟩ ⟨x', y'⟩ (offDist even ⟨x, y⟩ ⟨x', y'⟩) :=
  steppy_offDirected.shortest hs hb ⟨x, y, hx, hy, rfl⟩ ⟨x', y', hx', hy', rfl⟩

/-- **C59.** With `LoopEW`: the hexagonal distance on the cylinder, i.e. with the shorter way round horizontally. -/
theorem c59_loop {even : Bool} {s : Shape Offset AxisR AxisDR} {g : Graph Offset AxisR AxisDR N E}
    {k : Contents Offset AxisR N E} (hs : Lawful s (offLatRLoop even w h) rep) (hb : Built s (offLatRLoop even w h) g k)
    {x y x' y' : Nat} (hx : x < w) (hy : y < h) (hx' : x' < w) (hy' : y' < h) :
    ShortestWalk g.s ⟨x, y⟩ ⟨x', y'⟩ (cylDist even w ⟨x, y⟩ ⟨x', y'⟩) :=
  steppy_loop.shortest hs hb ⟨x, y, hx, hy, rfl⟩ ⟨x', y', hx', hy', rfl⟩

variable {repA : Axial → Prop} {even flat : Bool}

/-- **C59.** Axial maps: the hexagonal distance `max |Δr| |Δq| |Δr + Δq|`, although the map is sheared. -/
theorem c59_axial {s : Shape Axial AxisR AxisDR} {g : Graph Axial AxisR AxisDR N E} {k : Contents Axial AxisR N E}
    (hs : Lawful s (axLatR even flat w h) repA) (hb : Built s (axLatR even flat w h) g k)
    {a b : Axial} (ha : axIn even flat w h a = true) (hb' : axIn even flat w h b = true) :
    ShortestWalk g.s a b (axDist a b) :=
  steppy_axR.shortest hs hb (axIn_iff.1 ha) (axIn_iff.1 hb')

/-- **C59.** The same, directed. -/
theorem c59_axial_directed {s : Shape Axial AxisDR AxisDR} {g : Graph Axial AxisDR AxisDR N E}
    {k : Contents Axial AxisDR N E} (hs : Lawful s (axLatDR even flat w h) repA) (hb : Built s (axLatDR even flat w h) g k)
    {a b : Axial} (ha : axIn even flat w h a = true) (hb' : axIn even flat w h b = true) :
    ShortestWalk g.s a b (axDist a b) :=
  steppy_axDR.shortest hs hb (axIn_iff.1 ha) (axIn_iff.1 hb')

/-- **C59.** The same with flat-top directions. -/
theorem c59_axial_flat {s : Shape Axial AxisQ AxisDQ} {g : Graph Axial AxisQ AxisDQ N E} {k : Contents Axial AxisQ N E}
    (hs : Lawful s (axLatQ even flat w h) repA) (hb : Built s (axLatQ even flat w h) g k)
    {a b : Axial} (ha : axIn even flat w h a = true) (hb' : axIn even flat w h b = true) :
    ShortestWalk g.s a b (axDist a b) :=
  steppy_axQ.shortest hs hb (axIn_iff.1 ha) (axIn_iff.1 hb')

/-- **C59.** The same with flat-top directions, directed. -/
theorem c59_axial_flat_directed {s : Shape Axial AxisDQ AxisDQ} {g : Graph Axial AxisDQ AxisDQ N E}
    {k : Contents Axial AxisDQ N E} (hs : Lawful s (axLatDQ even flat w h) repA) (hb : Built s (axLatDQ even flat w h) g k)
    {a b : Axial} (ha : axIn even flat w h a = true) (hb' : axIn even flat w h b = true) :
    ShortestWalk g.s a b (axDist a b) :=
  steppy_axDQ.shortest hs hb (axIn_iff.1 ha) (axIn_iff.1 hb')

/-- **C59.** The number of steps is determined: any two values that are least are equal. -/
theorem ShortestWalk.unique {C A D : Type} {s : Shape C A D} {a b : C} {d d' : Nat} (h : ShortestWalk s a b d)
    (h' : ShortestWalk s a b d') : d = d' :=
  Nat.le_antisymm (h.2 _ h'.1) (h'.2 _ h.1)
end

/-- opposite corners of the 3 × 2 square graph are 3 steps apart -/
example : ∃ g : Graph Offset SquareAxis DSquareAxis Nat Nat, Built (squareShape m64 3 2) (squareLat 3 2) g exK ∧
    ShortestWalk g.s ⟨0, 1⟩ ⟨2, 0⟩ 3 := by
  obtain ⟨g, hb⟩ := exSquare
  exact ⟨g, hb, c59_square (Lawful.square m64 3 2) hb (by decide) (by decide) (by decide) (by decide)⟩

/-- first and last column of a 7 wide cylinder are one step apart, three columns are three steps -/
example : ∃ g : Graph Offset AxisR AxisDR Unit Unit, ∃ k, Built (hexOffRLew m64 oddR 7 4) (offLatRLoop false 7 4) g k ∧
    ShortestWalk g.s ⟨0, 2⟩ ⟨6, 2⟩ 1 ∧ ShortestWalk g.s ⟨1, 0⟩ ⟨4, 3⟩ 5 ∧ ShortestWalk g.s ⟨0, 0⟩ ⟨5, 3⟩ 3 := by
  obtain ⟨g, hb⟩ := (Lawful.hexOffRLew m64 oddR 7 4).exists_built (by decide) (fun u _ => ((), u)) (fun u _ _ => ((), u)) ()
  have hs := Lawful.hexOffRLew m64 oddR 7 4
  refine ⟨g, _, hb, ?_, ?_, ?_⟩
  · exact c59_loop hs hb (by decide) (by decide) (by decide) (by decide)
  · exact c59_loop hs hb (by decide) (by decide) (by decide) (by decide)
  · exact c59_loop hs hb (by decide) (by decide) (by decide) (by decide)

/-! ### Instances -/
example : ∃ g : Graph Offset DSquareAxis DSquareAxis Nat Nat, Built (squareShapeDirected m64 3 2) (squareLatDirected 3 2) g exKD ∧
    ShortestWalk g.s ⟨0, 1⟩ ⟨2, 0⟩ 3 := by
  obtain ⟨g, hb⟩ := exSquareD m64 rfl
  exact ⟨g, hb, c59_square_directed (Lawful.squareDirected m64 3 2) hb (by decide) (by decide) (by decide) (by decide)⟩
example : ∃ g : Graph Offset DiagAxis DDiagAxis Unit Unit, ShortestWalk g.s ⟨0, 1⟩ ⟨4, 3⟩ 4 := by
  obtain ⟨g, hb⟩ := (Lawful.diag m64 5 4).exists_built (by decide) (fun u _ => ((), u)) (fun u _ _ => ((), u)) ()
  exact ⟨g, c59_diag (Lawful.diag m64 5 4) hb (by decide) (by decide) (by decide) (by decide)⟩
example : ∃ g : Graph Offset DDiagAxis DDiagAxis Unit Unit, ShortestWalk g.s ⟨4, 3⟩ ⟨0, 1⟩ 4 := by
  obtain ⟨g, hb⟩ := (Lawful.diagDirected m64 5 4).exists_built (by decide) (fun u _ => ((), u)) (fun u _ _ => ((), u)) ()
  exact ⟨g, c59_diag_directed (Lawful.diagDirected m64 5 4) hb (by decide) (by decide) (by decide) (by decide)⟩
example : ∃ g : Graph Offset AxisR AxisDR Unit Unit, ShortestWalk g.s ⟨1, 0⟩ ⟨4, 3⟩ 5 := by
  obtain ⟨g, hb⟩ := (Lawful.hexOffR m64 oddR 7 4).exists_built (by decide) (fun u _ => ((), u)) (fun u _ _ => ((), u)) ()
  exact ⟨g, c59_offset (Lawful.hexOffR m64 oddR 7 4) hb (by decide) (by decide) (by decide) (by decide)⟩
example : ∃ g : Graph Offset AxisDR AxisDR Unit Unit, ShortestWalk g.s ⟨1, 0⟩ ⟨4, 3⟩ 4 := by
  obtain ⟨g, hb⟩ := (Lawful.hexOffRDirected m64 evenR 7 4).exists_built (by decide) (fun u _ => ((), u)) (fun u _ _ => ((), u)) ()
  exact ⟨g, c59_offset_directed (Lawful.hexOffRDirected m64 evenR 7 4) hb (by decide) (by decide) (by decide) (by decide)⟩
example : ∃ g : Graph Axial AxisR AxisDR Unit Unit, ShortestWalk g.s ⟨3, 0⟩ ⟨0, 2⟩ 3 := by
  have hs := Lawful.hexAxR m64 (isizeTy m64) evenR 4 3 (.isize (by decide) (by decide))
  obtain ⟨g, hb⟩ := hs.exists_built (by decide) (fun u _ => ((), u)) (fun u _ _ => ((), u)) ()
  exact ⟨g, c59_axial hs hb (by decide) (by decide)⟩
example : ∃ g : Graph Axial AxisDR AxisDR Unit Unit, ShortestWalk g.s ⟨0, 0⟩ ⟨2, 2⟩ 4 := by
  have hs := Lawful.hexAxRDirected m64 (isizeTy m64) evenR 4 3 (.isize (by decide) (by decide))
  obtain ⟨g, hb⟩ := hs.exists_built (by decide) (fun u _ => ((), u)) (fun u _ _ => ((), u)) ()
  exact ⟨g, c59_axial_directed hs hb (by decide) (by decide)⟩
example : ∃ g : Graph Axial AxisQ AxisDQ Unit Unit, ShortestWalk g.s ⟨0, 0⟩ ⟨1, 1⟩ 2 := by
  have hs := Lawful.hexAxQ m64 (isizeTy m64) oddQ 4 2 (.isize (by decide) (by decide))
  obtain ⟨g, hb⟩ := hs.exists_built (by decide) (fun u _ => ((), u)) (fun u _ _ => ((), u)) ()
  exact ⟨g, c59_axial_flat hs hb (by decide) (by decide)⟩
example : ∃ g : Graph Axial AxisDQ AxisDQ Unit Unit, ShortestWalk g.s ⟨0, 1⟩ ⟨3, 0⟩ 3 := by
  have hs := Lawful.hexAxQDirected m64 (isizeTy m64) oddQ 4 2 (.isize (by decide) (by decide))
  obtain ⟨g, hb⟩ := hs.exists_built (by decide) (fun u _ => ((), u)) (fun u _ _ => ((), u)) ()
  exact ⟨g, c59_axial_flat_directed hs hb (by decide) (by decide)⟩

end LG
