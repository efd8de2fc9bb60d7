import Verif.Props.Nodes
/- C24-C30: the geometry of the shapes. Sizes range over all `usize` values unless a bound is stated. -/
set_option linter.unusedSectionVars false
namespace LG

/-- Whatever the shape, a graph that could be built has dimensions ndarray accepts. -/
theorem Built.constructible {C A D N E : Type} [DecidableEq C] [DecidableEq A] {s : Shape C A D} {L : Lat C A D}
    {g : Graph C A D N E} {k : Contents C A N E} (hb : Built s L g k) : Constructible s := by
  induction hb with
  | new h =>
    rename_i n e st st' g
    by_cases hc : Constructible s
    · exact hc
    · rw [newWith_panic hc n e st] at h; cases h
  | _ => assumption

theorem rectNbr_iff {w h : Nat} {c t : Offset} {v : Int × Int} : rectNbr w h c v = some t ↔
    t.horizontal < w ∧ t.vertical < h ∧ (t.horizontal : Int) = c.horizontal + v.1 ∧ (t.vertical : Int) = c.vertical + v.2 := by
  unfold rectNbr
  rw [inRect_eq_some]
  omega

theorem rangeCheck_eq (h v : Nat) (c : Offset) :
    rangeCheck h v c = if c.horizontal < h ∧ c.vertical < v then some c else none := by
  unfold rangeCheck; rfl

/-- A shape on a rectangle of `Offset` coordinates: the nodes are the pairs below the side lengths, and a move from a node
succeeds exactly if the cell displaced by `vec d` is a node, returning it. -/
structure RectGeometry {A D : Type} (s : Shape Offset A D) (h v : Nat) (vec : D → Int × Int) : Prop where
  horizontal : s.horizontal = h
  vertical : s.vertical = v
  nodes : ∀ c, s.toOffset c = .ok (if c.horizontal < h ∧ c.vertical < v then some c else none)
  coordinate : ∀ o, s.offsetToCoordinate o = .ok o
  move : ∀ c d, c.horizontal < h → c.vertical < v → ∃ r, s.moveCoord c d = .ok r ∧
    ∀ t, r = some t ↔ t.horizontal < h ∧ t.vertical < v ∧
      (t.horizontal : Int) = c.horizontal + (vec d).1 ∧ (t.vertical : Int) = c.vertical + (vec d).2

/-- **C24**, undirected. -/
theorem c24_square (m : Machine) (h v : Nat) (hh : h < 2 * m.half) (hv : v < 2 * m.half) :
    RectGeometry (squareShape m h v) h v
      (fun | .X => (1, 0) | .Y => (0, 1) | .RX => (-1, 0) | .RY => (0, -1)) where
  horizontal := rfl
  vertical := rfl
  nodes := fun c => congrArg Except.ok (rangeCheck_eq h v c)
  coordinate := fun _ => rfl
  move := fun c d hx hy => ⟨_, squareMove_eq hh hv hx hy d, fun t => by cases d <;> exact rectNbr_iff⟩

/-- **C24**, directed. -/
theorem c24_square_directed (m : Machine) (h v : Nat) (hh : h < 2 * m.half) (hv : v < 2 * m.half) :
    RectGeometry (squareShapeDirected m h v) h v
      (fun | .X => (1, 0) | .Y => (0, 1) | .RX => (-1, 0) | .RY => (0, -1)) where
  horizontal := rfl
  vertical := rfl
  nodes := fun c => congrArg Except.ok (rangeCheck_eq h v c)
  coordinate := fun _ => rfl
  move := fun c d hx hy => ⟨_, squareMove_eq hh hv hx hy d, fun t => by cases d <;> exact rectNbr_iff⟩

/-- **C25**, undirected. -/
theorem c25_diagonal (m : Machine) (h v : Nat) (hh : h < 2 * m.half) (hv : v < 2 * m.half) :
    RectGeometry (diagShape m h v) h v
      (fun | .N => (0, 1) | .NE => (1, 1) | .E => (1, 0) | .SE => (1, -1)
           | .S => (0, -1) | .SW => (-1, -1) | .W => (-1, 0) | .NW => (-1, 1)) where
  horizontal := rfl
  vertical := rfl
  nodes := fun c => congrArg Except.ok (rangeCheck_eq h v c)
  coordinate := fun _ => rfl
  move := fun c d hx hy => ⟨_, diagMove_eq hh hv hx hy d, fun t => by cases d <;> exact rectNbr_iff⟩

/-- **C25**, directed. -/
theorem c25_diagonal_directed (m : Machine) (h v : Nat) (hh : h < 2 * m.half) (hv : v < 2 * m.half) :
    RectGeometry (diagShapeDirected m h v) h v
      (fun | .N => (0, 1) | .NE => (1, 1) | .E => (1, 0) | .SE => (1, -1)
           | .S => (0, -1) | .SW => (-1, -1) | .W => (-1, 0) | .NW => (-1, 1)) where
  horizontal := rfl
  vertical := rfl
  nodes := fun c => congrArg Except.ok (rangeCheck_eq h v c)
  coordinate := fun _ => rfl
  move := fun c d hx hy => ⟨_, diagMove_eq hh hv hx hy d, fun t => by cases d <;> exact rectNbr_iff⟩

example : (squareShape m64 3 2).moveCoord ⟨2, 1⟩ .RX = .ok (some ⟨1, 1⟩) ∧
    (squareShape m64 3 2).moveCoord ⟨2, 1⟩ .X = .ok none := ⟨rfl, rfl⟩
example : ∃ r, (diagShape m64 3 2).moveCoord ⟨2, 1⟩ .SW = .ok r ∧ r = some ⟨1, 0⟩ := by
  obtain ⟨r, h1, h2⟩ := (c25_diagonal m64 3 2 (by decide) (by decide)).move ⟨2, 1⟩ .SW (by decide) (by decide)
  exact ⟨r, h1, (h2 _).2 (by decide)⟩

section
variable {N E : Type} {m : Machine} {h v : Nat}

/-- Adjacency on the graph, from the geometry of moves. -/
theorem adjacent_iff {C A D : Type} [DecidableEq C] [DecidableEq A] [DecidableEq D] {g : Graph C A D N E} {s : Shape C A D}
    {L : Lat C A D} {rep : C → Prop} {k : Contents C A N E} (hs : Lawful s L rep) (hb : Built s L g k) {a b : C}
    (ha : L.Node a) {P : Prop} [Decidable P] (hp : (∃ d, L.nbr a d = some b) ↔ P) : g.isAdjacent a b = .ok (decide P) := by
  rw [c09_is_adjacent hs hb ha b (c07_neighbors hs hb ha)]
  congr 1
  simp only [(c07_neighbors_exact hs ha b).1, hp]

/-- **C24.** Two nodes of a square graph are adjacent iff their Manhattan distance is 1. -/
theorem c24_adjacent {g : Graph Offset SquareAxis DSquareAxis N E} {k : _} (hb : Built (squareShape m h v) (squareLat h v) g k)
    {a b : Offset} (ha : a.horizontal < h ∧ a.vertical < v) (hb' : b.horizontal < h ∧ b.vertical < v) :
    g.isAdjacent a b = .ok (decide
      (((a.horizontal : Int) - b.horizontal).natAbs + ((a.vertical : Int) - b.vertical).natAbs = 1)) := by
  have hn : (squareLat h v).Node a := ⟨_, _, ha.1, ha.2, rfl⟩
  refine adjacent_iff (.square m h v) hb hn ⟨?_, fun hp => ?_⟩
  · rintro ⟨d, hd⟩
    have := rectNbr_iff.1 hd
    cases d <;> simp only [DSquareAxis.vec] at this <;> omega
  · have key : ∀ d : DSquareAxis, (b.horizontal : Int) = a.horizontal + d.vec.1 → (b.vertical : Int) = a.vertical + d.vec.2 →
        ∃ d, (squareLat h v).nbr a d = some b := fun d h1 h2 => ⟨d, rectNbr_iff.2 ⟨hb'.1, hb'.2, h1, h2⟩⟩
    rcases (by omega : (b.horizontal : Int) = a.horizontal + 1 ∧ (b.vertical : Int) = a.vertical + 0 ∨
      (b.horizontal : Int) = a.horizontal + 0 ∧ (b.vertical : Int) = a.vertical + 1 ∨
      (b.horizontal : Int) = a.horizontal + -1 ∧ (b.vertical : Int) = a.vertical + 0 ∨
      (b.horizontal : Int) = a.horizontal + 0 ∧ (b.vertical : Int) = a.vertical + -1) with h | h | h | h
    · exact key .X h.1 h.2
    · exact key .Y h.1 h.2
    · exact key .RX h.1 h.2
    · exact key .RY h.1 h.2

/-- **C25.** Two nodes of a diagonal square graph are adjacent iff a king moves between them in one step. -/
theorem c25_adjacent {g : Graph Offset DiagAxis DDiagAxis N E} {k : _} (hb : Built (diagShape m h v) (diagLat h v) g k)
    {a b : Offset} (ha : a.horizontal < h ∧ a.vertical < v) (hb' : b.horizontal < h ∧ b.vertical < v) :
    g.isAdjacent a b = .ok (decide
      (max ((a.horizontal : Int) - b.horizontal).natAbs ((a.vertical : Int) - b.vertical).natAbs = 1)) := by
  have hn : (diagLat h v).Node a := ⟨_, _, ha.1, ha.2, rfl⟩
  refine adjacent_iff (.diag m h v) hb hn ⟨?_, fun hp => ?_⟩
  · rintro ⟨d, hd⟩
    have := rectNbr_iff.1 hd
    cases d <;> simp only [DDiagAxis.vec] at this <;> omega
  · have key : ∀ d : DDiagAxis, (b.horizontal : Int) = a.horizontal + d.vec.1 → (b.vertical : Int) = a.vertical + d.vec.2 →
        ∃ d, (diagLat h v).nbr a d = some b := fun d h1 h2 => ⟨d, rectNbr_iff.2 ⟨hb'.1, hb'.2, h1, h2⟩⟩
    rcases (by omega : (b.horizontal : Int) = a.horizontal + 1 ∨ (b.horizontal : Int) = a.horizontal + 0 ∨
      (b.horizontal : Int) = a.horizontal + -1) with h1 | h1 | h1 <;>
    rcases (by omega : (b.vertical : Int) = a.vertical + 1 ∨ (b.vertical : Int) = a.vertical + 0 ∨
      (b.vertical : Int) = a.vertical + -1) with h2 | h2 | h2
    · exact key .NE h1 h2
    · exact key .E h1 h2
    · exact key .SE h1 h2
    · exact key .N h1 h2
    · exfalso; omega
    · exact key .S h1 h2
    · exact key .NW h1 h2
    · exact key .W h1 h2
    · exact key .SW h1 h2

end

/-! ### Hexagons, offset coordinates -/

/-- Centre of the point-top hexagon `c` in a plane scaled so that `X` counts half cells and `Y` rows: rows of odd index (odd
layout) resp. even index (even layout) sit half a cell further east. -/
def centre (even : Bool) (c : Offset) : Int × Int :=
  (2 * c.horizontal + (if (c.vertical % 2 = 1) = (even = false) then 1 else 0), c.vertical)

theorem centre_eq (even : Bool) (c : Offset) : centre even c = offPos even c := by
  unfold centre offPos rowShift
  cases even <;> simp <;> split <;> omega

/-- The displacement of a centre by each direction. -/
def hexStep : AxisDR → Int × Int
  | .E => (2, 0) | .W => (-2, 0) | .NE => (1, 1) | .NW => (-1, 1) | .SE => (1, -1) | .SW => (-1, -1)

theorem hexStep_eq (d : AxisDR) : hexStep d = d.vec := by cases d <;> rfl

/-- A shape on a rectangle of point-top hexagons. -/
structure HexGeometry {A : Type} (s : Shape Offset A AxisDR) (even : Bool) (h v : Nat) : Prop where
  horizontal : s.horizontal = h
  vertical : s.vertical = v
  nodes : ∀ c, s.toOffset c = .ok (if c.horizontal < h ∧ c.vertical < v then some c else none)
  coordinate : ∀ o, s.offsetToCoordinate o = .ok o
  move : ∀ c d, c.horizontal < h → c.vertical < v → ∃ r, s.moveCoord c d = .ok r ∧
    ∀ t, r = some t ↔ t.horizontal < h ∧ t.vertical < v ∧
      (centre even t).1 = (centre even c).1 + (hexStep d).1 ∧ (centre even t).2 = (centre even c).2 + (hexStep d).2

/-- **C26**, undirected. -/
theorem c26_hex_offset (m : Machine) (k : Marker) (h v : Nat) (hh : h < 2 * m.half) (hv : v < 2 * m.half) :
    HexGeometry (hexOffR m k h v) k.isEven h v where
  horizontal := rfl
  vertical := rfl
  nodes := fun c => congrArg Except.ok (rangeCheck_eq h v c)
  coordinate := fun _ => rfl
  move := fun c d hx hy => ⟨_, offMoveR_eq hh hv hx hy d, fun t => by
    rw [centre_eq, centre_eq, hexStep_eq]; exact offNbr_iff⟩

/-- **C26**, directed. -/
theorem c26_hex_offset_directed (m : Machine) (k : Marker) (h v : Nat) (hh : h < 2 * m.half) (hv : v < 2 * m.half) :
    HexGeometry (hexOffRDirected m k h v) k.isEven h v where
  horizontal := rfl
  vertical := rfl
  nodes := fun c => congrArg Except.ok (rangeCheck_eq h v c)
  coordinate := fun _ => rfl
  move := fun c d hx hy => ⟨_, offMoveR_eq hh hv hx hy d, fun t => by
    rw [centre_eq, centre_eq, hexStep_eq]; exact offNbr_iff⟩

/-- **C26** for the bases there are: rows of odd index are shifted for `OddR`, rows of even index for `EvenR`. -/
theorem c26_bases (m : Machine) (h v : Nat) (hh : h < 2 * m.half) (hv : v < 2 * m.half) :
    HexGeometry (hexOffR m oddR h v) false h v ∧ HexGeometry (hexOffR m evenR h v) true h v ∧
    HexGeometry (hexOffRDirected m oddR h v) false h v ∧ HexGeometry (hexOffRDirected m evenR h v) true h v :=
  ⟨c26_hex_offset m oddR h v hh hv, c26_hex_offset m evenR h v hh hv, c26_hex_offset_directed m oddR h v hh hv,
    c26_hex_offset_directed m evenR h v hh hv⟩

/-- The steps are the integer vectors of length 1 in the hexagonal metric (`x = X/2`, `y = Y·√3/2`). -/
theorem hexStep_iff (x y : Int) : (∃ d, hexStep d = (x, y)) ↔ x * x + 3 * (y * y) = 4 := by
  constructor
  · rintro ⟨d, hd⟩
    cases d <;> simp only [hexStep, Prod.mk.injEq] at hd <;> obtain ⟨rfl, rfl⟩ := hd <;> rfl
  · intro h
    have nn : ∀ z : Int, 0 ≤ z * z := fun z => (Int.le_total 0 z).elim (fun h => Int.mul_nonneg h h)
      (fun h => Int.mul_nonneg_of_nonpos_of_nonpos h h)
    have hy0 := nn y
    have hx0 := nn x
    have sq : ∀ {z n : Int}, 0 ≤ n → z * z < (n + 1) * (n + 1) → -n ≤ z ∧ z ≤ n := by
      intro z n hn hz
      refine ⟨Int.not_lt.1 fun hlt => ?_, Int.not_lt.1 fun hlt => ?_⟩
      · have : (n + 1) * (n + 1) ≤ -z * -z := Int.mul_le_mul (by omega) (by omega) (by omega) (by omega)
        rw [Int.neg_mul_neg] at this
        omega
      · have : (n + 1) * (n + 1) ≤ z * z := Int.mul_le_mul (by omega) (by omega) (by omega) (by omega)
        omega
    obtain ⟨a1, a2⟩ := sq (z := x) (n := 2) (by decide) (by omega)
    obtain ⟨b1, b2⟩ := sq (z := y) (n := 1) (by decide) (by omega)
    rcases (by omega : x = -2 ∨ x = -1 ∨ x = 0 ∨ x = 1 ∨ x = 2) with rfl | rfl | rfl | rfl | rfl <;>
    rcases (by omega : y = -1 ∨ y = 0 ∨ y = 1) with rfl | rfl | rfl <;> first
      | exact absurd h (by decide)
      | exact ⟨.E, rfl⟩ | exact ⟨.W, rfl⟩ | exact ⟨.NE, rfl⟩ | exact ⟨.NW, rfl⟩ | exact ⟨.SE, rfl⟩ | exact ⟨.SW, rfl⟩

/-- **C26.** Two nodes of an offset hexagonal graph are adjacent iff their centres are at distance 1. -/
theorem c26_adjacent {N E : Type} {m : Machine} {k : Marker} {h v : Nat} {g : Graph Offset AxisR AxisDR N E} {ct : _}
    (hb : Built (hexOffR m k h v) (offLatR k.isEven h v) g ct) {a b : Offset} (ha : a.horizontal < h ∧ a.vertical < v)
    (hb' : b.horizontal < h ∧ b.vertical < v) :
    g.isAdjacent a b = .ok (decide (
      ((centre k.isEven b).1 - (centre k.isEven a).1) * ((centre k.isEven b).1 - (centre k.isEven a).1) +
      3 * (((centre k.isEven b).2 - (centre k.isEven a).2) * ((centre k.isEven b).2 - (centre k.isEven a).2)) = 4)) := by
  have hn : (offLatR k.isEven h v).Node a := ⟨_, _, ha.1, ha.2, rfl⟩
  refine adjacent_iff (.hexOffR m k h v) hb hn ?_
  rw [← hexStep_iff]
  constructor
  · rintro ⟨d, hd⟩
    refine ⟨d, ?_⟩
    have := offNbr_iff.1 hd
    rw [hexStep_eq, centre_eq, centre_eq, Prod.ext_iff]
    simp only
    omega
  · rintro ⟨d, hd⟩
    rw [hexStep_eq, centre_eq, centre_eq, Prod.ext_iff] at hd
    simp only at hd
    exact ⟨d, offNbr_iff.2 ⟨hb'.1, hb'.2, by omega, by omega⟩⟩

example : ∃ r, (hexOffR m64 oddR 5 5).moveCoord ⟨2, 1⟩ .NE = .ok r ∧ r = some ⟨3, 2⟩ := by
  obtain ⟨r, h1, h2⟩ := (c26_hex_offset m64 oddR 5 5 (by decide) (by decide)).move ⟨2, 1⟩ .NE (by decide) (by decide)
  exact ⟨r, h1, (h2 _).2 (by decide)⟩

/-- **C30.** On the cylinder every row is a cycle: the target of a move is the node whose centre is the displaced centre up to
a whole number of turns (`h` cells, `2h` half cells); it exists iff its row does. -/
theorem c30_hex_offset_loop (m : Machine) (k : Marker) (h v : Nat) (hh : h < 2 * m.half) (hv : v < 2 * m.half)
    (c : Offset) (d : AxisDR) (hx : c.horizontal < h) (hy : c.vertical < v) :
    ∃ r, (hexOffRLew m k h v).moveCoord c d = .ok r ∧
      (r.isSome ↔ 0 ≤ (c.vertical : Int) + (hexStep d).2 ∧ (c.vertical : Int) + (hexStep d).2 < v) ∧
      ∀ t, r = some t ↔ t.horizontal < h ∧ t.vertical < v ∧
        (∃ n : Int, (centre k.isEven t).1 + 2 * h * n = (centre k.isEven c).1 + (hexStep d).1) ∧
        (centre k.isEven t).2 = (centre k.isEven c).2 + (hexStep d).2 := by
  refine ⟨_, offMoveRLew_eq hh hv hx hy d, ?_, fun t => by rw [centre_eq, centre_eq, hexStep_eq]; exact offNbrLoop_iff⟩
  rw [hexStep_eq]
  have isS : ∀ x y : Int, (inRect h v x y).isSome ↔ 0 ≤ x ∧ x < h ∧ 0 ≤ y ∧ y < v := by
    intro x y
    unfold inRect
    by_cases hr : 0 ≤ x ∧ x < h ∧ 0 ≤ y ∧ y < v
    · rw [if_pos hr]; simp only [Option.isSome_some, true_iff]; exact hr
    · rw [if_neg hr]; simp only [Option.isSome_none, Bool.false_eq_true, false_iff]; exact hr
  have e : ∀ z : Int, 0 ≤ z % (h : Int) ∧ z % (h : Int) < h := fun z =>
    ⟨Int.emod_nonneg _ (by omega), Int.emod_lt_of_pos _ (by omega)⟩
  unfold offNbrLoop offAtLoop
  rw [isS]
  exact ⟨fun h => h.2.2, fun h => ⟨(e _).1, (e _).2, h⟩⟩

/-- **C30** for the bases there are: the move of `LoopEW` maps over `OddR` shifts the odd rows, over `EvenR` the even rows. -/
theorem c30_bases (m : Machine) (h v : Nat) (hh : h < 2 * m.half) (hv : v < 2 * m.half)
    (c : Offset) (d : AxisDR) (hx : c.horizontal < h) (hy : c.vertical < v) (t : Offset) :
    ((hexOffRLew m oddR h v).moveCoord c d = .ok (some t) ↔ t.horizontal < h ∧ t.vertical < v ∧
        (∃ n : Int, (centre false t).1 + 2 * h * n = (centre false c).1 + (hexStep d).1) ∧
        (centre false t).2 = (centre false c).2 + (hexStep d).2) ∧
    ((hexOffRLew m evenR h v).moveCoord c d = .ok (some t) ↔ t.horizontal < h ∧ t.vertical < v ∧
        (∃ n : Int, (centre true t).1 + 2 * h * n = (centre true c).1 + (hexStep d).1) ∧
        (centre true t).2 = (centre true c).2 + (hexStep d).2) := by
  obtain ⟨r, h1, _, h2⟩ := c30_hex_offset_loop m oddR h v hh hv c d hx hy
  obtain ⟨r', h1', _, h2'⟩ := c30_hex_offset_loop m evenR h v hh hv c d hx hy
  rw [h1, h1', Except.ok.injEq, Except.ok.injEq]
  exact ⟨h2 t, h2' t⟩

/-- **C30.** East and west never leave the row, and `h` steps east come back: column `x` after one step east is `x + 1`
modulo `h`. -/
theorem c30_row_cycle (m : Machine) (k : Marker) (h v : Nat) (hh : h < 2 * m.half) (c : Offset) (hx : c.horizontal < h) :
    (hexOffRLew m k h v).moveCoord c .E = .ok (some ⟨(c.horizontal + 1) % h, c.vertical⟩) ∧
    (hexOffRLew m k h v).moveCoord c .W = .ok (some ⟨(c.horizontal + (h - 1)) % h, c.vertical⟩) := by
  have hm : (c.horizontal + 1) % h = if c.horizontal + 1 < h then c.horizontal + 1 else 0 := by
    split
    · exact Nat.mod_eq_of_lt ‹_›
    · rw [show c.horizontal + 1 = h by omega, Nat.mod_self]
  have hm' : (c.horizontal + (h - 1)) % h = if 1 ≤ c.horizontal then c.horizontal - 1 else h - 1 := by
    split
    · rw [show c.horizontal + (h - 1) = (c.horizontal - 1) + h by omega, Nat.add_mod_right, Nat.mod_eq_of_lt (by omega)]
    · rw [show c.horizontal + (h - 1) = h - 1 by omega, Nat.mod_eq_of_lt (by omega)]
  constructor
  · show offMoveRLew m h v c .E (offFlag k) = _
    simp only [offMoveRLew, wrapE_eq hh hx, bind, Except.bind, hm]
  · show offMoveRLew m h v c .W (offFlag k) = _
    simp only [offMoveRLew, wrapW_eq hx, bind, Except.bind, hm']

example : (hexOffRLew m64 evenR 5 5).moveCoord ⟨4, 0⟩ .NE = .ok (some ⟨0, 1⟩) := rfl

/-! ### Hexagons, axial coordinates -/

/-- Row shift of an axial map: `⌊(q + c)/2⌋` with `c = 1` for even bases. -/
def shear (even : Bool) (q : Int) : Int := (q + if even then 1 else 0) / 2

theorem shear_eq (even : Bool) (q : Int) : shear even q = axShift even q := rfl

/-- Axial vector of a direction: `E = +r`, `NE = +q`. -/
def axialStepR : AxisDR → Int × Int
  | .NE => (0, 1) | .E => (1, 0) | .SE => (1, -1) | .SW => (0, -1) | .W => (-1, 0) | .NW => (-1, 1)

/-- Axial vector of a flat-top direction: `N = +q`, `NE = +r`. -/
def axialStepQ : AxisDQ → Int × Int
  | .N => (0, 1) | .NE => (1, 0) | .SE => (1, -1) | .S => (0, -1) | .SW => (-1, 0) | .NW => (-1, 1)

theorem axialStepR_eq (d : AxisDR) : axialStepR d = d.axial := by cases d <;> rfl
theorem axialStepQ_eq (d : AxisDQ) : axialStepQ d = d.axial := by cases d <;> rfl

/-- The coordinate belongs to the `h × v` map. -/
def InAxial (even : Bool) (h v : Nat) (c : Axial) : Prop :=
  0 ≤ c.q ∧ c.q < v ∧ 0 ≤ c.r + shear even c.q ∧ c.r + shear even c.q < h

instance (even : Bool) (h v : Nat) (c : Axial) : Decidable (InAxial even h v c) := by unfold InAxial; infer_instance

theorem inAxial_iff {even : Bool} {h v : Nat} {c : Axial} : InAxial even h v c ↔ axIn even false h v c = true := by
  simp [InAxial, axIn, shear_eq]

/-- An axial shape: its nodes are the coordinates of `InAxial`, stored at column `r + shear q`, row `q`; a move succeeds iff the
displaced coordinate is a node, returning it. -/
structure AxialGeometry {A D : Type} (s : Shape Axial A D) (even : Bool) (h v : Nat) (vec : D → Int × Int) : Prop where
  horizontal : s.horizontal = h
  vertical : s.vertical = v
  nodes : ∀ c, InAxial even h v c ↔ ∃ o, s.toOffset c = .ok (some o)
  offset : ∀ c o, s.toOffset c = .ok (some o) ↔ InAxial even h v c ∧
    (o.horizontal : Int) = c.r + shear even c.q ∧ (o.vertical : Int) = c.q
  coordinate : ∀ o, o.horizontal < h → o.vertical < v → ∃ c, s.offsetToCoordinate o = .ok c ∧ s.toOffset c = .ok (some o)
  move : ∀ c d, InAxial even h v c → ∃ r, s.moveCoord c d = .ok r ∧
    ∀ t, r = some t ↔ InAxial even h v t ∧ t.r = c.r + (vec d).1 ∧ t.q = c.q + (vec d).2

theorem axial_geometry {A D : Type} {m : Machine} {k : Marker} {axis : Axis A D} {t : CoordTy} {h v : Nat}
    {move : Axial → D → Res Axial} {vec : D → Int × Int} (hh : h < m.half) (hv : v < m.half) (hf : k.isFlatTop = false)
    (ht : Holds t k.isFlatTop h v) (hu : ∀ d, UnitVec (vec d))
    (hm : ∀ {c}, axIn k.isEven k.isFlatTop h v c = true → ∀ d, move c d = .ok ⟨c.r + (vec d).1, c.q + (vec d).2⟩) :
    AxialGeometry (axialShapeOf m k axis t h v move) k.isEven h v vec := by
  have off : ∀ c o, axToOffset m k h v c = .ok (some o) ↔ InAxial k.isEven h v c ∧
      (o.horizontal : Int) = c.r + shear k.isEven c.q ∧ (o.vertical : Int) = c.q := by
    intro c o
    constructor
    · intro hc
      have hr := axToOffset_rep hh hv hc
      rw [axToOffset_eq hh hv hr, hf] at hc
      split at hc
      · rename_i hi
        have hi' := inAxial_iff.2 hi
        simp only [axCell, Bool.false_eq_true, if_false, Except.ok.injEq, Option.some.injEq] at hc
        subst hc
        refine ⟨hi', ?_⟩
        unfold InAxial at hi'
        rw [shear_eq] at *
        simp only
        omega
      · cases hc
    · rintro ⟨hi, h1, h2⟩
      have hi' : axIn k.isEven k.isFlatTop h v c = true := by rw [hf]; exact inAxial_iff.1 hi
      rw [axToOffset_eq hh hv (axCoord_rep hh hv hi'), if_pos hi', hf]
      unfold InAxial at hi
      rw [shear_eq] at *
      obtain ⟨x, y⟩ := o
      simp only [axCell, Bool.false_eq_true, if_false, Except.ok.injEq, Option.some.injEq, Offset.mk.injEq] at *
      omega
  refine ⟨rfl, rfl, fun c => ⟨fun hc => ?_, fun ⟨o, ho⟩ => ((off c o).1 ho).1⟩, off, fun o hx hy => ?_, fun c d hc => ?_⟩
  · refine ⟨⟨(c.r + shear k.isEven c.q).toNat, c.q.toNat⟩, (off c _).2 ⟨hc, ?_⟩⟩
    unfold InAxial at hc
    simp only
    omega
  · refine ⟨_, axOffsetToCoord_eq hh hv ht hx hy, (off _ o).2 ⟨?_, ?_⟩⟩
    · rw [inAxial_iff, ← hf]; exact axIn_iff.2 ⟨_, _, hx, hy, rfl⟩
    · rw [hf]
      simp only [axCoord, Bool.false_eq_true, if_false, shear_eq, and_true]
      omega
  · have hc' : axIn k.isEven k.isFlatTop h v c = true := by rw [hf]; exact inAxial_iff.1 hc
    refine ⟨axNbr k.isEven false h v c (vec d), ?_, fun t => ?_⟩
    · show axMoveChecked m k h v move c d = _
      unfold axMoveChecked axNbr
      simp only [hm hc' d, bind, Except.bind, axToOffset_eq hh hv (step_rep hh hv (hu d) hc'), hf]
      split <;> simp_all
    · rw [axNbr_some, ← inAxial_iff]
      constructor
      · rintro ⟨h1, rfl⟩; exact ⟨h1, rfl, rfl⟩
      · rintro ⟨h1, h2, h3⟩
        refine ⟨h1, ?_⟩
        obtain ⟨r, q⟩ := t
        simp_all

/-- **C27**, `OddR`/`EvenR`. `t` is the component type of the coordinates (`isize` for `HexAxial`). -/
theorem c27_axial_r (m : Machine) (k : Marker) (hk : k.isFlatTop = false) (t : CoordTy) (h v : Nat) (hh : h < m.half)
    (hv : v < m.half) (ht : Holds t k.isFlatTop h v) : AxialGeometry (hexAxR m t k h v) k.isEven h v axialStepR :=
  axial_geometry hh hv hk ht (fun d => axialStepR_eq d ▸ d.unit)
    (fun hc d => axialStepR_eq d ▸ axMoveR_eq hh hv ht hc d)

/-- **C27**, directed `OddR`/`EvenR`. -/
theorem c27_axial_r_directed (m : Machine) (k : Marker) (hk : k.isFlatTop = false) (t : CoordTy) (h v : Nat) (hh : h < m.half)
    (hv : v < m.half) (ht : Holds t k.isFlatTop h v) : AxialGeometry (hexAxRDirected m t k h v) k.isEven h v axialStepR :=
  axial_geometry (k := directedMarker k) hh hv hk ht (fun d => axialStepR_eq d ▸ d.unit)
    (fun hc d => axialStepR_eq d ▸ axMoveR_eq (flat := k.isFlatTop) hh hv ht hc d)

/-- **C27**, `OddQ`/`EvenQ` (which the code lays out like `OddR`/`EvenR`, see C35). -/
theorem c27_axial_q (m : Machine) (k : Marker) (hk : k.isFlatTop = false) (t : CoordTy) (h v : Nat) (hh : h < m.half)
    (hv : v < m.half) (ht : Holds t k.isFlatTop h v) : AxialGeometry (hexAxQ m t k h v) k.isEven h v axialStepQ :=
  axial_geometry hh hv hk ht (fun d => axialStepQ_eq d ▸ d.unit)
    (fun hc d => axialStepQ_eq d ▸ axMoveQ_eq hh hv ht hc d)

/-- **C27**, directed `OddQ`/`EvenQ`. -/
theorem c27_axial_q_directed (m : Machine) (k : Marker) (hk : k.isFlatTop = false) (t : CoordTy) (h v : Nat) (hh : h < m.half)
    (hv : v < m.half) (ht : Holds t k.isFlatTop h v) : AxialGeometry (hexAxQDirected m t k h v) k.isEven h v axialStepQ :=
  axial_geometry (k := directedMarker k) hh hv hk ht (fun d => axialStepQ_eq d ▸ d.unit)
    (fun hc d => axialStepQ_eq d ▸ axMoveQ_eq (flat := k.isFlatTop) hh hv ht hc d)

/-- **C27** for the default coordinate type `HexAxial`, all four bases: no condition on the component type is left. -/
theorem c27_hex_axial (m : Machine) (h v : Nat) (hh : h < m.half) (hv : v < m.half) :
    AxialGeometry (hexAxR m (isizeTy m) oddR h v) false h v axialStepR ∧
    AxialGeometry (hexAxR m (isizeTy m) evenR h v) true h v axialStepR ∧
    AxialGeometry (hexAxQ m (isizeTy m) oddQ h v) false h v axialStepQ ∧
    AxialGeometry (hexAxQ m (isizeTy m) evenQ h v) true h v axialStepQ :=
  ⟨c27_axial_r m oddR rfl _ h v hh hv (.isize hh hv), c27_axial_r m evenR rfl _ h v hh hv (.isize hh hv),
    c27_axial_q m oddQ rfl _ h v hh hv (.isize hh hv), c27_axial_q m evenQ rfl _ h v hh hv (.isize hh hv)⟩

example : ∃ r, (hexAxR m64 (isizeTy m64) oddR 5 5).moveCoord ⟨-2, 4⟩ .SE = .ok r ∧ r = some ⟨-1, 3⟩ := by
  obtain ⟨r, h1, h2⟩ := (c27_hex_axial m64 5 5 (by decide) (by decide)).1.move ⟨-2, 4⟩ .SE
    (by decide)
  exact ⟨r, h1, (h2 _).2 (by decide)⟩
example : InAxial true 5 5 ⟨-2, 3⟩ ∧ ¬ InAxial true 5 5 ⟨-2, 2⟩ := by decide

/-! ### C28 -/

/-- **C28**, exact behaviour of `to_offset` on every pair of machine integers: it panics exactly in debug builds on
coordinates in an existing row whose column computation exceeds `isize::MAX`, and otherwise answers correctly. It is never
undefined behaviour. -/
theorem c28_to_offset_exact (m : Machine) (k : Marker) (hk : k.isFlatTop = false) (h v : Nat) (hh : h < m.half)
    (hv : v < m.half) (c : Axial) (hr : InI m c.r) (hq : InI m c.q) :
    axToOffset m k h v c =
      if m.mode = .debug ∧ 0 ≤ c.q ∧ c.q < v ∧ (m.half : Int) ≤ c.r + shear k.isEven c.q then .error .panic
      else .ok (if InAxial k.isEven h v c then some ⟨(c.r + shear k.isEven c.q).toNat, c.q.toNat⟩ else none) := by
  by_cases hrep : axRep m k.isEven k.isFlatTop c
  · have hno : ¬ (m.mode = .debug ∧ 0 ≤ c.q ∧ c.q < v ∧ (m.half : Int) ≤ c.r + shear k.isEven c.q) := by
      obtain ⟨_, _, h3⟩ := hrep
      rw [hk] at h3
      simp only [Bool.false_eq_true, if_false] at h3
      rintro ⟨h4, h5, h6, h7⟩
      rcases h3 with h3 | h3
      · rw [h4] at h3; cases h3
      · unfold InI at h3; rw [shear_eq] at h7; omega
    rw [axToOffset_eq hh hv hrep, if_neg hno, hk]
    simp only [axCell, Bool.false_eq_true, if_false, ← inAxial_iff, shear_eq]
  · have hm : m.mode = .debug := by
      cases hm : m.mode with
      | debug => rfl
      | release => exact absurd ⟨hr, hq, .inl hm⟩ hrep
    have hov : ¬ InI m (c.r + axShift k.isEven c.q) := fun hi => hrep ⟨hr, hq, .inr (by rw [hk]; exact hi)⟩
    unfold axToOffset
    rw [getQ_ok hq, getR_ok hr]
    simp only [bind, Except.bind, hk, Bool.false_eq_true, ite_false]
    by_cases hqv : asUsize m c.q < v
    · rw [if_pos hqv]
      have h1 := (asUsize_lt hq hv).1 hqv
      have h2 := axShift_bounds k.isEven h1.1
      rw [halfOf_eq h1.1 (by omega)]
      simp only [iadd, hov, if_false, overflow, hm]
      rw [if_pos]
      refine ⟨trivial, h1.1, h1.2, ?_⟩
      unfold InI at *
      rw [shear_eq]
      omega
    · have h3 := mt (asUsize_lt hq hv).2 hqv
      rw [if_neg hqv, if_neg (by omega), if_neg (by unfold InAxial; omega)]

/-- **C28**, lookups on the graph built: no machine coordinate outside the graph is accepted; in release builds `None` is
returned for all of them; in debug builds for all but those whose column computation overflows, which panic. -/
theorem c28_node_weight_partial {N E : Type} {m : Machine} {k : Marker} (hk : k.isFlatTop = false) {h v : Nat}
    {g : Graph Axial AxisR AxisDR N E} {ct : _}
    (hb : Built (hexAxR m (isizeTy m) k h v) (axLatR k.isEven k.isFlatTop h v) g ct) (c : Axial) (hr : InI m c.r)
    (hq : InI m c.q) (hn : ¬ InAxial k.isEven h v c) :
    g.nodeWeight c = if m.mode = .debug ∧ 0 ≤ c.q ∧ c.q < v ∧ (m.half : Int) ≤ c.r + shear k.isEven c.q then .error .panic
      else .ok none := by
  have hcs : Constructible (hexAxR m (isizeTy m) k h v) := by
    exact hb.constructible
  have hb1 := hcs.bounds
  have hsh : g.s = hexAxR m (isizeTy m) k h v := (hb.good (.hexAxR m _ k h v (.isize hb1.2.1 hb1.2.2))).shape
  unfold Graph.nodeWeight
  rw [hsh]
  show (do match ← axToOffset m k h v c with
    | none => Except.ok none
    | some o => do .ok (some (← g.nodes.uget m o.horizontal o.vertical))) = _
  rw [c28_to_offset_exact m k hk h v hb1.2.1 hb1.2.2 c hr hq]
  rw [if_neg hn]
  split <;> rfl

/-- **C28** fails in debug builds: on every map with at least two rows (three for odd bases) there is a machine coordinate
outside the graph whose lookup panics instead of returning `None`: `r = isize::MAX` in the last row. -/
theorem c28_debug_panics {N E : Type} {m : Machine} (hm : m.mode = .debug) {k : Marker} (hk : k.isFlatTop = false) {h v : Nat}
    (hv2 : if k.isEven then 2 ≤ v else 3 ≤ v) {g : Graph Axial AxisR AxisDR N E} {ct : _}
    (hb : Built (hexAxR m (isizeTy m) k h v) (axLatR k.isEven k.isFlatTop h v) g ct) :
    InI m (m.half - 1) ∧ InI m (v - 1) ∧ ¬ InAxial k.isEven h v ⟨m.half - 1, v - 1⟩ ∧
    g.nodeWeight ⟨m.half - 1, v - 1⟩ = .error .panic := by
  have hb1 := hb.constructible.bounds
  have hh : h < m.half := hb1.2.1
  have hv : v < m.half := hb1.2.2
  have := m.half_ge
  have h1 : InI m (m.half - 1) := by unfold InI; omega
  have h2 : InI m ((v : Int) - 1) := by unfold InI; split at hv2 <;> omega
  have hs : 1 ≤ shear k.isEven ((v : Int) - 1) := by unfold shear; split at hv2 <;> simp_all <;> omega
  have hn : ¬ InAxial k.isEven h v ⟨m.half - 1, v - 1⟩ := by unfold InAxial; simp only; omega
  refine ⟨h1, h2, hn, ?_⟩
  rw [c28_node_weight_partial hk hb _ h1 h2 hn, if_pos]
  refine ⟨hm, ?_, ?_, ?_⟩ <;> simp only
  · split at hv2 <;> omega
  · omega
  · omega

/-- **C28**, in-graph coordinates: none of the conversions or moves overflows, on any word size and in either mode; a checked
and an unchecked conversion agree. -/
theorem c28_in_graph {m : Machine} {k : Marker} (hk : k.isFlatTop = false) {h v : Nat} (hh : h < m.half) (hv : v < m.half)
    {c : Axial} (hc : InAxial k.isEven h v c) :
    axToOffset m k h v c = .ok (some ⟨(c.r + shear k.isEven c.q).toNat, c.q.toNat⟩) ∧
    axToOffsetUnchecked m k c = .ok ⟨(c.r + shear k.isEven c.q).toNat, c.q.toNat⟩ ∧
    axOffsetToCoord m (isizeTy m) k ⟨(c.r + shear k.isEven c.q).toNat, c.q.toNat⟩ = .ok c ∧
    (∀ d, ∃ t, axMoveR m (isizeTy m) c d = .ok t) ∧ (∀ d, ∃ t, axMoveQ m (isizeTy m) c d = .ok t) ∧
    (∀ d, ∃ r, (hexAxR m (isizeTy m) k h v).moveCoord c d = .ok r) := by
  have hc' : axIn k.isEven k.isFlatTop h v c = true := by rw [hk]; exact inAxial_iff.1 hc
  have ht : Holds (isizeTy m) k.isFlatTop h v := .isize hh hv
  refine ⟨?_, ?_, ?_, fun d => ⟨_, axMoveR_eq hh hv ht hc' d⟩, fun d => ⟨_, axMoveQ_eq hh hv ht hc' d⟩, fun d => ?_⟩
  · rw [axToOffset_eq hh hv (axCoord_rep hh hv hc'), if_pos hc', hk]
    simp only [axCell, Bool.false_eq_true, if_false, shear_eq]
  · rw [axToOffsetUnchecked_eq hh hv hc', hk]
    simp only [axCell, Bool.false_eq_true, if_false, shear_eq]
  · unfold InAxial at hc
    rw [axOffsetToCoord_eq hh hv ht (by omega) (by omega), hk]
    obtain ⟨r, q⟩ := c
    simp only [axCoord, Bool.false_eq_true, if_false, Except.ok.injEq, Axial.mk.injEq, shear_eq] at *
    have e1 : (q.toNat : Int) = q := by omega
    rw [e1]
    omega
  · obtain ⟨r, h1, _⟩ := (c27_axial_r m k hk _ h v hh hv ht).move c d hc
    exact ⟨r, h1⟩

example : ∃ g : Graph Axial AxisR AxisDR Unit Unit, g.nodeWeight ⟨2 ^ 63 - 1, 4⟩ = .error .panic := by
  obtain ⟨g, hb⟩ := (Lawful.hexAxR m64 (isizeTy m64) oddR 5 5 (.isize (by decide) (by decide))).exists_built (N := Unit)
    (E := Unit) (σ := Unit) (by decide) (fun _ _ => ((), ())) (fun _ _ _ => ((), ())) ()
  exact ⟨g, (c28_debug_panics (m := m64) rfl rfl (by decide) hb).2.2.2⟩
example : InAxial oddR.isEven 5 5 ⟨-2, 4⟩ := by decide

/-! ### C29 -/

/-- C29, for any two shapes with the geometry of C26 and C27. -/
theorem offset_axial_iso {A A' : Type} {so : Shape Offset A AxisDR} {sa : Shape Axial A' AxisDR} {even : Bool} {h v : Nat}
    (ho : HexGeometry so even h v) (hg : AxialGeometry sa even h v axialStepR)
    (hco : ∀ {x y}, x < h → y < v → sa.offsetToCoordinate ⟨x, y⟩ = .ok (axCoord even false x y)) : ∃ f : Offset → Axial,
      (∀ o, so.toOffset o = .ok (some o) → sa.offsetToCoordinate o = .ok (f o) ∧ sa.toOffset (f o) = .ok (some o)) ∧
      (∀ c o, sa.toOffset c = .ok (some o) → so.toOffset o = .ok (some o) ∧ f o = c) ∧
      (∀ o d, so.toOffset o = .ok (some o) → ∃ r, so.moveCoord o d = .ok r ∧ sa.moveCoord (f o) d = .ok (r.map f)) := by
  have node : ∀ o, so.toOffset o = .ok (some o) ↔ o.horizontal < h ∧ o.vertical < v := by
    intro o
    rw [ho.nodes]
    split
    · simp [*]
    · simp [*]
  have fin : ∀ {o : Offset}, o.horizontal < h → o.vertical < v →
      InAxial even h v (axCoord even false o.horizontal o.vertical) := fun h1 h2 =>
    inAxial_iff.2 (axIn_iff.2 ⟨_, _, h1, h2, rfl⟩)
  have fq : ∀ o : Offset, (axCoord even false o.horizontal o.vertical).q = o.vertical := fun o => by simp [axCoord]
  have fr : ∀ o : Offset, (axCoord even false o.horizontal o.vertical).r = o.horizontal - shear even o.vertical :=
    fun o => by simp [axCoord, shear_eq]
  refine ⟨fun o => axCoord even false o.horizontal o.vertical, fun o hn => ?_, fun c o hn => ?_, fun o d hn => ?_⟩
  · rw [node] at hn
    refine ⟨hco hn.1 hn.2, (hg.offset _ _).2 ⟨fin hn.1 hn.2, ?_, ?_⟩⟩
    · rw [fr, fq]; omega
    · rw [fq]
  · rw [hg.offset] at hn
    obtain ⟨h1, h2, h3⟩ := hn
    rw [node]
    unfold InAxial at h1
    refine ⟨⟨by omega, by omega⟩, ?_⟩
    obtain ⟨r, q⟩ := c
    simp only at *
    simp only [axCoord, Bool.false_eq_true, if_false, Axial.mk.injEq, h3, ← shear_eq, and_true]
    omega
  · rw [node] at hn
    obtain ⟨r, h1, h2⟩ := ho.move o d hn.1 hn.2
    obtain ⟨r', h3, h4⟩ := hg.move (axCoord even false o.horizontal o.vertical) d (fin hn.1 hn.2)
    refine ⟨r, h1, ?_⟩
    rw [h3]
    congr 1
    apply Option.ext
    intro c
    rw [h4 c, Option.map_eq_some_iff]
    have rs : ∀ y : Int, y + (if even then 1 else 0) - 2 * shear even y = if even then 1 - y % 2 else y % 2 := by
      intro y
      unfold shear
      cases even <;> simp <;> omega
    have cen : ∀ o : Offset, (centre even o).1 =
        2 * (o.horizontal - shear even o.vertical) + o.vertical + (if even then 1 else 0) := by
      intro o
      rw [centre_eq]
      have := rs o.vertical
      unfold offPos rowShift
      simp only
      omega
    have cen2 : ∀ o : Offset, (centre even o).2 = o.vertical := fun o => rfl
    have step : (hexStep d).1 = 2 * (axialStepR d).1 + (axialStepR d).2 ∧ (hexStep d).2 = (axialStepR d).2 := by
      cases d <;> simp [hexStep, axialStepR]
    constructor
    · rintro ⟨h5, h6, h7⟩
      rw [fr] at h6
      rw [fq] at h7
      unfold InAxial at h5
      refine ⟨⟨(c.r + shear even c.q).toNat, c.q.toNat⟩, (h2 _).2 ⟨?_, ?_, ?_, ?_⟩, ?_⟩
      · simp only; omega
      · simp only; omega
      · rw [cen, cen]
        simp only
        have : (c.q.toNat : Int) = c.q := by omega
        rw [this]
        omega
      · rw [cen2, cen2]; simp only; omega
      · obtain ⟨r, q⟩ := c
        simp only [axCoord, Bool.false_eq_true, if_false, Axial.mk.injEq, ← shear_eq] at *
        have : (q.toNat : Int) = q := by omega
        rw [this]
        omega
    · rintro ⟨o', h5, rfl⟩
      rw [h2] at h5
      obtain ⟨h5, h6, h7, h8⟩ := h5
      refine ⟨fin h5 h6, ?_, ?_⟩
      · rw [fr, fr]
        rw [cen, cen] at h7
        rw [cen2, cen2] at h8
        omega
      · rw [fq, fq]; rw [cen2, cen2] at h8; omega

/-- **C29.** Same size, same base: `offset_to_coordinate` of the axial shape maps the offset graph onto the axial graph,
bijectively, and commutes with every move. Both shapes store corresponding nodes at the same offset. -/
theorem c29_offset_axial_iso {m : Machine} {k : Marker} (hk : k.isFlatTop = false) {h v : Nat} (hh : h < m.half)
    (hv : v < m.half) : ∃ f : Offset → Axial,
      (∀ o, (hexOffR m k h v).toOffset o = .ok (some o) → (hexAxR m (isizeTy m) k h v).offsetToCoordinate o = .ok (f o) ∧
        (hexAxR m (isizeTy m) k h v).toOffset (f o) = .ok (some o)) ∧
      (∀ c o, (hexAxR m (isizeTy m) k h v).toOffset c = .ok (some o) → (hexOffR m k h v).toOffset o = .ok (some o) ∧ f o = c) ∧
      (∀ o d, (hexOffR m k h v).toOffset o = .ok (some o) → ∃ r, (hexOffR m k h v).moveCoord o d = .ok r ∧
        (hexAxR m (isizeTy m) k h v).moveCoord (f o) d = .ok (r.map f)) := by
  have ht : Holds (isizeTy m) k.isFlatTop h v := .isize hh hv
  refine offset_axial_iso (c26_hex_offset m k h v (by omega) (by omega)) (c27_axial_r m k hk _ h v hh hv ht) fun hx hy => ?_
  have h1 := axOffsetToCoord_eq (t := isizeTy m) hh hv ht hx hy
  rwa [hk] at h1

/-- **C29**, directed bases (`DirectedMarker`): `offset_to_coordinate` of the axial shape maps the offset graph onto the axial graph,
bijectively, and commutes with every move. Both shapes store corresponding nodes at the same offset. -/
theorem c29_directed {m : Machine} {k : Marker} (hk : k.isFlatTop = false) {h v : Nat} (hh : h < m.half)
    (hv : v < m.half) : ∃ f : Offset → Axial,
      (∀ o, (hexOffRDirected m k h v).toOffset o = .ok (some o) → (hexAxRDirected m (isizeTy m) k h v).offsetToCoordinate o = .ok (f o) ∧
        (hexAxRDirected m (isizeTy m) k h v).toOffset (f o) = .ok (some o)) ∧
      (∀ c o, (hexAxRDirected m (isizeTy m) k h v).toOffset c = .ok (some o) → (hexOffRDirected m k h v).toOffset o = .ok (some o) ∧ f o = c) ∧
      (∀ o d, (hexOffRDirected m k h v).toOffset o = .ok (some o) → ∃ r, (hexOffRDirected m k h v).moveCoord o d = .ok r ∧
        (hexAxRDirected m (isizeTy m) k h v).moveCoord (f o) d = .ok (r.map f)) := by
  have ht : Holds (isizeTy m) k.isFlatTop h v := .isize hh hv
  refine offset_axial_iso (c26_hex_offset_directed m k h v (by omega) (by omega)) (c27_axial_r_directed m k hk _ h v hh hv ht) fun hx hy => ?_
  have h1 := axOffsetToCoord_eq (t := isizeTy m) hh hv ht hx hy
  rwa [hk] at h1

/-! Instances of the remaining theorems. -/

example : ∃ r, (squareShape m64 3 2).moveCoord ⟨2, 1⟩ .RY = .ok r ∧ r = some ⟨2, 0⟩ := by
  obtain ⟨r, h1, h2⟩ := (c24_square m64 3 2 (by decide) (by decide)).move ⟨2, 1⟩ .RY (by decide) (by decide)
  exact ⟨r, h1, (h2 _).2 (by decide)⟩
example : ∃ r, (squareShapeDirected m64 3 2).moveCoord ⟨1, 1⟩ .X = .ok r ∧ r = some ⟨2, 1⟩ := by
  obtain ⟨r, h1, h2⟩ := (c24_square_directed m64 3 2 (by decide) (by decide)).move ⟨1, 1⟩ .X (by decide) (by decide)
  exact ⟨r, h1, (h2 _).2 (by decide)⟩
example : ∃ r, (diagShapeDirected m64 3 2).moveCoord ⟨1, 1⟩ .SE = .ok r ∧ r = some ⟨2, 0⟩ := by
  obtain ⟨r, h1, h2⟩ := (c25_diagonal_directed m64 3 2 (by decide) (by decide)).move ⟨1, 1⟩ .SE (by decide) (by decide)
  exact ⟨r, h1, (h2 _).2 (by decide)⟩
example : ∃ r, (hexOffRDirected m64 evenR 5 5).moveCoord ⟨2, 1⟩ .NE = .ok r ∧ r = some ⟨2, 2⟩ := by
  obtain ⟨r, h1, h2⟩ := (c26_hex_offset_directed m64 evenR 5 5 (by decide) (by decide)).move ⟨2, 1⟩ .NE (by decide) (by decide)
  exact ⟨r, h1, (h2 _).2 (by decide)⟩
example : ∃ r, (hexOffR m64 evenR 5 5).moveCoord ⟨2, 0⟩ .NE = .ok r ∧ r = some ⟨3, 1⟩ := by
  obtain ⟨r, h1, h2⟩ := (c26_bases m64 5 5 (by decide) (by decide)).2.1.move ⟨2, 0⟩ .NE (by decide) (by decide)
  exact ⟨r, h1, (h2 _).2 (by decide)⟩

/-- Adjacency by distance on the three kinds of map. -/
example : ∃ g : Graph Offset SquareAxis DSquareAxis Nat Nat, g.isAdjacent ⟨1, 0⟩ ⟨1, 1⟩ = .ok true ∧ g.isAdjacent ⟨1, 0⟩ ⟨2, 1⟩ = .ok false := by
  obtain ⟨g, hb⟩ := exSquare
  exact ⟨g, c24_adjacent hb (by decide) (by decide), c24_adjacent hb (by decide) (by decide)⟩
example : ∃ g : Graph Offset DiagAxis DDiagAxis Nat Nat, g.isAdjacent ⟨1, 0⟩ ⟨2, 1⟩ = .ok true ∧ g.isAdjacent ⟨0, 0⟩ ⟨2, 1⟩ = .ok false := by
  obtain ⟨g, hb⟩ := (Lawful.diag m64 3 2).exists_built (by decide) (fun (u : Unit) _ => (0, u)) (fun u _ _ => (0, u)) ()
  exact ⟨g, c25_adjacent hb (by decide) (by decide), c25_adjacent hb (by decide) (by decide)⟩
example : ∃ g : Graph Offset AxisR AxisDR Nat Nat, g.isAdjacent ⟨1, 1⟩ ⟨2, 2⟩ = .ok true ∧ g.isAdjacent ⟨1, 1⟩ ⟨0, 2⟩ = .ok false := by
  obtain ⟨g, hb⟩ := (Lawful.hexOffR m64 oddR 3 3).exists_built (by decide) (fun (u : Unit) _ => (0, u)) (fun u _ _ => (0, u)) ()
  exact ⟨g, c26_adjacent hb (by decide) (by decide), c26_adjacent hb (by decide) (by decide)⟩

/-- Around the cylinder: north-east of the last cell of a shifted row is the first cell of the next, one turn further. -/
example : (hexOffRLew m64 oddR 5 5).moveCoord ⟨4, 1⟩ .NE = .ok (some ⟨0, 2⟩) :=
  ((c30_bases m64 5 5 (by decide) (by decide) ⟨4, 1⟩ .NE (by decide) (by decide) ⟨0, 2⟩).1).2 ⟨by decide, by decide, ⟨1, by decide⟩, by decide⟩
example : ∃ r, (hexOffRLew m64 evenR 5 5).moveCoord ⟨4, 4⟩ .NE = .ok r ∧ r = none := by
  obtain ⟨r, h1, h2, -⟩ := c30_hex_offset_loop m64 evenR 5 5 (by decide) (by decide) ⟨4, 4⟩ .NE (by decide) (by decide)
  exact ⟨r, h1, by cases r with | none => rfl | some t => exact absurd (h2.1 rfl) (by decide)⟩
example : (hexOffRLew m64 oddR 5 5).moveCoord ⟨4, 1⟩ .E = .ok (some ⟨0, 1⟩) :=
  (c30_row_cycle m64 oddR 5 5 (by decide) ⟨4, 1⟩ (by decide)).1

example : ∃ r, (hexAxR m64 (isizeTy m64) evenR 5 5).moveCoord ⟨-2, 3⟩ .E = .ok r ∧ r = some ⟨-1, 3⟩ := by
  obtain ⟨r, h1, h2⟩ := (c27_axial_r m64 evenR rfl (isizeTy m64) 5 5 (by decide) (by decide) (.isize (by decide) (by decide))).move ⟨-2, 3⟩ .E (by decide)
  exact ⟨r, h1, (h2 _).2 (by decide)⟩
example : ∃ r, (hexAxRDirected m64 (isizeTy m64) oddR 5 5).moveCoord ⟨-2, 4⟩ .W = .ok r ∧ r = none := by
  obtain ⟨r, h1, h2⟩ := (c27_axial_r_directed m64 oddR rfl (isizeTy m64) 5 5 (by decide) (by decide) (.isize (by decide) (by decide))).move ⟨-2, 4⟩ .W (by decide)
  refine ⟨r, h1, ?_⟩
  cases r with
  | none => rfl
  | some t =>
    obtain ⟨h3, h4, h5⟩ := (h2 t).1 rfl
    obtain ⟨r, q⟩ := t
    have h4' : r = -3 := h4
    have h5' : q = 4 := h5
    subst h4' h5'
    exact absurd h3 (by decide)
example : ∃ r, (hexAxQ m64 (isizeTy m64) oddR 5 5).moveCoord ⟨0, 0⟩ .N = .ok r ∧ r = some ⟨0, 1⟩ := by
  obtain ⟨r, h1, h2⟩ := (c27_axial_q m64 oddR rfl (isizeTy m64) 5 5 (by decide) (by decide) (.isize (by decide) (by decide))).move ⟨0, 0⟩ .N (by decide)
  exact ⟨r, h1, (h2 _).2 (by decide)⟩
example : ∃ r, (hexAxQDirected m64 (isizeTy m64) oddR 5 5).moveCoord ⟨0, 1⟩ .S = .ok r ∧ r = some ⟨0, 0⟩ := by
  obtain ⟨r, h1, h2⟩ := (c27_axial_q_directed m64 oddR rfl (isizeTy m64) 5 5 (by decide) (by decide) (.isize (by decide) (by decide))).move ⟨0, 1⟩ .S (by decide)
  exact ⟨r, h1, (h2 _).2 (by decide)⟩

/-- `to_offset` near the end of the integers: a panic in debug, `None` in release. -/
example : axToOffset m64 oddR 5 5 ⟨2 ^ 63 - 1, 4⟩ = .error .panic ∧ axToOffset m64r oddR 5 5 ⟨2 ^ 63 - 1, 4⟩ = .ok none ∧
    axToOffset m64 oddR 5 5 ⟨-2, 4⟩ = .ok (some ⟨0, 4⟩) :=
  ⟨c28_to_offset_exact m64 oddR rfl 5 5 (by decide) (by decide) _ (by decide) (by decide),
    c28_to_offset_exact m64r oddR rfl 5 5 (by decide) (by decide) _ (by decide) (by decide),
    (c28_in_graph (m := m64) (k := oddR) rfl (h := 5) (v := 5) (by decide) (by decide) (c := ⟨-2, 4⟩) (by decide)).1⟩
example : ∃ g : Graph Axial AxisR AxisDR Unit Unit, g.nodeWeight ⟨-3, 4⟩ = .ok none := by
  obtain ⟨g, hb⟩ := (Lawful.hexAxR m64 (isizeTy m64) oddR 5 5 (.isize (by decide) (by decide))).exists_built (N := Unit)
    (E := Unit) (σ := Unit) (by decide) (fun _ _ => ((), ())) (fun _ _ _ => ((), ())) ()
  exact ⟨g, c28_node_weight_partial rfl hb ⟨-3, 4⟩ (by decide) (by decide) (by decide)⟩
example : ∃ f : Offset → Axial, f ⟨0, 4⟩ = ⟨-2, 4⟩ ∧ ∃ r, (hexOffR m64 oddR 5 5).moveCoord ⟨0, 4⟩ .SE = .ok r ∧
    (hexAxR m64 (isizeTy m64) oddR 5 5).moveCoord ⟨-2, 4⟩ .SE = .ok (r.map f) := by
  obtain ⟨f, -, h2, h3⟩ := c29_offset_axial_iso (m := m64) (k := oddR) rfl (h := 5) (v := 5) (by decide) (by decide)
  have h4 := (h2 ⟨-2, 4⟩ ⟨0, 4⟩ rfl).2
  have h5 := h3 ⟨0, 4⟩ .SE rfl
  rw [h4] at h5
  exact ⟨f, h4, h5⟩
example : ∃ f : Offset → Axial, f ⟨0, 4⟩ = ⟨-2, 4⟩ ∧ ∃ r, (hexOffRDirected m64 oddR 5 5).moveCoord ⟨0, 4⟩ .SE = .ok r ∧
    (hexAxRDirected m64 (isizeTy m64) oddR 5 5).moveCoord ⟨-2, 4⟩ .SE = .ok (r.map f) := by
  obtain ⟨f, -, h2, h3⟩ := c29_directed (m := m64) (k := oddR) rfl (h := 5) (v := 5) (by decide) (by decide)
  have h4 := (h2 ⟨-2, 4⟩ ⟨0, 4⟩ rfl).2
  have h5 := h3 ⟨0, 4⟩ .SE rfl
  rw [h4] at h5
  exact ⟨f, h4, h5⟩

end LG
