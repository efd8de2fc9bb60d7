import Verif.Props.Geometry
/- C32, C33, C35: the flat-top shapes. The offset moves decide by the parity of the vertical instead of the horizontal
position and exchange the roles of some directions; the axial layout is never flat-top. Each property is refuted, and what the
code does is characterised exactly. -/
namespace LG

/-- Rows treated by the first arms of `move_coord_q`: odd rows for `OddQ`, even rows for `EvenQ`. -/
def upRow (even : Bool) (y : Nat) : Bool := decide (y % 2 = if even then 0 else 1)

/-- The displacement `move_coord_q` applies, by direction and kind of row. -/
def qStep : AxisDQ → Bool → Int × Int
  | .N, _ => (0, 1) | .S, _ => (0, -1)
  | .NE, true => (1, 0) | .SE, true => (-1, 0) | .SW, true => (-1, -1) | .NW, true => (1, -1)
  | .NE, false => (1, 1) | .SE, false => (-1, 1) | .SW, false => (-1, 0) | .NW, false => (1, 0)

theorem upRow_flag (k : Marker) (y : Nat) : (y % 2 != offFlag k) = upRow k.isEven y := by
  unfold upRow offFlag
  rw [Bool.eq_iff_iff]
  simp only [bne_iff_ne, ne_eq, decide_eq_true_eq]
  split <;> omega

/-- **C32**, exactly what `move_coord_q` does from a node: the vertical position is not checked for `NE`. -/
theorem c32_exact (m : Machine) (k : Marker) (h v : Nat) (hh : h < 2 * m.half) (hv : v < 2 * m.half) (c : Offset) (d : AxisDQ)
    (hx : c.horizontal < h) (hy : c.vertical < v) :
    ∃ r, (hexOffQ m k h v).moveCoord c d = .ok r ∧ ∀ t : Offset, r = some t ↔
      (t.horizontal : Int) = c.horizontal + (qStep d (upRow k.isEven c.vertical)).1 ∧
      (t.vertical : Int) = c.vertical + (qStep d (upRow k.isEven c.vertical)).2 ∧
      t.horizontal < h ∧ (t.vertical < v ∨ d = .NE) := by
  show ∃ r, offMoveQ m h v c d (offFlag k) = .ok r ∧ _
  unfold offMoveQ
  rw [upRow_flag]
  obtain ⟨x, y⟩ := c
  simp only at hx hy
  have ax := addXCheck_eq hh (o := ⟨x, y⟩) hx
  have ay := addYCheck_eq hv (o := ⟨x, y⟩) hy
  have e1 : Offset.addY m ⟨x, y⟩ 1 = .ok ⟨x, y + 1⟩ := by
    unfold Offset.addY; simp only [bind, Except.bind]; rw [uadd_ok (by omega)]
  have ax1 := addXCheck_eq hh (o := ⟨x, y + 1⟩) hx
  have ax2 := addXCheck_eq hh (o := ⟨x, y - 1⟩) hx
  cases hb : upRow k.isEven y <;> cases d <;>
    simp only [qStep, ax, ay, e1, ax1, bind, Except.bind, Offset.subX, Offset.subY, Offset.checkY]
  case true.SW =>
    by_cases h1 : 1 ≤ y
    · simp only [h1, andThen, if_true]
      refine ⟨_, rfl, fun t => ?_⟩
      obtain ⟨tx, ty⟩ := t
      split <;> simp only [reduceCtorEq, false_iff, Option.some.injEq, Offset.mk.injEq] <;> omega
    · simp only [h1, andThen, if_false]
      refine ⟨_, rfl, fun t => ?_⟩
      simp only [reduceCtorEq, false_iff]
      omega
  case true.NW =>
    by_cases h1 : 1 ≤ y
    · simp only [h1, andThen, if_true, ax2]
      refine ⟨_, rfl, fun t => ?_⟩
      obtain ⟨tx, ty⟩ := t
      split <;> simp only [reduceCtorEq, false_iff, Option.some.injEq, Offset.mk.injEq, or_false] <;> omega
    · simp only [h1, andThen, if_false]
      refine ⟨_, rfl, fun t => ?_⟩
      simp only [reduceCtorEq, false_iff]
      omega
  case false.SE =>
    by_cases h1 : 1 ≤ x
    · simp only [h1, andThen, if_true]
      refine ⟨_, rfl, fun t => ?_⟩
      obtain ⟨tx, ty⟩ := t
      split <;> simp only [reduceCtorEq, false_iff, Option.some.injEq, Offset.mk.injEq, or_false] <;> omega
    · simp only [h1, andThen, if_false]
      refine ⟨_, rfl, fun t => ?_⟩
      simp only [reduceCtorEq, false_iff]
      omega
  all_goals
    refine ⟨_, rfl, fun t => ?_⟩
    obtain ⟨tx, ty⟩ := t
    split <;> simp only [reduceCtorEq, false_iff, Option.some.injEq, Offset.mk.injEq, or_false, or_true, and_true] <;> omega

section
variable {m : Machine} {k : Marker} {h v : Nat} {c : Offset} {d : AxisDQ}

/-- Success of a move, from `c32_exact`. -/
theorem c32_move_iff (hh : h < 2 * m.half) (hv : v < 2 * m.half) (hx : c.horizontal < h) (hy : c.vertical < v) {t : Offset} :
    (hexOffQ m k h v).moveCoord c d = .ok (some t) ↔
      (t.horizontal : Int) = c.horizontal + (qStep d (upRow k.isEven c.vertical)).1 ∧
      (t.vertical : Int) = c.vertical + (qStep d (upRow k.isEven c.vertical)).2 ∧
      t.horizontal < h ∧ (t.vertical < v ∨ d = .NE) := by
  obtain ⟨r, h1, h2⟩ := c32_exact m k h v hh hv c d hx hy
  rw [h1, ← h2 t, Except.ok.injEq]

/-- **C32**, the part about staying inside that holds: every move but `NE` upwards out of the last row. -/
theorem c32_stays_partial (hh : h < 2 * m.half) (hv : v < 2 * m.half) (hx : c.horizontal < h) (hy : c.vertical < v)
    (hd : d ≠ .NE ∨ upRow k.isEven c.vertical = true ∨ c.vertical + 1 < v) {t : Offset}
    (ht : (hexOffQ m k h v).moveCoord c d = .ok (some t)) : t.horizontal < h ∧ t.vertical < v := by
  rw [c32_move_iff hh hv hx hy] at ht
  obtain ⟨h1, h2, h3, h4⟩ := ht
  refine ⟨h3, ?_⟩
  rcases h4 with h4 | rfl
  · exact h4
  · cases hb : upRow k.isEven c.vertical <;> rw [hb] at h2 hd <;> simp only [qStep] at h2
    · have : c.vertical + 1 < v := by simpa using hd
      omega
    · omega

/-- **C32** fails: from the last row, when it is not an "up" row, `NE` leaves the graph. -/
theorem c32_leaves_graph (hh : h < 2 * m.half) (hv : v < 2 * m.half) (x : Nat) (hx : x + 1 < h) (h1 : 1 ≤ v)
    (hr : upRow k.isEven (v - 1) = false) :
    (hexOffQ m k h v).toOffset ⟨x, v - 1⟩ = .ok (some ⟨x, v - 1⟩) ∧
    (hexOffQ m k h v).moveCoord ⟨x, v - 1⟩ .NE = .ok (some ⟨x + 1, v⟩) ∧
    (hexOffQ m k h v).toOffset ⟨x + 1, v⟩ = .ok none := by
  refine ⟨?_, ?_, ?_⟩
  · show Except.ok (rangeCheck _ _ _) = _
    unfold rangeCheck
    rw [if_pos (by simp only; omega)]
  · rw [c32_move_iff hh hv (by simp only; omega) (by simp only; omega)]
    simp only [hr, qStep, or_true, and_true]
    omega
  · show Except.ok (rangeCheck _ _ _) = _
    unfold rangeCheck
    rw [if_neg (by simp only; omega)]

/-- The moves whose reverse the code gets right. -/
def Returns (even : Bool) (y : Nat) : AxisDQ → Prop
  | .N | .S => True
  | .NE | .SE => upRow even y = false
  | .SW | .NW => upRow even y = true

theorem upRow_succ (even : Bool) (y : Nat) : upRow even (y + 1) = !upRow even y := by
  unfold upRow
  rw [Bool.eq_iff_iff]
  simp only [Bool.not_eq_true', decide_eq_true_eq, decide_eq_false_iff_not]
  split <;> omega

/-- **C32**, which moves come back: a move from a node to a node is undone by the opposite move in these cases. -/
theorem c32_back_partial (hh : h < 2 * m.half) (hv : v < 2 * m.half) (hx : c.horizontal < h) (hy : c.vertical < v)
    {t : Offset} (ht : (hexOffQ m k h v).moveCoord c d = .ok (some t)) (htv : t.vertical < v)
    (hr : Returns k.isEven c.vertical d) : (hexOffQ m k h v).moveCoord t d.backward = .ok (some c) := by
  rw [c32_move_iff hh hv hx hy] at ht
  obtain ⟨h1, h2, h3, _⟩ := ht
  rw [c32_move_iff hh hv h3 htv]
  obtain ⟨x, y⟩ := c
  obtain ⟨tx, ty⟩ := t
  simp only at *
  cases d <;> simp only [Returns] at hr <;> try rw [hr] at h1 h2
  all_goals simp only [qStep, AxisDQ.backward] at *
  · omega
  · have : ty = y + 1 := by omega
    subst this
    rw [upRow_succ, hr]
    simp only [Bool.not_false]; omega
  · have : ty = y + 1 := by omega
    subst this
    rw [upRow_succ, hr]
    simp only [Bool.not_false]; omega
  · omega
  · have : y = ty + 1 := by omega
    subst this
    rw [upRow_succ, Bool.not_eq_true'] at hr
    rw [hr]
    simp only; omega
  · have : y = ty + 1 := by omega
    subst this
    rw [upRow_succ, Bool.not_eq_true'] at hr
    rw [hr]
    simp only; omega

/-- **C32** fails: in all other cases the opposite move does not come back. -/
theorem c32_back_wrong (hh : h < 2 * m.half) (hv : v < 2 * m.half) (hx : c.horizontal < h) (hy : c.vertical < v)
    {t : Offset} (ht : (hexOffQ m k h v).moveCoord c d = .ok (some t))
    (hr : ¬ Returns k.isEven c.vertical d) : t.vertical = c.vertical ∧
      (hexOffQ m k h v).moveCoord t d.backward ≠ .ok (some c) := by
  rw [c32_move_iff hh hv hx hy] at ht
  obtain ⟨h1, h2, h3, _⟩ := ht
  obtain ⟨x, y⟩ := c
  obtain ⟨tx, ty⟩ := t
  simp only at *
  have key : ty = y := by
    cases d <;> simp only [Returns, not_true_eq_false] at hr <;> simp at hr <;> rw [hr] at h2 <;> simp only [qStep] at h2 <;> omega
  subst key
  refine ⟨rfl, ?_⟩
  rw [Ne, c32_move_iff hh hv h3 hy]
  cases d <;> simp only [Returns, not_true_eq_false] at hr <;> simp at hr <;> rw [hr] <;> simp only [qStep, AxisDQ.backward] <;> omega

/-- **C32** fails already in the first row of every map at least two wide: out `NE` (resp. `NW` for `OddQ`) and back does not
return. -/
theorem c32_violated (m : Machine) (k : Marker) (h v : Nat) (hh : h < 2 * m.half) (hv : v < 2 * m.half) (h2 : 2 ≤ h) (h1 : 1 ≤ v) :
    ∃ d, (hexOffQ m k h v).moveCoord ⟨0, 0⟩ d = .ok (some ⟨1, 0⟩) ∧
      (hexOffQ m k h v).moveCoord ⟨1, 0⟩ d.backward ≠ .ok (some ⟨0, 0⟩) := by
  have : ∃ d, ¬ Returns k.isEven 0 d ∧ qStep d (upRow k.isEven 0) = (1, 0) := by
    cases k.isEven
    · exact ⟨.NW, by simp [Returns, upRow], by simp [qStep, upRow]⟩
    · exact ⟨.NE, by simp [Returns, upRow], by simp [qStep, upRow]⟩
  obtain ⟨d, hd, hq⟩ := this
  have hm : (hexOffQ m k h v).moveCoord ⟨0, 0⟩ d = .ok (some ⟨1, 0⟩) := by
    rw [c32_move_iff hh hv (by simp only; omega) (by simp only; omega)]
    simp only [hq]
    omega
  exact ⟨d, hm, (c32_back_wrong hh hv (by simp only; omega) (by simp only; omega) hm hd).2⟩

/-- **C32**: `SE` always goes west (as does `SW`), `NW` always goes east (as does `NE`). -/
theorem c32_east_west (hh : h < 2 * m.half) (hv : v < 2 * m.half) (hx : c.horizontal < h) (hy : c.vertical < v)
    {t : Offset} : ((hexOffQ m k h v).moveCoord c .SE = .ok (some t) → t.horizontal + 1 = c.horizontal) ∧
      ((hexOffQ m k h v).moveCoord c .NW = .ok (some t) → t.horizontal = c.horizontal + 1) := by
  constructor <;> rw [c32_move_iff hh hv hx hy] <;> cases upRow k.isEven c.vertical <;> simp only [qStep] <;> omega

end

example : Returns false 2 .NE ∧ ¬ Returns false 1 .NE := by simp [Returns, upRow]
example : (hexOffQ m64 oddQ 3 3).moveCoord ⟨0, 2⟩ .NE = .ok (some ⟨1, 3⟩) := rfl
example : upRow oddQ.isEven (3 - 1) = false := rfl

/-! ### C33 -/

/-- The displacement `move_coord_q_lew` applies and whether it wraps horizontally. -/
def qLewStep : AxisDQ → Bool → (Int × Int) × Bool
  | .N, _ => ((1, 0), true) | .S, _ => ((-1, 0), true)
  | .NE, true => ((1, 0), false) | .SE, true => ((-1, 0), false) | .SW, true => ((-1, -1), true) | .NW, true => ((-1, 1), true)
  | .NE, false => ((1, 1), true) | .SE, false => ((1, -1), true) | .SW, false => ((-1, 0), false) | .NW, false => ((1, 0), false)

/-- **C33**, exactly what `move_coord_q_lew` does from a node. -/
theorem c33_exact (m : Machine) (k : Marker) (h v : Nat) (hh : h < 2 * m.half) (hv : v < 2 * m.half) (c : Offset) (d : AxisDQ)
    (hx : c.horizontal < h) (hy : c.vertical < v) :
    ∃ r, (hexOffQLew m k h v).moveCoord c d = .ok r ∧ ∀ t : Offset, r = some t ↔
      t.horizontal < h ∧ t.vertical < v ∧
      ((t.horizontal : Int) = c.horizontal + (qLewStep d (upRow k.isEven c.vertical)).1.1 ∨
        (qLewStep d (upRow k.isEven c.vertical)).2 = true ∧
        ((t.horizontal : Int) + h = c.horizontal + (qLewStep d (upRow k.isEven c.vertical)).1.1 ∨
         (t.horizontal : Int) - h = c.horizontal + (qLewStep d (upRow k.isEven c.vertical)).1.1)) ∧
      (t.vertical : Int) = c.vertical + (qLewStep d (upRow k.isEven c.vertical)).1.2 := by
  show ∃ r, offMoveQLew m h v c d (offFlag k) = .ok r ∧ _
  unfold offMoveQLew
  rw [upRow_flag]
  obtain ⟨x, y⟩ := c
  simp only at hx hy
  have ax := addXCheck_eq hh (o := ⟨x, y⟩) hx
  have we := wrapE_eq hh (o := ⟨x, y⟩) hx
  have ww := wrapW_eq (m := m) (o := ⟨x, y⟩) hx
  have ay : ∀ z, addYCheck m ⟨z, y⟩ v = _ := fun z => addYCheck_eq hv (o := ⟨z, y⟩) hy
  cases hb : upRow k.isEven y <;> cases d <;>
    simp only [qLewStep, ax, we, ww, ay, bind, Except.bind, Offset.subX, Offset.subY] <;>
    refine ⟨_, rfl, fun t => ?_⟩ <;> obtain ⟨tx, ty⟩ := t <;>
    (repeat' split) <;>
    simp only [reduceCtorEq, false_iff, Option.some.injEq, Offset.mk.injEq, true_and, Bool.false_eq_true, false_and, or_false] <;>
    omega

section
variable {m : Machine} {k : Marker} {h v : Nat} {c : Offset} {d : AxisDQ}

theorem c33_move_iff (hh : h < 2 * m.half) (hv : v < 2 * m.half) (hx : c.horizontal < h) (hy : c.vertical < v) {t : Offset} :
    (hexOffQLew m k h v).moveCoord c d = .ok (some t) ↔
      t.horizontal < h ∧ t.vertical < v ∧
      ((t.horizontal : Int) = c.horizontal + (qLewStep d (upRow k.isEven c.vertical)).1.1 ∨
        (qLewStep d (upRow k.isEven c.vertical)).2 = true ∧
        ((t.horizontal : Int) + h = c.horizontal + (qLewStep d (upRow k.isEven c.vertical)).1.1 ∨
         (t.horizontal : Int) - h = c.horizontal + (qLewStep d (upRow k.isEven c.vertical)).1.1)) ∧
      (t.vertical : Int) = c.vertical + (qLewStep d (upRow k.isEven c.vertical)).1.2 := by
  obtain ⟨r, h1, h2⟩ := c33_exact m k h v hh hv c d hx hy
  rw [h1, ← h2 t, Except.ok.injEq]

/-- **C33**, the part that holds everywhere: a move that succeeds returns a node. -/
theorem c33_stays_partial (hh : h < 2 * m.half) (hv : v < 2 * m.half) (hx : c.horizontal < h) (hy : c.vertical < v)
    {t : Offset} (ht : (hexOffQLew m k h v).moveCoord c d = .ok (some t)) : t.horizontal < h ∧ t.vertical < v := by
  rw [c33_move_iff hh hv hx hy] at ht
  exact ⟨ht.1, ht.2.1⟩

/-- **C33** fails everywhere: north and south always succeed and never change the vertical position. -/
theorem c33_north_south_wrong (hh : h < 2 * m.half) (hv : v < 2 * m.half) (hx : c.horizontal < h) (hy : c.vertical < v) :
    ∃ t u, (hexOffQLew m k h v).moveCoord c .N = .ok (some t) ∧ t.vertical = c.vertical ∧
      (hexOffQLew m k h v).moveCoord c .S = .ok (some u) ∧ u.vertical = c.vertical := by
  refine ⟨⟨if c.horizontal + 1 < h then c.horizontal + 1 else 0, c.vertical⟩,
    ⟨if 1 ≤ c.horizontal then c.horizontal - 1 else h - 1, c.vertical⟩, ?_, rfl, ?_, rfl⟩
  · rw [c33_move_iff hh hv hx hy]
    simp only [qLewStep, true_and]
    split <;> omega
  · rw [c33_move_iff hh hv hx hy]
    simp only [qLewStep, true_and]
    split <;> omega

/-- **C33**, which moves come back. -/
theorem c33_back_partial (hh : h < 2 * m.half) (hv : v < 2 * m.half) (hx : c.horizontal < h) (hy : c.vertical < v)
    {t : Offset} (ht : (hexOffQLew m k h v).moveCoord c d = .ok (some t))
    (hr : Returns k.isEven c.vertical d) : (hexOffQLew m k h v).moveCoord t d.backward = .ok (some c) := by
  rw [c33_move_iff hh hv hx hy] at ht
  obtain ⟨h1, h2, h3, h4⟩ := ht
  rw [c33_move_iff hh hv h1 h2]
  obtain ⟨x, y⟩ := c
  obtain ⟨tx, ty⟩ := t
  simp only at *
  cases d <;> simp only [Returns] at hr <;> try rw [hr] at h3 h4
  all_goals simp only [qLewStep, AxisDQ.backward, true_and] at *
  · omega
  · have : ty = y + 1 := by omega
    subst this
    rw [upRow_succ, hr]
    simp only [Bool.not_false, true_and]; omega
  · have : y = ty + 1 := by omega
    subst this
    rw [upRow_succ, Bool.not_eq_false'] at hr
    rw [hr]
    simp only [true_and]; omega
  · omega
  · have : y = ty + 1 := by omega
    subst this
    rw [upRow_succ, Bool.not_eq_true'] at hr
    rw [hr]
    simp only [true_and]; omega
  · have : ty = y + 1 := by omega
    subst this
    rw [upRow_succ, hr]
    simp only [Bool.not_true, true_and]; omega

/-- **C33** fails: in all other cases the opposite move does not come back. -/
theorem c33_back_wrong (hh : h < 2 * m.half) (hv : v < 2 * m.half) (hx : c.horizontal < h) (hy : c.vertical < v)
    {t : Offset} (ht : (hexOffQLew m k h v).moveCoord c d = .ok (some t))
    (hr : ¬ Returns k.isEven c.vertical d) : (hexOffQLew m k h v).moveCoord t d.backward ≠ .ok (some c) := by
  rw [c33_move_iff hh hv hx hy] at ht
  obtain ⟨h1, h2, h3, h4⟩ := ht
  obtain ⟨x, y⟩ := c
  obtain ⟨tx, ty⟩ := t
  simp only at *
  have key : ty = y := by
    cases d <;> simp only [Returns, not_true_eq_false] at hr <;> simp at hr <;> rw [hr] at h4 <;> simp only [qLewStep] at h4 <;> omega
  subst key
  rw [Ne, c33_move_iff hh hv h1 h2]
  cases d <;> simp only [Returns, not_true_eq_false] at hr <;> simp at hr <;> rw [hr] <;> simp only [qLewStep, AxisDQ.backward] <;>
    omega

end

example : (hexOffQLew m64 evenQ 4 4).moveCoord ⟨3, 1⟩ .NE = .ok (some ⟨0, 2⟩) ∧
    (hexOffQLew m64 evenQ 4 4).moveCoord ⟨0, 2⟩ .SW = .ok (some ⟨3, 1⟩) := ⟨rfl, rfl⟩

/-! ### C35 -/

/-- The flat-top layout of the module documentation: columns `0 ≤ r < h`, sheared vertically. -/
def InFlat (even : Bool) (h v : Nat) (c : Axial) : Prop :=
  0 ≤ c.r ∧ c.r < h ∧ 0 ≤ c.q + shear even c.r ∧ c.q + shear even c.r < v

/-- **C35** fails: the code lays out `OddQ`/`EvenQ` maps exactly like `OddR`/`EvenR` maps. -/
theorem c35_layout_wrong (m : Machine) (h v : Nat) (hh : h < m.half) (hv : v < m.half) (c : Axial) :
    ((∃ o, (hexAxQ m (isizeTy m) oddQ h v).toOffset c = .ok (some o)) ↔ InAxial false h v c) ∧
    ((∃ o, (hexAxQ m (isizeTy m) evenQ h v).toOffset c = .ok (some o)) ↔ InAxial true h v c) := by
  have := c27_hex_axial m h v hh hv
  exact ⟨(this.2.2.1.nodes c).symm, (this.2.2.2.nodes c).symm⟩

/-- **C35** fails: every map of at least three columns and three rows has a documented coordinate that is not a node, and conversely a
node that is not documented (see `c35_exact` for the smaller maps). -/
theorem c35_violated (m : Machine) (h v : Nat) (hh : h < m.half) (hv : v < m.half) (h3 : 3 ≤ h) (v3 : 3 ≤ v) :
    InFlat false h v ⟨2, -1⟩ ∧ (¬ ∃ o, (hexAxQ m (isizeTy m) oddQ h v).toOffset ⟨2, -1⟩ = .ok (some o)) ∧
    InFlat true h v ⟨2, -1⟩ ∧ (¬ ∃ o, (hexAxQ m (isizeTy m) evenQ h v).toOffset ⟨2, -1⟩ = .ok (some o)) ∧
    (∃ o, (hexAxQ m (isizeTy m) oddQ h v).toOffset ⟨-1, 2⟩ = .ok (some o)) ∧ ¬ InFlat false h v ⟨-1, 2⟩ ∧
    (∃ o, (hexAxQ m (isizeTy m) evenQ h v).toOffset ⟨-1, 2⟩ = .ok (some o)) ∧ ¬ InFlat true h v ⟨-1, 2⟩ := by
  have h1 := c35_layout_wrong m h v hh hv ⟨2, -1⟩
  have h2 := c35_layout_wrong m h v hh hv ⟨-1, 2⟩
  rw [h1.1, h1.2, h2.1, h2.2]
  simp only [InFlat, InAxial, shear, Bool.false_eq_true, if_false, if_true]
  omega

/-- **C35**, exactly when it holds: the documented coordinates are the nodes only on maps none of whose rows and columns is sheared. -/
theorem c35_exact (m : Machine) (h v : Nat) (hh : h < m.half) (hv : v < m.half) :
    ((∀ c, (∃ o, (hexAxQ m (isizeTy m) oddQ h v).toOffset c = .ok (some o)) ↔ InFlat false h v c) ↔ h = 0 ∨ v = 0 ∨ h ≤ 2 ∧ v ≤ 2) ∧
    ((∀ c, (∃ o, (hexAxQ m (isizeTy m) evenQ h v).toOffset c = .ok (some o)) ↔ InFlat true h v c) ↔ h = 0 ∨ v = 0 ∨ h ≤ 1 ∧ v ≤ 1) := by
  have hl := c35_layout_wrong m h v hh hv
  constructor
  · constructor
    · intro H
      have h1 := (hl ⟨2, -1⟩).1.symm.trans (H ⟨2, -1⟩)
      have h2 := (hl ⟨-1, 2⟩).1.symm.trans (H ⟨-1, 2⟩)
      simp only [InFlat, InAxial, shear, Bool.false_eq_true, if_false] at h1 h2
      omega
    · intro H c
      rw [(hl c).1]
      simp only [InFlat, InAxial, shear, Bool.false_eq_true, if_false]
      omega
  · constructor
    · intro H
      have h1 := (hl ⟨1, -1⟩).2.symm.trans (H ⟨1, -1⟩)
      have h2 := (hl ⟨-1, 1⟩).2.symm.trans (H ⟨-1, 1⟩)
      simp only [InFlat, InAxial, shear, if_true] at h1 h2
      omega
    · intro H c
      rw [(hl c).2]
      simp only [InFlat, InAxial, shear, if_true]
      omega

/-- **C35**, what is left: the documented and the actual nodes agree on the coordinates that lie in both layouts, and there the
documented column and row are `r` and `q + shear r`, while the code stores them at `(r + shear q, q)`. -/
theorem c35_common_partial (m : Machine) (h v : Nat) (hh : h < m.half) (hv : v < m.half) (c : Axial) (hf : InFlat false h v c) :
    (∃ o, (hexAxQ m (isizeTy m) oddQ h v).toOffset c = .ok (some o)) ↔
      0 ≤ c.q ∧ c.q < v ∧ c.r + shear false c.q < h := by
  rw [(c35_layout_wrong m h v hh hv c).1]
  unfold InFlat at hf
  unfold InAxial
  have h0 : 0 ≤ c.q → 0 ≤ shear false c.q := fun hq => (axShift_bounds false hq).1
  constructor
  · intro h1; omega
  · intro h1; have := h0 h1.1; omega

example : InFlat false 5 5 ⟨2, 1⟩ ∧ InAxial false 5 5 ⟨2, 1⟩ := by unfold InFlat; decide

/-! Instances of the theorems of this file. -/

/-- C32 on the 3 × 3 map with base `OddQ`. -/
example : ∃ r, (hexOffQ m64 oddQ 3 3).moveCoord ⟨0, 1⟩ .SW = .ok r ∧ ∀ t, r ≠ some t := by
  obtain ⟨r, h1, h2⟩ := c32_exact m64 oddQ 3 3 (by decide) (by decide) ⟨0, 1⟩ .SW (by decide) (by decide)
  exact ⟨r, h1, fun t h => by have := ((h2 t).1 h).1; simp [qStep, upRow, oddQ] at this⟩
example : (hexOffQ m64 oddQ 3 3).moveCoord ⟨0, 0⟩ .NE = .ok (some ⟨1, 1⟩) :=
  (c32_move_iff (m := m64) (k := oddQ) (h := 3) (v := 3) (by decide) (by decide) (c := ⟨0, 0⟩) (by decide) (by decide)).2 (by decide)
example : (⟨1, 1⟩ : Offset).horizontal < 3 ∧ (⟨1, 1⟩ : Offset).vertical < 3 :=
  c32_stays_partial (m := m64) (k := oddQ) (h := 3) (v := 3) (c := ⟨0, 0⟩) (d := .NE) (by decide) (by decide) (by decide) (by decide)
    (.inr (.inr (by decide))) rfl
example : (hexOffQ m64 oddQ 3 3).moveCoord ⟨0, 2⟩ .NE = .ok (some ⟨1, 3⟩) ∧ (hexOffQ m64 oddQ 3 3).toOffset ⟨1, 3⟩ = .ok none :=
  (c32_leaves_graph (m := m64) (k := oddQ) (h := 3) (v := 3) (by decide) (by decide) 0 (by decide) (by decide) rfl).2
example : (hexOffQ m64 oddQ 3 3).moveCoord ⟨1, 1⟩ .SW = .ok (some ⟨0, 0⟩) :=
  c32_back_partial (m := m64) (k := oddQ) (h := 3) (v := 3) (c := ⟨0, 0⟩) (d := .NE) (by decide) (by decide) (by decide) (by decide)
    (t := ⟨1, 1⟩) rfl (by decide) rfl
example : (hexOffQ m64 oddQ 3 3).moveCoord ⟨1, 1⟩ .SW ≠ .ok (some ⟨0, 1⟩) :=
  (c32_back_wrong (m := m64) (k := oddQ) (h := 3) (v := 3) (c := ⟨0, 1⟩) (d := .NE) (by decide) (by decide) (by decide) (by decide)
    (t := ⟨1, 1⟩) rfl (by simp [Returns, upRow, oddQ])).2
example : ∃ d, (hexOffQ m64 evenQ 2 1).moveCoord ⟨0, 0⟩ d = .ok (some ⟨1, 0⟩) ∧ (hexOffQ m64 evenQ 2 1).moveCoord ⟨1, 0⟩ d.backward ≠ .ok (some ⟨0, 0⟩) :=
  c32_violated m64 evenQ 2 1 (by decide) (by decide) (by decide) (by decide)
example : (⟨0, 1⟩ : Offset).horizontal + 1 = (⟨1, 1⟩ : Offset).horizontal :=
  (c32_east_west (m := m64) (k := oddQ) (h := 3) (v := 3) (c := ⟨1, 1⟩) (by decide) (by decide) (by decide) (by decide) (t := ⟨0, 1⟩)).1 rfl

/-- C33 on the 4 × 4 map with base `EvenQ`: a wrapping step. -/
example : ∃ r, (hexOffQLew m64 evenQ 4 4).moveCoord ⟨3, 1⟩ .NE = .ok r ∧ r = some ⟨0, 2⟩ := by
  obtain ⟨r, h1, h2⟩ := c33_exact m64 evenQ 4 4 (by decide) (by decide) ⟨3, 1⟩ .NE (by decide) (by decide)
  exact ⟨r, h1, (h2 _).2 (by decide)⟩
example : (hexOffQLew m64 evenQ 4 4).moveCoord ⟨0, 0⟩ .S = .ok (some ⟨3, 0⟩) :=
  (c33_move_iff (m := m64) (k := evenQ) (h := 4) (v := 4) (by decide) (by decide) (c := ⟨0, 0⟩) (by decide) (by decide)).2 (by decide)
example : (⟨0, 2⟩ : Offset).horizontal < 4 ∧ (⟨0, 2⟩ : Offset).vertical < 4 :=
  c33_stays_partial (m := m64) (k := evenQ) (h := 4) (v := 4) (c := ⟨3, 1⟩) (d := .NE) (by decide) (by decide) (by decide) (by decide) rfl
example : ∃ t u, (hexOffQLew m64 evenQ 4 4).moveCoord ⟨1, 1⟩ .N = .ok (some t) ∧ t.vertical = 1 ∧
    (hexOffQLew m64 evenQ 4 4).moveCoord ⟨1, 1⟩ .S = .ok (some u) ∧ u.vertical = 1 :=
  c33_north_south_wrong (by decide) (by decide) (by decide) (by decide)
example : (hexOffQLew m64 evenQ 4 4).moveCoord ⟨0, 2⟩ .SW = .ok (some ⟨3, 1⟩) :=
  c33_back_partial (m := m64) (k := evenQ) (h := 4) (v := 4) (c := ⟨3, 1⟩) (d := .NE) (by decide) (by decide) (by decide) (by decide) rfl rfl
example : (hexOffQLew m64 evenQ 4 4).moveCoord ⟨1, 0⟩ .SW ≠ .ok (some ⟨0, 0⟩) :=
  c33_back_wrong (m := m64) (k := evenQ) (h := 4) (v := 4) (c := ⟨0, 0⟩) (d := .NE) (by decide) (by decide) (by decide) (by decide)
    (t := ⟨1, 0⟩) rfl (by simp [Returns, upRow, evenQ])

/-- C35 on 3 × 3 and 5 × 5 maps. -/
example : ∃ o, (hexAxQ m64 (isizeTy m64) oddQ 5 5).toOffset ⟨-2, 4⟩ = .ok (some o) :=
  ((c35_layout_wrong m64 5 5 (by decide) (by decide) ⟨-2, 4⟩).1).2 (by decide)
example : ¬ ∃ o, (hexAxQ m64 (isizeTy m64) oddQ 3 3).toOffset ⟨2, -1⟩ = .ok (some o) :=
  (c35_violated m64 3 3 (by decide) (by decide) (by decide) (by decide)).2.1
example : ¬ ∀ c, (∃ o, (hexAxQ m64 (isizeTy m64) evenQ 2 1).toOffset c = .ok (some o)) ↔ InFlat true 2 1 c :=
  fun h => absurd ((c35_exact m64 2 1 (by decide) (by decide)).2.1 h) (by decide)
example : ∃ o, (hexAxQ m64 (isizeTy m64) oddQ 5 5).toOffset ⟨2, 1⟩ = .ok (some o) :=
  (c35_common_partial m64 5 5 (by decide) (by decide) ⟨2, 1⟩ (by unfold InFlat; decide)).2 (by decide)

end LG
