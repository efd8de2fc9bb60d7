import Verif.Props.Double
import Verif.Props.Axes
/- C61: the public moves of `DoubleCoordShapeBase`, with bounds on the doubled coordinates. -/
set_option linter.unusedSectionVars false
namespace LG

/-- `r` is the coordinate `v` away from `c` if that is inside the `w × h` rectangle of doubled coordinates, else nothing. -/
def DMove (w h : Nat) (c : DCoord) (v : Int × Int) (r : Option DCoord) : Prop :=
  ∀ t, r = some t ↔ (t.h < w ∧ t.v < h) ∧ (t.h : Int) = c.h + v.1 ∧ (t.v : Int) = c.v + v.2

theorem dAddH_eq {m : Machine} {c : DCoord} {n w : Nat} (hn : c.h + n < 2 * m.half) :
    dAddH m c n w = .ok (if w ≤ c.h + n then none else some ⟨c.h + n, c.v⟩) := by
  unfold dAddH
  rw [uadd_ok hn]
  simp only [bind, Except.bind]
  split <;> rfl

theorem dAddV_eq {m : Machine} {c : DCoord} {n w : Nat} (hn : c.v + n < 2 * m.half) :
    dAddV m c n w = .ok (if w ≤ c.v + n then none else some ⟨c.h, c.v + n⟩) := by
  unfold dAddV
  rw [uadd_ok hn]
  simp only [bind, Except.bind]
  split <;> rfl

/-- Evaluate one move, given which bounds are hit. -/
local macro "dmove" : tactic => `(tactic| (
  simp_all only [dblMoveR, dblMoveQ, dSubH, dSubV, bind, Except.bind, ite_true, ite_false, Option.bind_some, Option.bind_none]
  refine ⟨_, rfl, fun ⟨tx, ty⟩ => ?_⟩
  simp only [AxisDR.vec, AxisDQ.vec, reduceCtorEq, false_iff, Option.some.injEq, DCoord.mk.injEq]
  omega))

/-- **C61**, point-top. For every pair of bounds (widths up to `usize::MAX - 1`) and every coordinate within them. -/
theorem c61_point_top (m : Machine) {w h : Nat} (hw : w + 1 < 2 * m.half) (hh : h < 2 * m.half) {c : DCoord} (hx : c.h < w)
    (hy : c.v < h) (d : AxisDR) : ∃ r, dblMoveR m c d w h = .ok r ∧ DMove w h c d.vec r := by
  obtain ⟨x, y⟩ := c
  simp only at hx hy
  unfold DMove
  have e1 : dAddH m ⟨x, y⟩ 1 w = .ok (if w ≤ x + 1 then none else some ⟨x + 1, y⟩) := dAddH_eq (by simp only; omega)
  have e2 : dAddH m ⟨x, y⟩ 2 w = .ok (if w ≤ x + 2 then none else some ⟨x + 2, y⟩) := dAddH_eq (by simp only; omega)
  have e3 : ∀ z, dAddV m ⟨z, y⟩ 1 h = .ok (if h ≤ y + 1 then none else some ⟨z, y + 1⟩) :=
    fun z => dAddV_eq (by simp only; omega)
  cases d
  · by_cases h1 : w ≤ x + 1
    · dmove
    · by_cases h2 : h ≤ y + 1 <;> dmove
  · by_cases h1 : w ≤ x + 2 <;> dmove
  · by_cases h1 : w ≤ x + 1
    · dmove
    · by_cases h2 : 1 ≤ y <;> dmove
  · by_cases h1 : 1 ≤ x
    · by_cases h2 : 1 ≤ y <;> dmove
    · dmove
  · by_cases h1 : 2 ≤ x <;> dmove
  · by_cases h1 : 1 ≤ x
    · by_cases h2 : h ≤ y + 1 <;> dmove
    · dmove

/-- **C61**, flat-top. -/
theorem c61_flat_top (m : Machine) {w h : Nat} (hw : w < 2 * m.half) (hh : h + 1 < 2 * m.half) {c : DCoord} (hx : c.h < w)
    (hy : c.v < h) (d : AxisDQ) : ∃ r, dblMoveQ m c d w h = .ok r ∧ DMove w h c d.vec r := by
  obtain ⟨x, y⟩ := c
  simp only at hx hy
  unfold DMove
  have e1 : dAddH m ⟨x, y⟩ 1 w = .ok (if w ≤ x + 1 then none else some ⟨x + 1, y⟩) := dAddH_eq (by simp only; omega)
  have e2 : dAddV m ⟨x, y⟩ 2 h = .ok (if h ≤ y + 2 then none else some ⟨x, y + 2⟩) := dAddV_eq (by simp only; omega)
  have e3 : ∀ z, dAddV m ⟨z, y⟩ 1 h = .ok (if h ≤ y + 1 then none else some ⟨z, y + 1⟩) :=
    fun z => dAddV_eq (by simp only; omega)
  cases d
  · by_cases h1 : h ≤ y + 2 <;> dmove
  · by_cases h1 : w ≤ x + 1
    · dmove
    · by_cases h2 : h ≤ y + 1 <;> dmove
  · by_cases h1 : w ≤ x + 1
    · dmove
    · by_cases h2 : 1 ≤ y <;> dmove
  · by_cases h1 : 2 ≤ y <;> dmove
  · by_cases h1 : 1 ≤ x
    · by_cases h2 : 1 ≤ y <;> dmove
    · dmove
  · by_cases h1 : 1 ≤ x
    · by_cases h2 : h ≤ y + 1 <;> dmove
    · dmove

/-- **C61.** Opposite directions undo each other, and a move keeps to one class of `h + v` modulo 2 (so the coordinates
reachable from the origin are one hexagon grid). -/
theorem c61_flat_top_back (m : Machine) {w h : Nat} (hw : w < 2 * m.half) (hh : h + 1 < 2 * m.half) {c t : DCoord}
    (hx : c.h < w) (hy : c.v < h) {d : AxisDQ} (ht : dblMoveQ m c d w h = .ok (some t)) :
    dblMoveQ m t d.rev w h = .ok (some c) ∧ (t.h + t.v) % 2 = (c.h + c.v) % 2 := by
  obtain ⟨r, h1, h2⟩ := c61_flat_top m hw hh hx hy d
  rw [ht] at h1
  cases h1
  have h3 := (h2 t).1 rfl
  obtain ⟨r', h4, h5⟩ := c61_flat_top m hw hh h3.1.1 h3.1.2 d.rev
  rw [h4, (h5 c).2 ?_]
  · refine ⟨rfl, ?_⟩
    cases d <;> simp only [AxisDQ.vec] at h3 <;> omega
  · refine ⟨⟨hx, hy⟩, ?_⟩
    cases d <;> simp only [AxisDQ.vec, AxisDQ.rev] at h3 ⊢ <;> omega

theorem c61_point_top_back (m : Machine) {w h : Nat} (hw : w + 1 < 2 * m.half) (hh : h < 2 * m.half) {c t : DCoord}
    (hx : c.h < w) (hy : c.v < h) {d : AxisDR} (ht : dblMoveR m c d w h = .ok (some t)) :
    dblMoveR m t d.rev w h = .ok (some c) ∧ (t.h + t.v) % 2 = (c.h + c.v) % 2 := by
  obtain ⟨r, h1, h2⟩ := c61_point_top m hw hh hx hy d
  rw [ht] at h1
  cases h1
  have h3 := (h2 t).1 rfl
  obtain ⟨r', h4, h5⟩ := c61_point_top m hw hh h3.1.1 h3.1.2 d.rev
  rw [h4, (h5 c).2 ?_]
  · refine ⟨rfl, ?_⟩
    cases d <;> simp only [AxisDR.vec] at h3 <;> omega
  · refine ⟨⟨hx, hy⟩, ?_⟩
    cases d <;> simp only [AxisDR.vec, AxisDR.rev] at h3 ⊢ <;> omega

/-- **C61.** With the bound `2h` on the doubled coordinate - what `DoubleCoordShape` should pass - the moves of the point-top
shape would be right: success iff the displaced coordinate is a node. -/
theorem c61_fix (m : Machine) (h v : Nat) (hh : h < m.half - 1) (hv : v < m.half) (c t : DCoord) (hc : InDouble h v c)
    (d : AxisDR) : dblMoveR m c d (2 * h) v = .ok (some t) ↔ DStep c d t ∧ InDouble h v t := by
  have hm := m.half_ge
  unfold InDouble at hc
  obtain ⟨r, h1, h2⟩ := c61_point_top m (w := 2 * h) (h := v) (by omega) (by omega) (c := c) (by omega) hc.1 d
  rw [h1, Except.ok.injEq, h2]
  unfold DStep InDouble
  cases d <;> simp only [AxisDR.vec] <;> omega

/-- A move that succeeds, one stopped by each bound. -/
example : dblMoveQ m64 ⟨3, 1⟩ .N 4 4 = .ok (some ⟨3, 3⟩) ∧ dblMoveQ m64 ⟨3, 3⟩ .N 4 4 = .ok none ∧
    dblMoveQ m64 ⟨3, 1⟩ .NE 4 4 = .ok none ∧ dblMoveQ m64 ⟨3, 1⟩ .SW 4 4 = .ok (some ⟨2, 0⟩) := ⟨rfl, rfl, rfl, rfl⟩

/-- Why `usize::MAX` is excepted: there the addition overflows (a panic in debug builds). -/
example : dblMoveQ m16 ⟨0, 65534⟩ .N 1 65535 = .error .panic := rfl

/-! Instances of the theorems above. -/

example : ∃ r, dblMoveR m64 ⟨3, 1⟩ .NE 8 4 = .ok r ∧ r = some ⟨4, 2⟩ := by
  obtain ⟨r, h1, h2⟩ := c61_point_top m64 (w := 8) (h := 4) (by decide) (by decide) (c := ⟨3, 1⟩) (by decide) (by decide) .NE
  exact ⟨r, h1, (h2 _).2 (by decide)⟩
example : ∃ r, dblMoveQ m64 ⟨3, 1⟩ .N 4 4 = .ok r ∧ r = some ⟨3, 3⟩ := by
  obtain ⟨r, h1, h2⟩ := c61_flat_top m64 (w := 4) (h := 4) (by decide) (by decide) (c := ⟨3, 1⟩) (by decide) (by decide) .N
  exact ⟨r, h1, (h2 _).2 (by decide)⟩
example : dblMoveQ m64 ⟨3, 3⟩ .S 4 4 = .ok (some ⟨3, 1⟩) :=
  (c61_flat_top_back m64 (w := 4) (h := 4) (by decide) (by decide) (c := ⟨3, 1⟩) (t := ⟨3, 3⟩) (by decide) (by decide) (d := .N) rfl).1
example : dblMoveR m64 ⟨4, 2⟩ .SW 8 4 = .ok (some ⟨3, 1⟩) :=
  (c61_point_top_back m64 (w := 8) (h := 4) (by decide) (by decide) (c := ⟨3, 1⟩) (t := ⟨4, 2⟩) (by decide) (by decide) (d := .NE) rfl).1
/-- the step that C34 misses -/
example : dblMoveR m64 ⟨4, 2⟩ .E (2 * 5) 5 = .ok (some ⟨6, 2⟩) :=
  (c61_fix m64 5 5 (by decide) (by decide) ⟨4, 2⟩ ⟨6, 2⟩ (by decide) .E).2 ⟨by unfold DStep; decide, by decide⟩

end LG
