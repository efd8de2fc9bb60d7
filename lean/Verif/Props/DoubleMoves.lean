import Verif.Model.DoubleCoord
import Verif.Props.Geometry
/- C34: the double-coordinate hexagonal shape. The moves compare the doubled horizontal coordinate with the undoubled width, so
eastward moves stop half way across the map; the property is refuted and what the code does is characterised. -/
set_option linter.unusedSectionVars false
namespace LG

/-- The nodes of the `h × v` map: rows `0..v`, in each row the coordinates of the row's parity below `2h`. -/
def InDouble (h v : Nat) (c : DCoord) : Prop := c.v < v ∧ c.h % 2 = c.v % 2 ∧ c.h / 2 < h

instance (h v : Nat) (c : DCoord) : Decidable (InDouble h v c) := by unfold InDouble; infer_instance

/-- The coordinate of `c` displaced by one step in direction `d`. -/
def DStep (c : DCoord) (d : AxisDR) (t : DCoord) : Prop := (t.h : Int) = c.h + d.vec.1 ∧ (t.v : Int) = c.v + d.vec.2

/-- The westward directions. -/
def AxisDR.west : AxisDR → Bool
  | .SW | .W | .NW => true
  | _ => false

/-- **C34**, exactly what a move from a node (or from any coordinate in range, whatever its parity) does: no horizontal check to the west, and to the east a check of the doubled
coordinate against the undoubled width. -/
theorem c34_exact (m : Machine) (h v : Nat) (hh : h < m.half) (hv : v < m.half) (c : DCoord) (hc : c.v < v ∧ c.h / 2 < h) (d : AxisDR) :
    ∃ r, (dblShape m h v).moveCoord c d = .ok r ∧ ∀ t, r = some t ↔ DStep c d t ∧ t.v < v ∧ (t.h < h ∨ d.west = true) := by
  obtain ⟨x, y⟩ := c
  simp only at hc
  have hm := m.half_ge
  show ∃ r, dblMoveR m _ d h v = .ok r ∧ _
  have e1 : uadd m x 1 = .ok (x + 1) := uadd_ok (by omega)
  have e2 : uadd m x 2 = .ok (x + 2) := uadd_ok (by omega)
  have e3 : uadd m y 1 = .ok (y + 1) := uadd_ok (by omega)
  cases d <;> simp only [dblMoveR, dAddH, dAddV, dSubH, dSubV, e1, e2, bind, Except.bind, DStep, AxisDR.vec, AxisDR.west,
    Bool.false_eq_true, or_false, or_true, and_true]
  · by_cases hx : h ≤ x + 1
    · simp only [hx, if_true]
      refine ⟨_, rfl, fun t => ?_⟩
      simp only [reduceCtorEq, false_iff]; omega
    · simp only [hx, if_false, e3]
      by_cases hy : v ≤ y + 1
      · simp only [hy, if_true]
        exact ⟨_, rfl, fun t => by simp only [reduceCtorEq, false_iff]; omega⟩
      · simp only [hy, if_false]
        exact ⟨_, rfl, fun ⟨tx, ty⟩ => by simp only [Option.some.injEq, DCoord.mk.injEq]; omega⟩
  · by_cases hx : h ≤ x + 2
    · simp only [hx, if_true]
      exact ⟨_, rfl, fun t => by simp only [reduceCtorEq, false_iff]; omega⟩
    · simp only [hx, if_false]
      exact ⟨_, rfl, fun ⟨tx, ty⟩ => by simp only [Option.some.injEq, DCoord.mk.injEq]; omega⟩
  · by_cases hx : h ≤ x + 1
    · simp only [hx, if_true]
      exact ⟨_, rfl, fun t => by simp only [reduceCtorEq, false_iff]; omega⟩
    · simp only [hx, if_false]
      refine ⟨_, rfl, fun ⟨tx, ty⟩ => ?_⟩
      split <;> simp only [reduceCtorEq, false_iff, Option.some.injEq, DCoord.mk.injEq] <;> omega
  · refine ⟨_, rfl, fun ⟨tx, ty⟩ => ?_⟩
    by_cases hx : 1 ≤ x
    · simp only [hx, if_true, Option.bind_some]
      split <;> simp only [reduceCtorEq, false_iff, Option.some.injEq, DCoord.mk.injEq] <;> omega
    · simp only [hx, if_false, Option.bind_none, reduceCtorEq, false_iff]; omega
  · refine ⟨_, rfl, fun ⟨tx, ty⟩ => ?_⟩
    split <;> simp only [reduceCtorEq, false_iff, Option.some.injEq, DCoord.mk.injEq] <;> omega
  · by_cases hx : 1 ≤ x
    · simp only [hx, if_true, e3]
      by_cases hy : v ≤ y + 1
      · simp only [hy, if_true]
        exact ⟨_, rfl, fun t => by simp only [reduceCtorEq, false_iff]; omega⟩
      · simp only [hy, if_false]
        exact ⟨_, rfl, fun ⟨tx, ty⟩ => by simp only [Option.some.injEq, DCoord.mk.injEq]; omega⟩
    · simp only [hx, if_false]
      exact ⟨_, rfl, fun t => by simp only [reduceCtorEq, false_iff]; omega⟩

/-- A displaced node keeps the parity of its row. -/
theorem DStep.parity {h v : Nat} {c t : DCoord} {d : AxisDR} (hs : DStep c d t) (hc : InDouble h v c) : t.h % 2 = t.v % 2 := by
  unfold DStep at hs
  unfold InDouble at hc
  cases d <;> simp only [AxisDR.vec] at hs <;> omega

/-- **C34** (moves), for westward moves and for targets in the western half. The full claim is without the hypothesis `hp`; it
fails for every other target, see `c34_missing`. -/
theorem c34_move_partial (m : Machine) (h v : Nat) (hh : h < m.half) (hv : v < m.half) (c : DCoord) (hc : InDouble h v c)
    (d : AxisDR) (t : DCoord) (hp : d.west = true ∨ t.h < h) :
    (dblShape m h v).moveCoord c d = .ok (some t) ↔ DStep c d t ∧ InDouble h v t := by
  obtain ⟨r, h1, h2⟩ := c34_exact m h v hh hv c ⟨hc.1, hc.2.2⟩ d
  rw [h1]
  simp only [Except.ok.injEq]
  rw [h2]
  have key : DStep c d t → t.v < v → InDouble h v t := by
    intro hs hv
    refine ⟨hv, hs.parity hc, ?_⟩
    rcases hp with hp | hp
    · unfold DStep at hs; unfold InDouble at hc
      cases d <;> simp only [AxisDR.vec, AxisDR.west, Bool.false_eq_true] at hs hp <;> omega
    · omega
  constructor
  · rintro ⟨hs, hv, _⟩; exact ⟨hs, key hs hv⟩
  · rintro ⟨hs, hn⟩; exact ⟨hs, hn.1, hp.symm⟩

/-- **C34** (moves): successful moves do lead to nodes. -/
theorem c34_move_node (m : Machine) (h v : Nat) (hh : h < m.half) (hv : v < m.half) (c : DCoord) (hc : InDouble h v c)
    (d : AxisDR) (t : DCoord) (ht : (dblShape m h v).moveCoord c d = .ok (some t)) : DStep c d t ∧ InDouble h v t := by
  have hp : d.west = true ∨ t.h < h := by
    obtain ⟨r, h1, h2⟩ := c34_exact m h v hh hv c ⟨hc.1, hc.2.2⟩ d
    rw [h1] at ht
    exact ((h2 t).1 (Except.ok.inj ht)).2.2.symm
  exact (c34_move_partial m h v hh hv c hc d t hp).1 ht

/-- **C34** fails: any eastward move to a node in the eastern half is refused. -/
theorem c34_missing (m : Machine) (h v : Nat) (hh : h < m.half) (hv : v < m.half) (c : DCoord) (hc : InDouble h v c)
    (d : AxisDR) (t : DCoord) (hd : d.west = false) (ht : DStep c d t ∧ InDouble h v t) (hfar : h ≤ t.h) :
    (dblShape m h v).moveCoord c d = .ok none ∧ (dblShape m h v).moveCoord t d.rev = .ok (some c) := by
  constructor
  · obtain ⟨r, h1, h2⟩ := c34_exact m h v hh hv c ⟨hc.1, hc.2.2⟩ d
    rw [h1]
    cases r with
    | none => rfl
    | some t' =>
      obtain ⟨⟨a, b⟩, _, h3⟩ := (h2 t').1 rfl
      have := ht.1.1
      rw [hd] at h3
      simp only [Bool.false_eq_true, or_false] at h3
      omega
  · rw [c34_move_partial m h v hh hv t ht.2 d.rev c (.inl (by cases d <;> simp_all [AxisDR.west, AxisDR.rev]))]
    refine ⟨?_, hc⟩
    have := ht.1
    unfold DStep at this ⊢
    cases d <;> simp only [AxisDR.vec, AxisDR.rev] at this ⊢ <;> omega

/-- **C34** is violated on every map with at least two columns. -/
theorem c34_violated (m : Machine) (h v : Nat) (hh : h < m.half) (hv : v < m.half) (h2 : 2 ≤ h) (v1 : 1 ≤ v) :
    InDouble h v ⟨2 * (h - 2), 0⟩ ∧ InDouble h v ⟨2 * (h - 1), 0⟩ ∧ DStep ⟨2 * (h - 2), 0⟩ .E ⟨2 * (h - 1), 0⟩ ∧
    (dblShape m h v).moveCoord ⟨2 * (h - 2), 0⟩ .E = .ok none := by
  have a : InDouble h v ⟨2 * (h - 2), 0⟩ := by unfold InDouble; simp only; omega
  have b : InDouble h v ⟨2 * (h - 1), 0⟩ := by unfold InDouble; simp only; omega
  have c : DStep ⟨2 * (h - 2), 0⟩ .E ⟨2 * (h - 1), 0⟩ := by unfold DStep; simp only [AxisDR.vec]; omega
  exact ⟨a, b, c, (c34_missing m h v hh hv _ a .E _ rfl ⟨c, b⟩ (by simp only; omega)).1⟩

/-- **C34** (coordinates): positions and nodes are in bijection. -/
theorem c34_bijection (m : Machine) (h v : Nat) (hh : h < m.half) :
    (∀ c, InDouble h v c → ∃ o : Offset, o.horizontal < h ∧ o.vertical < v ∧ (dblShape m h v).toOffset c = .ok (some o) ∧
      (dblShape m h v).toOffsetUnchecked c = .ok o ∧ (dblShape m h v).offsetToCoordinate o = .ok c) ∧
    (∀ o : Offset, o.horizontal < h → o.vertical < v → ∃ c, InDouble h v c ∧ (dblShape m h v).offsetToCoordinate o = .ok c ∧
      (dblShape m h v).toOffset c = .ok (some o)) := by
  have key : ∀ x y : Nat, x < h → (dblShape m h v).offsetToCoordinate ⟨x, y⟩ = .ok ⟨2 * x + y % 2, y⟩ := by
    intro x y hx
    show (do .ok (DCoord.mk (← uadd m (← umul m x 2) (y % 2)) y) : Res DCoord) = _
    simp only [bind, Except.bind]
    rw [umul_ok (by omega)]
    simp only
    rw [uadd_ok (by omega)]
    simp only [Nat.mul_comm x 2]
  constructor
  · rintro ⟨x, y⟩ hc
    unfold InDouble at hc
    simp only at hc
    refine ⟨⟨x / 2, y⟩, hc.2.2, hc.1, ?_, rfl, ?_⟩
    · simp only [dblShape, hc, and_self, if_true]
    · rw [key _ _ hc.2.2, ← hc.2.1, Nat.div_add_mod]
  · rintro ⟨x, y⟩ hx hy
    simp only at hx hy
    refine ⟨⟨2 * x + y % 2, y⟩, ⟨hy, by simp only; omega, by simp only; omega⟩, key x y hx, ?_⟩
    simp only [dblShape]
    rw [if_pos (by omega), show (2 * x + y % 2) / 2 = x by omega]

/-- **C34** (coordinates) fails for the rest: the in-between coordinate of the wrong parity is not a node, yet is accepted and
shares the position of a node. -/
theorem c34_alias (m : Machine) (h v x y : Nat) (hx : x < h) (hy : y < v) :
    ¬ InDouble h v ⟨2 * x + (1 - y % 2), y⟩ ∧ InDouble h v ⟨2 * x + y % 2, y⟩ ∧
    (dblShape m h v).toOffset ⟨2 * x + (1 - y % 2), y⟩ = .ok (some ⟨x, y⟩) ∧
    (dblShape m h v).toOffset ⟨2 * x + y % 2, y⟩ = .ok (some ⟨x, y⟩) := by
  unfold InDouble
  simp only [dblShape]
  refine ⟨by omega, by omega, ?_, ?_⟩
  · rw [if_pos (by omega), show (2 * x + (1 - y % 2)) / 2 = x by omega]
  · rw [if_pos (by omega), show (2 * x + y % 2) / 2 = x by omega]

theorem absDiff_spec (a b : Nat) : (a ≤ b ∧ absDiff a b + a = b) ∨ (b ≤ a ∧ absDiff a b + b = a) := by
  unfold absDiff; split <;> omega

/-- **C34** (adjacency): `is_neighbor` of nodes says whether one is displaced from the other by some direction. -/
theorem c34_adjacent (m : Machine) (h v : Nat) (hh : h < m.half) (a b : DCoord) (ha : InDouble h v a)
    (hb : InDouble h v b) : ∃ r, (dblShape m h v).isNeighbor a b = .ok r ∧ (r = true ↔ ∃ d, DStep a d b) := by
  obtain ⟨x, y⟩ := a
  obtain ⟨x', y'⟩ := b
  unfold InDouble at ha hb
  simp only at ha hb
  have hm := m.half_ge
  have hd : (∃ d, DStep ⟨x, y⟩ d ⟨x', y'⟩) ↔ (absDiff y y' ≤ 1 ∧ absDiff x x' + absDiff y y' = 2) := by
    have sx := absDiff_spec x x'
    have sy := absDiff_spec y y'
    unfold DStep
    simp only
    constructor
    · rintro ⟨d, h1, h2⟩
      cases d <;> simp only [AxisDR.vec] at h1 h2 <;> omega
    · rintro ⟨h1, h2⟩
      have : ((x' : Int) = x + 1 ∧ (y' : Int) = y + 1) ∨ ((x' : Int) = x + 2 ∧ (y' : Int) = y + 0) ∨
          ((x' : Int) = x + 1 ∧ (y' : Int) = y + -1) ∨ ((x' : Int) = x + -1 ∧ (y' : Int) = y + -1) ∨
          ((x' : Int) = x + -2 ∧ (y' : Int) = y + 0) ∨ ((x' : Int) = x + -1 ∧ (y' : Int) = y + 1) := by
        rcases sx with sx | sx <;> rcases sy with sy | sy <;>
          (obtain hd | hd : absDiff y y' = 0 ∨ absDiff y y' = 1 := by omega) <;> omega
      rcases this with h | h | h | h | h | h
      · exact ⟨.NE, h⟩
      · exact ⟨.E, h⟩
      · exact ⟨.SE, h⟩
      · exact ⟨.SW, h⟩
      · exact ⟨.W, h⟩
      · exact ⟨.NW, h⟩
  show ∃ r, dblIsNeighbor m _ _ = .ok r ∧ _
  unfold dblIsNeighbor
  simp only
  by_cases h1 : absDiff y y' > 1
  · exact ⟨_, by rw [if_pos h1], by rw [hd]; simp only [Bool.false_eq_true, false_iff]; omega⟩
  · rw [if_neg h1]
    have h2 : absDiff x x' < 2 * h := by have := absDiff_spec x x'; omega
    simp only [bind, Except.bind]
    rw [uadd_ok (by omega)]
    exact ⟨_, rfl, by rw [hd]; simp only [beq_iff_eq]; omega⟩

/-- **C34** (adjacency): `is_adjacent` agrees with `neighbors` towards targets in the western half. The full claim has no
hypothesis `hw`; without it the two disagree whenever `c34_missing` applies. -/
theorem c34_adjacent_partial (m : Machine) (h v : Nat) (hh : h < m.half) (hv : v < m.half) (a b : DCoord) (ha : InDouble h v a)
    (hb : InDouble h v b) (hw : b.h < h) :
    (dblShape m h v).isNeighbor a b = .ok true ↔ ∃ d, (dblShape m h v).moveCoord a d = .ok (some b) := by
  obtain ⟨r, h1, h2⟩ := c34_adjacent m h v hh a b ha hb
  rw [h1]
  simp only [Except.ok.injEq]
  rw [h2]
  constructor
  · rintro ⟨d, hd⟩
    exact ⟨d, (c34_move_partial m h v hh hv a ha d b (.inr hw)).2 ⟨hd, hb⟩⟩
  · rintro ⟨d, hd⟩
    exact ⟨d, (c34_move_partial m h v hh hv a ha d b (.inr hw)).1 hd |>.1⟩

/-- **C34** (adjacency) fails otherwise: adjacent according to `is_adjacent`, but no direction leads there. -/
theorem c34_adjacent_wrong (m : Machine) (h v : Nat) (hh : h < m.half) (hv : v < m.half) (h2 : 2 ≤ h) (v1 : 1 ≤ v) :
    (dblShape m h v).isNeighbor ⟨2 * (h - 2), 0⟩ ⟨2 * (h - 1), 0⟩ = .ok true ∧
    ¬ ∃ d, (dblShape m h v).moveCoord ⟨2 * (h - 2), 0⟩ d = .ok (some ⟨2 * (h - 1), 0⟩) := by
  obtain ⟨a, b, c, e⟩ := c34_violated m h v hh hv h2 v1
  obtain ⟨r, h3, h4⟩ := c34_adjacent m h v hh _ _ a b
  refine ⟨by rw [h3, h4.2 ⟨_, c⟩], ?_⟩
  rintro ⟨d, hd⟩
  have hs := (c34_move_node m h v hh hv _ a d _ hd).1
  have : d = .E := by
    unfold DStep at hs
    cases d <;> simp only [AxisDR.vec] at hs <;> first | rfl | omega
  subst this
  rw [e] at hd
  cases hd

/-! ### Storage -/

/-- Where a move goes from a node (`c34_exact`). -/
def dblNbr (h v : Nat) (c : DCoord) (d : AxisDR) : Option DCoord :=
  let x : Int := c.h + d.vec.1
  let y : Int := c.v + d.vec.2
  if 0 ≤ x ∧ 0 ≤ y ∧ y < v ∧ (x < h ∨ d.west = true) then some ⟨x.toNat, y.toNat⟩ else none

theorem dblNbr_iff {h v : Nat} {c t : DCoord} {d : AxisDR} :
    dblNbr h v c d = some t ↔ DStep c d t ∧ t.v < v ∧ (t.h < h ∨ d.west = true) := by
  obtain ⟨tx, ty⟩ := t
  unfold dblNbr DStep
  cases hd : d.west <;> simp only [Bool.false_eq_true, or_false, or_true, and_true] <;> split <;>
    simp only [reduceCtorEq, false_iff, Option.some.injEq, DCoord.mk.injEq] <;> omega

/-- The double-coordinate shape as it is. -/
def dblLat (h v : Nat) : Lat DCoord AxisR AxisDR := hexLatR h v (fun x y => ⟨2 * x + y % 2, y⟩) (dblNbr h v)

theorem dblLat_node {h v : Nat} {c : DCoord} : (dblLat h v).Node c ↔ InDouble h v c := by
  obtain ⟨a, b⟩ := c
  unfold InDouble
  constructor
  · rintro ⟨x, y, hx, hy, he⟩
    simp only [dblLat, hexLatR, DCoord.mk.injEq] at hx hy he ⊢
    omega
  · intro hc
    simp only at hc
    exact ⟨a / 2, b, hc.2.2, hc.1, by simp only [dblLat, hexLatR, DCoord.mk.injEq, and_true]; omega⟩

theorem dblLat_base (h v : Nat) : LatBase (dblLat h v) :=
  ⟨hexLatR_dirLaws _ _ _ _, by
    intro x y x' y' _ _ _ _ he
    simp only [dblLat, hexLatR, DCoord.mk.injEq] at he
    omega⟩

theorem dblShape_impl {m : Machine} {h v : Nat} (hc : Constructible (dblShape m h v)) :
    ImplBase (dblShape m h v) (dblLat h v) (fun c => c.h % 2 = c.v % 2) := by
  have hb := hc.bounds
  have hbij := c34_bijection m h v hb.2.1
  exact {
    axis := axisR_impl _ _ _ _ _
    width := rfl
    height := rfl
    small := hb.1
    width_small := hb.2.1
    height_small := hb.2.2
    toOffset_coord := by
      intro x y hx hy
      simp only [dblLat, hexLatR] at hx hy ⊢
      exact (c34_alias m h v x y hx hy).2.2.2
    toOffset_none := by
      intro c hr hn
      rw [dblLat_node] at hn
      unfold InDouble at hn
      simp only [dblShape]
      rw [if_neg (by omega)]
    toOffsetUnchecked := by
      intro x y hx hy
      simp only [dblLat, hexLatR, dblShape]
      rw [show (2 * x + y % 2) / 2 = x by omega]
    offsetToCoordinate := by
      intro x y hx hy
      simp only [dblLat, hexLatR] at hx hy
      obtain ⟨c, h1, h2, h3⟩ := hbij.2 ⟨x, y⟩ hx hy
      rw [h2]
      obtain ⟨a, b⟩ := c
      unfold InDouble at h1
      simp only [dblShape] at h3
      split at h3
      · simp only [Except.ok.injEq, Option.some.injEq, Offset.mk.injEq] at h3
        simp only [dblLat, hexLatR, Except.ok.injEq, DCoord.mk.injEq]
        simp only at h1
        omega
      · cases h3
    move := by
      intro c hn d
      rw [dblLat_node] at hn
      obtain ⟨r, h1, h2⟩ := c34_exact m h v hb.2.1 hb.2.2 c ⟨hn.1, hn.2.2⟩ d
      rw [h1]
      congr 1
      ext t
      rw [h2]
      exact dblNbr_iff.symm }

/-! Instances, on the 5 × 5 map: the east half of every row can be left but not entered. -/

example : ∃ r, (dblShape m64 5 5).moveCoord ⟨8, 2⟩ .W = .ok r ∧ r = some ⟨6, 2⟩ := by
  obtain ⟨r, h1, h2⟩ := c34_exact m64 5 5 (by decide) (by decide) ⟨8, 2⟩ (by decide) .W
  exact ⟨r, h1, (h2 _).2 ⟨by unfold DStep; decide, by decide, .inr rfl⟩⟩
example : (dblShape m64 5 5).moveCoord ⟨2, 2⟩ .NE = .ok (some ⟨3, 3⟩) :=
  (c34_move_partial m64 5 5 (by decide) (by decide) ⟨2, 2⟩ (by decide) .NE ⟨3, 3⟩ (.inr (by decide))).2 ⟨by unfold DStep; decide, by decide⟩
example : DStep ⟨8, 2⟩ .NW ⟨7, 3⟩ ∧ InDouble 5 5 ⟨7, 3⟩ := c34_move_node m64 5 5 (by decide) (by decide) ⟨8, 2⟩ (by decide) .NW ⟨7, 3⟩ rfl
example : (dblShape m64 5 5).moveCoord ⟨4, 2⟩ .E = .ok none ∧ (dblShape m64 5 5).moveCoord ⟨6, 2⟩ .W = .ok (some ⟨4, 2⟩) :=
  c34_missing m64 5 5 (by decide) (by decide) ⟨4, 2⟩ (by decide) .E ⟨6, 2⟩ rfl ⟨by unfold DStep; decide, by decide⟩ (by decide)
example : (dblShape m64 5 5).moveCoord ⟨6, 0⟩ .E = .ok none := (c34_violated m64 5 5 (by decide) (by decide) (by decide) (by decide)).2.2.2
example : ∃ o : Offset, (dblShape m64 5 5).toOffset ⟨7, 3⟩ = .ok (some o) ∧ (dblShape m64 5 5).offsetToCoordinate o = .ok ⟨7, 3⟩ :=
  let ⟨o, _, _, h1, _, h2⟩ := (c34_bijection m64 5 5 (by decide)).1 ⟨7, 3⟩ (by decide)
  ⟨o, h1, h2⟩
example : ¬ InDouble 5 5 ⟨6, 3⟩ ∧ (dblShape m64 5 5).toOffset ⟨6, 3⟩ = .ok (some ⟨3, 3⟩) :=
  let h := c34_alias m64 5 5 3 3 (by decide) (by decide)
  ⟨h.1, h.2.2.1⟩
example : (dblShape m64 5 5).isNeighbor ⟨4, 2⟩ ⟨6, 2⟩ = .ok true := by
  obtain ⟨r, h1, h2⟩ := c34_adjacent m64 5 5 (by decide) ⟨4, 2⟩ ⟨6, 2⟩ (by decide) (by decide)
  rw [h1, h2.2 ⟨.E, by unfold DStep; decide⟩]
example : ∃ d, (dblShape m64 5 5).moveCoord ⟨2, 2⟩ d = .ok (some ⟨4, 2⟩) :=
  (c34_adjacent_partial m64 5 5 (by decide) (by decide) ⟨2, 2⟩ ⟨4, 2⟩ (by decide) (by decide) (by decide)).1 rfl
example : ¬ ∃ d, (dblShape m64 5 5).moveCoord ⟨6, 0⟩ d = .ok (some ⟨8, 0⟩) :=
  (c34_adjacent_wrong m64 5 5 (by decide) (by decide) (by decide) (by decide)).2

end LG
