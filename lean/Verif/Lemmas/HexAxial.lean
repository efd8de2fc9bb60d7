import Verif.Lemmas.HexOffset
import Verif.Model.HexAxial
/- The axial shapes (without loop) implement the sheared hexagonal lattices. -/
namespace LG

theorem asUsize_lt {m : Machine} {x : Int} {h : Nat} (hx : InI m x) (hh : h < m.half) :
    asUsize m x < h ↔ 0 ≤ x ∧ x < h := by
  unfold asUsize InI at *
  split <;> omega

theorem asUsize_nonneg {m : Machine} {x : Int} (hx : 0 ≤ x) : asUsize m x = x.toNat := by
  unfold asUsize
  rw [if_neg (by omega)]

theorem asIsize_small {m : Machine} {n : Nat} (h : n < m.half) : asIsize m n = n := by
  unfold asIsize
  rw [if_pos h]

theorem getR_ok {m : Machine} {c : Axial} (h : InI m c.r) : getR m c = .ok c.r := by simp [getR, h]
theorem getQ_ok {m : Machine} {c : Axial} (h : InI m c.q) : getQ m c = .ok c.q := by simp [getQ, h]

theorem iadd_ok {m : Machine} {a b : Int} (h : InI m (a + b)) : iadd m a b = .ok (a + b) := by simp [iadd, h]
theorem isub_ok {m : Machine} {a b : Int} (h : InI m (a - b)) : isub m a b = .ok (a - b) := by simp [isub, h]

theorem convertOffset_eq (k : Marker) : (k.convertOffset : Int) = if k.isEven then 1 else 0 := by
  unfold Marker.convertOffset; split <;> rfl

theorem convertOffset_le (k : Marker) : k.convertOffset ≤ 1 := by unfold Marker.convertOffset; split <;> omega

theorem axShift_eq (k : Marker) (y : Int) : axShift k.isEven y = (y + k.convertOffset) / 2 := by
  rw [convertOffset_eq]; rfl

theorem halfOf_eq {m : Machine} {k : Marker} {x : Int} (h0 : 0 ≤ x) (h1 : x < m.half) :
    halfOf m x k.convertOffset = .ok (axShift k.isEven x) := by
  have := convertOffset_le k
  have := m.half_ge
  unfold halfOf
  rw [asUsize_nonneg h0, uadd_ok (by omega)]
  simp only [bind, Except.bind]
  rw [asIsize_small (by omega), axShift_eq]
  congr 1
  omega

/-- Column and row of an axial cell. -/
def axCell (even flat : Bool) (c : Axial) : Offset :=
  if flat then ⟨c.r.toNat, (c.q + axShift even c.r).toNat⟩ else ⟨(c.r + axShift even c.q).toNat, c.q.toNat⟩

/-- In release, a wrapped `isize` sum that overflowed upwards is not a valid index. -/
theorem iadd_release {m : Machine} {a b : Int} (ha : InI m a) (hb : 0 ≤ b ∧ b < m.half) (hm : m.mode = .release)
    (hn : ¬ InI m (a + b)) {h : Nat} (hh : h < m.half) :
    ∃ x, iadd m a b = .ok x ∧ ¬ asUsize m x < h := by
  refine ⟨wrapI m (a + b), by simp [iadd, hn, overflow, hm], ?_⟩
  unfold InI at *
  unfold wrapI asUsize
  have h1 : ¬ a + b < -(m.half : Int) := by omega
  have h2 : (m.half : Int) ≤ a + b := by omega
  rw [if_neg h1, if_pos h2, if_pos (by omega)]
  omega

theorem axShift_bounds (even : Bool) {y : Int} (h : 0 ≤ y) : 0 ≤ axShift even y ∧ axShift even y ≤ (y + 1) / 2 := by
  cases even <;> simp [axShift] <;> omega

theorem axToOffset_eq {m : Machine} {k : Marker} {h v : Nat} (hh : h < m.half) (hv : v < m.half) {c : Axial}
    (hc : axRep m k.isEven k.isFlatTop c) :
    axToOffset m k h v c =
      .ok (if axIn k.isEven k.isFlatTop h v c then some (axCell k.isEven k.isFlatTop c) else none) := by
  obtain ⟨hr, hq, hs⟩ := hc
  have := m.half_ge
  unfold axToOffset axIn axCell
  rw [getR_ok hr, getQ_ok hq]
  cases hf : k.isFlatTop
  · rw [hf] at hs
    simp only [bind, Except.bind, Bool.false_eq_true, ite_false, decide_eq_true_eq] at hs ⊢
    by_cases hqv : asUsize m c.q < v
    · rw [if_pos hqv]
      have h1 := (asUsize_lt hq hv).1 hqv
      have h2 := axShift_bounds k.isEven h1.1
      rw [halfOf_eq h1.1 (by omega)]
      by_cases hi : InI m (c.r + axShift k.isEven c.q)
      · dsimp only
        rw [iadd_ok hi]
        dsimp only
        by_cases hx : asUsize m (c.r + axShift k.isEven c.q) < h
        · have h3 := (asUsize_lt hi hh).1 hx
          rw [if_pos hx, if_pos (by omega), asUsize_nonneg h3.1, asUsize_nonneg h1.1]
        · have h3 := mt (asUsize_lt hi hh).2 hx
          rw [if_neg hx, if_neg (by omega)]
      · have hm : m.mode = .release := by rcases hs with hs | hs; exact hs; exact absurd hs hi
        obtain ⟨x, hx, hx'⟩ := iadd_release hr (b := axShift k.isEven c.q) (by omega) hm hi hh
        dsimp only
        rw [hx]
        dsimp only
        rw [if_neg hx', if_neg]
        unfold InI at *
        omega
    · have h3 := mt (asUsize_lt hq hv).2 hqv
      rw [if_neg hqv, if_neg (by omega)]
  · rw [hf] at hs
    simp only [bind, Except.bind, ite_true, decide_eq_true_eq] at hs ⊢
    by_cases hqv : asUsize m c.r < h
    · rw [if_pos hqv]
      have h1 := (asUsize_lt hr hh).1 hqv
      have h2 := axShift_bounds k.isEven h1.1
      rw [halfOf_eq h1.1 (by omega)]
      by_cases hi : InI m (c.q + axShift k.isEven c.r)
      · dsimp only
        rw [iadd_ok hi]
        dsimp only
        by_cases hx : asUsize m (c.q + axShift k.isEven c.r) < v
        · have h3 := (asUsize_lt hi hv).1 hx
          rw [if_pos hx, if_pos (by omega), asUsize_nonneg h3.1, asUsize_nonneg h1.1]
        · have h3 := mt (asUsize_lt hi hv).2 hx
          rw [if_neg hx, if_neg (by omega)]
      · have hm : m.mode = .release := by rcases hs with hs | hs; exact hs; exact absurd hs hi
        obtain ⟨x, hx, hx'⟩ := iadd_release hq (b := axShift k.isEven c.r) (by omega) hm hi hv
        dsimp only
        rw [hx]
        dsimp only
        rw [if_neg hx', if_neg]
        unfold InI at *
        omega
    · have h3 := mt (asUsize_lt hr hh).2 hqv
      rw [if_neg hqv, if_neg (by omega)]

/-- A cell of the map, in terms of `axCoord`. -/
theorem axIn_iff {even flat : Bool} {w h : Nat} {c : Axial} :
    axIn even flat w h c = true ↔ ∃ x y, x < w ∧ y < h ∧ c = axCoord even flat x y := by
  unfold axIn axCoord
  cases flat <;> simp only [Bool.false_eq_true, ite_false, ite_true, decide_eq_true_eq]
  · constructor
    · intro hc
      refine ⟨(c.r + axShift even c.q).toNat, c.q.toNat, by omega, by omega, ?_⟩
      cases c with | mk r q =>
      simp only at *
      have e1 : ((q.toNat : Nat) : Int) = q := by omega
      have e2 : (((r + axShift even q).toNat : Nat) : Int) = r + axShift even q := by omega
      rw [e1, e2]
      congr 1
      omega
    · rintro ⟨x, y, hx, hy, rfl⟩
      dsimp only
      omega
  · constructor
    · intro hc
      refine ⟨c.r.toNat, (c.q + axShift even c.r).toNat, by omega, by omega, ?_⟩
      cases c with | mk r q =>
      simp only at *
      have e1 : ((r.toNat : Nat) : Int) = r := by omega
      have e2 : (((q + axShift even r).toNat : Nat) : Int) = q + axShift even r := by omega
      rw [e1, e2]
      congr 1
      omega
    · rintro ⟨x, y, hx, hy, rfl⟩
      dsimp only
      omega

theorem axCoord_cell {even flat : Bool} {x y : Nat} : axCell even flat (axCoord even flat x y) = ⟨x, y⟩ := by
  unfold axCell axCoord
  cases flat <;> simp only [Bool.false_eq_true, ite_false, ite_true, Offset.mk.injEq] <;> omega

theorem axCoord_inj {even flat : Bool} {x y x' y' : Nat} (h : axCoord even flat x y = axCoord even flat x' y') :
    x = x' ∧ y = y' := by
  have := congrArg (axCell even flat) h
  rw [axCoord_cell, axCoord_cell] at this
  simpa using this

theorem Holds.isize {m : Machine} {flat : Bool} {w h : Nat} (hw : w < m.half) (hh : h < m.half) :
    Holds (isizeTy m) flat w h where
  neg := by have := m.half_ge; simp [isizeTy]; omega
  width := by simp [isizeTy]; omega
  height := by simp [isizeTy]; omega
  shear := by have := m.half_ge; cases flat <;> simp [isizeTy] <;> omega

/-- A cell, or a cell one step outside, is within one of the map's row/column ranges. -/
theorem axIn_range {even flat : Bool} {w h : Nat} {c : Axial} (hc : axIn even flat w h c = true) :
    (if flat then 0 ≤ c.r ∧ c.r < w ∧ -(((w : Int) + 1) / 2) ≤ c.q ∧ c.q < h
      else 0 ≤ c.q ∧ c.q < h ∧ -(((h : Int) + 1) / 2) ≤ c.r ∧ c.r < w) := by
  unfold axIn at hc
  cases flat <;> simp only [Bool.false_eq_true, ite_false, ite_true, decide_eq_true_eq] at *
  · have := axShift_bounds even (y := c.q) (by omega)
    omega
  · have := axShift_bounds even (y := c.r) (by omega)
    omega

theorem axCoord_rep {m : Machine} {even flat : Bool} {w h : Nat} (hw : w < m.half) (hh : h < m.half) {c : Axial}
    (hc : axIn even flat w h c = true) : axRep m even flat c := by
  have h1 := axIn_range hc
  have := m.half_ge
  unfold axIn at hc
  unfold axRep InI
  cases flat <;> simp only [Bool.false_eq_true, ite_false, ite_true, decide_eq_true_eq] at *
  · exact ⟨by omega, by omega, .inr (by omega)⟩
  · exact ⟨by omega, by omega, .inr (by omega)⟩

/-- A neighbour displacement: one of the six axial unit vectors. -/
def UnitVec (v : Int × Int) : Prop :=
  v = (1, 0) ∨ v = (0, 1) ∨ v = (1, -1) ∨ v = (-1, 0) ∨ v = (0, -1) ∨ v = (-1, 1)

theorem axShift_step (even : Bool) (y : Int) :
    axShift even y ≤ axShift even (y + 1) ∧ axShift even (y + 1) ≤ axShift even y + 1 ∧
    axShift even y - 1 ≤ axShift even (y + -1) ∧ axShift even (y + -1) ≤ axShift even y := by
  cases even <;> simp [axShift] <;> omega

theorem step_rep {m : Machine} {even flat : Bool} {w h : Nat} (hw : w < m.half) (hh : h < m.half) {c : Axial}
    {v : Int × Int} (hv : UnitVec v) (hc : axIn even flat w h c = true) : axRep m even flat ⟨c.r + v.1, c.q + v.2⟩ := by
  have h1 := axIn_range hc
  have h2 := axShift_step even c.r
  have h3 := axShift_step even c.q
  have := m.half_ge
  unfold axIn at hc
  unfold axRep InI
  cases flat <;> simp only [Bool.false_eq_true, ite_false, ite_true, decide_eq_true_eq] at *
  · refine ⟨?_, ?_, .inr ?_⟩ <;>
    rcases hv with rfl | rfl | rfl | rfl | rfl | rfl <;> simp only [Int.add_zero] <;> omega
  · refine ⟨?_, ?_, .inr ?_⟩ <;>
    rcases hv with rfl | rfl | rfl | rfl | rfl | rfl <;> simp only [Int.add_zero] <;> omega

theorem step_fits {t : CoordTy} {even flat : Bool} {w h : Nat} (ht : Holds t flat w h) {c : Axial}
    {v : Int × Int} (hv : UnitVec v) (hc : axIn even flat w h c = true) (m : Machine) :
    t.new m (c.r + v.1) (c.q + v.2) = .ok ⟨c.r + v.1, c.q + v.2⟩ := by
  have h1 := axIn_range hc
  have ⟨a1, a2, a3, a4⟩ := ht
  unfold CoordTy.new
  rw [if_pos]
  cases flat <;> simp only [Bool.false_eq_true, ite_false, ite_true] at * <;>
    rcases hv with rfl | rfl | rfl | rfl | rfl | rfl <;> simp only [Int.add_zero] <;> omega

theorem cell_fits {t : CoordTy} {even flat : Bool} {w h : Nat} (ht : Holds t flat w h) {c : Axial}
    (hc : axIn even flat w h c = true) (m : Machine) : t.new m c.r c.q = .ok c := by
  have h1 := axIn_range hc
  have ⟨a1, a2, a3, a4⟩ := ht
  unfold CoordTy.new
  rw [if_pos]
  cases flat <;> simp only [Bool.false_eq_true, ite_false, ite_true] at * <;> omega

theorem AxisDR.unit (d : AxisDR) : UnitVec d.axial := by cases d <;> simp [UnitVec, AxisDR.axial]
theorem AxisDQ.unit (d : AxisDQ) : UnitVec d.axial := by cases d <;> simp [UnitVec, AxisDQ.axial]

theorem axMoveR_eq {m : Machine} {t : CoordTy} {even flat : Bool} {w h : Nat} (hw : w < m.half) (hh : h < m.half)
    (ht : Holds t flat w h) {c : Axial} (hc : axIn even flat w h c = true) (d : AxisDR) :
    axMoveR m t c d = .ok ⟨c.r + d.axial.1, c.q + d.axial.2⟩ := by
  have h0 := axCoord_rep hw hh hc
  have h1 := step_rep hw hh d.unit hc
  have h2 := step_fits ht d.unit hc m
  cases d <;> simp only [AxisDR.axial, axMoveR, newAt, Int.add_zero] at * <;>
    rw [getR_ok h0.1, getQ_ok h0.2.1] <;> simp only [bind, Except.bind]
  · rw [iadd_ok h1.2.1]; exact h2
  · rw [iadd_ok h1.1]; exact h2
  · rw [iadd_ok h1.1, isub_ok h1.2.1]; exact h2
  · rw [isub_ok h1.2.1]; exact h2
  · rw [isub_ok h1.1]; exact h2
  · rw [iadd_ok h1.2.1, isub_ok h1.1]; exact h2

theorem axMoveQ_eq {m : Machine} {t : CoordTy} {even flat : Bool} {w h : Nat} (hw : w < m.half) (hh : h < m.half)
    (ht : Holds t flat w h) {c : Axial} (hc : axIn even flat w h c = true) (d : AxisDQ) :
    axMoveQ m t c d = .ok ⟨c.r + d.axial.1, c.q + d.axial.2⟩ := by
  have h0 := axCoord_rep hw hh hc
  have h1 := step_rep hw hh d.unit hc
  have h2 := step_fits ht d.unit hc m
  cases d <;> simp only [AxisDQ.axial, axMoveQ, newAt, Int.add_zero] at * <;>
    rw [getR_ok h0.1, getQ_ok h0.2.1] <;> simp only [bind, Except.bind]
  · rw [iadd_ok h1.2.1]; exact h2
  · rw [iadd_ok h1.1]; exact h2
  · rw [iadd_ok h1.1, isub_ok h1.2.1]; exact h2
  · rw [isub_ok h1.2.1]; exact h2
  · rw [isub_ok h1.1]; exact h2
  · rw [iadd_ok h1.2.1, isub_ok h1.1]; exact h2

theorem axOffsetToCoord_eq {m : Machine} {t : CoordTy} {k : Marker} {h v : Nat} (hh : h < m.half) (hv : v < m.half)
    (ht : Holds t k.isFlatTop h v) {x y : Nat} (hx : x < h) (hy : y < v) :
    axOffsetToCoord m t k ⟨x, y⟩ = .ok (axCoord k.isEven k.isFlatTop x y) := by
  have hc := (axIn_iff (even := k.isEven) (flat := k.isFlatTop) (w := h) (h := v)).2 ⟨x, y, hx, hy, rfl⟩
  have h0 := axCoord_rep hh hv hc
  have h1 := cell_fits ht hc m
  have := convertOffset_le k
  have := m.half_ge
  have ey : ((y + k.convertOffset) / 2 : Nat) = axShift k.isEven y := by rw [axShift_eq]; omega
  have ex : ((x + k.convertOffset) / 2 : Nat) = axShift k.isEven x := by rw [axShift_eq]; omega
  unfold axOffsetToCoord newAt
  unfold axCoord at *
  cases hf : k.isFlatTop <;> rw [hf] at h0 h1 <;>
    simp only [bind, Except.bind, Bool.false_eq_true, ite_false, ite_true] at *
  · rw [uadd_ok (by omega)]
    dsimp only
    rw [asIsize_small (n := x) (by omega), asIsize_small (n := y) (by omega), asIsize_small (by omega), ey,
      isub_ok h0.1]
    exact h1
  · rw [uadd_ok (by omega)]
    dsimp only
    rw [asIsize_small (n := x) (by omega), asIsize_small (n := y) (by omega), asIsize_small (by omega), ex,
      isub_ok h0.2.1]
    exact h1

theorem axToOffsetUnchecked_eq {m : Machine} {k : Marker} {h v : Nat} (hh : h < m.half) (hv : v < m.half)
    {c : Axial} (hc : axIn k.isEven k.isFlatTop h v c = true) :
    axToOffsetUnchecked m k c = .ok (axCell k.isEven k.isFlatTop c) := by
  obtain ⟨hr, hq, _⟩ := axCoord_rep hh hv hc
  unfold axToOffsetUnchecked axCell
  unfold axIn at hc
  rw [getR_ok hr, getQ_ok hq]
  unfold InI at *
  cases hf : k.isFlatTop <;> rw [hf] at hc <;>
    simp only [bind, Except.bind, Bool.false_eq_true, ite_false, ite_true, decide_eq_true_eq] at *
  · rw [halfOf_eq (by omega) (by omega)]
    dsimp only
    rw [iadd_ok (by unfold InI; omega)]
    dsimp only
    rw [asUsize_nonneg (by omega), asUsize_nonneg (by omega)]
  · rw [halfOf_eq (by omega) (by omega)]
    dsimp only
    rw [iadd_ok (by unfold InI; omega)]
    dsimp only
    rw [asUsize_nonneg (by omega), asUsize_nonneg (by omega)]

/-- `to_offset` only succeeds on coordinates it represents. -/
theorem axToOffset_rep {m : Machine} {k : Marker} {h v : Nat} (hh : h < m.half) (hv : v < m.half) {c : Axial} {o : Offset}
    (hc : axToOffset m k h v c = .ok (some o)) : axRep m k.isEven k.isFlatTop c := by
  unfold axToOffset getR getQ at hc
  have ue : ∀ {α : Type} {x : α}, (unreachableDebugChecked m : Res α) ≠ .ok x := by
    intro α x he; unfold unreachableDebugChecked at he; split at he <;> cases he
  by_cases hr : InI m c.r <;> by_cases hq : InI m c.q
  · refine ⟨hr, hq, ?_⟩
    cases hm : m.mode
    · right
      cases hf : k.isFlatTop <;> rw [hf] at hc <;>
        simp only [bind, Except.bind, Bool.false_eq_true, ite_false, ite_true, hr, hq] at hc ⊢
      · split at hc
        · rename_i h1
          have h1 := (asUsize_lt hq hv).1 h1
          rw [halfOf_eq h1.1 (by omega)] at hc
          dsimp only at hc
          apply Classical.byContradiction
          intro hn
          rw [iadd, if_neg hn, overflow, hm] at hc
          cases hc
        · cases hc
      · split at hc
        · rename_i h1
          have h1 := (asUsize_lt hr hh).1 h1
          rw [halfOf_eq h1.1 (by omega)] at hc
          dsimp only at hc
          apply Classical.byContradiction
          intro hn
          rw [iadd, if_neg hn, overflow, hm] at hc
          cases hc
        · cases hc
    · exact .inl rfl
  all_goals
    exfalso
    simp only [hr, hq, if_true, if_false] at hc
    have key : ∃ z : Fault, ∀ {α : Type}, (unreachableDebugChecked m : Res α) = .error z := by
      unfold unreachableDebugChecked
      split
      · exact ⟨.panic, rfl⟩
      · exact ⟨.ub, rfl⟩
    obtain ⟨z, hz⟩ := key
    simp only [hz, bind, Except.bind] at hc
    cases hf : k.isFlatTop <;> rw [hf] at hc <;> simp only [Bool.false_eq_true, ite_false, ite_true] at hc
    all_goals
      first
        | cases hc; done
        | (split at hc <;> cases hc)

theorem axNbr_some {even flat : Bool} {w h : Nat} {c t : Axial} {v : Int × Int} :
    axNbr even flat w h c v = some t ↔ axIn even flat w h t = true ∧ t = ⟨c.r + v.1, c.q + v.2⟩ := by
  unfold axNbr
  split
  · constructor
    · intro h; cases h; exact ⟨by assumption, rfl⟩
    · rintro ⟨_, rfl⟩; rfl
  · constructor
    · intro h; cases h
    · rintro ⟨h1, rfl⟩; contradiction

theorem axNbr_opp {even flat : Bool} {w h : Nat} {c t : Axial} {v v' : Int × Int} (hv : v' = (-v.1, -v.2))
    (hc : axIn even flat w h c = true) (ht : axNbr even flat w h c v = some t) : axNbr even flat w h t v' = some c := by
  rw [axNbr_some] at *
  refine ⟨hc, ?_⟩
  cases c
  rw [ht.2, hv]
  simp only [Axial.mk.injEq]
  omega

theorem axial_impl {A D : Type} [DecidableEq D] {m : Machine} {k : Marker} {axis : Axis A D} {t : CoordTy} {h v : Nat}
    {move : Axial → D → Res Axial} {L : Lat Axial A D} {vec : D → Int × Int}
    (hc : Constructible (axialShapeOf m k axis t h v move)) (ht : Holds t k.isFlatTop h v)
    (hax : AxisImpl axis L) (hw : L.width = h) (hh : L.height = v) (hco : L.coord = axCoord k.isEven k.isFlatTop)
    (hn : L.nbr = fun c d => axNbr k.isEven k.isFlatTop h v c (vec d)) (hu : ∀ d, UnitVec (vec d))
    (hm : ∀ {c}, axIn k.isEven k.isFlatTop h v c = true → ∀ d, move c d = .ok ⟨c.r + (vec d).1, c.q + (vec d).2⟩) :
    Impl (axialShapeOf m k axis t h v move) L (axRep m k.isEven k.isFlatTop) := by
  subst hw hh
  obtain ⟨hs, hw, hh⟩ := hc.bounds
  simp only [axialShapeOf] at hs hw hh
  have hnode : ∀ {c}, L.Node c ↔ axIn k.isEven k.isFlatTop L.width L.height c = true := by
    intro c; rw [axIn_iff, Lat.Node, hco]
  exact {
    axis := hax
    width := rfl
    height := rfl
    small := hs
    width_small := hw
    height_small := hh
    toOffset_some := by
      intro c o he
      have hr := axToOffset_rep hw hh he
      simp only [axialShapeOf] at he
      rw [axToOffset_eq hw hh hr] at he
      split at he
      · rename_i hi
        cases he
        obtain ⟨x, y, hx, hy, rfl⟩ := axIn_iff.1 hi
        rw [axCoord_cell, hco]
        exact ⟨hx, hy, rfl⟩
      · cases he
    toOffset_coord := by
      intro x y hx hy
      have hi := (axIn_iff (even := k.isEven) (flat := k.isFlatTop) (w := L.width) (h := L.height)).2 ⟨x, y, hx, hy, rfl⟩
      simp only [axialShapeOf, hco]
      rw [axToOffset_eq hw hh (axCoord_rep hw hh hi), if_pos hi, axCoord_cell]
    toOffset_none := by
      intro c hr hn
      simp only [axialShapeOf]
      rw [axToOffset_eq hw hh hr, if_neg (fun z => hn (hnode.2 z))]
    toOffsetUnchecked := by
      intro x y hx hy
      have hi := (axIn_iff (even := k.isEven) (flat := k.isFlatTop) (w := L.width) (h := L.height)).2 ⟨x, y, hx, hy, rfl⟩
      simp only [axialShapeOf, hco]
      rw [axToOffsetUnchecked_eq hw hh hi, axCoord_cell]
    offsetToCoordinate := by
      intro x y hx hy
      simp only [axialShapeOf, hco]
      exact axOffsetToCoord_eq hw hh ht hx hy
    move := by
      intro c hc d
      have hi := hnode.1 hc
      simp only [axialShapeOf, axMoveChecked, hm hi, bind, Except.bind]
      rw [axToOffset_eq hw hh (step_rep hw hh (hu d) hi), hn]
      simp only [axNbr]
      split
      · rename_i h1; split at h1
        · rename_i h2; rw [if_pos h2]
        · cases h1
      · rename_i h1; split at h1
        · cases h1
        · rename_i h2; rw [if_neg h2]
    isNeighbor := rfl }

theorem AxisDR.axial_rev (d : AxisDR) : d.rev.axial = (-d.axial.1, -d.axial.2) := by cases d <;> rfl
theorem AxisDQ.axial_rev (d : AxisDQ) : d.rev.axial = (-d.axial.1, -d.axial.2) := by cases d <;> rfl

theorem axLatR_laws (even flat : Bool) (w h : Nat) : LatLaws (axLatR even flat w h) where
  dir := hexLatR_dirLaws _ _ _ _
  coord_inj := by intro x y x' y' _ _ _ _ he; exact axCoord_inj he
  nbr_node := by intro c d t _ ht; exact axIn_iff.1 (axNbr_some.1 ht).1
  nbr_opp := by intro c d t hc ht; exact axNbr_opp d.axial_rev (axIn_iff.2 hc) ht

theorem axLatDR_laws (even flat : Bool) (w h : Nat) : LatLaws (axLatDR even flat w h) where
  dir := hexLatDR_dirLaws _ _ _ _
  coord_inj := by intro x y x' y' _ _ _ _ he; exact axCoord_inj he
  nbr_node := by intro c d t _ ht; exact axIn_iff.1 (axNbr_some.1 ht).1
  nbr_opp := by intro c d t hc ht; exact axNbr_opp d.axial_rev (axIn_iff.2 hc) ht

theorem axLatQ_laws (even flat : Bool) (w h : Nat) : LatLaws (axLatQ even flat w h) where
  dir := hexLatQ_dirLaws _ _ _ _
  coord_inj := by intro x y x' y' _ _ _ _ he; exact axCoord_inj he
  nbr_node := by intro c d t _ ht; exact axIn_iff.1 (axNbr_some.1 ht).1
  nbr_opp := by intro c d t hc ht; exact axNbr_opp d.axial_rev (axIn_iff.2 hc) ht

theorem axLatDQ_laws (even flat : Bool) (w h : Nat) : LatLaws (axLatDQ even flat w h) where
  dir := hexLatDQ_dirLaws _ _ _ _
  coord_inj := by intro x y x' y' _ _ _ _ he; exact axCoord_inj he
  nbr_node := by intro c d t _ ht; exact axIn_iff.1 (axNbr_some.1 ht).1
  nbr_opp := by intro c d t hc ht; exact axNbr_opp d.axial_rev (axIn_iff.2 hc) ht

theorem hexAxR_impl {m : Machine} {t : CoordTy} {k : Marker} {h v : Nat} (hc : Constructible (hexAxR m t k h v))
    (ht : Holds t k.isFlatTop h v) :
    Impl (hexAxR m t k h v) (axLatR k.isEven k.isFlatTop h v) (axRep m k.isEven k.isFlatTop) :=
  axial_impl hc ht (axisR_impl _ _ _ _ _) rfl rfl rfl rfl AxisDR.unit
    (fun hi d => axMoveR_eq hc.bounds.2.1 hc.bounds.2.2 ht hi d)

theorem hexAxRDirected_impl {m : Machine} {t : CoordTy} {k : Marker} {h v : Nat}
    (hc : Constructible (hexAxRDirected m t k h v)) (ht : Holds t k.isFlatTop h v) :
    Impl (hexAxRDirected m t k h v) (axLatDR k.isEven k.isFlatTop h v) (axRep m k.isEven k.isFlatTop) :=
  axial_impl (k := directedMarker k) hc ht (axisDR_impl _ _ _ _ _) rfl rfl rfl rfl AxisDR.unit
    (fun hi d => axMoveR_eq hc.bounds.2.1 hc.bounds.2.2 ht hi d)

theorem hexAxQ_impl {m : Machine} {t : CoordTy} {k : Marker} {h v : Nat} (hc : Constructible (hexAxQ m t k h v))
    (ht : Holds t k.isFlatTop h v) :
    Impl (hexAxQ m t k h v) (axLatQ k.isEven k.isFlatTop h v) (axRep m k.isEven k.isFlatTop) :=
  axial_impl hc ht (axisQ_impl _ _ _ _ _) rfl rfl rfl rfl AxisDQ.unit
    (fun hi d => axMoveQ_eq hc.bounds.2.1 hc.bounds.2.2 ht hi d)

theorem hexAxQDirected_impl {m : Machine} {t : CoordTy} {k : Marker} {h v : Nat}
    (hc : Constructible (hexAxQDirected m t k h v)) (ht : Holds t k.isFlatTop h v) :
    Impl (hexAxQDirected m t k h v) (axLatDQ k.isEven k.isFlatTop h v) (axRep m k.isEven k.isFlatTop) :=
  axial_impl (k := directedMarker k) hc ht (axisDQ_impl _ _ _ _ _) rfl rfl rfl rfl AxisDQ.unit
    (fun hi d => axMoveQ_eq hc.bounds.2.1 hc.bounds.2.2 ht hi d)

end LG
