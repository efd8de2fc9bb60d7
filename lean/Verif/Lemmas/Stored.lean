import Verif.Props.AxialLoop
import Verif.Props.FlatTop
import Verif.Props.DoubleMoves
/-
The shapes whose moves do not form a lattice (C31, C32, C33), described by the moves they actually make. They still store a weight
for every node and for every edge that their own moves announce, so everything about storage applies to them.
-/
set_option linter.unusedSectionVars false
namespace LG

/-! ### The moves actually made -/

/-- Where `move_coord_q` goes from a node (`c32_exact`). -/
def qNbr (even : Bool) (h v : Nat) (c : Offset) (d : AxisDQ) : Option Offset :=
  let x : Int := c.horizontal + (qStep d (upRow even c.vertical)).1
  let y : Int := c.vertical + (qStep d (upRow even c.vertical)).2
  if 0 ≤ x ∧ x < h ∧ 0 ≤ y ∧ (y < v ∨ d = .NE) then some ⟨x.toNat, y.toNat⟩ else none

/-- One turn around a ring of `h` columns. -/
def wrapCol (h : Nat) (x : Int) : Int := if x < 0 then x + h else if (h : Int) ≤ x then x - h else x

/-- Where `move_coord_q_lew` goes from a node (`c33_exact`). -/
def qLewNbr (even : Bool) (h v : Nat) (c : Offset) (d : AxisDQ) : Option Offset :=
  let p := qLewStep d (upRow even c.vertical)
  let x : Int := if p.2 then wrapCol h (c.horizontal + p.1.1) else c.horizontal + p.1.1
  let y : Int := c.vertical + p.1.2
  if 0 ≤ x ∧ x < h ∧ 0 ≤ y ∧ y < v then some ⟨x.toNat, y.toNat⟩ else none

/-- Where `HexAxialShape<_, LoopEW>::move_coord` goes from a node (`c31_exact`). -/
def axLewNbr (even : Bool) (h v : Nat) (c : Axial) (u : Int × Int) : Option Axial :=
  let p := displaced c u
  if p.q < 0 ∨ (v : Int) ≤ p.q then none
  else if column even p = -1 then some ⟨p.r + h, p.q⟩
  else if column even p = h ∧ shear even p.q = 0 then some ⟨0, p.q⟩
  else some p

/-- `HexOffsetShape<OddQ | EvenQ>` as it is. -/
def offLatQ (even : Bool) (w h : Nat) : Lat Offset AxisQ AxisDQ := hexLatQ w h Offset.mk (qNbr even w h)
/-- Its directed version. -/
def offLatDQ (even : Bool) (w h : Nat) : Lat Offset AxisDQ AxisDQ := hexLatDQ w h Offset.mk (qNbr even w h)
/-- `HexOffsetShape<OddQ | EvenQ, LoopEW>` as it is. -/
def offLatQLoop (even : Bool) (w h : Nat) : Lat Offset AxisQ AxisDQ := hexLatQ w h Offset.mk (qLewNbr even w h)
/-- `HexAxialShape<OddR | EvenR, LoopEW>` as it is. -/
def axLatRLoop (even : Bool) (w h : Nat) : Lat Axial AxisR AxisDR :=
  hexLatR w h (axCoord even false) fun c d => axLewNbr even w h c (axialStepR d)
/-- `HexAxialShape<OddQ | EvenQ, LoopEW>` as it is. -/
def axLatQLoop (even : Bool) (w h : Nat) : Lat Axial AxisQ AxisDQ :=
  hexLatQ w h (axCoord even false) fun c d => axLewNbr even w h c (axialStepQ d)

/-- `HexAxialShape<DirectedMarker<OddR | EvenR>, LoopEW>` as it is. -/
def axLatDRLoop (even : Bool) (w h : Nat) : Lat Axial AxisDR AxisDR :=
  hexLatDR w h (axCoord even false) fun c d => axLewNbr even w h c (axialStepR d)
/-- `HexAxialShape<DirectedMarker<OddQ | EvenQ>, LoopEW>` as it is. -/
def axLatDQLoop (even : Bool) (w h : Nat) : Lat Axial AxisDQ AxisDQ :=
  hexLatDQ w h (axCoord even false) fun c d => axLewNbr even w h c (axialStepQ d)

/-- `Single s L rep`: `L` describes what shape `s` does, lawful or not, and every node has one coordinate. -/
inductive Single : {C A D : Type} → Shape C A D → Lat C A D → (C → Prop) → Prop where
  | sound {C A D : Type} {s : Shape C A D} {L : Lat C A D} {rep : C → Prop} (h : Sound s L rep) : Single s L rep
  /-- `HexOffsetShape<OddQ | EvenQ, ()>` -/
  | hexOffQ (m : Machine) (k : Marker) (h v : Nat) : Single (hexOffQ m k h v) (offLatQ k.isEven h v) (fun _ => True)
  /-- `HexOffsetShape<DirectedMarker<OddQ | EvenQ>, ()>` -/
  | hexOffQDirected (m : Machine) (k : Marker) (h v : Nat) :
    Single (hexOffQDirected m k h v) (offLatDQ k.isEven h v) (fun _ => True)
  /-- `HexOffsetShape<OddQ | EvenQ, LoopEW>` -/
  | hexOffQLew (m : Machine) (k : Marker) (h v : Nat) :
    Single (hexOffQLew m k h v) (offLatQLoop k.isEven h v) (fun _ => True)
  /-- `HexAxialShape<OddR | EvenR, LoopEW, HA>` -/
  | hexAxRLew (m : Machine) (t : CoordTy) (k : Marker) (hk : k.isFlatTop = false) (h v : Nat) (ht : Holds t k.isFlatTop h v) :
    Single (hexAxRLew m t k h v) (axLatRLoop k.isEven h v) (axRep m k.isEven false)
  /-- `HexAxialShape<OddQ | EvenQ, LoopEW, HA>` -/
  | hexAxQLew (m : Machine) (t : CoordTy) (k : Marker) (hk : k.isFlatTop = false) (h v : Nat) (ht : Holds t k.isFlatTop h v) :
    Single (hexAxQLew m t k h v) (axLatQLoop k.isEven h v) (axRep m k.isEven false)
  /-- `HexAxialShape<DirectedMarker<OddR | EvenR>, LoopEW, HA>` -/
  | hexAxRLewDirected (m : Machine) (t : CoordTy) (k : Marker) (hk : k.isFlatTop = false) (h v : Nat)
      (ht : Holds t k.isFlatTop h v) :
    Single (hexAxRLewDirected m t k h v) (axLatDRLoop k.isEven h v) (axRep m k.isEven false)
  /-- `HexAxialShape<DirectedMarker<OddQ | EvenQ>, LoopEW, HA>` -/
  | hexAxQLewDirected (m : Machine) (t : CoordTy) (k : Marker) (hk : k.isFlatTop = false) (h v : Nat)
      (ht : Holds t k.isFlatTop h v) :
    Single (hexAxQLewDirected m t k h v) (axLatDQLoop k.isEven h v) (axRep m k.isEven false)
  /-- a reference to any of them -/
  | byRef {C A D : Type} {s : Shape C A D} {L : Lat C A D} {rep : C → Prop} (h : Single s L rep) : Single s.byRef L rep

instance {C A D : Type} {s : Shape C A D} {L : Lat C A D} {rep : C → Prop} : Coe (Sound s L rep) (Single s L rep) := ⟨.sound⟩

theorem Single.base {C A D : Type} {s : Shape C A D} {L : Lat C A D} {rep : C → Prop} (h : Single s L rep) : LatBase L := by
  induction h with
  | sound h => exact h.laws.toLatBase
  | hexOffQ m k h v =>
    exact ⟨hexLatQ_dirLaws _ _ _ _, by intro x y x' y' _ _ _ _ he; simpa [hexLatQ, offLatQ] using he⟩
  | hexOffQDirected m k h v =>
    exact ⟨hexLatDQ_dirLaws _ _ _ _, by intro x y x' y' _ _ _ _ he; simpa [hexLatDQ, offLatDQ] using he⟩
  | hexOffQLew m k h v =>
    exact ⟨hexLatQ_dirLaws _ _ _ _, by intro x y x' y' _ _ _ _ he; simpa [hexLatQ, offLatQLoop] using he⟩
  | hexAxRLew m t k hk h v ht =>
    exact ⟨hexLatR_dirLaws _ _ _ _, by intro x y x' y' _ _ _ _ he; exact axCoord_inj (even := k.isEven) (flat := false) he⟩
  | hexAxQLew m t k hk h v ht =>
    exact ⟨hexLatQ_dirLaws _ _ _ _, by intro x y x' y' _ _ _ _ he; exact axCoord_inj (even := k.isEven) (flat := false) he⟩
  | hexAxRLewDirected m t k hk h v ht =>
    exact ⟨hexLatDR_dirLaws _ _ _ _, by intro x y x' y' _ _ _ _ he; exact axCoord_inj (even := k.isEven) (flat := false) he⟩
  | hexAxQLewDirected m t k hk h v ht =>
    exact ⟨hexLatDQ_dirLaws _ _ _ _, by intro x y x' y' _ _ _ _ he; exact axCoord_inj (even := k.isEven) (flat := false) he⟩
  | byRef _ ih => exact ih

/-- `Stored s L rep`: `L` describes what shape `s` does. These are all built-in shapes: those of `Single` and the double-coordinate
one, where two coordinates name each node; `rep` excludes the one of the wrong parity. -/
inductive Stored : {C A D : Type} → Shape C A D → Lat C A D → (C → Prop) → Prop where
  | single {C A D : Type} {s : Shape C A D} {L : Lat C A D} {rep : C → Prop} (h : Single s L rep) : Stored s L rep
  /-- `DoubleCoordShape<OddR, ()>` -/
  | double (m : Machine) (h v : Nat) : Stored (dblShape m h v) (dblLat h v) (fun c => c.h % 2 = c.v % 2)
  /-- a reference to any of them -/
  | byRef {C A D : Type} {s : Shape C A D} {L : Lat C A D} {rep : C → Prop} (h : Stored s L rep) : Stored s.byRef L rep

theorem Stored.sound {C A D : Type} {s : Shape C A D} {L : Lat C A D} {rep : C → Prop} (h : Sound s L rep) : Stored s L rep :=
  .single (.sound h)

instance {C A D : Type} {s : Shape C A D} {L : Lat C A D} {rep : C → Prop} : Coe (Sound s L rep) (Stored s L rep) := ⟨.sound⟩

theorem Single.stored {C A D : Type} {s : Shape C A D} {L : Lat C A D} {rep : C → Prop} (h : Single s L rep) : Stored s L rep :=
  .single h

theorem Stored.base {C A D : Type} {s : Shape C A D} {L : Lat C A D} {rep : C → Prop} (h : Stored s L rep) : LatBase L := by
  induction h with
  | single h => exact h.base
  | double m h v => exact dblLat_base h v
  | byRef _ ih => exact ih

theorem qNbr_iff {even : Bool} {h v : Nat} {c t : Offset} {d : AxisDQ} : qNbr even h v c d = some t ↔
    (t.horizontal : Int) = c.horizontal + (qStep d (upRow even c.vertical)).1 ∧
    (t.vertical : Int) = c.vertical + (qStep d (upRow even c.vertical)).2 ∧
    t.horizontal < h ∧ (t.vertical < v ∨ d = .NE) := by
  unfold qNbr
  obtain ⟨tx, ty⟩ := t
  by_cases hd : d = .NE
  · simp only [hd, or_true, and_true]
    split <;> simp only [reduceCtorEq, false_iff, Option.some.injEq, Offset.mk.injEq] <;> omega
  · simp only [hd, or_false]
    split <;> simp only [reduceCtorEq, false_iff, Option.some.injEq, Offset.mk.injEq] <;> omega

theorem qNbr_eq {m : Machine} {k : Marker} {h v : Nat} (hh : h < 2 * m.half) (hv : v < 2 * m.half) {c : Offset}
    (hx : c.horizontal < h) (hy : c.vertical < v) (d : AxisDQ) :
    offMoveQ m h v c d (offFlag k) = .ok (qNbr k.isEven h v c d) := by
  obtain ⟨r, h1, h2⟩ := c32_exact m k h v hh hv c d hx hy
  have e : r = qNbr k.isEven h v c d := by
    ext t
    rw [h2, qNbr_iff]
  rw [← e]
  exact h1

theorem qLewStep_range (d : AxisDQ) (b : Bool) : -1 ≤ (qLewStep d b).1.1 ∧ (qLewStep d b).1.1 ≤ 1 := by
  cases d <;> cases b <;> decide

theorem qLewNbr_iff {even : Bool} {h v : Nat} {c t : Offset} {d : AxisDQ} (hx : c.horizontal < h) :
    qLewNbr even h v c d = some t ↔ t.horizontal < h ∧ t.vertical < v ∧
      ((t.horizontal : Int) = c.horizontal + (qLewStep d (upRow even c.vertical)).1.1 ∨
        (qLewStep d (upRow even c.vertical)).2 = true ∧
        ((t.horizontal : Int) + h = c.horizontal + (qLewStep d (upRow even c.vertical)).1.1 ∨
         (t.horizontal : Int) - h = c.horizontal + (qLewStep d (upRow even c.vertical)).1.1)) ∧
      (t.vertical : Int) = c.vertical + (qLewStep d (upRow even c.vertical)).1.2 := by
  have hr := qLewStep_range d (upRow even c.vertical)
  unfold qLewNbr wrapCol
  obtain ⟨tx, ty⟩ := t
  obtain ⟨cx, cy⟩ := c
  simp only at hx hr ⊢
  generalize qLewStep d (upRow even cy) = p at hr ⊢
  obtain ⟨⟨dx, dy⟩, b⟩ := p
  simp only at hr ⊢
  cases b <;> simp only [Bool.false_eq_true, if_true, if_false, true_and, false_and, or_false]
  · split <;> simp only [reduceCtorEq, false_iff, Option.some.injEq, Offset.mk.injEq] <;> omega
  · by_cases h1 : (cx : Int) + dx < 0
    · simp only [h1, if_true]
      split <;> simp only [reduceCtorEq, false_iff, Option.some.injEq, Offset.mk.injEq] <;> omega
    · by_cases h2 : (h : Int) ≤ cx + dx
      · simp only [h1, h2, if_true, if_false]
        split <;> simp only [reduceCtorEq, false_iff, Option.some.injEq, Offset.mk.injEq] <;> omega
      · simp only [h1, h2, if_false]
        split <;> simp only [reduceCtorEq, false_iff, Option.some.injEq, Offset.mk.injEq] <;> omega

theorem qLewNbr_eq {m : Machine} {k : Marker} {h v : Nat} (hh : h < 2 * m.half) (hv : v < 2 * m.half) {c : Offset}
    (hx : c.horizontal < h) (hy : c.vertical < v) (d : AxisDQ) :
    offMoveQLew m h v c d (offFlag k) = .ok (qLewNbr k.isEven h v c d) := by
  obtain ⟨r, h1, h2⟩ := c33_exact m k h v hh hv c d hx hy
  have e : r = qLewNbr k.isEven h v c d := by
    ext t
    rw [h2, qLewNbr_iff hx]
  rw [← e]
  exact h1

/-- A shape with the same positions and another `move_coord`. -/
theorem ImplBase.withMove {C A D : Type} [DecidableEq D] {s s' : Shape C A D} {L : Lat C A D} {rep : C → Prop}
    (hi : ImplBase s L rep) {nbr : C → D → Option C} (hm : s'.m = s.m) (hax : AxisImpl s'.axis { L with nbr := nbr })
    (hh : s'.horizontal = s.horizontal)
    (hv : s'.vertical = s.vertical) (ho : s'.toOffset = s.toOffset) (hu : s'.toOffsetUnchecked = s.toOffsetUnchecked)
    (hc : s'.offsetToCoordinate = s.offsetToCoordinate)
    (hmv : ∀ {c}, L.Node c → ∀ d, s'.moveCoord c d = .ok (nbr c d)) : ImplBase s' { L with nbr := nbr } rep where
  axis := hax
  width := hh.trans hi.width
  height := hv.trans hi.height
  small := by rw [hm]; exact hi.small
  width_small := by rw [hm]; exact hi.width_small
  height_small := by rw [hm]; exact hi.height_small
  toOffset_coord := by rw [ho]; exact hi.toOffset_coord
  toOffset_none := by rw [ho]; exact hi.toOffset_none
  toOffsetUnchecked := by rw [hu]; exact hi.toOffsetUnchecked
  offsetToCoordinate := by rw [hc]; exact hi.offsetToCoordinate
  move := hmv

theorem hexAxRLew_impl {m : Machine} {t : CoordTy} {k : Marker} (hk : k.isFlatTop = false) {h v : Nat}
    (hc : Constructible (hexAxRLew m t k h v)) (ht : Holds t k.isFlatTop h v) :
    Impl (hexAxRLew m t k h v) (axLatRLoop k.isEven h v) (axRep m k.isEven false) := by
  have hI : Impl (hexAxR m t k h v) (axLatR k.isEven false h v) (axRep m k.isEven false) := by
    have := hexAxR_impl (m := m) (t := t) (k := k) (h := h) (v := v) hc ht
    rwa [hk] at this
  have hb := hc.bounds
  exact { toImplBase := hI.toImplBase.withMove (s' := hexAxRLew m t k h v) rfl (axisR_impl _ _ _ _ _) rfl rfl rfl rfl rfl
            (fun {c} hn d => (c31_exact m k hk t h v hb.2.1 hb.2.2 hb.1 ht).1.exact c d (inAxial_iff.2 (axIn_iff.2 hn)))
          toOffset_some := hI.toOffset_some
          isNeighbor := rfl }

theorem hexAxQLew_impl {m : Machine} {t : CoordTy} {k : Marker} (hk : k.isFlatTop = false) {h v : Nat}
    (hc : Constructible (hexAxQLew m t k h v)) (ht : Holds t k.isFlatTop h v) :
    Impl (hexAxQLew m t k h v) (axLatQLoop k.isEven h v) (axRep m k.isEven false) := by
  have hI : Impl (hexAxQ m t k h v) (axLatQ k.isEven false h v) (axRep m k.isEven false) := by
    have := hexAxQ_impl (m := m) (t := t) (k := k) (h := h) (v := v) hc ht
    rwa [hk] at this
  have hb := hc.bounds
  exact { toImplBase := hI.toImplBase.withMove (s' := hexAxQLew m t k h v) rfl (axisQ_impl _ _ _ _ _) rfl rfl rfl rfl rfl
            (fun {c} hn d => (c31_exact m k hk t h v hb.2.1 hb.2.2 hb.1 ht).2.exact c d (inAxial_iff.2 (axIn_iff.2 hn)))
          toOffset_some := hI.toOffset_some
          isNeighbor := rfl }

theorem hexAxRLewDirected_impl {m : Machine} {t : CoordTy} {k : Marker} (hk : k.isFlatTop = false) {h v : Nat}
    (hc : Constructible (hexAxRLewDirected m t k h v)) (ht : Holds t k.isFlatTop h v) :
    Impl (hexAxRLewDirected m t k h v) (axLatDRLoop k.isEven h v) (axRep m k.isEven false) := by
  have hI : Impl (hexAxRDirected m t k h v) (axLatDR k.isEven false h v) (axRep m k.isEven false) := by
    have := hexAxRDirected_impl (m := m) (t := t) (k := k) (h := h) (v := v) hc ht
    rwa [hk] at this
  have hb := hc.bounds
  exact { toImplBase := hI.toImplBase.withMove (s' := hexAxRLewDirected m t k h v) rfl (axisDR_impl _ _ _ _ _) rfl rfl rfl rfl rfl
            (fun {c} hn d => (c31_exact_directed m k hk t h v hb.2.1 hb.2.2 hb.1 ht).1.exact c d (inAxial_iff.2 (axIn_iff.2 hn)))
          toOffset_some := hI.toOffset_some
          isNeighbor := rfl }

theorem hexAxQLewDirected_impl {m : Machine} {t : CoordTy} {k : Marker} (hk : k.isFlatTop = false) {h v : Nat}
    (hc : Constructible (hexAxQLewDirected m t k h v)) (ht : Holds t k.isFlatTop h v) :
    Impl (hexAxQLewDirected m t k h v) (axLatDQLoop k.isEven h v) (axRep m k.isEven false) := by
  have hI : Impl (hexAxQDirected m t k h v) (axLatDQ k.isEven false h v) (axRep m k.isEven false) := by
    have := hexAxQDirected_impl (m := m) (t := t) (k := k) (h := h) (v := v) hc ht
    rwa [hk] at this
  have hb := hc.bounds
  exact { toImplBase := hI.toImplBase.withMove (s' := hexAxQLewDirected m t k h v) rfl (axisDQ_impl _ _ _ _ _) rfl rfl rfl rfl rfl
            (fun {c} hn d => (c31_exact_directed m k hk t h v hb.2.1 hb.2.2 hb.1 ht).2.exact c d (inAxial_iff.2 (axIn_iff.2 hn)))
          toOffset_some := hI.toOffset_some
          isNeighbor := rfl }

theorem hexOffQ_impl {m : Machine} {k : Marker} {h v : Nat} (hc : Constructible (hexOffQ m k h v)) :
    Impl (hexOffQ m k h v) (offLatQ k.isEven h v) (fun _ => True) :=
  hexOffsetShapeOf_impl hc (axisQ_impl _ _ _ _ _) rfl rfl rfl (fun hx hy d => qNbr_eq hc.wordH hc.wordV hx hy d)

theorem hexOffQDirected_impl {m : Machine} {k : Marker} {h v : Nat} (hc : Constructible (hexOffQDirected m k h v)) :
    Impl (hexOffQDirected m k h v) (offLatDQ k.isEven h v) (fun _ => True) :=
  hexOffsetShapeOf_impl hc (axisDQ_impl _ _ _ _ _) rfl rfl rfl (fun hx hy d => qNbr_eq hc.wordH hc.wordV hx hy d)

theorem hexOffQLew_impl {m : Machine} {k : Marker} {h v : Nat} (hc : Constructible (hexOffQLew m k h v)) :
    Impl (hexOffQLew m k h v) (offLatQLoop k.isEven h v) (fun _ => True) :=
  hexOffsetShapeOf_impl hc (axisQ_impl _ _ _ _ _) rfl rfl rfl (fun hx hy d => qLewNbr_eq hc.wordH hc.wordV hx hy d)

theorem Single.impl {C A D : Type} {s : Shape C A D} {L : Lat C A D} {rep : C → Prop} (h : Single s L rep) :
    ∀ [DecidableEq C] [DecidableEq D], Constructible s → Impl s L rep := by
  induction h with
  | sound h => intro _ _ hc; exact h.impl hc
  | hexOffQ m k h v => intro _ _ hc; exact (hexOffQ_impl hc).cast
  | hexOffQDirected m k h v => intro _ _ hc; exact (hexOffQDirected_impl hc).cast
  | hexOffQLew m k h v => intro _ _ hc; exact (hexOffQLew_impl hc).cast
  | hexAxRLew m t k hk h v ht => intro _ _ hc; exact (hexAxRLew_impl hk hc ht).cast
  | hexAxQLew m t k hk h v ht => intro _ _ hc; exact (hexAxQLew_impl hk hc ht).cast
  | hexAxRLewDirected m t k hk h v ht => intro _ _ hc; exact (hexAxRLewDirected_impl hk hc ht).cast
  | hexAxQLewDirected m t k hk h v ht => intro _ _ hc; exact (hexAxQLewDirected_impl hk hc ht).cast
  | byRef _ ih => intro _ _ hc; exact (ih hc).byRef

theorem ImplBase.byRef {C A D : Type} [DecidableEq D] {s : Shape C A D} {L : Lat C A D} {rep : C → Prop}
    (h : ImplBase s L rep) : ImplBase s.byRef L rep where
  axis := h.axis
  width := h.width
  height := h.height
  small := h.small
  width_small := h.width_small
  height_small := h.height_small
  toOffset_coord := h.toOffset_coord
  toOffset_none := h.toOffset_none
  toOffsetUnchecked := h.toOffsetUnchecked
  offsetToCoordinate := h.offsetToCoordinate
  move := h.move

theorem Stored.impl {C A D : Type} {s : Shape C A D} {L : Lat C A D} {rep : C → Prop} (h : Stored s L rep) :
    ∀ [DecidableEq D], Constructible s → ImplBase s L rep := by
  induction h with
  | @single C _ _ _ _ _ h =>
    intro i hc
    have : DecidableEq C := fun _ _ => Classical.propDecidable _
    exact (h.impl hc).toImplBase
  | double m h v => intro i hc; cases Subsingleton.elim i instDecidableEqAxisDR; exact dblShape_impl hc
  | byRef _ ih => intro _ hc; exact (ih hc).byRef

/-- A coordinate with a position has the position of a node; on the shapes of `Single` it is that node. -/
theorem Stored.names {C A D : Type} {s : Shape C A D} {L : Lat C A D} {rep : C → Prop} (hs : Stored s L rep) (hc : Constructible s) :
    ∀ {c : C} {o : Offset}, s.toOffset c = .ok (some o) → ∃ c', L.Node c' ∧ s.toOffset c = s.toOffset c' := by
  induction hs with
  | @single C A D s L rep h =>
    intro c o ho
    have : DecidableEq C := fun _ _ => Classical.propDecidable _
    have : DecidableEq A := fun _ _ => Classical.propDecidable _
    have : DecidableEq D := fun _ _ => Classical.propDecidable _
    exact ⟨c, (h.impl hc).node_of_toOffset ho, rfl⟩
  | double m h v =>
    intro c o ho
    have hi := dblShape_impl (m := m) (h := h) (v := v) hc
    have h1 : o.horizontal < h ∧ o.vertical < v := by
      simp only [dblShape] at ho
      split at ho
      · cases ho; assumption
      · cases ho
    obtain ⟨h1, h2⟩ := h1
    refine ⟨(dblLat h v).coord o.horizontal o.vertical, ⟨_, _, h1, h2, rfl⟩, ?_⟩
    rw [hi.toOffset_coord h1 h2]; exact ho
  | byRef _ ih => exact ih hc

/-- A shape, of the crate or written by a user of it, whose weights are kept apart: `L` says where each node is stored and what
the moves of the shape do, right or wrong (`LatBase`, `ImplBase`); a coordinate with a position has that of a node. -/
structure Storable {C A D : Type} (s : Shape C A D) (L : Lat C A D) (rep : C → Prop) : Prop where
  base : LatBase L
  impl : ∀ [DecidableEq D], Constructible s → ImplBase s L rep
  names : Constructible s → ∀ {c : C} {o : Offset}, s.toOffset c = .ok (some o) → ∃ c', L.Node c' ∧ s.toOffset c = s.toOffset c'

/-- All shapes of the crate are storable. -/
theorem Stored.storable {C A D : Type} {s : Shape C A D} {L : Lat C A D} {rep : C → Prop} (h : Stored s L rep) : Storable s L rep :=
  ⟨h.base, h.impl, h.names⟩

instance {C A D : Type} {s : Shape C A D} {L : Lat C A D} {rep : C → Prop} : Coe (Stored s L rep) (Storable s L rep) := ⟨Stored.storable⟩

/-- So are all lawful shapes. -/
theorem Lawful.storable {C A D : Type} {s : Shape C A D} {L : Lat C A D} {rep : C → Prop} (h : Lawful s L rep) : Storable s L rep := by
  have : DecidableEq C := fun _ _ => Classical.propDecidable _
  have : DecidableEq A := fun _ _ => Classical.propDecidable _
  exact ⟨h.laws.toLatBase, fun hc => (h.impl hc).toImplBase, fun hc {c o} ho => by
    have : DecidableEq D := fun _ _ => Classical.propDecidable _
    exact ⟨c, (h.impl hc).node_of_toOffset ho, rfl⟩⟩

instance {C A D : Type} {s : Shape C A D} {L : Lat C A D} {rep : C → Prop} : Coe (Lawful s L rep) (Storable s L rep) := ⟨Lawful.storable⟩

theorem Single.storable {C A D : Type} {s : Shape C A D} {L : Lat C A D} {rep : C → Prop} (h : Single s L rep) : Storable s L rep :=
  h.stored.storable

theorem Storable.single {C A D : Type} {s : Shape C A D} {L : Lat C A D} {rep : C → Prop} (h : Single s L rep) : Storable s L rep :=
  h.storable
theorem Storable.sound {C A D : Type} {s : Shape C A D} {L : Lat C A D} {rep : C → Prop} (h : Sound s L rep) : Storable s L rep :=
  h.lawful.storable
theorem Storable.double (m : Machine) (h v : Nat) : Storable (dblShape m h v) (dblLat h v) (fun c => c.h % 2 = c.v % 2) :=
  (Stored.double m h v).storable

theorem Storable.byRef {C A D : Type} {s : Shape C A D} {L : Lat C A D} {rep : C → Prop} (h : Storable s L rep) :
    Storable s.byRef L rep := ⟨h.base, fun hc => (h.impl hc).byRef, h.names⟩

section
variable {C A D N E σ α : Type} [DecidableEq C] [DecidableEq A] [DecidableEq D]
variable {g : Graph C A D N E} {s : Shape C A D} {L : Lat C A D} {rep : C → Prop} {k : Contents C A N E}

theorem Storable.good (hs : Storable s L rep) (hb : Built s L g k) : GoodBase s L rep g k :=
  hb.goodBase (fun hc => hs.impl hc) hs.base

theorem Stored.good (hs : Stored s L rep) (hb : Built s L g k) : GoodBase s L rep g k := hs.storable.good hb

/-- Every successful write leads to a `Built` graph, whatever coordinate it was given. -/
theorem Storable.built_node (hs : Storable s L rep) (hb : Built s L g k) {c : C} {f : N → N} {g' : Graph C A D N E}
    (h : g.modifyNode c f = .ok (some g')) :
    ∃ c', L.Node c' ∧ s.toOffset c = s.toOffset c' ∧ Built s L g' (k.mapNode c' f) := by
  have hg := hs.good hb
  cases ho : s.toOffset c with
  | error e => unfold Graph.modifyNode at h; simp [hg.shape, ho, bind, Except.bind] at h
  | ok o =>
    cases o with
    | none => unfold Graph.modifyNode at h; simp [hg.shape, ho, bind, Except.bind] at h
    | some o =>
      obtain ⟨c', h1, h2⟩ := hs.names hg.constructible ho
      exact ⟨c', h1, ho ▸ h2, .node hb h1 h2 h⟩

theorem Storable.built_edge (hs : Storable s L rep) (hb : Built s L g k) {c : C} {a : A} {f : E → E} {g' : Graph C A D N E}
    (h : g.modifyEdge c a f = .ok (some g')) :
    ∃ c', L.Node c' ∧ s.toOffset c = s.toOffset c' ∧ Built s L g' (k.mapEdge c' a f) := by
  have hg := hs.good hb
  cases ho : s.toOffset c with
  | error e => unfold Graph.modifyEdge at h; simp [hg.shape, ho, bind, Except.bind] at h
  | ok o =>
    cases o with
    | none => unfold Graph.modifyEdge at h; simp [hg.shape, ho, bind, Except.bind] at h
    | some o =>
      obtain ⟨c', h1, h2⟩ := hs.names hg.constructible ho
      exact ⟨c', h1, ho ▸ h2, .edge hb h1 h2 h⟩

theorem Single.built_node (hs : Single s L rep) (hb : Built s L g k) {c : C} {f : N → N} {g' : Graph C A D N E}
    (h : g.modifyNode c f = .ok (some g')) : Built s L g' (k.mapNode c f) := by
  have hg := hs.storable.good hb
  exact .node hb (modifyNode_some_node (by rw [hg.shape]; exact hs.impl hg.constructible) h) rfl h

theorem Single.built_edge (hs : Single s L rep) (hb : Built s L g k) {c : C} {a : A} {f : E → E} {g' : Graph C A D N E}
    (h : g.modifyEdge c a f = .ok (some g')) : Built s L g' (k.mapEdge c a f) := by
  have hg := hs.storable.good hb
  exact .edge hb (modifyEdge_some_node (by rw [hg.shape]; exact hs.impl hg.constructible) h) rfl h

end

/-- `Fails next s f`: calling `next` repeatedly from `s`, some call faults with `f` (earlier calls returning items). -/
inductive Fails {σ α : Type} (next : σ → Res (Option α × σ)) : σ → Fault → Prop where
  | now {s : σ} {f : Fault} : next s = .error f → Fails next s f
  | later {s s' : σ} {a : α} {f : Fault} : next s = .ok (some a, s') → Fails next s' f → Fails next s f

theorem Fails.not_yields {σ α : Type} {next : σ → Res (Option α × σ)} {s : σ} {f : Fault} (h : Fails next s f) :
    ¬ ∃ l, Yields next s l := by
  induction h with
  | now h => rintro ⟨l, hl⟩; cases hl <;> simp_all
  | later h _ ih =>
    rintro ⟨l, hl⟩
    cases hl with
    | done h1 => rw [h] at h1; simp at h1
    | step h1 h2 =>
      rw [h] at h1
      simp only [Except.ok.injEq, Prod.mk.injEq] at h1
      obtain ⟨_, rfl⟩ := h1
      exact ih ⟨_, h2⟩

theorem Fails.congr_head {σ α : Type} {next : σ → Res (Option α × σ)} {s s' : σ} {f : Fault} (h : next s = next s')
    (hf : Fails next s' f) : Fails next s f := by
  cases hf with
  | now h1 => exact .now (h.trans h1)
  | later h1 h2 => exact .later (h.trans h1) h2

section
variable {C A D N E σ α : Type} [DecidableEq C] [DecidableEq A] [DecidableEq D]
variable {g : Graph C A D N E} {s : Shape C A D} {L : Lat C A D} {rep : C → Prop} {k : Contents C A N E}

/-- Iterating the edges of a node whose edge targets all have a position: either every slot needed was written and the
expected references come out, or the iteration reads an unwritten slot. -/
theorem edges_yields_or_fails (hd : DirLaws L) (hi : ImplBase g.s L rep) (hinv : Inv g L k) (ht : Total L k) {x y : Nat}
    (hx : x < L.width) (hy : y < L.height) {dt : Dt} (hp : dt.plain g.s.axis.directed)
    (hkn : ∀ d t, L.nbr (L.coord x y) d = some t → L.Node (L.key (L.coord x y) d t).1)
    {i : Nat} {d : D} {t : C} (hid : L.dirs[i]? = some d) (hbound : i < edgesBound g.s dt)
    (hn : L.nbr (L.coord x y) d = some t) (hbad : ¬ L.HasEdge (L.key (L.coord x y) d t).1 (L.key (L.coord x y) d t).2) :
    ∀ (n j : Nat), j + n = i → Fails (edgesNext g) ⟨L.coord x y, ⟨x, y⟩, j, dt⟩ .ub
  | 0, j, h => by
    have : j = i := by omega
    subst this
    obtain ⟨hj, hd'⟩ := List.getElem?_eq_some_iff.1 hid
    refine .now ?_
    rw [edgesNext, dif_pos hbound]
    simp only [hi.axis.dirFromIndex _ hj, bind, Except.bind, hi.move ⟨x, y, hx, hy, rfl⟩, hd', hn,
      edgesMake_unstored hd hi hinv hx hy (hkn d t hn) hid hp (ht.edge_none hbad)]
  | n + 1, j, h => by
    have ih := edges_yields_or_fails hd hi hinv ht hx hy hp hkn hid hbound hn hbad n (j + 1) (by omega)
    have hb := edgesBound_le (g := g) hi hd dt
    have hj : j < L.dirs.length := by omega
    have hnode : L.Node (L.coord x y) := ⟨x, y, hx, hy, rfl⟩
    cases htj : L.nbr (L.coord x y) L.dirs[j] with
    | none =>
      exact .congr_head (edgesNext_none (it := ⟨L.coord x y, ⟨x, y⟩, j, dt⟩) hi hnode (by simp only; omega) hj htj) ih
    | some t' =>
      cases hw : k.edge (L.key (L.coord x y) L.dirs[j] t').1 (L.key (L.coord x y) L.dirs[j] t').2 with
      | none =>
        refine .now ?_
        rw [edgesNext, dif_pos (by simp only; omega)]
        simp only [hi.axis.dirFromIndex _ hj, bind, Except.bind, hi.move hnode, htj,
          edgesMake_unstored hd hi hinv hx hy (hkn _ t' htj) (List.getElem?_eq_getElem hj) hp hw]
      | some w =>
        exact .later (edgesNext_some (it := ⟨L.coord x y, ⟨x, y⟩, j, dt⟩) hi hnode (by simp only; omega) hj htj
          (edgesMake_of hd hi hinv hx hy (hkn _ t' htj) (List.getElem?_eq_getElem hj) hp hw)) ih

/-- Every edge seen from `c` was announced when the graph was built. -/
def Lat.Readable (L : Lat C A D) (c : C) : Prop :=
  ∀ d t, L.nbr c d = some t → L.HasEdge (L.key c d t).1 (L.key c d t).2

/-- `edges` of a node all of whose edges were announced. -/
theorem GoodBase.edges_yields (hg : GoodBase s L rep g k) (hl : LatBase L) {a : C} (ha : L.Node a) (hr : L.Readable a) :
    ∃ it, g.edgesOf a = .ok it ∧ Yields (edgesNext g) it (outEdges L k a) := by
  obtain ⟨x, y, hx, hy, rfl⟩ := ha
  refine ⟨_, edgesNewD_eq hg.impl hx hy _, ?_⟩
  have h := edges_yields_of hg.impl hl.dir hx hy (dt := .axisDir) (fun d t =>
    (k.edge (L.key (L.coord x y) d t).1 (L.key (L.coord x y) d t).2).map
      fun w => (⟨L.coord x y, t, w, d⟩ : EdgeRef C D E)) (by
        intro st d t _ hst hn
        obtain ⟨w, hw⟩ := hg.total.edge_some (hr d t hn)
        exact ⟨_, by rw [hw]; rfl,
          edgesMake_of hl.dir hg.impl hg.inv hx hy (hr d t hn).1 hst (by simp [Dt.plain]) hw⟩) _ 0 (Nat.zero_add _)
  rw [List.drop_zero, dirs_take_all hg.impl rfl] at h
  exact h

/-- `edges` of a node one of whose edges was not announced. -/
theorem GoodBase.edges_fails (hg : GoodBase s L rep g k) (hl : LatBase L) {a : C} (ha : L.Node a)
    (hkn : ∀ d t, L.nbr a d = some t → L.Node (L.key a d t).1) (hr : ¬ L.Readable a) :
    ∃ it, g.edgesOf a = .ok it ∧ Fails (edgesNext g) it .ub := by
  obtain ⟨x, y, hx, hy, rfl⟩ := ha
  refine ⟨_, edgesNewD_eq hg.impl hx hy _, ?_⟩
  obtain ⟨d, hr⟩ := Classical.not_forall.1 hr
  obtain ⟨t, hr⟩ := Classical.not_forall.1 hr
  obtain ⟨hn, hbad⟩ := Classical.not_imp.1 hr
  obtain ⟨i, hi, hid⟩ := List.getElem_of_mem (hl.dir.dirs_mem d)
  refine edges_yields_or_fails hl.dir hg.impl hg.inv hg.total hx hy (by simp [Dt.plain]) hkn
    (i := i) (d := d) (t := t) (by rw [List.getElem?_eq_getElem hi, hid]) ?_ hn hbad i 0 (by omega)
  show i < g.s.axis.undirectedCount
  rw [hg.impl.axis.undirectedCount]
  exact hi

end
end LG
