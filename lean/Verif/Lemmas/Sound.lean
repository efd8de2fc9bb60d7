import Verif.Sound
import Verif.Lemmas.HexAxial
/- Every sound shape implements its lattice. -/
namespace LG

theorem Sound.laws {C A D : Type} {s : Shape C A D} {L : Lat C A D} {rep : C → Prop} (h : Sound s L rep) : LatLaws L := by
  induction h with
  | square m h v => exact squareLat_laws h v
  | squareDirected m h v => exact squareLatDirected_laws h v
  | diag m h v => exact diagLat_laws h v
  | diagDirected m h v => exact diagLatDirected_laws h v
  | hexOffR m k h v => exact offNbr_lawsR _ _ _
  | hexOffRDirected m k h v => exact offNbr_lawsDR _ _ _
  | hexOffRLew m k h v => exact offNbrLoop_lawsR _ _ _
  | hexAxR m t k h v ht => exact axLatR_laws _ _ _ _
  | hexAxRDirected m t k h v ht => exact axLatDR_laws _ _ _ _
  | hexAxQ m t k h v ht => exact axLatQ_laws _ _ _ _
  | hexAxQDirected m t k h v ht => exact axLatDQ_laws _ _ _ _
  | byRef _ ih => exact ih

theorem Impl.cast {C A D : Type} {i1 i1' : DecidableEq C} {i2 i2' : DecidableEq D} {s : Shape C A D} {L : Lat C A D}
    {rep : C → Prop} (h : @Impl C A D i1 i2 s L rep) : @Impl C A D i1' i2' s L rep := by
  have e1 : i1 = i1' := Subsingleton.elim _ _
  have e2 : i2 = i2' := Subsingleton.elim _ _
  subst e1 e2
  exact h

theorem Impl.byRef {C A D : Type} [DecidableEq C] [DecidableEq D] {s : Shape C A D} {L : Lat C A D} {rep : C → Prop}
    (h : Impl s L rep) : Impl s.byRef L rep where
  axis := h.axis
  width := h.width
  height := h.height
  small := h.small
  width_small := h.width_small
  height_small := h.height_small
  toOffset_some := h.toOffset_some
  toOffset_coord := h.toOffset_coord
  toOffset_none := h.toOffset_none
  toOffsetUnchecked := h.toOffsetUnchecked
  offsetToCoordinate := h.offsetToCoordinate
  move := h.move
  isNeighbor := h.isNeighbor

theorem Sound.impl {C A D : Type} {s : Shape C A D} {L : Lat C A D} {rep : C → Prop} (h : Sound s L rep) :
    ∀ [DecidableEq C] [DecidableEq D], Constructible s → Impl s L rep := by
  induction h with
  | square m h v => intro _ _ hc; exact (squareShape_impl hc).cast
  | squareDirected m h v => intro _ _ hc; exact (squareShapeDirected_impl hc).cast
  | diag m h v => intro _ _ hc; exact (diagShape_impl hc).cast
  | diagDirected m h v => intro _ _ hc; exact (diagShapeDirected_impl hc).cast
  | hexOffR m k h v => intro _ _ hc; exact (hexOffR_impl hc).cast
  | hexOffRDirected m k h v => intro _ _ hc; exact (hexOffRDirected_impl hc).cast
  | hexOffRLew m k h v => intro _ _ hc; exact (hexOffRLew_impl hc).cast
  | hexAxR m t k h v ht => intro _ _ hc; exact (hexAxR_impl hc ht).cast
  | hexAxRDirected m t k h v ht => intro _ _ hc; exact (hexAxRDirected_impl hc ht).cast
  | hexAxQ m t k h v ht => intro _ _ hc; exact (hexAxQ_impl hc ht).cast
  | hexAxQDirected m t k h v ht => intro _ _ hc; exact (hexAxQDirected_impl hc ht).cast
  | byRef _ ih => intro _ _ hc; exact (ih hc).byRef

/-- The dimensions of a sound shape are those of its lattice. -/
theorem Sound.dims {C A D : Type} {s : Shape C A D} {L : Lat C A D} {rep : C → Prop} (h : Sound s L rep) :
    s.horizontal = L.width ∧ s.vertical = L.height ∧ s.axis.count = L.axes.length := by
  induction h with
  | byRef _ ih => exact ih
  | _ => exact ⟨rfl, rfl, rfl⟩

/-- A shape, of the crate or written by a user of it, that obeys the laws of the `Shape` and `Axis` traits: `L` is the lattice it
stands for, whose moves stay inside and are undone by the opposite direction (`LatLaws`), and whose conversions and moves the
methods of `s` compute (`Impl`), provided ndarray accepts its size. -/
structure Lawful {C A D : Type} (s : Shape C A D) (L : Lat C A D) (rep : C → Prop) : Prop where
  laws : LatLaws L
  impl : ∀ [DecidableEq C] [DecidableEq D], Constructible s → Impl s L rep
  dims : s.horizontal = L.width ∧ s.vertical = L.height ∧ s.axis.count = L.axes.length

/-- The shapes of the crate listed in `Sound` are lawful. -/
theorem Sound.lawful {C A D : Type} {s : Shape C A D} {L : Lat C A D} {rep : C → Prop} (h : Sound s L rep) : Lawful s L rep :=
  ⟨h.laws, h.impl, h.dims⟩

instance {C A D : Type} {s : Shape C A D} {L : Lat C A D} {rep : C → Prop} : Coe (Sound s L rep) (Lawful s L rep) := ⟨Sound.lawful⟩

theorem Lawful.byRef {C A D : Type} {s : Shape C A D} {L : Lat C A D} {rep : C → Prop} (h : Lawful s L rep) :
    Lawful s.byRef L rep := ⟨h.laws, fun hc => (h.impl hc).byRef, h.dims⟩

namespace Lawful
theorem square (m : Machine) (h v : Nat) : Lawful (squareShape m h v) (squareLat h v) (fun _ => True) := (Sound.square m h v).lawful
theorem squareDirected (m : Machine) (h v : Nat) : Lawful (squareShapeDirected m h v) (squareLatDirected h v) (fun _ => True) :=
  (Sound.squareDirected m h v).lawful
theorem diag (m : Machine) (h v : Nat) : Lawful (diagShape m h v) (diagLat h v) (fun _ => True) := (Sound.diag m h v).lawful
theorem diagDirected (m : Machine) (h v : Nat) : Lawful (diagShapeDirected m h v) (diagLatDirected h v) (fun _ => True) :=
  (Sound.diagDirected m h v).lawful
theorem hexOffR (m : Machine) (k : Marker) (h v : Nat) : Lawful (hexOffR m k h v) (offLatR k.isEven h v) (fun _ => True) :=
  (Sound.hexOffR m k h v).lawful
theorem hexOffRDirected (m : Machine) (k : Marker) (h v : Nat) :
    Lawful (hexOffRDirected m k h v) (offLatDR k.isEven h v) (fun _ => True) := (Sound.hexOffRDirected m k h v).lawful
theorem hexOffRLew (m : Machine) (k : Marker) (h v : Nat) : Lawful (hexOffRLew m k h v) (offLatRLoop k.isEven h v) (fun _ => True) :=
  (Sound.hexOffRLew m k h v).lawful
theorem hexAxR (m : Machine) (t : CoordTy) (k : Marker) (h v : Nat) (ht : Holds t k.isFlatTop h v) :
    Lawful (hexAxR m t k h v) (axLatR k.isEven k.isFlatTop h v) (axRep m k.isEven k.isFlatTop) := (Sound.hexAxR m t k h v ht).lawful
theorem hexAxRDirected (m : Machine) (t : CoordTy) (k : Marker) (h v : Nat) (ht : Holds t k.isFlatTop h v) :
    Lawful (hexAxRDirected m t k h v) (axLatDR k.isEven k.isFlatTop h v) (axRep m k.isEven k.isFlatTop) :=
  (Sound.hexAxRDirected m t k h v ht).lawful
theorem hexAxQ (m : Machine) (t : CoordTy) (k : Marker) (h v : Nat) (ht : Holds t k.isFlatTop h v) :
    Lawful (hexAxQ m t k h v) (axLatQ k.isEven k.isFlatTop h v) (axRep m k.isEven k.isFlatTop) := (Sound.hexAxQ m t k h v ht).lawful
theorem hexAxQDirected (m : Machine) (t : CoordTy) (k : Marker) (h v : Nat) (ht : Holds t k.isFlatTop h v) :
    Lawful (hexAxQDirected m t k h v) (axLatDQ k.isEven k.isFlatTop h v) (axRep m k.isEven k.isFlatTop) :=
  (Sound.hexAxQDirected m t k h v ht).lawful
end Lawful

end LG
