import Verif.Spec
import Verif.Model.HexOffset
/-
Which shapes of the crate the graph-level properties are claimed for, and the lattice each of them is meant to be.
-/
namespace LG

/-- `Sound s L rep`: `s` is one of the crate's shapes in the list below, `L` is the lattice it stands for. `rep` are the
coordinates whose position test does not overflow: all of them, except for axial coordinates near `isize::MIN/MAX` in debug
builds (see C28). -/
inductive Sound : {C A D : Type} → Shape C A D → Lat C A D → (C → Prop) → Prop where
  /-- `SquareShape<Axis = SquareAxis>` -/
  | square (m : Machine) (h v : Nat) : Sound (squareShape m h v) (squareLat h v) (fun _ => True)
  /-- `SquareShape` with the directed axis -/
  | squareDirected (m : Machine) (h v : Nat) :
    Sound (squareShapeDirected m h v) (squareLatDirected h v) (fun _ => True)
  /-- `SquareDiagonalShape` -/
  | diag (m : Machine) (h v : Nat) : Sound (diagShape m h v) (diagLat h v) (fun _ => True)
  /-- `SquareDiagonalShape` with the directed axis -/
  | diagDirected (m : Machine) (h v : Nat) : Sound (diagShapeDirected m h v) (diagLatDirected h v) (fun _ => True)
  /-- `HexOffsetShape<OddR | EvenR, ()>` -/
  | hexOffR (m : Machine) (k : Marker) (h v : Nat) : Sound (hexOffR m k h v) (offLatR k.isEven h v) (fun _ => True)
  /-- `HexOffsetShape<DirectedMarker<OddR | EvenR>, ()>` -/
  | hexOffRDirected (m : Machine) (k : Marker) (h v : Nat) :
    Sound (hexOffRDirected m k h v) (offLatDR k.isEven h v) (fun _ => True)
  /-- `HexOffsetShape<OddR | EvenR, LoopEW>` -/
  | hexOffRLew (m : Machine) (k : Marker) (h v : Nat) :
    Sound (hexOffRLew m k h v) (offLatRLoop k.isEven h v) (fun _ => True)
  /-- `HexAxialShape<OddR | EvenR, (), HA>`, the map fitting in the component type of `HA` -/
  | hexAxR (m : Machine) (t : CoordTy) (k : Marker) (h v : Nat) (ht : Holds t k.isFlatTop h v) :
    Sound (hexAxR m t k h v) (axLatR k.isEven k.isFlatTop h v) (axRep m k.isEven k.isFlatTop)
  /-- `HexAxialShape<DirectedMarker<OddR | EvenR>, (), HA>` -/
  | hexAxRDirected (m : Machine) (t : CoordTy) (k : Marker) (h v : Nat) (ht : Holds t k.isFlatTop h v) :
    Sound (hexAxRDirected m t k h v) (axLatDR k.isEven k.isFlatTop h v) (axRep m k.isEven k.isFlatTop)
  /-- `HexAxialShape<OddQ | EvenQ, (), HA>` -/
  | hexAxQ (m : Machine) (t : CoordTy) (k : Marker) (h v : Nat) (ht : Holds t k.isFlatTop h v) :
    Sound (hexAxQ m t k h v) (axLatQ k.isEven k.isFlatTop h v) (axRep m k.isEven k.isFlatTop)
  /-- `HexAxialShape<DirectedMarker<OddQ | EvenQ>, (), HA>` -/
  | hexAxQDirected (m : Machine) (t : CoordTy) (k : Marker) (h v : Nat) (ht : Holds t k.isFlatTop h v) :
    Sound (hexAxQDirected m t k h v) (axLatDQ k.isEven k.isFlatTop h v) (axRep m k.isEven k.isFlatTop)
  /-- a reference to any of them -/
  | byRef {C A D : Type} {s : Shape C A D} {L : Lat C A D} {rep : C → Prop} (h : Sound s L rep) : Sound s.byRef L rep

end LG
