import Verif.Model.Shapes
/-
Model of src/lattice_abstract/square.rs: the square and square-with-diagonals shapes, undirected and directed.
`SquareOffset(Offset)` is a transparent newtype (square.rs:94) and is represented by `Offset` itself.
-/
namespace LG

/-- `SquareAxis`. lattice_abstract/square.rs:20-23. -/
inductive SquareAxis where | X | Y
deriving DecidableEq, Repr

/-- `DirectedSquareAxis`. square.rs:216-225. -/
inductive DSquareAxis where | X | Y | RX | RY
deriving DecidableEq, Repr

namespace DSquareAxis
/-- `DirectedSquareAxis::to_index`. square.rs:233-240. -/
def toIndex : DSquareAxis → Nat
  | .X => 0 | .Y => 1 | .RX => 2 | .RY => 3
/-- `DirectedSquareAxis::from_index`. square.rs:243-251. -/
def fromIndex : Nat → Option DSquareAxis
  | 0 => some .X | 1 => some .Y | 2 => some .RX | 3 => some .RY | _ => none
/-- `DirectedSquareAxis::backward`. square.rs:259-266. -/
def backward : DSquareAxis → DSquareAxis
  | .X => .RX | .Y => .RY | .RX => .X | .RY => .Y
end DSquareAxis

/-- `impl Axis for DirectedSquareAxis`, with the blanket `AxisDirection` impl of shapes.rs:279-298.
square.rs:227-272. `from_index_unchecked` is the trait default. -/
def dSquareAxis (m : Machine) : Axis DSquareAxis DSquareAxis where
  count := 4
  directed := true
  undirectedCount := defaultUndirectedCount true 4
  toIndex := DSquareAxis.toIndex
  fromIndex := DSquareAxis.fromIndex
  fromIndexUnchecked := defaultFromIndexUnchecked m DSquareAxis.fromIndex
  foward := fun a => .ok a
  backward := fun a => .ok a.backward
  fromDirection := fun d => .ok d
  isForwardDirection :=
    defaultIsForwardDirection true DSquareAxis.toIndex (fun d => .ok d) DSquareAxis.toIndex
  dirToIndex := DSquareAxis.toIndex
  dirFromIndex := DSquareAxis.fromIndex
  dirFromIndexUnchecked := defaultFromIndexUnchecked m DSquareAxis.fromIndex

namespace SquareAxis
/-- `SquareAxis::to_index`. square.rs:36-41. -/
def toIndex : SquareAxis → Nat
  | .X => 0 | .Y => 1
/-- `SquareAxis::from_index`. square.rs:53-62. -/
def fromIndex : Nat → Option SquareAxis
  | 0 => some .X | 1 => some .Y | _ => none
/-- `SquareAxis::from_index_unchecked` (`unreachable_unchecked` in both modes). square.rs:44-50. -/
def fromIndexUnchecked : Nat → Res SquareAxis
  | 0 => .ok .X | 1 => .ok .Y | _ => .error .ub
/-- `SquareAxis::foward`. square.rs:65-70. -/
def foward : SquareAxis → DSquareAxis
  | .X => .X | .Y => .Y
/-- `SquareAxis::backward`. square.rs:73-78. -/
def backward : SquareAxis → DSquareAxis
  | .X => .RX | .Y => .RY
/-- `SquareAxis::from_direction`. square.rs:81-88. -/
def fromDirection : DSquareAxis → SquareAxis
  | .X => .X | .RX => .X | .Y => .Y | .RY => .Y
end SquareAxis

/-- `impl Axis for SquareAxis`. square.rs:25-89. Its `Direction` is `DirectedSquareAxis`. -/
def squareAxis (m : Machine) : Axis SquareAxis DSquareAxis where
  count := 2
  directed := false
  undirectedCount := defaultUndirectedCount false 2
  toIndex := SquareAxis.toIndex
  fromIndex := SquareAxis.fromIndex
  fromIndexUnchecked := SquareAxis.fromIndexUnchecked
  foward := fun a => .ok a.foward
  backward := fun a => .ok a.backward
  fromDirection := fun d => .ok (SquareAxis.fromDirection d)
  isForwardDirection :=
    defaultIsForwardDirection false DSquareAxis.toIndex (fun d => .ok (SquareAxis.fromDirection d)) SquareAxis.toIndex
  dirToIndex := (dSquareAxis m).dirToIndex
  dirFromIndex := (dSquareAxis m).dirFromIndex
  dirFromIndexUnchecked := (dSquareAxis m).dirFromIndexUnchecked

/-- `range_check`. square.rs:136-142. Also the bodies of the diagonal shapes' `to_offset`, square.rs:493-499 and 559-565. -/
def rangeCheck (h v : Nat) (c : Offset) : Option Offset :=
  if c.horizontal < h ∧ c.vertical < v then some c else none

/-- `move_coord` of the square shapes. square.rs:145-157. -/
def squareMove (m : Machine) (h v : Nat) (c : Offset) : DSquareAxis → Res (Option Offset)
  | .X => do .ok ((← c.addX m 1).checkX h)
  | .Y => do .ok ((← c.addY m 1).checkY v)
  | .RX => .ok (c.subX 1)
  | .RY => .ok (c.subY 1)

/-- `impl Shape for SquareShape` (undirected). square.rs:124-132, 159-212. -/
def squareShape (m : Machine) (h v : Nat) : Shape Offset SquareAxis DSquareAxis where
  m := m
  axis := squareAxis m
  horizontal := h
  vertical := v
  toOffset := fun c => .ok (rangeCheck h v c)
  toOffsetUnchecked := fun c => .ok c
  offsetToCoordinate := fun o => .ok o
  horizontalEdgeSize := fun a => match a with | .X => usub m h 1 | .Y => .ok h
  verticalEdgeSize := fun a => match a with | .X => .ok v | .Y => usub m v 1
  moveCoord := squareMove m h v
  moveCoordUnchecked := defaultMoveCoordUnchecked m (squareMove m h v)
  isNeighbor := defaultIsNeighbor (squareAxis m) (squareMove m h v)

/-- `impl Shape for SquareShape<Directed>`. square.rs:274-308. -/
def squareShapeDirected (m : Machine) (h v : Nat) : Shape Offset DSquareAxis DSquareAxis where
  m := m
  axis := dSquareAxis m
  horizontal := h
  vertical := v
  toOffset := fun c => .ok (rangeCheck h v c)
  toOffsetUnchecked := defaultToOffsetUnchecked m (fun c => .ok (rangeCheck h v c))
  offsetToCoordinate := fun o => .ok o
  horizontalEdgeSize := fun _ => .ok h
  verticalEdgeSize := fun _ => .ok v
  moveCoord := squareMove m h v
  moveCoordUnchecked := defaultMoveCoordUnchecked m (squareMove m h v)
  isNeighbor := defaultIsNeighbor (dSquareAxis m) (squareMove m h v)

/-- `SquareDiagonalAxis`. square.rs:312-317. -/
inductive DiagAxis where | N | NE | E | SE
deriving DecidableEq, Repr

/-- `DirectedSquareDiagonalAxis`. square.rs:374-383. -/
inductive DDiagAxis where | N | NE | E | SE | S | SW | W | NW
deriving DecidableEq, Repr

namespace DDiagAxis
/-- `DirectedSquareDiagonalAxis::to_index`. square.rs:396-407. -/
def toIndex : DDiagAxis → Nat
  | .N => 0 | .NE => 1 | .E => 2 | .SE => 3 | .S => 4 | .SW => 5 | .W => 6 | .NW => 7
/-- `DirectedSquareDiagonalAxis::from_index`. square.rs:425-437. -/
def fromIndex : Nat → Option DDiagAxis
  | 0 => some .N | 1 => some .NE | 2 => some .E | 3 => some .SE
  | 4 => some .S | 5 => some .SW | 6 => some .W | 7 => some .NW | _ => none
/-- `DirectedSquareDiagonalAxis::from_index_unchecked`. square.rs:410-422. -/
def fromIndexUnchecked : Nat → Res DDiagAxis
  | 0 => .ok .N | 1 => .ok .NE | 2 => .ok .E | 3 => .ok .SE
  | 4 => .ok .S | 5 => .ok .SW | 6 => .ok .W | 7 => .ok .NW | _ => .error .ub
/-- `DirectedSquareDiagonalAxis::backward`. square.rs:445-448. -/
def backward (a : DDiagAxis) : Res DDiagAxis :=
  let i := a.toIndex
  fromIndexUnchecked (if i < 4 then i + 4 else i - 4)
end DDiagAxis

/-- `impl Axis for DirectedSquareDiagonalAxis`. square.rs:385-454. -/
def dDiagAxis (_m : Machine) : Axis DDiagAxis DDiagAxis where
  count := 8
  directed := true
  undirectedCount := defaultUndirectedCount true 8
  toIndex := DDiagAxis.toIndex
  fromIndex := DDiagAxis.fromIndex
  fromIndexUnchecked := DDiagAxis.fromIndexUnchecked
  foward := fun a => .ok a
  backward := DDiagAxis.backward
  fromDirection := fun d => .ok d
  isForwardDirection := defaultIsForwardDirection true DDiagAxis.toIndex (fun d => .ok d) DDiagAxis.toIndex
  dirToIndex := DDiagAxis.toIndex
  dirFromIndex := DDiagAxis.fromIndex
  dirFromIndexUnchecked := DDiagAxis.fromIndexUnchecked

namespace DiagAxis
/-- `SquareDiagonalAxis::to_index`. square.rs:330-337. -/
def toIndex : DiagAxis → Nat
  | .N => 0 | .NE => 1 | .E => 2 | .SE => 3
/-- `SquareDiagonalAxis::from_index`. square.rs:340-351. -/
def fromIndex : Nat → Option DiagAxis
  | 0 => some .N | 1 => some .NE | 2 => some .E | 3 => some .SE | _ => none
/-- `SquareDiagonalAxis::foward`. square.rs:354-356. -/
def foward (a : DiagAxis) : Res DDiagAxis := DDiagAxis.fromIndexUnchecked a.toIndex
/-- `SquareDiagonalAxis::backward`. square.rs:359-361. -/
def backward (a : DiagAxis) : Res DDiagAxis := DDiagAxis.fromIndexUnchecked (a.toIndex + 4)
/-- `SquareDiagonalAxis::from_direction` (through the default `from_index_unchecked`). square.rs:364-369. -/
def fromDirection (m : Machine) (d : DDiagAxis) : Res DiagAxis :=
  let i := d.toIndex
  defaultFromIndexUnchecked m fromIndex (if i < 4 then i else i - 4)
end DiagAxis

/-- `impl Axis for SquareDiagonalAxis`. square.rs:319-370. -/
def diagAxis (m : Machine) : Axis DiagAxis DDiagAxis where
  count := 4
  directed := false
  undirectedCount := defaultUndirectedCount false 4
  toIndex := DiagAxis.toIndex
  fromIndex := DiagAxis.fromIndex
  fromIndexUnchecked := defaultFromIndexUnchecked m DiagAxis.fromIndex
  foward := DiagAxis.foward
  backward := DiagAxis.backward
  fromDirection := DiagAxis.fromDirection m
  isForwardDirection := defaultIsForwardDirection false DDiagAxis.toIndex (DiagAxis.fromDirection m) DiagAxis.toIndex
  dirToIndex := (dDiagAxis m).dirToIndex
  dirFromIndex := (dDiagAxis m).dirFromIndex
  dirFromIndexUnchecked := (dDiagAxis m).dirFromIndexUnchecked

/-- `o.add_x(1).check_x(h)` followed by `.and_then(k)`: the shared idiom of the diagonal and hex moves. -/
def addXCheck (m : Machine) (o : Offset) (h : Nat) : Res (Option Offset) := do
  .ok ((← o.addX m 1).checkX h)

/-- `o.add_y(1).check_y(v)`. -/
def addYCheck (m : Machine) (o : Offset) (v : Nat) : Res (Option Offset) := do
  .ok ((← o.addY m 1).checkY v)

/-- `Option::and_then` with a closure that may fault. -/
def andThen {α β : Type} (x : Option α) (k : α → Res (Option β)) : Res (Option β) :=
  match x with
  | some a => k a
  | none => .ok none

/-- `move_coord` of the diagonal shapes (the same body twice). square.rs:512-539 and 578-605. -/
def diagMove (m : Machine) (h v : Nat) (o : Offset) : DDiagAxis → Res (Option Offset)
  | .N => addYCheck m o v
  | .NE => do andThen (← addXCheck m o h) fun o => addYCheck m o v
  | .E => addXCheck m o h
  | .SE => do andThen (← addXCheck m o h) fun o => .ok (o.subY 1)
  | .S => .ok (o.subY 1)
  | .SW => andThen (o.subX 1) fun o => .ok (o.subY 1)
  | .W => .ok (o.subX 1)
  | .NW => andThen (o.subX 1) fun o => addYCheck m o v

/-- `impl Shape for SquareDiagonalShape` (undirected). square.rs:465-540. -/
def diagShape (m : Machine) (h v : Nat) : Shape Offset DiagAxis DDiagAxis where
  m := m
  axis := diagAxis m
  horizontal := h
  vertical := v
  toOffset := fun c => .ok (rangeCheck h v c)
  toOffsetUnchecked := fun c => .ok c
  offsetToCoordinate := fun o => .ok o
  horizontalEdgeSize := fun _ => .ok h
  verticalEdgeSize := fun _ => .ok v
  moveCoord := diagMove m h v
  moveCoordUnchecked := defaultMoveCoordUnchecked m (diagMove m h v)
  isNeighbor := defaultIsNeighbor (diagAxis m) (diagMove m h v)

/-- `impl Shape for SquareDiagonalShape<Directed>`. square.rs:542-606. -/
def diagShapeDirected (m : Machine) (h v : Nat) : Shape Offset DDiagAxis DDiagAxis where
  m := m
  axis := dDiagAxis m
  horizontal := h
  vertical := v
  toOffset := fun c => .ok (rangeCheck h v c)
  toOffsetUnchecked := fun c => .ok c
  offsetToCoordinate := fun o => .ok o
  horizontalEdgeSize := fun _ => .ok h
  verticalEdgeSize := fun _ => .ok v
  moveCoord := diagMove m h v
  moveCoordUnchecked := defaultMoveCoordUnchecked m (diagMove m h v)
  isNeighbor := defaultIsNeighbor (dDiagAxis m) (diagMove m h v)

end LG
