import Verif.Model.Square
import Verif.Model.HexAxes
/-
Model of src/hex/offset_based/shapes.rs. `HexOffset(Offset)` is a newtype and is represented by `Offset`.
`H: Into<usize>`, `V: Into<usize>` (usize or the const-generic wrapper) are represented by their `usize` value.
-/
namespace LG

/-- `move_coord_r`. hex/offset_based/shapes.rs:101-124. -/
def offMoveR (m : Machine) (h v : Nat) (o : Offset) (dir : AxisDR) (flag : Nat) : Res (Option Offset) :=
  match dir, o.vertical % 2 == flag with
  | .E, _ => addXCheck m o h
  | .W, _ => .ok (o.subX 1)
  | .NE, true | .NW, false => addYCheck m o v
  | .SE, true | .SW, false => .ok (o.subY 1)
  | .NE, false => do andThen (← addXCheck m o h) fun o => addYCheck m o v
  | .SE, false => do andThen (← addXCheck m o h) fun o => .ok (o.subY 1)
  | .SW, true => andThen (o.subX 1) fun o => .ok (o.subY 1)
  | .NW, true => andThen (o.subX 1) fun o => addYCheck m o v

/-- `o.add_x(1).check_x(h).unwrap_or_else(|| o.set_x(0))`. offset_based/shapes.rs:135, 139-142. -/
def wrapE (m : Machine) (o : Offset) (h : Nat) : Res Offset := do
  match ← addXCheck m o h with
  | some o' => .ok o'
  | none => .ok (o.setX 0)

/-- `o.sub_x(1).unwrap_or_else(|| o.set_x(h - 1))`. offset_based/shapes.rs:136, 150-152. -/
def wrapW (m : Machine) (o : Offset) (h : Nat) : Res Offset :=
  match o.subX 1 with
  | some o' => .ok o'
  | none => do .ok (o.setX (← usub m h 1))

/-- `move_coord_r_lew`. hex/offset_based/shapes.rs:126-162. -/
def offMoveRLew (m : Machine) (h v : Nat) (o : Offset) (dir : AxisDR) (flag : Nat) : Res (Option Offset) :=
  match dir, o.vertical % 2 == flag with
  | .E, _ => do .ok (some (← wrapE m o h))
  | .W, _ => do .ok (some (← wrapW m o h))
  | .NE, true | .NW, false => addYCheck m o v
  | .SE, true | .SW, false => .ok (o.subY 1)
  | .NE, false => do addYCheck m (← wrapE m o h) v
  | .SE, false => do .ok ((← wrapE m o h).subY 1)
  | .SW, true => do .ok ((← wrapW m o h).subY 1)
  | .NW, true => do addYCheck m (← wrapW m o h) v

/-- `move_coord_q`. hex/offset_based/shapes.rs:230-250. -/
def offMoveQ (m : Machine) (h v : Nat) (o : Offset) (dir : AxisDQ) (flag : Nat) : Res (Option Offset) :=
  match dir, o.vertical % 2 != flag with
  | .N, _ => addYCheck m o v
  | .S, _ => .ok (o.subY 1)
  | .NE, true | .NW, false => addXCheck m o h
  | .SE, true | .SW, false => .ok (o.subX 1)
  | .NE, false => do addXCheck m (← o.addY m 1) h
  | .SE, false => do andThen ((← o.addY m 1).subX 1) fun o => .ok (o.checkY v)
  | .SW, true => andThen (o.subY 1) fun o => .ok (o.subX 1)
  | .NW, true => andThen (o.subY 1) fun o => addXCheck m o h

/-- `move_coord_q_lew`. hex/offset_based/shapes.rs:252-288. -/
def offMoveQLew (m : Machine) (h v : Nat) (o : Offset) (dir : AxisDQ) (flag : Nat) : Res (Option Offset) :=
  match dir, o.vertical % 2 != flag with
  | .N, _ => do .ok (some (← wrapE m o h))
  | .S, _ => do .ok (some (← wrapW m o h))
  | .NE, true | .NW, false => addXCheck m o h
  | .SE, true | .SW, false => .ok (o.subX 1)
  | .NE, false => do addYCheck m (← wrapE m o h) v
  | .SE, false => do .ok ((← wrapE m o h).subY 1)
  | .SW, true => do .ok ((← wrapW m o h).subY 1)
  | .NW, true => do addYCheck m (← wrapW m o h) v

/-- The row shift flag passed by the bases: 0 for `OddR`/`OddQ`, 1 for `EvenR`/`EvenQ`.
offset_based/shapes.rs:62, 73, 86, 97, 173, 184, 197, 208. -/
def offFlag (k : Marker) : Nat := if k.isEven then 1 else 0

/-- `impl Shape for HexOffsetShape<B, L, H, V>`, generic over the axis and the base's move function.
offset_based/shapes.rs:327-378 (`L = ()`) and 380-431 (`L = LoopEW`): the two impls differ only in the move function. -/
def hexOffsetShapeOf {A D : Type} (m : Machine) (axis : Axis A D) (h v : Nat)
    (move : Offset → D → Res (Option Offset)) : Shape Offset A D where
  m := m
  axis := axis
  horizontal := h
  vertical := v
  toOffset := fun c => .ok (rangeCheck h v c)
  toOffsetUnchecked := fun c => .ok c
  offsetToCoordinate := fun o => .ok o
  horizontalEdgeSize := fun _ => .ok h
  verticalEdgeSize := fun _ => .ok v
  moveCoord := move
  moveCoordUnchecked := defaultMoveCoordUnchecked m move
  isNeighbor := defaultIsNeighbor axis move

/-- `HexOffsetShape<OddR | EvenR, ()>`. offset_based/shapes.rs:53-64, 77-88, 327-378. -/
def hexOffR (m : Machine) (k : Marker) (h v : Nat) : Shape Offset AxisR AxisDR :=
  hexOffsetShapeOf m (axisR m) h v fun o d => offMoveR m h v o d (offFlag k)

/-- `HexOffsetShape<DirectedMarker<OddR | EvenR>, ()>`. offset_based/shapes.rs:212-228, 327-378. -/
def hexOffRDirected (m : Machine) (k : Marker) (h v : Nat) : Shape Offset AxisDR AxisDR :=
  hexOffsetShapeOf m (axisDR m) h v fun o d => offMoveR m h v o d (offFlag k)

/-- `HexOffsetShape<OddR | EvenR, LoopEW>`. offset_based/shapes.rs:66-75, 90-99, 380-431. -/
def hexOffRLew (m : Machine) (k : Marker) (h v : Nat) : Shape Offset AxisR AxisDR :=
  hexOffsetShapeOf m (axisR m) h v fun o d => offMoveRLew m h v o d (offFlag k)

/-- `HexOffsetShape<OddQ | EvenQ, ()>`. offset_based/shapes.rs:164-175, 188-199, 327-378. -/
def hexOffQ (m : Machine) (k : Marker) (h v : Nat) : Shape Offset AxisQ AxisDQ :=
  hexOffsetShapeOf m (axisQ m) h v fun o d => offMoveQ m h v o d (offFlag k)

/-- `HexOffsetShape<DirectedMarker<OddQ | EvenQ>, ()>`. offset_based/shapes.rs:212-228, 327-378. -/
def hexOffQDirected (m : Machine) (k : Marker) (h v : Nat) : Shape Offset AxisDQ AxisDQ :=
  hexOffsetShapeOf m (axisDQ m) h v fun o d => offMoveQ m h v o d (offFlag k)

/-- `HexOffsetShape<OddQ | EvenQ, LoopEW>`. offset_based/shapes.rs:177-186, 201-210, 380-431. -/
def hexOffQLew (m : Machine) (k : Marker) (h v : Nat) : Shape Offset AxisQ AxisDQ :=
  hexOffsetShapeOf m (axisQ m) h v fun o d => offMoveQLew m h v o d (offFlag k)

end LG
