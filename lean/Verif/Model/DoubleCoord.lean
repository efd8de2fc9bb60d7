import Verif.Model.HexAxes
/-
Model of src/hex/double_coord/shapes.rs. Only the point-top (`AxisR`) shape implements `Shape`; the flat-top base move
function exists but no shape uses it.
-/
namespace LG

/-- `DoubleCoord`. hex/double_coord/shapes.rs:9-12. -/
structure DCoord where
  h : Nat
  v : Nat
deriving DecidableEq, Repr

/-- `coord.h += n; if coord.h >= h_max { break }`. double_coord/shapes.rs:80-83, 90-93, 96-99. -/
def dAddH (m : Machine) (c : DCoord) (n hMax : Nat) : Res (Option DCoord) := do
  let h ← uadd m c.h n
  if hMax ≤ h then .ok none else .ok (some ⟨h, c.v⟩)

/-- `coord.v += n; if coord.v >= v_max { break }`. double_coord/shapes.rs:84-87, 131-134. -/
def dAddV (m : Machine) (c : DCoord) (n vMax : Nat) : Res (Option DCoord) := do
  let v ← uadd m c.v n
  if vMax ≤ v then .ok none else .ok (some ⟨c.h, v⟩)

/-- `if let Some(x) = coord.h.checked_sub(n) { coord.h = x } else { break }`. double_coord/shapes.rs:107-111, 119-123. -/
def dSubH (c : DCoord) (n : Nat) : Option DCoord := if n ≤ c.h then some ⟨c.h - n, c.v⟩ else none

/-- `if let Some(x) = coord.v.checked_sub(n) { coord.v = x } else { break }`. double_coord/shapes.rs:100-104. -/
def dSubV (c : DCoord) (n : Nat) : Option DCoord := if n ≤ c.v then some ⟨c.h, c.v - n⟩ else none

/-- `move_coord_r`. double_coord/shapes.rs:70-140. -/
def dblMoveR (m : Machine) (c : DCoord) (dir : AxisDR) (hMax vMax : Nat) : Res (Option DCoord) :=
  match dir with
  | .NE => do
    match ← dAddH m c 1 hMax with
    | some c => dAddV m c 1 vMax
    | none => .ok none
  | .E => dAddH m c 2 hMax
  | .SE => do
    match ← dAddH m c 1 hMax with
    | some c => .ok (dSubV c 1)
    | none => .ok none
  | .SW => .ok ((dSubH c 1).bind fun c => dSubV c 1)
  | .W => .ok (dSubH c 2)
  | .NW =>
    match dSubH c 1 with
    | some c => dAddV m c 1 vMax
    | none => .ok none

/-- `move_coord_q` (reachable only through the public-but-unused `DoubleCoordShapeBase for OddQ`).
double_coord/shapes.rs:142-212. -/
def dblMoveQ (m : Machine) (c : DCoord) (dir : AxisDQ) (hMax vMax : Nat) : Res (Option DCoord) :=
  match dir with
  | .N => dAddV m c 2 vMax
  | .NE => do
    match ← dAddH m c 1 hMax with
    | some c => dAddV m c 1 vMax
    | none => .ok none
  | .SE => do
    match ← dAddH m c 1 hMax with
    | some c => .ok (dSubV c 1)
    | none => .ok none
  | .S => .ok (dSubV c 2)
  | .SW => .ok ((dSubH c 1).bind fun c => dSubV c 1)
  | .NW =>
    match dSubH c 1 with
    | some c => dAddV m c 1 vMax
    | none => .ok none

/-- `usize::abs_diff`. -/
def absDiff (a b : Nat) : Nat := if a < b then b - a else a - b

/-- `DoubleCoordShape::is_neighbor` (overrides the default). double_coord/shapes.rs:309-322. -/
def dblIsNeighbor (m : Machine) (a b : DCoord) : Res Bool :=
  let difV := absDiff a.v b.v
  if difV > 1 then .ok false
  else do
    let difH := absDiff a.h b.h
    .ok ((← uadd m difH difV) == 2)

/-- `impl Shape for DoubleCoordShape<OddR, (), H, V, AxisR>`. double_coord/shapes.rs:257-323. -/
def dblShape (m : Machine) (h v : Nat) : Shape DCoord AxisR AxisDR where
  m := m
  axis := axisR m
  horizontal := h
  vertical := v
  toOffset := fun c => if c.h / 2 < h ∧ c.v < v then .ok (some ⟨c.h / 2, c.v⟩) else .ok none
  toOffsetUnchecked := fun c => .ok ⟨c.h / 2, c.v⟩
  offsetToCoordinate := fun o => do
    .ok ⟨← uadd m (← umul m o.horizontal 2) (o.vertical % 2), o.vertical⟩
  horizontalEdgeSize := fun _ => .ok h
  verticalEdgeSize := fun _ => .ok v
  moveCoord := fun c d => dblMoveR m c d h v
  moveCoordUnchecked := defaultMoveCoordUnchecked m (fun c d => dblMoveR m c d h v)
  isNeighbor := dblIsNeighbor m

end LG
