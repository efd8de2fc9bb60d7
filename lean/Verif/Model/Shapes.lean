import Verif.Prelude
/-
Model of src/lattice_abstract/shapes.rs: `Offset`, the `Axis`/`AxisDirection`/`Shape` traits, `Direction<T>`, `Shape for &S`.
-/
namespace LG

/-- `Offset`. lattice_abstract/shapes.rs:349-369 (with `new`, `horizontal` and `vertical`). Fields are `usize`. -/
structure Offset where
  horizontal : Nat
  vertical : Nat
deriving DecidableEq, Repr

namespace Offset
/-- `Offset::add_x`. shapes.rs:371-373. -/
def addX (m : Machine) (o : Offset) (x : Nat) : Res Offset := do
  .ok ⟨← uadd m o.horizontal x, o.vertical⟩
/-- `Offset::add_y`. shapes.rs:375-377. -/
def addY (m : Machine) (o : Offset) (y : Nat) : Res Offset := do
  .ok ⟨o.horizontal, ← uadd m o.vertical y⟩
/-- `Offset::set_x`. shapes.rs:379-381. -/
def setX (o : Offset) (x : Nat) : Offset := ⟨x, o.vertical⟩
/-- `Offset::sub_x` (`checked_sub`). shapes.rs:386-388. -/
def subX (o : Offset) (x : Nat) : Option Offset :=
  if x ≤ o.horizontal then some ⟨o.horizontal - x, o.vertical⟩ else none
/-- `Offset::sub_y` (`checked_sub`). shapes.rs:390-392. -/
def subY (o : Offset) (y : Nat) : Option Offset :=
  if y ≤ o.vertical then some ⟨o.horizontal, o.vertical - y⟩ else none
/-- `Offset::check_x`. shapes.rs:400-406. -/
def checkX (o : Offset) (xMax : Nat) : Option Offset := if o.horizontal < xMax then some o else none
/-- `Offset::check_y`. shapes.rs:408-414. -/
def checkY (o : Offset) (yMax : Nat) : Option Offset := if o.vertical < yMax then some o else none
end Offset

/-- The `Axis` trait (with the `AxisDirection` impl of its `Direction`). lattice_abstract/shapes.rs:212-276.
`A` is the axis type, `D` its associated `Direction`. Functions that go through an `unsafe` unchecked conversion return `Res`,
so that a wrong index shows up as a fault. -/
structure Axis (A D : Type) where
  count : Nat
  directed : Bool
  undirectedCount : Nat
  toIndex : A → Nat
  fromIndex : Nat → Option A
  fromIndexUnchecked : Nat → Res A
  foward : A → Res D
  backward : A → Res D
  fromDirection : D → Res A
  isForwardDirection : D → Res Bool
  dirToIndex : D → Nat
  dirFromIndex : Nat → Option D
  dirFromIndexUnchecked : Nat → Res D

/-- Default `Axis::UNDIRECTED_COUNT`. shapes.rs:218-222. -/
def defaultUndirectedCount (directed : Bool) (count : Nat) : Nat := if directed then count else count * 2

/-- Default `Axis::from_index_unchecked`. shapes.rs:233-235. -/
def defaultFromIndexUnchecked {A : Type} (m : Machine) (fromIndex : Nat → Option A) (i : Nat) : Res A :=
  match fromIndex i with
  | some a => .ok a
  | none => unreachableDebugChecked m

/-- Default `Axis::is_forward_direction`. shapes.rs:246-248. -/
def defaultIsForwardDirection {A D : Type} (directed : Bool) (dirToIndex : D → Nat) (fromDirection : D → Res A)
    (toIndex : A → Nat) (d : D) : Res Bool :=
  if directed then .ok true else do
    let a ← fromDirection d
    .ok (dirToIndex d == toIndex a)

/-- Deprecated `AxisDirection::is_forward` of an axis that is its own `Direction` (blanket impl). shapes.rs:279-286. -/
def blanketIsForward {A : Type} (_ax : Axis A A) (_d : A) : Bool := true

/-- Deprecated `AxisDirection::is_backward` (trait default) of such an axis. shapes.rs:261-263. -/
def blanketIsBackward {A : Type} (ax : Axis A A) (d : A) : Bool := !blanketIsForward ax d

/-- Deprecated `Direction<T>`. shapes.rs:303-306. -/
inductive Direction (T : Type) where
  | foward (t : T)
  | backward (t : T)
deriving DecidableEq, Repr

namespace Direction
/-- `Direction::<T>::is_forward`. shapes.rs:310-315. -/
def isForward {T : Type} : Direction T → Bool
  | .foward _ => true
  | .backward _ => false
/-- `AxisDirection::is_backward` (default). shapes.rs:261-263. -/
def isBackward {T : Type} (d : Direction T) : Bool := !d.isForward
/-- `Direction::<T>::dir_to_index`. shapes.rs:317-322. -/
def dirToIndex {T D : Type} (ax : Axis T D) : Direction T → Nat
  | .foward x => ax.toIndex x
  | .backward x => ax.toIndex x + ax.count
/-- `Direction::<T>::dir_from_index_unchecked`. shapes.rs:324-330. -/
def dirFromIndexUnchecked {T D : Type} (ax : Axis T D) (i : Nat) : Res (Direction T) :=
  if i < ax.count then do .ok (.foward (← ax.fromIndexUnchecked i))
  else do .ok (.backward (← ax.fromIndexUnchecked (i - ax.count)))
/-- `Direction::<T>::dir_from_index`. shapes.rs:332-341. -/
def dirFromIndex {T D : Type} (ax : Axis T D) (i : Nat) : Res (Option (Direction T)) :=
  if i < ax.count then do .ok (some (.foward (← ax.fromIndexUnchecked i)))
  else .ok ((ax.fromIndex (i - ax.count)).map .backward)
end Direction

/-- The `Shape` trait: one record per impl. lattice_abstract/shapes.rs:10-128. `Result<_, E>` becomes `Option`
(all error types in the crate are `()`). The methods every impl inherits unchanged are functions on the record, below. -/
structure Shape (C A D : Type) where
  m : Machine
  axis : Axis A D
  horizontal : Nat
  vertical : Nat
  toOffset : C → Res (Option Offset)
  toOffsetUnchecked : C → Res Offset
  offsetToCoordinate : Offset → Res C
  horizontalEdgeSize : A → Res Nat
  verticalEdgeSize : A → Res Nat
  moveCoord : C → D → Res (Option C)
  moveCoordUnchecked : C → D → Res C
  isNeighbor : C → C → Res Bool

/-- Default `Shape::to_offset_unchecked`. shapes.rs:40-43. -/
def defaultToOffsetUnchecked {C : Type} (m : Machine) (toOffset : C → Res (Option Offset)) (c : C) : Res Offset := do
  match ← toOffset c with
  | some o => .ok o
  | none => unreachableDebugChecked m

/-- Default `Shape::move_coord_unchecked`. shapes.rs:96-103. -/
def defaultMoveCoordUnchecked {C D : Type} (m : Machine) (moveCoord : C → D → Res (Option C)) (c : C) (d : D) : Res C := do
  match ← moveCoord c d with
  | some c' => .ok c'
  | none => unreachableDebugChecked m

/-- The loop of `Shape::get_direction` over the remaining direction indices. shapes.rs:117-126. -/
def getDirectionFrom {C A D : Type} [DecidableEq C] (axis : Axis A D) (moveCoord : C → D → Res (Option C))
    (a b : C) : List Nat → Res (Option D)
  | [] => .ok none
  | i :: is => do
    let d ← axis.dirFromIndexUnchecked i
    match ← moveCoord a d with
    | some c => if c = b then .ok (some d) else getDirectionFrom axis moveCoord a b is
    | none => getDirectionFrom axis moveCoord a b is

/-- `Shape::get_direction` (never overridden). shapes.rs:110-127. -/
def getDirectionOf {C A D : Type} [DecidableEq C] (axis : Axis A D) (moveCoord : C → D → Res (Option C))
    (a b : C) : Res (Option D) :=
  getDirectionFrom axis moveCoord a b (List.range axis.undirectedCount)

/-- Default `Shape::is_neighbor`. shapes.rs:106-108. -/
def defaultIsNeighbor {C A D : Type} [DecidableEq C] (axis : Axis A D) (moveCoord : C → D → Res (Option C))
    (a b : C) : Res Bool := do
  .ok (← getDirectionOf axis moveCoord a b).isSome

namespace Shape
variable {C A D : Type}

/-- `Shape::node_count` (never overridden). shapes.rs:28-30. -/
def nodeCount (s : Shape C A D) : Res Nat := umul s.m s.horizontal s.vertical

/-- `Shape::index_to_offset`. shapes.rs:59-63. `%` and `/` panic on a zero divisor. -/
def indexToOffset (s : Shape C A D) (index : Nat) : Res Offset :=
  if s.vertical = 0 then .error .panic
  else .ok ⟨index / s.vertical, index % s.vertical⟩

/-- `Shape::offset_to_index`. shapes.rs:66-68. -/
def offsetToIndex (s : Shape C A D) (o : Offset) : Res Nat := do
  uadd s.m (← umul s.m o.horizontal s.vertical) o.vertical

/-- `Shape::index_to_coordinate`. shapes.rs:49-51. -/
def indexToCoordinate (s : Shape C A D) (index : Nat) : Res C := do
  s.offsetToCoordinate (← s.indexToOffset index)

/-- `Shape::to_index`. shapes.rs:53-56. -/
def toIndex (s : Shape C A D) (c : C) : Res (Option Nat) := do
  match ← s.toOffset c with
  | some o => do .ok (some (← s.offsetToIndex o))
  | none => .ok none

/-- `Shape::get_direction`. shapes.rs:110-127. -/
def getDirection [DecidableEq C] (s : Shape C A D) (a b : C) : Res (Option D) :=
  getDirectionOf s.axis s.moveCoord a b

/-- `impl Shape for &S`. shapes.rs:130-209. Every method is forwarded except the deprecated `horizontal_edge_size` and
`vertical_edge_size`, which fall back to the trait defaults (shapes.rs:72-79). -/
def byRef (s : Shape C A D) : Shape C A D where
  m := s.m
  axis := s.axis
  horizontal := s.horizontal
  vertical := s.vertical
  toOffset := s.toOffset
  toOffsetUnchecked := s.toOffsetUnchecked
  offsetToCoordinate := s.offsetToCoordinate
  horizontalEdgeSize := fun _ => .ok s.horizontal
  verticalEdgeSize := fun _ => .ok s.vertical
  moveCoord := s.moveCoord
  moveCoordUnchecked := s.moveCoordUnchecked
  isNeighbor := s.isNeighbor

end Shape
end LG
