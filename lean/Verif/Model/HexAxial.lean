import Verif.Model.HexAxes
/-
Model of src/hex/axial_based/shapes.rs, generic over the `AxialCoord` implementation (`HexAxial`, or `hex2d::Coordinate<I>`
from src/hex/hex2d.rs).
-/
namespace LG

/-- An axial coordinate: `HexAxial { r, q }` (axial_based/shapes.rs:21-24) or `hex2d::Coordinate { x = r, y = q }`
(hex2d.rs:27-46). -/
structure Axial where
  r : Int
  q : Int
deriving DecidableEq, Repr

/-- An `AxialCoord` implementation, given by the range `[lo, hi]` of its component type: `isize` for `HexAxial`, the
primitive type `I` for `hex2d::Coordinate<I>`. -/
structure CoordTy where
  lo : Int
  hi : Int

/-- `HexAxial`: components are `isize`. axial_based/shapes.rs:19-61. -/
def isizeTy (m : Machine) : CoordTy := ⟨-(m.half : Int), m.half - 1⟩

/-- `AxialCoord::new`. axial_based/shapes.rs:48-50 (`HexAxial`: `isize` always fits) and hex2d.rs:28-33
(`I::from_isize(..).unwrap_or_else(unreachable_debug_checked)`). -/
def CoordTy.new (m : Machine) (t : CoordTy) (r q : Int) : Res Axial :=
  if t.lo ≤ r ∧ r ≤ t.hi ∧ t.lo ≤ q ∧ q ≤ t.hi then .ok ⟨r, q⟩ else unreachableDebugChecked m

/-- `AxialCoord::r`. axial_based/shapes.rs:53-55 and hex2d.rs:35-39 (`to_isize().unwrap_or_else(unreachable)`). -/
def getR (m : Machine) (c : Axial) : Res Int :=
  if InI m c.r then .ok c.r else unreachableDebugChecked m

/-- `AxialCoord::q`. axial_based/shapes.rs:58-60 and hex2d.rs:41-45. -/
def getQ (m : Machine) (c : Axial) : Res Int :=
  if InI m c.q then .ok c.q else unreachableDebugChecked m

/-- `HA::new(r, q)` where both arguments may fault: arguments are evaluated left to right. -/
def newAt (m : Machine) (t : CoordTy) (r q : Res Int) : Res Axial := do
  let r ← r
  let q ← q
  t.new m r q

/-- `move_coord_r`. axial_based/shapes.rs:114-123. -/
def axMoveR (m : Machine) (t : CoordTy) (c : Axial) : AxisDR → Res Axial
  | .NE => newAt m t (getR m c) (do iadd m (← getQ m c) 1)
  | .E => newAt m t (do iadd m (← getR m c) 1) (getQ m c)
  | .SE => newAt m t (do iadd m (← getR m c) 1) (do isub m (← getQ m c) 1)
  | .SW => newAt m t (getR m c) (do isub m (← getQ m c) 1)
  | .W => newAt m t (do isub m (← getR m c) 1) (getQ m c)
  | .NW => newAt m t (do isub m (← getR m c) 1) (do iadd m (← getQ m c) 1)

/-- `move_coord_q`. axial_based/shapes.rs:125-134. -/
def axMoveQ (m : Machine) (t : CoordTy) (c : Axial) : AxisDQ → Res Axial
  | .N => newAt m t (getR m c) (do iadd m (← getQ m c) 1)
  | .NE => newAt m t (do iadd m (← getR m c) 1) (getQ m c)
  | .SE => newAt m t (do iadd m (← getR m c) 1) (do isub m (← getQ m c) 1)
  | .S => newAt m t (getR m c) (do isub m (← getQ m c) 1)
  | .SW => newAt m t (do isub m (← getR m c) 1) (getQ m c)
  | .NW => newAt m t (do isub m (← getR m c) 1) (do iadd m (← getQ m c) 1)

/-- `((x as usize + CONVERT_OFFSET) / 2) as isize`. axial_based/shapes.rs:209, 217, 228, 231. -/
def halfOf (m : Machine) (x : Int) (co : Nat) : Res Int := do
  .ok (asIsize m ((← uadd m (asUsize m x) co) / 2))

/-- `HexAxialShape<B, ()>::to_offset`. axial_based/shapes.rs:206-224. -/
def axToOffset (m : Machine) (k : Marker) (h v : Nat) (c : Axial) : Res (Option Offset) := do
  if k.isFlatTop then
    let r ← getR m c
    if asUsize m r < h then
      let q ← getQ m c
      let vv ← iadd m q (← halfOf m r k.convertOffset)
      if asUsize m vv < v then .ok (some ⟨asUsize m r, asUsize m vv⟩) else .ok none
    else .ok none
  else
    let q ← getQ m c
    if asUsize m q < v then
      let r ← getR m c
      let hh ← iadd m r (← halfOf m q k.convertOffset)
      if asUsize m hh < h then .ok (some ⟨asUsize m hh, asUsize m q⟩) else .ok none
    else .ok none

/-- `HexAxialShape<B, ()>::to_offset_unchecked`. axial_based/shapes.rs:226-234. -/
def axToOffsetUnchecked (m : Machine) (k : Marker) (c : Axial) : Res Offset := do
  let r ← getR m c
  let q ← getQ m c
  if k.isFlatTop then
    let vv ← iadd m q (← halfOf m r k.convertOffset)
    .ok ⟨asUsize m r, asUsize m vv⟩
  else
    let hh ← iadd m r (← halfOf m q k.convertOffset)
    .ok ⟨asUsize m hh, asUsize m q⟩

/-- `HexAxialShape<B, ()>::offset_to_coordinate`. axial_based/shapes.rs:236-250. -/
def axOffsetToCoord (m : Machine) (t : CoordTy) (k : Marker) (o : Offset) : Res Axial :=
  if k.isFlatTop then
    newAt m t (.ok (asIsize m o.horizontal)) (do
      isub m (asIsize m o.vertical) (asIsize m ((← uadd m o.horizontal k.convertOffset) / 2)))
  else
    newAt m t (do isub m (asIsize m o.horizontal) (asIsize m ((← uadd m o.vertical k.convertOffset) / 2)))
      (.ok (asIsize m o.vertical))

/-- `HexAxialShape<B, ()>::move_coord`. axial_based/shapes.rs:260-271. -/
def axMoveChecked {D : Type} (m : Machine) (k : Marker) (h v : Nat) (move : Axial → D → Res Axial)
    (c : Axial) (d : D) : Res (Option Axial) := do
  let c ← move c d
  match ← axToOffset m k h v c with
  | some _ => .ok (some c)
  | none => .ok none

/-- `impl Shape for HexAxialShape<B, (), H, V, HA>`. axial_based/shapes.rs:186-280. `move` is the base's
`move_coord_unchecked` (axial_based/shapes.rs:69-112). -/
def axialShapeOf {A D : Type} (m : Machine) (k : Marker) (axis : Axis A D) (t : CoordTy) (h v : Nat)
    (move : Axial → D → Res Axial) : Shape Axial A D where
  m := m
  axis := axis
  horizontal := h
  vertical := v
  toOffset := axToOffset m k h v
  toOffsetUnchecked := axToOffsetUnchecked m k
  offsetToCoordinate := axOffsetToCoord m t k
  horizontalEdgeSize := fun _ => .ok h
  verticalEdgeSize := fun _ => .ok v
  moveCoord := axMoveChecked m k h v move
  moveCoordUnchecked := move
  isNeighbor := defaultIsNeighbor axis (axMoveChecked m k h v move)

/-- `while stay(r) { r = step(r); }`, at most `fuel` rounds; a loop still running then counts as one that never ends. That the `fuel`
given below is enough for this to be exact is `c31_loop_exact`. -/
def spin (step : Int → Res Int) (stay : Int → Bool) : Nat → Int → Res Int
  | 0, _ => .error .diverge
  | fuel + 1, r => if stay r then do spin step stay fuel (← step r) else .ok r

/-- The loop `while { r += h; r < min } {}`. axial_based/shapes.rs:338-342. -/
def lewUp (m : Machine) (h min : Int) (r : Int) : Res Int := do
  spin (fun r => iadd m r h) (fun r => decide (r < min)) (2 * m.half + 1) (← iadd m r h)

/-- The loop `while r >= max { r -= h; }`. axial_based/shapes.rs:345-347. -/
def lewDown (m : Machine) (h max : Int) (r : Int) : Res Int :=
  spin (fun r => isub m r h) (fun r => decide (max ≤ r)) (2 * m.half + 1) r

/-- `HexAxialShape<B, LoopEW>::move_coord`. axial_based/shapes.rs:325-351. -/
def axMoveLew {D : Type} (m : Machine) (t : CoordTy) (k : Marker) (h v : Nat) (move : Axial → D → Res Axial)
    (c : Axial) (d : D) : Res (Option Axial) := do
  let c ← move c d
  let q ← getQ m c
  if v ≤ asUsize m q then .ok none
  else
    let q' ← iadd m q k.convertOffset
    let min := -(q'.tdiv 2)
    let h := asIsize m h
    let r ← getR m c
    if r < min then
      let r ← lewUp m h min r
      .ok (some (← t.new m r q))
    else
      let max ← isub m h min
      let r ← lewDown m h max r
      .ok (some (← t.new m r q))

/-- `impl Shape for HexAxialShape<B, LoopEW, H, V, HA>`. axial_based/shapes.rs:282-352.
`move_coord_unchecked` and `is_neighbor` are the trait defaults. -/
def axialShapeLewOf {A D : Type} (m : Machine) (k : Marker) (axis : Axis A D) (t : CoordTy) (h v : Nat)
    (move : Axial → D → Res Axial) : Shape Axial A D where
  m := m
  axis := axis
  horizontal := h
  vertical := v
  toOffset := axToOffset m k h v
  toOffsetUnchecked := axToOffsetUnchecked m k
  offsetToCoordinate := axOffsetToCoord m t k
  horizontalEdgeSize := fun _ => .ok h
  verticalEdgeSize := fun _ => .ok v
  moveCoord := axMoveLew m t k h v move
  moveCoordUnchecked := defaultMoveCoordUnchecked m (axMoveLew m t k h v move)
  isNeighbor := defaultIsNeighbor axis (axMoveLew m t k h v move)

/-- `HexAxialShape<OddR | EvenR, (), H, V, HA>`. axial_based/shapes.rs:69-83, 186-280. -/
def hexAxR (m : Machine) (t : CoordTy) (k : Marker) (h v : Nat) : Shape Axial AxisR AxisDR :=
  axialShapeOf m k (axisR m) t h v (axMoveR m t)

/-- `HexAxialShape<OddQ | EvenQ, (), H, V, HA>`. axial_based/shapes.rs:85-99, 186-280. -/
def hexAxQ (m : Machine) (t : CoordTy) (k : Marker) (h v : Nat) : Shape Axial AxisQ AxisDQ :=
  axialShapeOf m k (axisQ m) t h v (axMoveQ m t)

/-- `HexAxialShape<DirectedMarker<OddR | EvenR>, (), H, V, HA>`. axial_based/shapes.rs:101-112, 186-280. -/
def hexAxRDirected (m : Machine) (t : CoordTy) (k : Marker) (h v : Nat) : Shape Axial AxisDR AxisDR :=
  axialShapeOf m (directedMarker k) (axisDR m) t h v (axMoveR m t)

/-- `HexAxialShape<DirectedMarker<OddQ | EvenQ>, (), H, V, HA>`. axial_based/shapes.rs:101-112, 186-280. -/
def hexAxQDirected (m : Machine) (t : CoordTy) (k : Marker) (h v : Nat) : Shape Axial AxisDQ AxisDQ :=
  axialShapeOf m (directedMarker k) (axisDQ m) t h v (axMoveQ m t)

/-- `HexAxialShape<OddR | EvenR, LoopEW, H, V, HA>`. axial_based/shapes.rs:69-83, 282-352. -/
def hexAxRLew (m : Machine) (t : CoordTy) (k : Marker) (h v : Nat) : Shape Axial AxisR AxisDR :=
  axialShapeLewOf m k (axisR m) t h v (axMoveR m t)

/-- `HexAxialShape<OddQ | EvenQ, LoopEW, H, V, HA>`. axial_based/shapes.rs:85-99, 282-352. -/
def hexAxQLew (m : Machine) (t : CoordTy) (k : Marker) (h v : Nat) : Shape Axial AxisQ AxisDQ :=
  axialShapeLewOf m k (axisQ m) t h v (axMoveQ m t)

/-- `HexAxialShape<DirectedMarker<OddR | EvenR>, LoopEW, H, V, HA>`. axial_based/shapes.rs:101-112, 282-352. -/
def hexAxRLewDirected (m : Machine) (t : CoordTy) (k : Marker) (h v : Nat) : Shape Axial AxisDR AxisDR :=
  axialShapeLewOf m (directedMarker k) (axisDR m) t h v (axMoveR m t)

/-- `HexAxialShape<DirectedMarker<OddQ | EvenQ>, LoopEW, H, V, HA>`. axial_based/shapes.rs:101-112, 282-352. -/
def hexAxQLewDirected (m : Machine) (t : CoordTy) (k : Marker) (h v : Nat) : Shape Axial AxisDQ AxisDQ :=
  axialShapeLewOf m (directedMarker k) (axisDQ m) t h v (axMoveQ m t)

end LG
