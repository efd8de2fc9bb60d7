import Verif.Model.HexAxial
/-
Model of src/hex/hex2d.rs: the `AxialCoord` impl for `hex2d::Coordinate<I>` is `CoordTy` with the range of `I`
(see `CoordTy.new`, `getR`, `getQ`); here are the direction conversions. `hex2d` itself is an external crate, modelled
from its documentation: `Direction` has the six values YZ, XZ, XY, ZY, ZX, YX numbered 0..5 (`to_int`/`from_int`).
-/
namespace LG

/-- `hex2d::Direction`. -/
inductive H2Dir where | YZ | XZ | XY | ZY | ZX | YX
deriving DecidableEq, Repr

namespace H2Dir
/-- `hex2d::Direction::to_int`. -/
def toInt : H2Dir → Nat
  | .YZ => 0 | .XZ => 1 | .XY => 2 | .ZY => 3 | .ZX => 4 | .YX => 5
/-- `hex2d::Direction::from_int`, which takes its argument modulo 6. -/
def fromInt (i : Nat) : H2Dir :=
  match i % 6 with
  | 0 => .YZ | 1 => .XZ | 2 => .XY | 3 => .ZY | 4 => .ZX | _ => .YX
end H2Dir

/-- `debug_assert!(b)`. -/
def debugAssert (m : Machine) (b : Bool) : Res Unit :=
  match m.mode with
  | .debug => if b then .ok () else .error .panic
  | .release => .ok ()

/-- `impl From<hex2d::Direction> for AxisDR`. hex2d.rs:72-78. -/
def axisDROfH2 (m : Machine) (d : H2Dir) : Res AxisDR := do
  let i := d.toInt
  let i := if i = 5 then 0 else i + 1
  debugAssert m (i ≤ 5)
  AxisDR.fromIndexUnchecked m i

/-- `impl From<hex2d::Direction> for AxisDQ`. hex2d.rs:89-95. -/
def axisDQOfH2 (m : Machine) (d : H2Dir) : Res AxisDQ := do
  let i := d.toInt
  debugAssert m (i ≤ 5)
  AxisDQ.fromIndexUnchecked m i

/-- `impl From<AxisDR> for hex2d::Direction`. hex2d.rs:97-104. -/
def h2OfAxisDR (m : Machine) (d : AxisDR) : Res H2Dir := do
  let i := d.toIndex
  let i := if i = 0 then 5 else i - 1
  debugAssert m (i ≤ 5)
  .ok (H2Dir.fromInt i)

/-- `impl From<AxisDQ> for hex2d::Direction`. hex2d.rs:106-111. -/
def h2OfAxisDQ (d : AxisDQ) : H2Dir := H2Dir.fromInt d.toIndex

end LG
