import Verif.Model.Shapes
/-
Model of src/hex/shapes/mod.rs: the hexagonal axes and the odd/even, point-top/flat-top markers.
-/
namespace LG

/-- `AxisR`. hex/shapes/mod.rs:9-13. -/
inductive AxisR where | NE | E | SE
deriving DecidableEq, Repr

/-- `AxisDR`. hex/shapes/mod.rs:69-76. -/
inductive AxisDR where | NE | E | SE | SW | W | NW
deriving DecidableEq, Repr

namespace AxisDR
/-- `AxisDR::to_index`. hex/shapes/mod.rs:83-92. -/
def toIndex : AxisDR → Nat
  | .NE => 0 | .E => 1 | .SE => 2 | .SW => 3 | .W => 4 | .NW => 5
/-- `AxisDR::from_index`. hex/shapes/mod.rs:94-107. -/
def fromIndex : Nat → Option AxisDR
  | 0 => some .NE | 1 => some .E | 2 => some .SE | 3 => some .SW | 4 => some .W | 5 => some .NW | _ => none
/-- `AxisDR::from_index_unchecked`. hex/shapes/mod.rs:109-119. -/
def fromIndexUnchecked (m : Machine) : Nat → Res AxisDR
  | 0 => .ok .NE | 1 => .ok .E | 2 => .ok .SE | 3 => .ok .SW | 4 => .ok .W | 5 => .ok .NW
  | _ => unreachableDebugChecked m
/-- `AxisDR::backward`. hex/shapes/mod.rs:125-134. -/
def backward : AxisDR → AxisDR
  | .NE => .SW | .E => .W | .SE => .NW | .SW => .NE | .W => .E | .NW => .SE
end AxisDR

/-- `impl Axis for AxisDR`. hex/shapes/mod.rs:78-139. -/
def axisDR (m : Machine) : Axis AxisDR AxisDR where
  count := 6
  directed := true
  undirectedCount := defaultUndirectedCount true 6
  toIndex := AxisDR.toIndex
  fromIndex := AxisDR.fromIndex
  fromIndexUnchecked := AxisDR.fromIndexUnchecked m
  foward := fun a => .ok a
  backward := fun a => .ok a.backward
  fromDirection := fun d => .ok d
  isForwardDirection := defaultIsForwardDirection true AxisDR.toIndex (fun d => .ok d) AxisDR.toIndex
  dirToIndex := AxisDR.toIndex
  dirFromIndex := AxisDR.fromIndex
  dirFromIndexUnchecked := AxisDR.fromIndexUnchecked m

namespace AxisR
/-- `AxisR::to_index`. hex/shapes/mod.rs:20-26. -/
def toIndex : AxisR → Nat
  | .NE => 0 | .E => 1 | .SE => 2
/-- `AxisR::from_index`. hex/shapes/mod.rs:28-38. -/
def fromIndex : Nat → Option AxisR
  | 0 => some .NE | 1 => some .E | 2 => some .SE | _ => none
/-- `AxisR::from_index_unchecked`. hex/shapes/mod.rs:40-47. -/
def fromIndexUnchecked (m : Machine) : Nat → Res AxisR
  | 0 => .ok .NE | 1 => .ok .E | 2 => .ok .SE | _ => unreachableDebugChecked m
/-- `AxisR::foward`. hex/shapes/mod.rs:49-51. -/
def foward (m : Machine) (a : AxisR) : Res AxisDR := AxisDR.fromIndexUnchecked m a.toIndex
/-- `AxisR::backward`. hex/shapes/mod.rs:53-55. -/
def backward (m : Machine) (a : AxisR) : Res AxisDR := AxisDR.fromIndexUnchecked m (a.toIndex + 3)
/-- `AxisR::from_direction`. hex/shapes/mod.rs:57-60. -/
def fromDirection (m : Machine) (d : AxisDR) : Res AxisR :=
  let i := d.toIndex
  fromIndexUnchecked m (if i ≥ 3 then i - 3 else i)
end AxisR

/-- `impl Axis for AxisR`. hex/shapes/mod.rs:15-65 (`is_forward_direction` overridden at 62-64). -/
def axisR (m : Machine) : Axis AxisR AxisDR where
  count := 3
  directed := false
  undirectedCount := defaultUndirectedCount false 3
  toIndex := AxisR.toIndex
  fromIndex := AxisR.fromIndex
  fromIndexUnchecked := AxisR.fromIndexUnchecked m
  foward := AxisR.foward m
  backward := AxisR.backward m
  fromDirection := AxisR.fromDirection m
  isForwardDirection := fun d => .ok (decide (d.toIndex < 3))
  dirToIndex := (axisDR m).dirToIndex
  dirFromIndex := (axisDR m).dirFromIndex
  dirFromIndexUnchecked := (axisDR m).dirFromIndexUnchecked

/-- `AxisQ`. hex/shapes/mod.rs:143-147. -/
inductive AxisQ where | N | NE | SE
deriving DecidableEq, Repr

/-- `AxisDQ`. hex/shapes/mod.rs:203-210. -/
inductive AxisDQ where | N | NE | SE | S | SW | NW
deriving DecidableEq, Repr

namespace AxisDQ
/-- `AxisDQ::to_index`. hex/shapes/mod.rs:217-226. -/
def toIndex : AxisDQ → Nat
  | .N => 0 | .NE => 1 | .SE => 2 | .S => 3 | .SW => 4 | .NW => 5
/-- `AxisDQ::from_index`. hex/shapes/mod.rs:228-241. -/
def fromIndex : Nat → Option AxisDQ
  | 0 => some .N | 1 => some .NE | 2 => some .SE | 3 => some .S | 4 => some .SW | 5 => some .NW | _ => none
/-- `AxisDQ::from_index_unchecked`. hex/shapes/mod.rs:243-253. -/
def fromIndexUnchecked (m : Machine) : Nat → Res AxisDQ
  | 0 => .ok .N | 1 => .ok .NE | 2 => .ok .SE | 3 => .ok .S | 4 => .ok .SW | 5 => .ok .NW
  | _ => unreachableDebugChecked m
/-- `AxisDQ::backward`. hex/shapes/mod.rs:259-268. -/
def backward : AxisDQ → AxisDQ
  | .N => .S | .NE => .SW | .SE => .NW | .S => .N | .SW => .NE | .NW => .SE
end AxisDQ

/-- `impl Axis for AxisDQ`. hex/shapes/mod.rs:212-273. -/
def axisDQ (m : Machine) : Axis AxisDQ AxisDQ where
  count := 6
  directed := true
  undirectedCount := defaultUndirectedCount true 6
  toIndex := AxisDQ.toIndex
  fromIndex := AxisDQ.fromIndex
  fromIndexUnchecked := AxisDQ.fromIndexUnchecked m
  foward := fun a => .ok a
  backward := fun a => .ok a.backward
  fromDirection := fun d => .ok d
  isForwardDirection := defaultIsForwardDirection true AxisDQ.toIndex (fun d => .ok d) AxisDQ.toIndex
  dirToIndex := AxisDQ.toIndex
  dirFromIndex := AxisDQ.fromIndex
  dirFromIndexUnchecked := AxisDQ.fromIndexUnchecked m

namespace AxisQ
/-- `AxisQ::to_index`. hex/shapes/mod.rs:154-160. -/
def toIndex : AxisQ → Nat
  | .N => 0 | .NE => 1 | .SE => 2
/-- `AxisQ::from_index`. hex/shapes/mod.rs:162-172. -/
def fromIndex : Nat → Option AxisQ
  | 0 => some .N | 1 => some .NE | 2 => some .SE | _ => none
/-- `AxisQ::from_index_unchecked`. hex/shapes/mod.rs:174-181. -/
def fromIndexUnchecked (m : Machine) : Nat → Res AxisQ
  | 0 => .ok .N | 1 => .ok .NE | 2 => .ok .SE | _ => unreachableDebugChecked m
/-- `AxisQ::foward`. hex/shapes/mod.rs:183-185. -/
def foward (m : Machine) (a : AxisQ) : Res AxisDQ := AxisDQ.fromIndexUnchecked m a.toIndex
/-- `AxisQ::backward`. hex/shapes/mod.rs:187-189. -/
def backward (m : Machine) (a : AxisQ) : Res AxisDQ := AxisDQ.fromIndexUnchecked m (a.toIndex + 3)
/-- `AxisQ::from_direction`. hex/shapes/mod.rs:191-194. -/
def fromDirection (m : Machine) (d : AxisDQ) : Res AxisQ :=
  let i := d.toIndex
  fromIndexUnchecked m (if i < 3 then i else i - 3)
end AxisQ

/-- `impl Axis for AxisQ`. hex/shapes/mod.rs:149-199. -/
def axisQ (m : Machine) : Axis AxisQ AxisDQ where
  count := 3
  directed := false
  undirectedCount := defaultUndirectedCount false 3
  toIndex := AxisQ.toIndex
  fromIndex := AxisQ.fromIndex
  fromIndexUnchecked := AxisQ.fromIndexUnchecked m
  foward := AxisQ.foward m
  backward := AxisQ.backward m
  fromDirection := AxisQ.fromDirection m
  isForwardDirection := fun d => .ok (decide (d.toIndex < 3))
  dirToIndex := (axisDQ m).dirToIndex
  dirFromIndex := (axisDQ m).dirFromIndex
  dirFromIndexUnchecked := (axisDQ m).dirFromIndexUnchecked

/-- The `OE` and `RQ` marker constants of a base type. hex/shapes/mod.rs:276-283. -/
structure Marker where
  isEven : Bool
  isFlatTop : Bool
deriving DecidableEq, Repr

namespace Marker
/-- `OE::CONVERT_OFFSET` (default, never overridden by a base; forwarded by `DirectedMarker`).
hex/shapes/mod.rs:278 and 340-343. -/
def convertOffset (k : Marker) : Nat := if k.isEven then 1 else 0
end Marker

/-- `OddR`. hex/shapes/mod.rs:287-293. -/
def oddR : Marker := ⟨false, false⟩
/-- `EvenR`. hex/shapes/mod.rs:297-303. -/
def evenR : Marker := ⟨true, false⟩
/-- `OddQ`: note `IS_FLAT_TOP = false`. hex/shapes/mod.rs:307-313. -/
def oddQ : Marker := ⟨false, false⟩
/-- `EvenQ`: note `IS_FLAT_TOP = false`. hex/shapes/mod.rs:317-323. -/
def evenQ : Marker := ⟨true, false⟩
/-- `DirectedMarker<T>`: forwards both constants. hex/shapes/mod.rs:339-346. -/
def directedMarker (k : Marker) : Marker := ⟨k.isEven, k.isFlatTop⟩

end LG
