import Verif.Model.Legacy
import Verif.Model.Alloc
/-
The allocations of `SquareGraph` (src/square/mod.rs) with the sizes of the elements; see `Model/Alloc.lean`.
-/
namespace LG.Sq
section
variable {N E σ : Type}

/-- `new_with`; `szN` and `szE` are the sizes of `N` and `E`. The closures run after each `with_capacity` for what they fill.
square/mod.rs:188-235. -/
def G.newWithB (szN szE : Nat) (k : Cfg) (h v : Nat) (fnode : σ → Nat → Nat → N × σ) (fedge : σ → Nat → Nat → Axis → E × σ)
    (st : σ) : Res (G N E × σ) := do
  if h = 0 then .error .panic else
  withCapacity k.m szN (← umul k.m h v)
  let (nodesVec, st) := fill fnode v 0 h st
  let nodes ← Arr.fromShapeVec k.m h v nodesVec
  let mh ← edgeLen k.m k.loopH h
  withCapacity k.m szE (← umul k.m mh v)
  let (horizontalVec, st) := fill (fun st hi vi => fedge st hi vi .horizontal) v 0 mh st
  let horizontal ← Arr.fromShapeVec k.m mh v horizontalVec
  let mv ← edgeLen k.m k.loopV v
  withCapacity k.m szE (← umul k.m h mv)
  let (verticalVec, st) := fill (fun st hi vi => fedge st hi vi .vertical) mv 0 h st
  let vertical ← Arr.fromShapeVec k.m h mv verticalVec
  let g ← newRaw k nodes horizontal vertical
  .ok (g, st)

/-- `VisMap::new` / `visit_map`; `szB` is the size of `FixedBitSet`. square/mod.rs:475-481, 505-507. -/
def G.visitMapB (szB : Nat) (g : G N E) : Res Vis := do
  withCapacity g.k.m szB g.horizontalNodeCount
  .ok (Vis.new g.horizontalNodeCount g.verticalNodeCount)
end
end LG.Sq
