import Verif.Model.Legacy
/-
`Neighbors::next` and `Edges::next` of the old `SquareGraph` for a caller that catches panics and goes on: the outcome of the
call together with the fields as the call leaves them (see `Model/Caught.lean`). In both, `state` is advanced only after the
arm of the `match` has run.
-/
namespace LG.Sq
variable {N E : Type}

/-- `Neighbors::next`. square/neighbors.rs:26-61 (`state` is advanced in lines 54 and 58). -/
def Nbrs.nextCaught (k : Cfg) (it : Nbrs) : Res (Option NodeIx) × Nbrs :=
  if _h : it.state < 4 then
    match it.arm k with
    | .error f => (.error f, it)
    | .ok (some x) => (.ok (some x), { it with state := it.state + 1 })
    | .ok none => Nbrs.nextCaught k { it with state := it.state + 1 }
  else (.ok none, it)
termination_by 4 - it.state

/-- `Edges::next`. square/edges.rs:187-286 (`state` is advanced in lines 281 and 284). -/
def EdgesOf.nextCaught (g : G N E) (it : EdgesOf) : Res (Option (Ref E)) × EdgesOf :=
  if _h : it.state < 4 then
    match it.arm g with
    | .error f => (.error f, it)
    | .ok (some r) => (.ok (some r), { it with state := it.state + 1 })
    | .ok none => EdgesOf.nextCaught g { it with state := it.state + 1 }
  else (.ok none, it)
termination_by 4 - it.state

end LG.Sq
