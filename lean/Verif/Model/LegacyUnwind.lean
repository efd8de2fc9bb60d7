import Verif.Model.Legacy
/-
`SquareGraph::new_with` (src/square/mod.rs:188-235) called with closures that may panic. Same loops as in `Model/Legacy.lean`; a
closure returns `none` when it panics, together with the state of what it captured at that moment. Unwinding (from a closure, from
`assert!`, from an overflow check or from `expect`) drops the locals in reverse order of declaration.
-/
namespace LG.Sq
section
variable {N E α σ : Type}

/-- How `new_with` ends: it returns the graph, or it unwinds, the values whose destructors ran being listed in order. -/
inductive Exit (N E : Type) where
  | returned (g : G N E)
  | unwound (dropped : List (N ⊕ E))

/-- Inner loop `for vi in vi..vi+cnt { vec.push(f(hi, vi)) }`: whether it ran to its end, and the values pushed. -/
def fillRowP (f : σ → Nat → Nat → Option α × σ) (hi : Nat) : Nat → Nat → σ → Bool × List α × σ
  | _, 0, st => (true, [], st)
  | vi, cnt + 1, st =>
    match f st hi vi with
    | (none, st1) => (false, [], st1)
    | (some x, st1) =>
      let (b, rest, st2) := fillRowP f hi (vi + 1) cnt st1
      (b, x :: rest, st2)

/-- Outer loop. square/mod.rs:197-201, 211-215, 226-230. -/
def fillP (f : σ → Nat → Nat → Option α × σ) (v : Nat) : Nat → Nat → σ → Bool × List α × σ
  | _, 0, st => (true, [], st)
  | hi, cnt + 1, st =>
    match fillRowP f hi 0 v st with
    | (false, row, st1) => (false, row, st1)
    | (true, row, st1) =>
      let (b, rest, st2) := fillP f v (hi + 1) cnt st1
      (b, row ++ rest, st2)

/-- Go on with the result, or unwind, dropping the values owned at this point. -/
def orUnwind {β : Type} (r : Res β) (owned : List (N ⊕ E)) (st : σ) (next : β → Res (Exit N E × σ)) : Res (Exit N E × σ) :=
  match r with
  | .ok x => next x
  | .error .panic => .ok (.unwound owned, st)
  | .error f => .error f

/-- `new_with`. `from_shape_vec` consumes the vector and drops it if it fails; `new_raw` consumes the three arrays and drops
them, in the order of the fields (140-150), if its `debug_assert!` fails. square/mod.rs:188-235. -/
def newWithP (k : Cfg) (h v : Nat) (fnode : σ → Nat → Nat → Option N × σ) (fedge : σ → Nat → Nat → Axis → Option E × σ)
    (st : σ) : Res (Exit N E × σ) :=
  if h = 0 then .ok (.unwound [], st) else
  orUnwind (umul k.m h v) [] st fun _ =>
  match fillP fnode v 0 h st with
  | (false, nodesVec, st) => .ok (.unwound (nodesVec.map .inl), st)
  | (true, nodesVec, st) =>
    orUnwind (Arr.fromShapeVec k.m h v nodesVec) (nodesVec.map .inl) st fun nodes =>
    orUnwind (G.edgeLen k.m k.loopH h) (nodes.data.map .inl) st fun mh =>
    orUnwind (umul k.m mh v) (nodes.data.map .inl) st fun _ =>
    match fillP (fun st hi vi => fedge st hi vi .horizontal) v 0 mh st with
    | (false, horizontalVec, st) => .ok (.unwound (horizontalVec.map .inr ++ nodes.data.map .inl), st)
    | (true, horizontalVec, st) =>
      orUnwind (Arr.fromShapeVec k.m mh v horizontalVec) (horizontalVec.map .inr ++ nodes.data.map .inl) st fun horizontal =>
      orUnwind (G.edgeLen k.m k.loopV v) (horizontal.data.map .inr ++ nodes.data.map .inl) st fun mv =>
      orUnwind (umul k.m h mv) (horizontal.data.map .inr ++ nodes.data.map .inl) st fun _ =>
      match fillP (fun st hi vi => fedge st hi vi .vertical) mv 0 h st with
      | (false, verticalVec, st) =>
        .ok (.unwound (verticalVec.map .inr ++ (horizontal.data.map .inr ++ nodes.data.map .inl)), st)
      | (true, verticalVec, st) =>
        orUnwind (Arr.fromShapeVec k.m h mv verticalVec)
          (verticalVec.map .inr ++ (horizontal.data.map .inr ++ nodes.data.map .inl)) st fun vertical =>
        orUnwind (G.newRaw k nodes horizontal vertical)
          (nodes.data.map .inl ++ (horizontal.data.map .inr ++ vertical.data.map .inr)) st fun g =>
        .ok (.returned g, st)

end
end LG.Sq
