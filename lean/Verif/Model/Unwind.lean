import Verif.Model.Iter
/-
`LatticeGraph::new_with` (src/lattice_abstract/mod.rs:70-96) called with closures that may panic. Same loops as in
`Model/Graph.lean`; a closure returns `none` when it panics, together with the state of what it captured at that moment. Unwinding
then leaves `new_with`, dropping its local `uninit: LatticeGraph<MaybeUninit<N>, MaybeUninit<E>, S>`.
-/
namespace LG
section
variable {C A D N E σ : Type}

/-- The inner loop. The first component tells whether it ran to its end; if not, the arrays are those at the panic.
lattice_abstract/mod.rs:83-93. -/
def newWithEdgesP (s : Shape C A D) (e : σ → C → A → Option E × σ) (offset : Offset) (c : C) :
    Nat → List (Arr2 E) → σ → Res (Bool × List (Arr2 E) × σ)
  | _, [], st => .ok (true, [], st)
  | j, edge :: rest, st => do
    let a ← s.axis.fromIndexUnchecked j
    let d ← s.axis.foward a
    match ← s.moveCoord c d with
    | none => do
      let (b, rest', st') ← newWithEdgesP s e offset c (j + 1) rest st
      .ok (b, edge :: rest', st')
    | some _ =>
      match e st c a with
      | (none, st1) => .ok (false, edge :: rest, st1)
      | (some ex, st1) => do
        let edge' := edge.writeIfPresent offset.horizontal offset.vertical ex
        let (b, rest', st') ← newWithEdgesP s e offset c (j + 1) rest st1
        .ok (b, edge' :: rest', st')

/-- The outer loop. `nodes.get_unchecked_mut(i)` is evaluated before the closure is called, the write after.
lattice_abstract/mod.rs:79-94. -/
def newWithNodesP (s : Shape C A D) (n : σ → C → Option N × σ) (e : σ → C → A → Option E × σ) :
    Nat → Nat → Arr2 N → List (Arr2 E) → σ → Res (Bool × Arr2 N × List (Arr2 E) × σ)
  | _, 0, nodes, edges, st => .ok (true, nodes, edges, st)
  | i, k + 1, nodes, edges, st => do
    let offset ← s.indexToOffset i
    let c ← s.offsetToCoordinate offset
    if i < nodes.data.length then
      match n st c with
      | (none, st1) => .ok (false, nodes, edges, st1)
      | (some x, st1) => do
        let (b, edges', st2) ← newWithEdgesP s e offset c 0 edges st1
        if b then newWithNodesP s n e (i + 1) k (nodes.writeSlot i x) edges' st2
        else .ok (false, nodes.writeSlot i x, edges', st2)
    else .error .ub

/-- `new_with` with closures that may panic. `(true, g, st)`: it returned `g`. `(false, g, st)`: it unwound, `g` being the
contents of the local `uninit` at that moment. lattice_abstract/mod.rs:70-96. -/
def newWithP (s : Shape C A D) (n : σ → C → Option N × σ) (e : σ → C → A → Option E × σ) (st : σ) :
    Res (Bool × Graph C A D N E × σ) := do
  let g ← newUninit s
  let cnt ← s.nodeCount
  let (b, nodes, edges, st') ← newWithNodesP s n e 0 cnt g.nodes g.edges st
  .ok (b, ⟨nodes, edges, s⟩, st')

/-- What dropping the local `uninit` runs: `Drop::drop` (lattice_abstract/mod.rs:175-194) with
`needs_drop::<MaybeUninit<E>>() = false`, then the arrays of `MaybeUninit`, which have no destructors: per node slot and per
edge slot the number of destructor runs. -/
def dropUninit (g : Graph C A D N E) : Res (List Nat × List (List Nat)) := do
  let _ ← dropGraph g false
  .ok (g.nodes.data.map fun _ => 0, g.edges.map fun a => a.data.map fun _ => 0)

end
end LG
