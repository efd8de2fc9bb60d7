import Verif.Model.Shapes
/-
Model of src/lattice_abstract/mod.rs: storage, construction, weight access and mutation, the visit map, and `Drop`.
-/
namespace LG

/-- `ndarray::Array2<MaybeUninit<T>>` in standard (row-major) layout: `data` is the backing slice, `none` marks an
uninitialised slot. Element `(i, j)` is slot `i * cols + j`. -/
structure Arr2 (α : Type) where
  rows : Nat
  cols : Nat
  data : List (Option α)
deriving DecidableEq, Repr

namespace Arr2
variable {α : Type}

/-- `Array2::uninit((r, c))`. ndarray panics when the product of the non-zero axis lengths exceeds `isize::MAX`.
Running out of memory is not modelled. Used at lattice_abstract/mod.rs:50 and 54. -/
def uninit (m : Machine) (r c : Nat) : Res (Arr2 α) :=
  if (if r = 0 then 1 else r) * (if c = 0 then 1 else c) < m.half then
    .ok ⟨r, c, List.replicate (r * c) none⟩
  else .error .panic

/-- Position of `(i, j)` in the backing slice, if in bounds. -/
def slot (a : Arr2 α) (i j : Nat) : Option Nat :=
  if i < a.rows ∧ j < a.cols then some (i * a.cols + j) else none

/-- Reading a slot as an initialised value; an uninitialised or missing slot is undefined behaviour. -/
def read (a : Arr2 α) (k : Nat) : Res α :=
  match a.data[k]? with
  | some (some x) => .ok x
  | _ => .error .ub

/-- `uget((i, j))` read through: bounds are only `debug_assert!`ed by ndarray. -/
def uget (m : Machine) (a : Arr2 α) (i j : Nat) : Res α :=
  match a.slot i j with
  | some k => a.read k
  | none => unreachableDebugChecked m

/-- `get((i, j)).unwrap_unchecked()` read through. -/
def getUnwrapUnchecked (a : Arr2 α) (i j : Nat) : Res α :=
  match a.slot i j with
  | some k => a.read k
  | none => .error .ub

/-- Write to a slot of the backing slice (`ptr::write` or assignment through `&mut`). -/
def writeSlot (a : Arr2 α) (k : Nat) (x : α) : Arr2 α := { a with data := a.data.set k (some x) }

/-- `if let Some(x) = a.get_mut((i, j)) { ptr::write(x, v) }`. lattice_abstract/mod.rs:89-92. -/
def writeIfPresent (a : Arr2 α) (i j : Nat) (x : α) : Arr2 α :=
  match a.slot i j with
  | some k => a.writeSlot k x
  | none => a

end Arr2

/-- `LatticeGraph<N, E, S>`. lattice_abstract/mod.rs:28-32. Weights may be uninitialised (`none` slots). -/
structure Graph (C A D N E : Type) where
  nodes : Arr2 N
  edges : List (Arr2 E)
  s : Shape C A D

section
variable {C A D N E σ : Type}

/-- The loop pushing `COUNT` uninitialised edge arrays. lattice_abstract/mod.rs:53-55. -/
def uninitEdges (s : Shape C A D) : Nat → Res (List (Arr2 E))
  | 0 => .ok []
  | n + 1 => do
    let a ← Arr2.uninit s.m s.horizontal s.vertical
    let rest ← uninitEdges s n
    .ok (a :: rest)

/-- `LatticeGraph::new_uninit`. lattice_abstract/mod.rs:49-58. -/
def newUninit (s : Shape C A D) : Res (Graph C A D N E) := do
  let nodes ← Arr2.uninit s.m s.horizontal s.vertical
  let edges ← uninitEdges s s.axis.count
  .ok ⟨nodes, edges, s⟩

/-- The inner loop of `new_with` over the edge arrays `j, j+1, …`. lattice_abstract/mod.rs:83-93. `done` are the arrays
already treated; the arrays still to treat are the argument. -/
def newWithEdges (s : Shape C A D) (e : σ → C → A → E × σ) (offset : Offset) (c : C) :
    Nat → List (Arr2 E) → σ → Res (List (Arr2 E) × σ)
  | _, [], st => .ok ([], st)
  | j, edge :: rest, st => do
    let a ← s.axis.fromIndexUnchecked j
    let d ← s.axis.foward a
    match ← s.moveCoord c d with
    | none => do
      let (rest', st') ← newWithEdges s e offset c (j + 1) rest st
      .ok (edge :: rest', st')
    | some _ => do
      let (ex, st1) := e st c a
      let edge' := edge.writeIfPresent offset.horizontal offset.vertical ex
      let (rest', st') ← newWithEdges s e offset c (j + 1) rest st1
      .ok (edge' :: rest', st')

/-- The outer loop of `new_with` for `i, i+1, …, i+k-1`. lattice_abstract/mod.rs:79-94. `nodes.get_unchecked_mut(i)` is
undefined behaviour when `i` is out of bounds. -/
def newWithNodes (s : Shape C A D) (n : σ → C → N × σ) (e : σ → C → A → E × σ) :
    Nat → Nat → Arr2 N → List (Arr2 E) → σ → Res (Arr2 N × List (Arr2 E) × σ)
  | _, 0, nodes, edges, st => .ok (nodes, edges, st)
  | i, k + 1, nodes, edges, st => do
    let offset ← s.indexToOffset i
    let c ← s.offsetToCoordinate offset
    let (x, st1) := n st c
    if i < nodes.data.length then do
      let (edges', st2) ← newWithEdges s e offset c 0 edges st1
      newWithNodes s n e (i + 1) k (nodes.writeSlot i x) edges' st2
    else .error .ub

/-- `LatticeGraph::new_with`. lattice_abstract/mod.rs:70-96. The closures are `FnMut`: they thread a state `σ`.
`assume_init` (lattice_abstract/mod.rs:162-172) moves the arrays unchanged and is the identity here. -/
def newWith (s : Shape C A D) (n : σ → C → N × σ) (e : σ → C → A → E × σ) (st : σ) :
    Res (Graph C A D N E × σ) := do
  let g ← newUninit s
  let cnt ← s.nodeCount
  let (nodes, edges, st') ← newWithNodes s n e 0 cnt g.nodes g.edges st
  .ok (⟨nodes, edges, s⟩, st')

/-- `LatticeGraph::new` (weights from `Default::default()`). lattice_abstract/mod.rs:61-67. -/
def newDefault (s : Shape C A D) (dn : N) (de : E) : Res (Graph C A D N E) := do
  let (g, _) ← newWith s (fun _ _ => (dn, ())) (fun _ _ _ => (de, ())) ()
  .ok g

namespace Graph

/-- `node_weight`. lattice_abstract/mod.rs:218-222. -/
def nodeWeight (g : Graph C A D N E) (c : C) : Res (Option N) := do
  match ← g.s.toOffset c with
  | none => .ok none
  | some o => do .ok (some (← g.nodes.uget g.s.m o.horizontal o.vertical))

/-- `edges.get_unchecked(ax)`: undefined behaviour out of bounds. -/
def edgeArr (g : Graph C A D N E) (ax : Nat) : Res (Arr2 E) :=
  match g.edges[ax]? with
  | some a => .ok a
  | none => .error .ub

/-- `edge_weight`. lattice_abstract/mod.rs:224-239. -/
def edgeWeight (g : Graph C A D N E) (c : C) (a : A) : Res (Option E) := do
  match ← g.s.toOffset c with
  | none => .ok none
  | some o => do
    let ax := g.s.axis.toIndex a
    let d ← g.s.axis.foward a
    match ← g.s.moveCoord c d with
    | none => .ok none
    | some _ => do
      let arr ← g.edgeArr ax
      .ok (some (← arr.uget g.s.m o.horizontal o.vertical))

/-- `node_weight_mut` followed by one write through the returned reference; `none` if it returned `None`.
`f` computes the new weight from the old one. lattice_abstract/mod.rs:243-248. -/
def modifyNode (g : Graph C A D N E) (c : C) (f : N → N) : Res (Option (Graph C A D N E)) := do
  match ← g.s.toOffset c with
  | none => .ok none
  | some o => do
    let x ← g.nodes.uget g.s.m o.horizontal o.vertical
    .ok (some { g with nodes := g.nodes.writeIfPresent o.horizontal o.vertical (f x) })

/-- `edge_weight_mut` followed by one write through the returned reference. lattice_abstract/mod.rs:250-263. -/
def modifyEdge (g : Graph C A D N E) (c : C) (a : A) (f : E → E) : Res (Option (Graph C A D N E)) := do
  match ← g.s.toOffset c with
  | none => .ok none
  | some o => do
    let ax := g.s.axis.toIndex a
    let d ← g.s.axis.foward a
    match ← g.s.moveCoord c d with
    | none => .ok none
    | some _ => do
      let arr ← g.edgeArr ax
      let x ← arr.uget g.s.m o.horizontal o.vertical
      .ok (some { g with edges := g.edges.set ax (arr.writeIfPresent o.horizontal o.vertical (f x)) })

/-- `node_weight_unchecked_raw`. lattice_abstract/mod.rs:280-287. -/
def nodeWeightUncheckedRaw (g : Graph C A D N E) (o : Offset) : Res N :=
  g.nodes.getUnwrapUnchecked o.horizontal o.vertical

/-- `node_weight_unchecked`. lattice_abstract/mod.rs:269-276. -/
def nodeWeightUnchecked (g : Graph C A D N E) (c : C) : Res N := do
  g.nodeWeightUncheckedRaw (← g.s.toOffsetUnchecked c)

/-- `edge_weight_unchecked_raw`. lattice_abstract/mod.rs:302-310. -/
def edgeWeightUncheckedRaw (g : Graph C A D N E) (o : Offset) (ax : Nat) : Res E := do
  let arr ← g.edgeArr ax
  arr.getUnwrapUnchecked o.horizontal o.vertical

/-- `edge_weight_unchecked`. lattice_abstract/mod.rs:291-298. -/
def edgeWeightUnchecked (g : Graph C A D N E) (c : C) (a : A) : Res E := do
  g.edgeWeightUncheckedRaw (← g.s.toOffsetUnchecked c) (g.s.axis.toIndex a)

/-- `node_weight_mut_unchecked` followed by a write. lattice_abstract/mod.rs:314-323. -/
def modifyNodeUnchecked (g : Graph C A D N E) (c : C) (f : N → N) : Res (Graph C A D N E) := do
  let o ← g.s.toOffsetUnchecked c
  let x ← g.nodes.getUnwrapUnchecked o.horizontal o.vertical
  .ok { g with nodes := g.nodes.writeIfPresent o.horizontal o.vertical (f x) }

/-- `edge_weight_mut_unchecked` followed by a write. lattice_abstract/mod.rs:327-337. -/
def modifyEdgeUnchecked (g : Graph C A D N E) (c : C) (a : A) (f : E → E) : Res (Graph C A D N E) := do
  let o ← g.s.toOffsetUnchecked c
  let ax := g.s.axis.toIndex a
  let arr ← g.edgeArr ax
  let x ← arr.getUnwrapUnchecked o.horizontal o.vertical
  .ok { g with edges := g.edges.set ax (arr.writeIfPresent o.horizontal o.vertical (f x)) }

/-- `NodeCount::node_count` and `NodeIndexable::node_bound`. lattice_abstract/nodes.rs:87-98. -/
def nodeBound (g : Graph C A D N E) : Res Nat := g.s.nodeCount

/-- `NodeIndexable::to_index` (`unwrap` on a coordinate outside the graph panics). lattice_abstract/nodes.rs:101-103. -/
def toIndex (g : Graph C A D N E) (c : C) : Res Nat := do
  match ← g.s.toIndex c with
  | some i => .ok i
  | none => .error .panic

/-- `NodeIndexable::from_index`. lattice_abstract/nodes.rs:106-108. -/
def fromIndex (g : Graph C A D N E) (i : Nat) : Res C := g.s.indexToCoordinate i

/-- `GetAdjacencyMatrix::is_adjacent`. lattice_abstract/neighbors.rs:94-99 (the matrix is `()`). -/
def isAdjacent (g : Graph C A D N E) (a b : C) : Res Bool := g.s.isNeighbor a b

/-- `GraphProp::is_directed` through `EdgeTypeWrap`. lattice_abstract/mod.rs:342-352. -/
def isDirected (g : Graph C A D N E) : Bool := g.s.axis.directed

end Graph

/-! ### Visit map -/

/-- `VisMap<S>`: one `FixedBitSet` of length `vertical` per column. lattice_abstract/mod.rs:356-359. -/
structure VisMap (C A D : Type) where
  v : List (List Bool)
  s : Shape C A D

namespace VisMap

/-- `VisMap::new` / `Visitable::visit_map`. lattice_abstract/mod.rs:362-370 and 406-408. -/
def new (s : Shape C A D) : VisMap C A D :=
  ⟨List.replicate s.horizontal (List.replicate s.vertical false), s⟩

/-- `self.v[h]` (bounds-checked indexing). -/
def column (vm : VisMap C A D) (h : Nat) : Res (List Bool) :=
  match vm.v[h]? with
  | some b => .ok b
  | none => .error .panic

/-- `VisitMap::visit`: `!v[h].put(v)`; `put` panics past the set's length. lattice_abstract/mod.rs:374-381. -/
def visit (vm : VisMap C A D) (c : C) : Res (Bool × VisMap C A D) := do
  match ← vm.s.toOffset c with
  | none => .ok (false, vm)
  | some o => do
    let col ← vm.column o.horizontal
    match col[o.vertical]? with
    | none => .error .panic
    | some prev => .ok (!prev, { vm with v := vm.v.set o.horizontal (col.set o.vertical true) })

/-- `VisitMap::is_visited`: `contains` is false past the set's length. lattice_abstract/mod.rs:383-390. -/
def isVisited (vm : VisMap C A D) (c : C) : Res Bool := do
  match ← vm.s.toOffset c with
  | none => .ok false
  | some o => do
    let col ← vm.column o.horizontal
    .ok (col[o.vertical]?.getD false)

/-- `VisitMap::unvisit`: `set(v, false)` panics past the set's length. lattice_abstract/mod.rs:392-400. -/
def unvisit (vm : VisMap C A D) (c : C) : Res (Bool × VisMap C A D) := do
  match ← vm.s.toOffset c with
  | none => .ok (false, vm)
  | some o => do
    let col ← vm.column o.horizontal
    match col[o.vertical]? with
    | none => .error .panic
    | some _ => .ok (true, { vm with v := vm.v.set o.horizontal (col.set o.vertical false) })

/-- `Visitable::reset_map`: clears every set. lattice_abstract/mod.rs:410-412. -/
def reset (vm : VisMap C A D) : VisMap C A D :=
  { vm with v := vm.v.map fun col => List.replicate col.length false }

/-- `#[derive(PartialEq)]`: the bit sets one by one, then the shapes; `seq` is the equality of the shape type. Two
`FixedBitSet`s are equal when they have the same length and the same bits. lattice_abstract/mod.rs:355-359. -/
def eq (seq : Shape C A D → Shape C A D → Bool) (vm vm' : VisMap C A D) : Bool :=
  vm.v == vm'.v && seq vm.s vm'.s

end VisMap
end
end LG
