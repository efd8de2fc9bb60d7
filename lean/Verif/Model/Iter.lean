import Verif.Model.Graph
import Verif.Model.Hex2d
/-
Model of the iterators: src/lattice_abstract/{nodes,neighbors,edges}.rs, and of `Drop` (mod.rs:175-194), which uses one.
Counters of iterators are bounded by `usize` values already computed, so `+ 1` on them is plain addition.
-/
namespace LG
section
variable {C A D N E : Type}

/-! ### Node iterators -/

/-- `NodeIndices::next` on state `index`. lattice_abstract/nodes.rs:19-27. -/
def nodeIndicesNext (s : Shape C A D) (index : Nat) : Res (Option C × Nat) := do
  let nc ← s.nodeCount
  if index < nc then do
    let x ← s.indexToCoordinate index
    .ok (some x, index + 1)
  else .ok (none, index)

/-- `NodeIndices::size_hint`. lattice_abstract/nodes.rs:29-32. -/
def nodeIndicesSizeHint (s : Shape C A D) (index : Nat) : Res (Nat × Option Nat) := do
  let len ← usub s.m (← s.nodeCount) index
  .ok (len, some len)

/-- `node_identifiers`: the index the iterator starts with. (Its copy of the shape is the argument of `nodeIndicesNext`.)
lattice_abstract/nodes.rs:42-47. -/
abbrev Graph.nodeIdentifiers (_g : Graph C A D N E) : Nat := 0

/-- `ExactSizeIterator::len` (the std default): `assert_eq!(upper, Some(lower))`. -/
def exactLen (hint : Res (Nat × Option Nat)) : Res Nat := do
  let (lo, hi) ← hint
  if hi = some lo then .ok lo else .error .panic

/-- `NodeReferences::next` on state `index`. lattice_abstract/nodes.rs:59-67. -/
def nodeRefsNext (g : Graph C A D N E) (index : Nat) : Res (Option (C × N) × Nat) := do
  let nc ← g.s.nodeCount
  if index < nc then do
    let x ← g.s.indexToCoordinate index
    let w ← g.nodeWeightUnchecked x
    .ok (some (x, w), index + 1)
  else .ok (none, index)

/-- `node_references`: the index the iterator starts with. lattice_abstract/nodes.rs:79-84. -/
abbrev Graph.nodeReferences (_g : Graph C A D N E) : Nat := 0

/-- `NodeReferences::size_hint`: not overridden, so `Iterator`'s default `(0, None)`. lattice_abstract/nodes.rs:56-72. -/
def nodeRefsSizeHint (_g : Graph C A D N E) (_index : Nat) : Res (Nat × Option Nat) := .ok (0, none)

/-! ### Neighbours -/

/-- `Neighbors::next` on state `state`. lattice_abstract/neighbors.rs:34-46. -/
def neighborsNext (s : Shape C A D) (node : C) (state : Nat) : Res (Option C × Nat) :=
  if _h : state < s.axis.undirectedCount then do
    let d ← s.axis.dirFromIndexUnchecked state
    match ← s.moveCoord node d with
    | some target => .ok (some target, state + 1)
    | none => neighborsNext s node (state + 1)
  else .ok (none, state)
termination_by s.axis.undirectedCount - state

/-- `Neighbors::size_hint`. lattice_abstract/neighbors.rs:48-51. -/
def neighborsSizeHint (s : Shape C A D) (state : Nat) : Res (Nat × Option Nat) := do
  .ok (0, some (← usub s.m s.axis.undirectedCount state))

/-- `petgraph::Direction`. -/
inductive PDir where | outgoing | incoming
deriving DecidableEq, Repr

/-- `Neighbors`, besides the graph borrow. lattice_abstract/neighbors.rs:9-13. -/
structure NeighborsIt (C : Type) where
  node : C
  state : Nat
deriving DecidableEq, Repr

/-- `neighbors`. lattice_abstract/neighbors.rs:71-73, 16-22. -/
def Graph.neighbors (_g : Graph C A D N E) (a : C) : NeighborsIt C := ⟨a, 0⟩

/-- `neighbors_directed`: the direction is ignored. lattice_abstract/neighbors.rs:84-86. -/
def Graph.neighborsDirected (_g : Graph C A D N E) (a : C) (_d : PDir) : NeighborsIt C := ⟨a, 0⟩

/-- `Neighbors::next` on the whole iterator. lattice_abstract/neighbors.rs:34-46. -/
def NeighborsIt.next (s : Shape C A D) (it : NeighborsIt C) : Res (Option C × NeighborsIt C) := do
  let (x, st) ← neighborsNext s it.node it.state
  .ok (x, { it with state := st })

/-! ### Edges -/

/-- `EdgeReference`. lattice_abstract/edges.rs:9-26, 45-58 (the fields are what `direction`, `source` and `weight` return, `clone` copies them; the borrowed weight is represented by its value). -/
structure EdgeRef (C D E : Type) where
  source : C
  target : C
  weight : E
  direction : D
deriving DecidableEq, Repr

/-- `EdgeRef::id`. lattice_abstract/edges.rs:60-62. -/
def EdgeRef.id (ax : Axis A D) (r : EdgeRef C D E) : Res (C × A) := do
  .ok (r.source, ← ax.fromDirection r.direction)

/-- `#[derive(PartialEq)]`: field by field; `weq` is the equality of the weight type, which `&E` uses. The `PhantomData` are
always equal. lattice_abstract/edges.rs:8-15. -/
def EdgeRef.eq [DecidableEq C] [DecidableEq D] (weq : E → E → Bool) (r r' : EdgeRef C D E) : Bool :=
  decide (r.source = r'.source) && decide (r.target = r'.target) && weq r.weight r'.weight && decide (r.direction = r'.direction)

/-- The `Dt` marker type of `Edges`. lattice_abstract/edges.rs:76-143. -/
inductive Dt where
  | axis
  | axisDir
  | dir (d : PDir)
deriving DecidableEq, Repr

namespace Dt
/-- `DtMarker::DIRECTED`. edges.rs:110-119. -/
def isDirected : Dt → Bool
  | .axis => true
  | .axisDir => false
  | .dir _ => false
/-- `DtMarker::need_reverse`. edges.rs:105-107 and 140-142. -/
def needReverse : Dt → Bool
  | .dir .incoming => true
  | _ => false
end Dt

/-- `DtMarker::get_raw_id` (default body). edges.rs:87-103. -/
def defaultRawId (s : Shape C A D) (d : D) (source : Offset) (target : C) (st : Nat) : Res (Offset × Nat) := do
  if ← s.axis.isForwardDirection d then .ok (source, st)
  else do
    let o ← s.toOffsetUnchecked target
    .ok (o, ← usub s.m st s.axis.count)

/-- `DtMarker::get_raw_id` for each marker. edges.rs:110-139. -/
def Dt.getRawId (dt : Dt) (s : Shape C A D) (d : D) (source : Offset) (target : C) (st : Nat) : Res (Offset × Nat) :=
  match dt, s.axis.directed with
  | .dir .incoming, true => do
    let a ← s.axis.fromDirection d
    let b ← s.axis.backward a
    let o ← s.toOffsetUnchecked target
    .ok (o, s.axis.dirToIndex b)
  | _, _ => defaultRawId s d source target st

/-- `Edges`: state of the iterator besides the graph borrow. edges.rs:68-74. -/
structure EdgesIt (C : Type) where
  node : C
  offset : Offset
  state : Nat
  dt : Dt
deriving DecidableEq, Repr

/-- `Edges::new_d` (and `new`). The offset is unwrapped eagerly, even when `state` says "nothing to do". edges.rs:152-172. -/
def edgesNewD (g : Graph C A D N E) (a : C) (dt : Dt) : Res (EdgesIt C) := do
  match ← g.s.toOffset a with
  | some o => .ok ⟨a, o, 0, dt⟩
  | none => unreachableDebugChecked g.s.m

/-- `Edges::new_unchecked`, used by `EdgeReferences` with the `AxisMarker`. edges.rs:174-186. -/
def edgesNewUnchecked (g : Graph C A D N E) (a : C) : Res (EdgesIt C) := do
  match ← g.s.toOffset a with
  | some o => .ok ⟨a, o, 0, .axis⟩
  | none => unreachableDebugChecked g.s.m

/-- Upper end of the state counter: `COUNT` for the axis marker, `UNDIRECTED_COUNT` otherwise. edges.rs:200-205. -/
def edgesBound (s : Shape C A D) (dt : Dt) : Nat :=
  if dt.isDirected then s.axis.count else s.axis.undirectedCount

/-- Body of `Edges::next` once a direction has a target. edges.rs:212-231. -/
def edgesMake (g : Graph C A D N E) (it : EdgesIt C) (d : D) (target : C) : Res (EdgeRef C D E) := do
  let (nx, ne) ← it.dt.getRawId g.s d it.offset target it.state
  match g.s.m.mode with
  | .debug => do
    let a ← g.s.axis.fromDirection d
    debugAssert g.s.m (g.s.axis.toIndex a == ne)
  | .release => .ok ()
  let e ← g.edgeWeightUncheckedRaw nx ne
  let (src, tgt) := if it.dt.needReverse then (target, it.node) else (it.node, target)
  .ok ⟨src, tgt, e, d⟩

/-- `Edges::next`. edges.rs:199-235. -/
def edgesNext (g : Graph C A D N E) (it : EdgesIt C) : Res (Option (EdgeRef C D E) × EdgesIt C) :=
  if _h : it.state < edgesBound g.s it.dt then do
    let d ← g.s.axis.dirFromIndexUnchecked it.state
    match ← g.s.moveCoord it.node d with
    | some target => do
      let r ← edgesMake g it d target
      .ok (some r, { it with state := it.state + 1 })
    | none => edgesNext g { it with state := it.state + 1 }
  else .ok (none, it)
termination_by edgesBound g.s it.dt - it.state

/-- `Edges::size_hint`. edges.rs:237-244. -/
def edgesSizeHint (g : Graph C A D N E) (it : EdgesIt C) : Res (Nat × Option Nat) := do
  .ok (0, some (← usub g.s.m (edgesBound g.s it.dt) it.state))

/-- `IntoEdges::edges`. edges.rs:263-265. -/
def Graph.edgesOf (g : Graph C A D N E) (a : C) : Res (EdgesIt C) := edgesNewD g a .axisDir

/-- `IntoEdgesDirected::edges_directed`. edges.rs:280-282. -/
def Graph.edgesDirected (g : Graph C A D N E) (a : C) (dir : PDir) : Res (EdgesIt C) := edgesNewD g a (.dir dir)

/-- `EdgeReferences`. edges.rs:288-292. -/
structure EdgeRefsIt (C : Type) where
  e : Option (EdgesIt C)
  index : Nat
deriving DecidableEq, Repr

/-- `IntoEdgeReferences::edge_references`. edges.rs:353-359. -/
def edgeRefsInit : EdgeRefsIt C := ⟨none, 0⟩

/-- First half of the `loop` body of `EdgeReferences::next`: poll the current node's edges. edges.rs:305-310. -/
def edgeRefsPoll (g : Graph C A D N E) (e : Option (EdgesIt C)) :
    Res (Option (EdgeRef C D E) × Option (EdgesIt C)) :=
  match e with
  | none => .ok (none, none)
  | some it => do
    let (o, it') ← edgesNext g it
    .ok (o, some it')

/-- `EdgeReferences::next`. edges.rs:303-320. The `loop` runs at most once per remaining node: `nc` is `node_count()`
(a constant of the graph, evaluated once here instead of on every turn). -/
def edgeRefsLoop (g : Graph C A D N E) (nc : Nat) (it : EdgeRefsIt C) :
    Res (Option (EdgeRef C D E) × EdgeRefsIt C) := do
  let (o, e') ← edgeRefsPoll g it.e
  match o with
  | some r => .ok (some r, ⟨e', it.index⟩)
  | none =>
    if _h : it.index < nc then do
      let x ← g.s.indexToCoordinate it.index
      let ed ← edgesNewUnchecked g x
      edgeRefsLoop g nc ⟨some ed, it.index + 1⟩
    else .ok (none, ⟨e', it.index⟩)
termination_by nc - it.index

/-- `EdgeReferences::next`. edges.rs:303-320. -/
def edgeRefsNext (g : Graph C A D N E) (it : EdgeRefsIt C) : Res (Option (EdgeRef C D E) × EdgeRefsIt C) := do
  let nc ← g.s.nodeCount
  edgeRefsLoop g nc it

/-- `EdgeReferences::size_hint`. edges.rs:322-331. -/
def edgeRefsSizeHint (g : Graph C A D N E) (it : EdgeRefsIt C) : Res (Nat × Option Nat) := do
  let nodeLen ← usub g.s.m (← g.nodeBound) it.index
  let x ← umul g.s.m nodeLen g.s.axis.undirectedCount
  let y ← (match it.e with
    | none => .ok 0
    | some e => do
      let (_, hi) ← edgesSizeHint g e
      .ok (hi.getD 0))
  .ok (0, some (← uadd g.s.m x y))

/-! ### Drop -/

/-- Drop glue of `Array2<T>`, and of its owning iterator for what is left in it: the destructor runs once on every slot; on an uninitialised slot that is undefined behaviour. -/
def dropData {α : Type} : List (Option α) → Res (List Nat)
  | [] => .ok []
  | some _ :: rest => do .ok (1 :: (← dropData rest))
  | none :: _ => .error .ub

/-- What happens to the slots of one edge array during `Drop`: `for (coord, mut e) in ni.clone().zip(edges.into_iter())`.
lattice_abstract/mod.rs:185-189. `into_iter` yields owned values: `drop_in_place(&mut e)` runs the destructor once, and `e`
going out of scope runs it again. Running the destructor of an uninitialised value is undefined behaviour, reported as `ub`;
otherwise the result is the number of destructor runs, slot by slot (2 is a double drop, also undefined behaviour in Rust).
Should the coordinates run out first, the iterator drops what it still owns. (`zip` asks for a coordinate before it finds out that
there are no more slots.) -/
def dropEdgeArr (s : Shape C A D) (dir : D) : Nat → List (Option E) → Res (List Nat)
  | i, [] => do
    let _ ← nodeIndicesNext s i
    .ok []
  | i, slot :: rest => do
    let (co, i') ← nodeIndicesNext s i
    match co with
    | none => dropData (slot :: rest)
    | some c => do
      let runs := (match ← s.moveCoord c dir with
        | some _ => 1  -- drop_in_place
        | none => 0) + 1  -- end of scope
      match slot with
      | none => .error .ub
      | some _ => do
        let more ← dropEdgeArr s dir i' rest
        .ok (runs :: more)

/-- The `drain(..).enumerate()` loop over edge arrays. lattice_abstract/mod.rs:183-191. -/
def dropEdges (s : Shape C A D) : Nat → List (Arr2 E) → Res (List (List Nat))
  | _, [] => .ok []
  | di, arr :: rest => do
    let a ← s.axis.fromIndexUnchecked di
    let dir ← s.axis.foward a
    let x ← dropEdgeArr s dir 0 arr.data
    let more ← dropEdges s (di + 1) rest
    .ok (x :: more)

/-- `Drop for LatticeGraph`, edge part: number of destructor runs per edge slot. Nothing is run when `E` needs no drop.
lattice_abstract/mod.rs:175-194. -/
def dropGraph (g : Graph C A D N E) (needsDrop : Bool) : Res (List (List Nat)) :=
  if needsDrop then dropEdges g.s 0 g.edges else .ok []

/-- Drop glue of the field `nodes`, run after `Drop::drop`: number of destructor runs per node slot.
lattice_abstract/mod.rs:28-32. -/
def dropNodes (g : Graph C A D N E) (needsDrop : Bool) : Res (List Nat) :=
  if needsDrop then dropData g.nodes.data else .ok []

/-! ### Derived `Clone` and `PartialEq` -/

/-- `Array2::clone`: clones every slot; cloning an uninitialised slot is undefined behaviour. -/
def cloneData {α : Type} : List (Option α) → Res (List (Option α))
  | [] => .ok []
  | some x :: rest => do .ok (some x :: (← cloneData rest))
  | none :: _ => .error .ub

/-- `Array2::clone`. -/
def Arr2.clone {α : Type} (a : Arr2 α) : Res (Arr2 α) := do .ok { a with data := ← cloneData a.data }

/-- `Vec<Array2<E>>::clone`. -/
def cloneArrs : List (Arr2 E) → Res (List (Arr2 E))
  | [] => .ok []
  | a :: rest => do
    let a' ← a.clone
    .ok (a' :: (← cloneArrs rest))

/-- `#[derive(Clone)]` on `LatticeGraph`: clones the fields in order. lattice_abstract/mod.rs:24-32. -/
def Graph.clone (g : Graph C A D N E) : Res (Graph C A D N E) := do
  let nodes ← g.nodes.clone
  let edges ← cloneArrs g.edges
  .ok ⟨nodes, edges, g.s⟩

/-- The weights fed to the hasher by an array, in order. -/
def hashData {α : Type} : List (Option α) → Res (List α)
  | [] => .ok []
  | some x :: rest => do .ok (x :: (← hashData rest))
  | none :: _ => .error .ub

/-- The weights fed to the hasher by the edge arrays. -/
def hashArrs : List (Arr2 E) → Res (List (List E))
  | [] => .ok []
  | a :: rest => do
    let a' ← hashData a.data
    .ok (a' :: (← hashArrs rest))

/-- `#[derive(Hash)]` on `LatticeGraph`: visits every slot of `nodes`, then of `edges`. The result is what is
fed to the hasher. lattice_abstract/mod.rs:24-32. -/
def Graph.hash (g : Graph C A D N E) : Res (List N × List (List E)) := do
  let n ← hashData g.nodes.data
  let e ← hashArrs g.edges
  .ok (n, e)

/-- Slots compared one by one, stopping at the first difference. -/
def eqEach {α : Type} [DecidableEq α] : List (Option α) → List (Option α) → Res Bool
  | some x :: xs, some y :: ys => if x = y then eqEach xs ys else .ok false
  | [], [] => .ok true
  | none :: _, _ :: _ => .error .ub
  | _ :: _, none :: _ => .error .ub
  | _, _ => .ok false

/-- Some slots compared without stopping: all of them are read. -/
def eqTogether {α : Type} [DecidableEq α] (l l' : List (Option α)) : Res Bool :=
  if none ∈ l ∨ none ∈ l' then .error .ub else .ok (decide (l = l'))

/-- `Array2 == Array2` on equal shapes: ndarray compares `b` slots at a time, without stopping inside such a group, as long as there
are that many, and the rest one by one. In ndarray 0.15 (`numeric_util::unrolled_eq`) `b` is 8; all theorems are about any `b`
(with `b = 0` or 1 the comparison stops at the first difference). -/
def eqData {α : Type} [DecidableEq α] (b : Nat) (l l' : List (Option α)) : Res Bool :=
  if _h : 0 < b ∧ b ≤ l.length then do
    if ← eqTogether (l.take b) (l'.take b) then eqData b (l.drop b) (l'.drop b) else .ok false
  else eqEach l l'
termination_by l.length
decreasing_by simp only [List.length_drop]; omega

/-- `Array2 == Array2`. -/
def Arr2.eq {α : Type} [DecidableEq α] (b : Nat) (x y : Arr2 α) : Res Bool :=
  if x.rows = y.rows ∧ x.cols = y.cols then eqData b x.data y.data else .ok false

/-- The elements of two `Vec<Array2<E>>` of the same length, compared one after the other. -/
def eqArrs [DecidableEq E] (b : Nat) : List (Arr2 E) → List (Arr2 E) → Res Bool
  | x :: xs, y :: ys => do if ← x.eq b y then eqArrs b xs ys else .ok false
  | [], [] => .ok true
  | _, _ => .ok false

/-- `#[derive(PartialEq)]` on `LatticeGraph`: `nodes`, then `edges`, then the shape (`sameShape`, the shape's own derived
`PartialEq`). lattice_abstract/mod.rs:24-32. `b`: see `eqData`. The comparison of the two `Vec`s of edge arrays looks at the lengths
first. -/
def Graph.eq [DecidableEq N] [DecidableEq E] (b : Nat) (g g' : Graph C A D N E) (sameShape : Bool) : Res Bool := do
  if ← g.nodes.eq b g'.nodes then
    if g.edges.length = g'.edges.length then
      if ← eqArrs b g.edges g'.edges then .ok sameShape else .ok false
    else .ok false
  else .ok false

end
end LG
