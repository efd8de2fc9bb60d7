import Verif.Model.Hex2d
/-
Model of the deprecated `SquareGraph` in src/square/{mod,index,nodes,neighbors,edges}.rs.
-/
namespace LG.Sq

/-- What a `SquareGraph<N, E, Ix, S>` is compiled for: the target, the number of values of `Ix` (`2^8`, `2^16`, `2^32`, or all of
`usize`), and the constants of the marker `S` (square/mod.rs:32-128). -/
structure Cfg where
  m : Machine
  ix : Nat
  loopH : Bool
  loopV : Bool
  ix_pos : 0 < ix
  ix_le : ix ≤ 2 * m.half

/-- `Ix::new(x)` of petgraph's `IndexType`: a truncating `as` cast. -/
def Cfg.new (k : Cfg) (x : Nat) : Nat := x % k.ix

/-- `Axis`. square/index.rs:5-8. -/
inductive Axis where
  | horizontal
  | vertical
deriving DecidableEq, Repr

/-- `SquareDirection`. square/index.rs:23-26. -/
inductive Dir where
  | foward (a : Axis)
  | backward (a : Axis)
deriving DecidableEq, Repr

/-- `Axis::is_horizontal`. square/index.rs:12-14. -/
def Axis.isHorizontal : Axis → Bool
  | .horizontal => true
  | .vertical => false
/-- `Axis::is_vertical`. square/index.rs:16-18. -/
def Axis.isVertical : Axis → Bool
  | .horizontal => false
  | .vertical => true

/-- `SquareDirection::up`. square/index.rs:30-32. -/
def Dir.up : Dir := .foward .vertical
/-- `SquareDirection::down`. square/index.rs:34-36. -/
def Dir.down : Dir := .backward .vertical
/-- `SquareDirection::left`. square/index.rs:38-40. -/
def Dir.left : Dir := .backward .horizontal
/-- `SquareDirection::right`. square/index.rs:42-44. -/
def Dir.right : Dir := .foward .horizontal

/-- `SquareDirection::is_horizontal`. square/index.rs:45-49. -/
def Dir.isHorizontal : Dir → Bool
  | .foward x | .backward x => x.isHorizontal
/-- `SquareDirection::is_vertical`. square/index.rs:50-54. -/
def Dir.isVertical : Dir → Bool
  | .foward x | .backward x => x.isVertical

/-- `impl From<(Axis, bool)> for SquareDirection`. square/index.rs:57-65. -/
def Dir.ofPair (p : Axis × Bool) : Dir := if p.2 then .foward p.1 else .backward p.1

/-- `impl From<SquareDirection> for (Axis, bool)`. square/index.rs:67-74. -/
def Dir.toPair : Dir → Axis × Bool
  | .backward x => (x, false)
  | .foward x => (x, true)

/-- `NodeIndex<Ix>`, by the `index()` of its fields (always below the number of values of `Ix`). square/index.rs:78-81. -/
structure NodeIx where
  horizontal : Nat
  vertical : Nat
deriving DecidableEq, Repr

/-- `EdgeIndex<Ix>`. square/index.rs:174-177. -/
structure EdgeIx where
  node : NodeIx
  axis : Axis
deriving DecidableEq, Repr

/-- `impl From<(usize, usize)> for NodeIndex`. square/index.rs:160-164. -/
def NodeIx.ofPair (k : Cfg) (h v : Nat) : NodeIx := ⟨k.new h, k.new v⟩

/-- `NodeIndex::up`. square/index.rs:122-127. -/
def NodeIx.up (k : Cfg) (n : NodeIx) : Res NodeIx := do .ok { n with vertical := k.new (← uadd k.m n.vertical 1) }
/-- `NodeIndex::down`. square/index.rs:130-135. -/
def NodeIx.down (k : Cfg) (n : NodeIx) : Res NodeIx := do .ok { n with vertical := k.new (← usub k.m n.vertical 1) }
/-- `NodeIndex::right`. square/index.rs:138-143. -/
def NodeIx.right (k : Cfg) (n : NodeIx) : Res NodeIx := do .ok { n with horizontal := k.new (← uadd k.m n.horizontal 1) }
/-- `NodeIndex::left`. square/index.rs:146-151. -/
def NodeIx.left (k : Cfg) (n : NodeIx) : Res NodeIx := do .ok { n with horizontal := k.new (← usub k.m n.horizontal 1) }

/-- `NodeIndex::distance` to the target `(th, tv)`. `unsigned_abs` of an `isize` is exact. square/index.rs:93-97. -/
def NodeIx.distance (k : Cfg) (n : NodeIx) (th tv : Nat) : Res Nat := do
  let a ← isub k.m (asIsize k.m n.horizontal) (asIsize k.m th)
  let b ← isub k.m (asIsize k.m n.vertical) (asIsize k.m tv)
  uadd k.m a.natAbs b.natAbs

/-- `NodeIndex::get_edge_id_unchecked`, also reached from safe code through `From<(NodeIndex, SquareDirection)> for EdgeIndex`
(185-189). square/index.rs:106-119. -/
def NodeIx.getEdgeIdUnchecked (k : Cfg) (n : NodeIx) : Dir → Res EdgeIx
  | .foward x => .ok ⟨n, x⟩
  | .backward .vertical => do .ok ⟨⟨n.horizontal, k.new (← usub k.m n.vertical 1)⟩, .vertical⟩
  | .backward .horizontal => do .ok ⟨⟨k.new (← usub k.m n.horizontal 1), n.vertical⟩, .horizontal⟩

/-! ### Arrays -/

/-- `ndarray::Array2<α>` in standard layout. (An array a user installs through `nodes_mut` may have another layout; only the
dimensions and the element at each position matter here.) -/
structure Arr (α : Type) where
  rows : Nat
  cols : Nat
  data : List α
deriving DecidableEq, Repr

namespace Arr
variable {α : Type}

/-- Position of `(i, j)` in the backing slice, if in bounds. -/
def slot (a : Arr α) (i j : Nat) : Option Nat := if i < a.rows ∧ j < a.cols then some (i * a.cols + j) else none

/-- `get((i, j))`, read through. -/
def get (a : Arr α) (i j : Nat) : Option α := (a.slot i j).bind fun p => a.data[p]?

/-- `uget((i, j))`, read through: bounds are only `debug_assert!`ed by ndarray. -/
def uget (m : Machine) (a : Arr α) (i j : Nat) : Res α :=
  match a.get i j with
  | some x => .ok x
  | none => unreachableDebugChecked m

/-- `if let Some(x) = a.get_mut((i, j)) { *x = f(..) }`: `none` if it returned `None`. -/
def modify (a : Arr α) (i j : Nat) (f : α → α) : Option (Arr α) :=
  (a.slot i j).bind fun p => a.data[p]?.map fun x => { a with data := a.data.set p (f x) }

/-- `Array2::from_shape_vec((r, c), v).expect(..)`: fails when the product of the non-zero lengths exceeds `isize::MAX` or the
vector has the wrong length. -/
def fromShapeVec (m : Machine) (r c : Nat) (v : List α) : Res (Arr α) :=
  if (if r = 0 then 1 else r) * (if c = 0 then 1 else c) < m.half ∧ v.length = r * c then .ok ⟨r, c, v⟩ else .error .panic

end Arr

/-- `SquareGraph<N, E, Ix, S>`. square/mod.rs:140-150. -/
structure G (N E : Type) where
  k : Cfg
  nodes : Arr N
  horizontal : Arr E
  vertical : Arr E

section
variable {N E α σ : Type}

/-! ### Construction -/

/-- Inner loop `for vi in vi..vi+cnt { vec.push(f(hi, vi)) }`: the values pushed. -/
def fillRow (f : σ → Nat → Nat → α × σ) (hi : Nat) : Nat → Nat → σ → List α × σ
  | _, 0, st => ([], st)
  | vi, cnt + 1, st =>
    let (x, st1) := f st hi vi
    let (rest, st2) := fillRow f hi (vi + 1) cnt st1
    (x :: rest, st2)

/-- Outer loop `for hi in hi..hi+cnt { for vi in 0..v { vec.push(f(hi, vi)) } }`. square/mod.rs:197-201, 211-215, 226-230. -/
def fill (f : σ → Nat → Nat → α × σ) (v : Nat) : Nat → Nat → σ → List α × σ
  | _, 0, st => ([], st)
  | hi, cnt + 1, st =>
    let (row, st1) := fillRow f hi 0 v st
    let (rest, st2) := fill f v (hi + 1) cnt st1
    (row ++ rest, st2)

namespace G

/-- `horizontal_node_count`. square/mod.rs:356-358. -/
def horizontalNodeCount (g : G N E) : Nat := g.nodes.rows
/-- `vertical_node_count`. square/mod.rs:361-363. -/
def verticalNodeCount (g : G N E) : Nat := g.nodes.cols

/-- `check_gen`. square/mod.rs:238-245. (The sums cannot overflow: lengths are at most `isize::MAX`.) -/
def checkGen (g : G N E) : Bool :=
  decide (g.nodes.rows = g.horizontal.rows + (if g.k.loopH then 0 else 1)) && decide (g.nodes.cols = g.horizontal.cols) &&
  decide (g.nodes.rows = g.vertical.rows) && decide (g.nodes.cols = g.vertical.cols + (if g.k.loopV then 0 else 1))

/-- `new_raw`. square/mod.rs:166-176. -/
def newRaw (k : Cfg) (nodes : Arr N) (horizontal vertical : Arr E) : Res (G N E) := do
  let s : G N E := ⟨k, nodes, horizontal, vertical⟩
  debugAssert k.m s.checkGen
  .ok s

/-- `mh` and `mv` in `new_with`: number of edges along an axis of `len` nodes. square/mod.rs:205-209, 220-224. -/
def edgeLen (m : Machine) (cyclic : Bool) (len : Nat) : Res Nat := if cyclic then .ok len else usub m len 1

/-- `new_with`. square/mod.rs:188-235. Both closures are `FnMut` and share the state `σ`. `Vec::with_capacity` is modelled by
its argument only: running out of memory is not modelled. -/
def newWith (k : Cfg) (h v : Nat) (fnode : σ → Nat → Nat → N × σ) (fedge : σ → Nat → Nat → Axis → E × σ) (st : σ) :
    Res (G N E × σ) := do
  if h = 0 then .error .panic else
  let _ ← umul k.m h v
  let (nodesVec, st) := fill fnode v 0 h st
  let nodes ← Arr.fromShapeVec k.m h v nodesVec
  let mh ← edgeLen k.m k.loopH h
  let _ ← umul k.m mh v
  let (horizontalVec, st) := fill (fun st hi vi => fedge st hi vi .horizontal) v 0 mh st
  let horizontal ← Arr.fromShapeVec k.m mh v horizontalVec
  let mv ← edgeLen k.m k.loopV v
  let _ ← umul k.m h mv
  let (verticalVec, st) := fill (fun st hi vi => fedge st hi vi .vertical) mv 0 h st
  let vertical ← Arr.fromShapeVec k.m h mv verticalVec
  let g ← newRaw k nodes horizontal vertical
  .ok (g, st)

/-- `new`. square/mod.rs:179-185. -/
def new (k : Cfg) (h v : Nat) (dn : N) (de : E) : Res (G N E) := do
  let (g, _) ← newWith k h v (fun _ _ _ => (dn, ())) (fun _ _ _ _ => (de, ())) ()
  .ok g

/-- `new_edge_graph`. square/mod.rs:402-407. -/
def newEdgeGraph (k : Cfg) (h v : Nat) (fedge : σ → Nat → Nat → Axis → E × σ) (st : σ) : Res (G Unit E × σ) :=
  newWith k h v (fun st _ _ => ((), st)) fedge st

/-! ### Weights -/

/-- `node_weight`. square/mod.rs:430-432. -/
def nodeWeight (g : G N E) (n : NodeIx) : Option N := g.nodes.get n.horizontal n.vertical

/-- `edge_weight`. square/mod.rs:434-440. -/
def edgeWeight (g : G N E) (e : EdgeIx) : Option E :=
  match e.axis with
  | .horizontal => g.horizontal.get e.node.horizontal e.node.vertical
  | .vertical => g.vertical.get e.node.horizontal e.node.vertical

/-- `node_weight_mut` and one write through the reference; `none` if it returned `None`. square/mod.rs:447-450. -/
def modifyNode (g : G N E) (n : NodeIx) (f : N → N) : Option (G N E) :=
  (g.nodes.modify n.horizontal n.vertical f).map fun a => { g with nodes := a }

/-- `edge_weight_mut` and one write through the reference. square/mod.rs:452-458. -/
def modifyEdge (g : G N E) (e : EdgeIx) (f : E → E) : Option (G N E) :=
  match e.axis with
  | .horizontal => (g.horizontal.modify e.node.horizontal e.node.vertical f).map fun a => { g with horizontal := a }
  | .vertical => (g.vertical.modify e.node.horizontal e.node.vertical f).map fun a => { g with vertical := a }

/-! ### Indices -/

/-- `node_count` and `node_bound`. square/nodes.rs:137-139, 146-148. -/
def nodeCount (g : G N E) : Nat := g.nodes.data.length

/-- `to_index`. square/nodes.rs:150-152. -/
def toIndex (g : G N E) (a : NodeIx) : Res Nat := do
  uadd g.k.m (← umul g.k.m a.horizontal g.verticalNodeCount) a.vertical

/-- `from_index`. square/nodes.rs:154-157. -/
def fromIndex (g : G N E) (i : Nat) : Res NodeIx :=
  if g.verticalNodeCount = 0 then .error .panic
  else .ok (NodeIx.ofPair g.k (i / g.verticalNodeCount) (i % g.verticalNodeCount))

end G

/-- `NodeIndices<Ix>`. square/nodes.rs:23-29. -/
structure NodeIndices where
  hMax : Nat
  h : Nat
  vMax : Nat
  v : Nat
deriving DecidableEq, Repr

/-- `NodeIndices::new` / `node_identifiers`. square/nodes.rs:16-18, 32-40. -/
def NodeIndices.new (h v : Nat) : NodeIndices := ⟨h, 0, v, 0⟩

/-- `NodeIndices::next`. square/nodes.rs:46-59. -/
def NodeIndices.next (k : Cfg) (it : NodeIndices) : Res (Option NodeIx × NodeIndices) :=
  if it.v < it.vMax then .ok (some ⟨k.new it.h, k.new it.v⟩, { it with v := it.v + 1 })
  else do
    let h1 ← uadd k.m it.h 1
    if h1 < it.hMax then .ok (some ⟨k.new h1, k.new 0⟩, { it with v := 1, h := h1 })
    else .ok (none, it)

/-- `NodeIndices::size_hint`. square/nodes.rs:61-64. -/
def NodeIndices.sizeHint (k : Cfg) (it : NodeIndices) : Res (Nat × Option Nat) := do
  let len ← usub k.m (← umul k.m it.vMax (← usub k.m it.hMax it.h)) it.v
  .ok (len, some len)

/-- `NodeReferences`: the index iterator and the position of ndarray's row-major element iterator. square/nodes.rs:88-91. -/
structure NodeRefs where
  indices : NodeIndices
  pos : Nat
deriving DecidableEq, Repr

/-- `node_references`. square/nodes.rs:78-83. -/
def nodeRefsInit (g : G N E) : NodeRefs := ⟨.new g.horizontalNodeCount g.verticalNodeCount, 0⟩

/-- `NodeReferences::next`. square/nodes.rs:100-103. -/
def nodeRefsNext (g : G N E) (it : NodeRefs) : Res (Option (NodeIx × N) × NodeRefs) :=
  match g.nodes.data[it.pos]? with
  | none => .ok (none, it)
  | some n => do
    let (i, indices) ← it.indices.next g.k
    match i with
    | none => .ok (none, ⟨indices, it.pos + 1⟩)
    | some i => .ok (some (i, n), ⟨indices, it.pos + 1⟩)

/-- `NodeReferences::size_hint` (of ndarray's element iterator, which is exact). square/nodes.rs:105-107. -/
def nodeRefsSizeHint (g : G N E) (it : NodeRefs) : Nat × Option Nat :=
  (g.nodes.data.length - it.pos, some (g.nodes.data.length - it.pos))

/-- `NodeReferences::count`: how many elements ndarray's iterator still has; the index iterator is not asked. square/nodes.rs:109-114. -/
def nodeRefsCount (g : G N E) (it : NodeRefs) : Nat := (g.nodes.data.drop it.pos).length

/-! ### Neighbors -/

/-- `Neighbors<Ix, S>`. square/neighbors.rs:11-17. -/
structure Nbrs where
  node : NodeIx
  state : Nat
  h : Nat
  v : Nat
deriving DecidableEq, Repr

/-- `neighbors`. square/neighbors.rs:82-90. -/
def G.neighbors (g : G N E) (a : NodeIx) : Nbrs := ⟨a, 0, g.horizontalNodeCount, g.verticalNodeCount⟩

/-- The `match self.state` of `Neighbors::next` for states 0 to 3: `none` stands for the arm `_ => continue`.
square/neighbors.rs:29-56. -/
def Nbrs.arm (k : Cfg) (it : Nbrs) : Res (Option NodeIx) :=
  let n := it.node
  match it.state with
  | 0 =>
    if n.horizontal ≠ 0 then do .ok (some (← n.left k))
    else if k.loopH then do .ok (some ⟨k.new (← usub k.m it.h 1), n.vertical⟩)
    else .ok none
  | 1 => do
    let h1 ← uadd k.m n.horizontal 1
    if h1 < it.h then do .ok (some (← n.right k))
    else if k.loopH ∧ h1 = it.h then .ok (some ⟨k.new 0, n.vertical⟩)
    else .ok none
  | 2 =>
    if n.vertical ≠ 0 then do .ok (some (← n.down k))
    else if k.loopV then do .ok (some ⟨n.horizontal, k.new (← usub k.m it.v 1)⟩)
    else .ok none
  | 3 => do
    let v1 ← uadd k.m n.vertical 1
    if v1 < it.v then do .ok (some (← n.up k))
    else if k.loopV ∧ v1 = it.v then .ok (some ⟨n.horizontal, k.new 0⟩)
    else .ok none
  | _ => .ok none

/-- `Neighbors::next`. square/neighbors.rs:26-61. -/
def Nbrs.next (k : Cfg) (it : Nbrs) : Res (Option NodeIx × Nbrs) :=
  if _h : it.state < 4 then do
    match ← it.arm k with
    | some x => .ok (some x, { it with state := it.state + 1 })
    | none => Nbrs.next k { it with state := it.state + 1 }
  else .ok (none, it)
termination_by 4 - it.state

/-- `Neighbors::size_hint`. square/neighbors.rs:63-65. -/
def Nbrs.sizeHint (k : Cfg) (it : Nbrs) : Res (Nat × Option Nat) := do .ok (0, some (← usub k.m 4 it.state))

/-! ### Edges -/

/-- `SizeInfo` of the shape: a size is known only along a looped axis. square/mod.rs:46-86 and `get_sizeinfo`. -/
structure SizeInfo where
  h : Option Nat
  v : Option Nat
deriving DecidableEq, Repr

/-- `S::get_sizeinfo(h, v)`. square/mod.rs:93, 102-104, 113-115, 125-127. -/
def Cfg.sizeInfo (k : Cfg) (h v : Nat) : SizeInfo := ⟨if k.loopH then some h else none, if k.loopV then some v else none⟩

/-- `horizontal_size` / `vertical_size`: the default implementation is `unreachable_debug_checked`. square/mod.rs:53-64. -/
def sizeOf (m : Machine) : Option Nat → Res Nat
  | some x => .ok x
  | none => unreachableDebugChecked m

/-- `EdgeReference<E, Ix, S>`. square/edges.rs:25-31. -/
structure Ref (E : Type) where
  id : EdgeIx
  weight : E
  direction : Bool
  s : SizeInfo
deriving DecidableEq, Repr

/-- `#[derive(PartialEq)]`: field by field; `weq` is the equality of the weight type, which `&E` uses. square/edges.rs:24-31. -/
def Ref.eq (weq : E → E → Bool) (r r' : Ref E) : Bool :=
  decide (r.id = r'.id) && weq r.weight r'.weight && r.direction == r'.direction && decide (r.s = r'.s)

/-- `EdgeReference::get_node`. square/edges.rs:43-69. -/
def Ref.getNode (k : Cfg) (r : Ref E) (isSource : Bool) : Res NodeIx :=
  let node := r.id.node
  if isSource then .ok node
  else match r.id.axis with
    | .horizontal =>
      if k.loopH then do
        let h1 ← uadd k.m node.horizontal 1
        if h1 = (← sizeOf k.m r.s.h) then .ok ⟨k.new 0, node.vertical⟩ else node.right k
      else node.right k
    | .vertical =>
      if k.loopV then do
        let v1 ← uadd k.m node.vertical 1
        if v1 = (← sizeOf k.m r.s.v) then .ok ⟨node.horizontal, k.new 0⟩ else node.up k
      else node.up k

/-- `EdgeReference::source`. square/edges.rs:78-80. -/
def Ref.source (k : Cfg) (r : Ref E) : Res NodeIx := r.getNode k r.direction
/-- `EdgeReference::target`. square/edges.rs:83-85. -/
def Ref.target (k : Cfg) (r : Ref E) : Res NodeIx := r.getNode k (!r.direction)

/-- `Edges`. square/edges.rs:174-178 (the graph is passed separately). -/
structure EdgesOf where
  node : NodeIx
  state : Nat
deriving DecidableEq, Repr

/-- The labelled block in `Edges::next` for states 0 to 3: `none` stands for `break 'inner`. square/edges.rs:193-282. -/
def EdgesOf.arm (g : G N E) (it : EdgesOf) : Res (Option (Ref E)) :=
  let n := it.node
  let s := g.k.sizeInfo g.horizontalNodeCount g.verticalNodeCount
  match it.state with
  | 0 =>
    if n.horizontal = 0 then
      if !g.k.loopH then .ok none
      else do
        let newN : NodeIx := ⟨g.k.new (← usub g.k.m g.horizontalNodeCount 1), n.vertical⟩
        .ok (some ⟨⟨newN, .horizontal⟩, ← g.horizontal.uget g.k.m newN.horizontal newN.vertical, false, s⟩)
    else do
      let newN ← n.left g.k
      .ok (some ⟨⟨newN, .horizontal⟩, ← g.horizontal.uget g.k.m newN.horizontal newN.vertical, false, s⟩)
  | 1 => do
    debugAssert g.k.m (decide (n.horizontal < g.horizontalNodeCount))
    if !g.k.loopH then do
      let h1 ← uadd g.k.m n.horizontal 1
      if h1 = g.horizontalNodeCount then .ok none
      else do .ok (some ⟨⟨n, .horizontal⟩, ← g.horizontal.uget g.k.m n.horizontal n.vertical, true, s⟩)
    else do .ok (some ⟨⟨n, .horizontal⟩, ← g.horizontal.uget g.k.m n.horizontal n.vertical, true, s⟩)
  | 2 =>
    if n.vertical = 0 then
      if !g.k.loopV then .ok none
      else do
        let newN : NodeIx := ⟨n.horizontal, g.k.new (← usub g.k.m g.verticalNodeCount 1)⟩
        .ok (some ⟨⟨newN, .vertical⟩, ← g.vertical.uget g.k.m newN.horizontal newN.vertical, false, s⟩)
    else do
      let newN ← n.down g.k
      .ok (some ⟨⟨newN, .vertical⟩, ← g.vertical.uget g.k.m newN.horizontal newN.vertical, false, s⟩)
  | 3 => do
    debugAssert g.k.m (decide (n.vertical < g.verticalNodeCount))
    if !g.k.loopV then do
      let v1 ← uadd g.k.m n.vertical 1
      if v1 = g.verticalNodeCount then .ok none
      else do .ok (some ⟨⟨n, .vertical⟩, ← g.vertical.uget g.k.m n.horizontal n.vertical, true, s⟩)
    else do .ok (some ⟨⟨n, .vertical⟩, ← g.vertical.uget g.k.m n.horizontal n.vertical, true, s⟩)
  | _ => .ok none

/-- `Edges::next`. square/edges.rs:187-286. -/
def EdgesOf.next (g : G N E) (it : EdgesOf) : Res (Option (Ref E) × EdgesOf) :=
  if _h : it.state < 4 then do
    match ← it.arm g with
    | some r => .ok (some r, { it with state := it.state + 1 })
    | none => EdgesOf.next g { it with state := it.state + 1 }
  else .ok (none, it)
termination_by 4 - it.state

/-- `edges`. square/edges.rs:308-314. -/
def G.edges (_g : G N E) (a : NodeIx) : EdgesOf := ⟨a, 0⟩

/-- `Edges::size_hint`. square/edges.rs:288-290. -/
def EdgesOf.sizeHint (k : Cfg) (it : EdgesOf) : Res (Nat × Option Nat) := do .ok (0, some (← usub k.m 4 it.state))

/-- `EdgeReferences`. square/edges.rs:98-104 (the arrays are those of the graph). -/
structure EdgeRefs where
  nodes : NodeIndices
  prv : Option NodeIx
deriving DecidableEq, Repr

/-- `EdgeReferences::new` / `edge_references`. square/edges.rs:18-20, 107-115. -/
def edgeRefsInit (g : G N E) : EdgeRefs := ⟨.new g.horizontalNodeCount g.verticalNodeCount, none⟩

/-- The index iterator has advanced. -/
def NodeIndices.Advanced (it it' : NodeIndices) : Prop :=
  it'.hMax - it'.h < it.hMax - it.h ∨ (it'.hMax - it'.h = it.hMax - it.h ∧ it'.vMax - it'.v < it.vMax - it.v)

instance (it it' : NodeIndices) : Decidable (it.Advanced it') := by unfold NodeIndices.Advanced; infer_instance

/-- `EdgeReferences::next`. square/edges.rs:125-169. The test `Advanced` is not in the code: it lets the recursion be seen to end,
and fails only if `h + 1` wraps around `usize`, which no graph reaches (`h_max` is the length of an array). -/
def edgeRefsNext (g : G N E) : EdgeRefs → Res (Option (Ref E) × EdgeRefs)
  | ⟨it, none⟩ =>
    match it.next g.k with
    | .error f => .error f
    | .ok (none, it') => .ok (none, ⟨it', none⟩)
    | .ok (some x, it') =>
      match g.horizontal.get x.horizontal x.vertical with
      | some ew => .ok (some ⟨⟨x, .horizontal⟩, ew, true, g.k.sizeInfo it.hMax it.vMax⟩, ⟨it', some x⟩)
      | none => if _h : it.Advanced it' then edgeRefsNext g ⟨it', some x⟩ else .error .diverge
  | ⟨it, some x⟩ =>
    match g.vertical.get x.horizontal x.vertical with
    | some ew => .ok (some ⟨⟨x, .vertical⟩, ew, true, g.k.sizeInfo it.hMax it.vMax⟩, ⟨it, none⟩)
    | none => edgeRefsNext g ⟨it, none⟩
termination_by it => (it.nodes.hMax - it.nodes.h, it.nodes.vMax - it.nodes.v, if it.prv.isSome then 1 else 0)
decreasing_by
  · have h := _h
    rcases h with h | ⟨h1, h2⟩
    · exact Prod.Lex.left _ _ h
    · simp only [h1]; exact Prod.Lex.right _ (Prod.Lex.left _ _ h2)
  · exact Prod.Lex.right _ (Prod.Lex.right _ (by simp))

/-! ### Edge lookup -/

/-- `get_edge_id`. square/mod.rs:249-324. -/
def G.getEdgeId (g : G N E) (node : NodeIx) (dir : Dir) : Res (Option (EdgeIx × Bool)) :=
  match dir with
  | .foward .vertical => do
    let v1 ← uadd g.k.m node.vertical 1
    if v1 < g.verticalNodeCount then .ok (some (⟨node, .vertical⟩, true))
    else if g.k.loopV ∧ v1 = g.verticalNodeCount then .ok (some (⟨⟨node.horizontal, 0⟩, .vertical⟩, true))
    else .ok none
  | .foward .horizontal => do
    let h1 ← uadd g.k.m node.horizontal 1
    if h1 < g.horizontalNodeCount then .ok (some (⟨node, .horizontal⟩, true))
    else if g.k.loopH ∧ h1 = g.horizontalNodeCount then .ok (some (⟨⟨0, node.vertical⟩, .horizontal⟩, true))
    else .ok none
  | .backward .vertical =>
    if node.vertical ≠ 0 then do .ok (some (⟨← node.down g.k, .vertical⟩, false))
    else if g.k.loopV then do
      .ok (some (⟨⟨node.horizontal, g.k.new (← usub g.k.m g.verticalNodeCount 1)⟩, .vertical⟩, false))
    else .ok none
  | .backward .horizontal =>
    if node.horizontal ≠ 0 then do .ok (some (⟨← node.left g.k, .horizontal⟩, false))
    else if g.k.loopH then do
      .ok (some (⟨⟨g.k.new (← usub g.k.m g.horizontalNodeCount 1), node.vertical⟩, .horizontal⟩, false))
    else .ok none

/-- `get_edge_reference`. square/mod.rs:328-348. -/
def G.getEdgeReference (g : G N E) (n : NodeIx) (dir : Dir) : Res (Option (Ref E)) := do
  match ← g.getEdgeId n dir with
  | none => .ok none
  | some (e, fo) => do
    let w ← if dir.isHorizontal then g.horizontal.uget g.k.m e.node.horizontal e.node.vertical
      else g.vertical.uget g.k.m e.node.horizontal e.node.vertical
    .ok (some ⟨e, w, fo, g.k.sizeInfo g.horizontalNodeCount g.verticalNodeCount⟩)

/-! ### Visit map -/

/-- `VisMap`. square/mod.rs:470-472. -/
abbrev Vis := List (List Bool)

/-- `VisMap::new` / `visit_map`. square/mod.rs:475-481, 505-507. -/
def Vis.new (h v : Nat) : Vis := List.replicate h (List.replicate v false)

/-- `visit`. square/mod.rs:485-487. Indexing a missing column and `put` past the length panic. -/
def Vis.visit (vm : Vis) (a : NodeIx) : Res (Bool × Vis) :=
  match vm[a.horizontal]? with
  | none => .error .panic
  | some col =>
    match col[a.vertical]? with
    | none => .error .panic
    | some prev => .ok (!prev, vm.set a.horizontal (col.set a.vertical true))

/-- `is_visited`. square/mod.rs:489-491. `contains` is false past the length. -/
def Vis.isVisited (vm : Vis) (a : NodeIx) : Res Bool :=
  match vm[a.horizontal]? with
  | none => .error .panic
  | some col => .ok (col[a.vertical]?.getD false)

/-- `unvisit`. square/mod.rs:493-496. -/
def Vis.unvisit (vm : Vis) (a : NodeIx) : Res (Bool × Vis) :=
  match vm[a.horizontal]? with
  | none => .error .panic
  | some col =>
    match col[a.vertical]? with
    | none => .error .panic
    | some _ => .ok (true, vm.set a.horizontal (col.set a.vertical false))

/-- `reset_map`. square/mod.rs:509-511. -/
def Vis.reset (vm : Vis) : Vis := vm.map fun col => List.replicate col.length false

/-- `#[derive(PartialEq)]`: the bit sets one by one; two of them are equal when they have the same length and the same bits.
square/mod.rs:469-472. -/
def Vis.eq (vm vm' : Vis) : Bool := vm == vm'

end
end LG.Sq
