import Verif.Model.Astar
/- Two of petgraph's algorithms that look at a graph as a whole, as clients of the crate: `floyd_warshall`, and
`connected_components` with `is_cyclic_undirected`. They go through `edge_references()` and the compact node numbering
(`NodeIndexable`, `NodeCompactIndexable`), `floyd_warshall` also through `is_directed()`. Transcribed from petgraph 0.8. -/
namespace LG

/-! ### `floyd_warshall`

`dist: Vec<Vec<K>>` is a function, `none` standing for `K::max()`; costs are natural numbers, so the additions do not overflow. -/

/-- The matrix of distances. -/
abbrev Mat := Nat → Nat → Option Nat

/-- `dist[i][j] = x`. -/
def Mat.set (m : Mat) (i j x : Nat) : Mat := fun a b => if a = i ∧ b = j then some x else m a b

/-- `dist[i][j] > x`. -/
def Mat.above (m : Mat) (i j x : Nat) : Bool :=
  match m i j with
  | none => true
  | some y => decide (x < y)

/-- The loop over the edges, given as (source, target, cost) with the endpoints as indices. Indexing checks bounds. -/
def fwEdges (directed : Bool) (n : Nat) : List (Nat × Nat × Nat) → Mat → Res Mat
  | [], m => .ok m
  | (i, j, w) :: l, m =>
    if i < n ∧ j < n then
      if m.above i j w then fwEdges directed n l (if directed then m.set i j w else (m.set i j w).set j i w)
      else fwEdges directed n l m
    else .error .panic

/-- The loop over the nodes: the distance of each to itself is zero. -/
def fwDiag (n : Nat) : List Nat → Mat → Res Mat
  | [], m => .ok m
  | i :: l, m => if i < n then fwDiag n l (m.set i i 0) else .error .panic

/-- The innermost step: is the way through `k` shorter? -/
def fwCell (k i j : Nat) (m : Mat) : Mat :=
  match m i k, m k j with
  | some a, some b => if m.above i j (a + b) then m.set i j (a + b) else m
  | _, _ => m

/-- The three nested loops. -/
def fwLoop (n : Nat) (m : Mat) : Mat :=
  (List.range n).foldl (fun m k => (List.range n).foldl (fun m i => (List.range n).foldl (fun m j => fwCell k i j m) m) m) m

/-- The distances, from the edges and the nodes by index. -/
def fwRun (directed : Bool) (n : Nat) (es : List (Nat × Nat × Nat)) (ids : List Nat) : Res Mat := do
  let m ← fwEdges directed n es (fun _ _ => none)
  let m ← fwDiag n ids m
  .ok (fwLoop n m)

/-! ### `connected_components` and `is_cyclic_undirected`

`UnionFind` is represented by the partition it stands for: a label for each index. Ranks and path compression are left out. -/

/-- `union(x, y)`, returning whether the two were apart. The index is checked. -/
def ufUnion (n : Nat) (lab : Nat → Nat) (x y : Nat) : Res (Bool × (Nat → Nat)) :=
  if x < n ∧ y < n then
    if lab x = lab y then .ok (false, lab) else .ok (true, fun i => if lab i = lab x then lab y else lab i)
  else .error .panic

/-- The loop of `connected_components`. -/
def ccLoop (n : Nat) : List (Nat × Nat) → (Nat → Nat) → Res (Nat → Nat)
  | [], lab => .ok lab
  | (x, y) :: l, lab => do
    let (_, lab) ← ufUnion n lab x y
    ccLoop n l lab

/-- `connected_components`: the number of different labels. -/
def ccRun (n : Nat) (es : List (Nat × Nat)) : Res Nat := do
  let lab ← ccLoop n es id
  .ok ((List.range n).map lab).eraseDups.length

/-- `is_cyclic_undirected`. -/
def cycLoop (n : Nat) : List (Nat × Nat) → (Nat → Nat) → Res Bool
  | [], _ => .ok false
  | (x, y) :: l, lab => do
    let (apart, lab) ← ufUnion n lab x y
    if apart then cycLoop n l lab else .ok true

section
variable {C A D N E : Type} [DecidableEq C] [DecidableEq D]

/-- The edges of `edge_references()` (lattice_abstract/edges.rs:303-359) by index: `to_index` (lattice_abstract/nodes.rs:101-103) of both
ends, and the cost. -/
def edgeIndices (g : Graph C A D N E) (cost : E → Nat) (es : List (Nat × Nat × Nat)) : Prop :=
  ∃ rs, Yields (edgeRefsNext g) edgeRefsInit rs ∧
    rs.mapM (fun r => do return (← g.toIndex r.source, ← g.toIndex r.target, cost r.weight)) = .ok es

/-- `floyd_warshall(g, |e| cost(e.weight()))` computes `m`. The result has the entry `m i j` for the pair
`(from_index(i), from_index(j))`, `i, j < node_count()`. -/
def Floyd (g : Graph C A D N E) (cost : E → Nat) (n : Nat) (m : Mat) : Prop :=
  g.nodeBound = .ok n ∧ ∃ es cs ids, edgeIndices g cost es ∧ Yields (nodeIndicesNext g.s) 0 cs ∧ cs.mapM g.toIndex = .ok ids ∧
    fwRun g.isDirected n es ids = .ok m

/-- `connected_components(g)` returns `r`. -/
def Components (g : Graph C A D N E) (r : Nat) : Prop :=
  ∃ n es, g.nodeBound = .ok n ∧ edgeIndices g (fun _ => 0) es ∧ ccRun n (es.map fun e => (e.1, e.2.1)) = .ok r

/-- `is_cyclic_undirected(g)` returns `b`. -/
def Cyclic (g : Graph C A D N E) (b : Bool) : Prop :=
  ∃ n es, g.nodeBound = .ok n ∧ edgeIndices g (fun _ => 0) es ∧ cycLoop n (es.map fun e => (e.1, e.2.1)) id = .ok b
end
end LG
