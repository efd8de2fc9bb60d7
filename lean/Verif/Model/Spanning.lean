import Verif.Model.Whole
import Verif.LegacySpec
/- petgraph's `min_spanning_tree` (Kruskal's algorithm), as a client of the crate: through `node_references()`, `edge_references()` and
`to_index`. Transcribed from petgraph 0.8. -/
namespace LG

/-- `node_map`: the number under which each node, by index, has been returned. Inserting again would overwrite. -/
def mstOrder : List Nat → Nat → (Nat → Option Nat) → Nat → Option Nat
  | [], _, f => f
  | i :: l, cnt, f => mstOrder l (cnt + 1) fun j => if j = i then some cnt else f j

/-- The `while` loop over the heap, through all calls of `next`: the edges (by index) in the order they are popped. An edge is returned if
it joins what was apart; its ends must be known. `UnionFind` is that of `Model/Whole.lean`. -/
def mstLoop {E : Type} (n : Nat) (order : Nat → Option Nat) : List (Nat × Nat × E) → (Nat → Nat) → Res (List (Nat × Nat × E))
  | [], _ => .ok []
  | (x, y, w) :: l, lab => do
    let (apart, lab) ← ufUnion n lab x y
    if apart then
      match order x, order y with
      | some a, some b => do
        let out ← mstLoop n order l lab
        .ok ((a, b, w) :: out)
      | _, _ => .error .panic
    else mstLoop n order l lab

/-- A run of the heap: it holds these edges and always pops one of the cheapest. -/
def HeapRun {E : Type} (cost : E → Nat) (es popped : List (Nat × Nat × E)) : Prop :=
  popped.Perm es ∧ popped.Pairwise fun a b => cost a.2.2 ≤ cost b.2.2

section
variable {C A D N E : Type}

/-- `min_spanning_tree(g)`, its elements collected, may return these nodes and this list of edges (or a fault), where weights compare as
their costs do. `edge_references` (lattice_abstract/edges.rs:303-359), `node_references`, `to_index` (lattice_abstract/nodes.rs:34-110). -/
def Spanning (g : Graph C A D N E) (cost : E → Nat) (ns : List N) (res : Res (List (Nat × Nat × E))) : Prop :=
  ∃ n rs es popped nrs ids, g.nodeBound = .ok n ∧ Yields (edgeRefsNext g) edgeRefsInit rs ∧
    rs.mapM (fun r => do return (← g.toIndex r.source, ← g.toIndex r.target, r.weight)) = .ok es ∧ HeapRun cost es popped ∧
    Yields (nodeRefsNext g) 0 nrs ∧ nrs.mapM (fun p => g.toIndex p.1) = .ok ids ∧ ns = nrs.map Prod.snd ∧
    res = mstLoop n (mstOrder ids 0 fun _ => none) popped id
end

section
variable {N E : Type}

/-- The same on a `SquareGraph`. `edge_references` is square/edges.rs:107-169, `node_references` square/nodes.rs:73-107. -/
def Sq.Spanning (g : Sq.G N E) (cost : E → Nat) (ns : List N) (res : Res (List (Nat × Nat × E))) : Prop :=
  ∃ rs es popped nrs ids, Yields (Sq.edgeRefsNext g) (Sq.edgeRefsInit g) rs ∧ rs.mapM (fun r => do
    return (← g.toIndex (← r.source g.k), ← g.toIndex (← r.target g.k), r.weight)) = .ok es ∧ HeapRun cost es popped ∧
    Yields (Sq.nodeRefsNext g) (Sq.nodeRefsInit g) nrs ∧ nrs.mapM (fun p => g.toIndex p.1) = .ok ids ∧ ns = nrs.map Prod.snd ∧
    res = mstLoop g.nodeCount (mstOrder ids 0 fun _ => none) popped id
end
end LG
