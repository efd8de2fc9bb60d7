import Verif.Model.Astar
import Verif.Model.Scc
/-
`petgraph::visit::NodeFiltered` and `EdgeFiltered` around the two graph types: maps of which some cells are blocked, or some edges
may not be used. petgraph itself is not part of /repo; these are its published adaptors, written over the iterators the crate hands
out (lattice_abstract/neighbors.rs:7-86, lattice_abstract/edges.rs:163-290, lattice_abstract/nodes.rs, square/neighbors.rs:8-113,
square/edges.rs:187-314, square/nodes.rs).
-/
namespace LG
section
variable {σ α : Type} (next : σ → Res (Option α × σ)) (p : α → Res Bool)

/-- One call of `iter.find(p)`: items are taken until one is accepted or there are none left. The item, and the iterator afterwards. -/
inductive FindsNext : σ → Option α → σ → Prop where
  | none {s s' : σ} : next s = .ok (none, s') → FindsNext s none s'
  | hit {s s' : σ} {x : α} : next s = .ok (some x, s') → p x = .ok true → FindsNext s (some x) s'
  | miss {s s' s2 : σ} {x : α} {o : Option α} : next s = .ok (some x, s') → p x = .ok false → FindsNext s' o s2 → FindsNext s o s2

/-- Calling the filtered iterator until it returns `None`: the items. -/
inductive Filters : σ → List α → Prop where
  | done {s s' : σ} : FindsNext next p s none s' → Filters s []
  | step {s s' : σ} {x : α} {l : List α} : FindsNext next p s (some x) s' → Filters s' l → Filters s (x :: l)
end

section
variable {C A D N E : Type} [DecidableEq C] [DecidableEq D]

/-- `NodeFilteredNeighbors`, around any iterator of neighbours: nothing if the source is excluded (`include_source`), and otherwise
the neighbours that are not. -/
def OpenNeighbors {σ C : Type} (f : C → Bool) (c : C) (next : σ → Res (Option C × σ)) (s : σ) (l : List C) : Prop :=
  if f c then Filters next (fun y => .ok (f y)) s l else l = []

/-- `NodeFiltered(&g, f)` for a `LatticeGraph`: `visit_map`, `reset_map` and the map itself are those of `g`; `neighbors`,
`neighbors_directed` and `node_identifiers` are filtered. -/
def Graph.nodeFiltered (g : Graph C A D N E) (f : C → Bool) : Rovable C (VisMap C A D) where
  toTraversable := { g.traversable with neighbors := fun c l => OpenNeighbors f c (neighborsNext g.s c) 0 l }
  resetMap := VisMap.reset
  incoming := fun c l => OpenNeighbors f c (NeighborsIt.next g.s) (g.neighborsDirected c .incoming) l
  nodeIds := fun l => Filters (nodeIndicesNext g.s) (fun c => .ok (f c)) 0 l

/-- The same for a `SquareGraph`. -/
def Sq.G.nodeFiltered (g : Sq.G N E) (f : Sq.NodeIx → Bool) : Rovable Sq.NodeIx Sq.Vis where
  toTraversable := { g.traversable with neighbors := fun n l => OpenNeighbors f n (Sq.Nbrs.next g.k) (g.neighbors n) l }
  resetMap := Sq.Vis.reset
  incoming := fun n l => OpenNeighbors f n (Sq.Nbrs.next g.k) (g.neighborsDirected n .incoming) l
  nodeIds := fun l => Filters (Sq.NodeIndices.next g.k) (fun n => .ok (f n)) (.new g.horizontalNodeCount g.verticalNodeCount) l

/-- `edges(c)` of `NodeFiltered(&g, f)`: `g.edges(c)` is called in any case; nothing if `c` is excluded, and otherwise the edges
whose target is not. With their targets and costs, as `astar` uses them. -/
def openEdges (g : Graph C A D N E) (f : C → Bool) (cost : EdgeRef C D E → Nat) (c : C) (l : List (C × Nat)) : Prop :=
  ∃ it rs, g.edgesOf c = .ok it ∧ (if f c then Filters (edgesNext g) (fun r => .ok (f r.target)) it rs else rs = []) ∧
    l = rs.map fun r => (r.target, cost r)

/-- `edges(c)` of `EdgeFiltered(&g, p)`: the edges `p` accepts. -/
def keptEdges (g : Graph C A D N E) (p : EdgeRef C D E → Bool) (cost : EdgeRef C D E → Nat) (c : C) (l : List (C × Nat)) : Prop :=
  ∃ it rs, g.edgesOf c = .ok it ∧ Filters (edgesNext g) (fun r => .ok (p r)) it rs ∧ l = rs.map fun r => (r.target, cost r)

/-- `edges(x)` of `NodeFiltered(&g, f)` for a `SquareGraph`; `target()` is called on each edge, and may panic. -/
def Sq.openEdges (g : Sq.G N E) (f : Sq.NodeIx → Bool) (cost : Sq.Ref E → Nat) (x : Sq.NodeIx) (l : List (Sq.NodeIx × Nat)) : Prop :=
  ∃ rs, (if f x then Filters (Sq.EdgesOf.next g) (fun r => do return f (← r.target g.k)) (g.edges x) rs else rs = []) ∧
    rs.mapM (fun r => do return (← r.target g.k, cost r)) = .ok l

/-- `edges(x)` of `EdgeFiltered(&g, p)` for a `SquareGraph`. -/
def Sq.keptEdges (g : Sq.G N E) (p : Sq.Ref E → Bool) (cost : Sq.Ref E → Nat) (x : Sq.NodeIx) (l : List (Sq.NodeIx × Nat)) : Prop :=
  ∃ rs, Filters (Sq.EdgesOf.next g) (fun r => .ok (p r)) (g.edges x) rs ∧
    rs.mapM (fun r => do return (← r.target g.k, cost r)) = .ok l
end
end LG
