import Verif.Model.Astar
/- `petgraph::visit::Reversed(&graph)` as a client of the crate: the view in which every edge points the other way. It is made of
`neighbors_directed` and `edges_directed`; the latter exists for `LatticeGraph` only. -/
namespace LG
section
variable {C A D N E : Type}

/-- `petgraph::Direction::opposite`. -/
def PDir.opposite : PDir → PDir
  | .outgoing => .incoming
  | .incoming => .outgoing

/-- `Reversed(&g).neighbors(a)`: `neighbors_directed(a, Incoming)` (lattice_abstract/neighbors.rs:76-87). -/
def Graph.revNeighbors (g : Graph C A D N E) (a : C) : NeighborsIt C := g.neighborsDirected a .incoming

/-- `Reversed(&g).neighbors_directed(a, d)`. -/
def Graph.revNeighborsDirected (g : Graph C A D N E) (a : C) (d : PDir) : NeighborsIt C := g.neighborsDirected a d.opposite

/-- `ReversedEdgeReference`: the ends exchanged, the weight kept. -/
def EdgeRef.rev (r : EdgeRef C D E) : EdgeRef C D E := { r with source := r.target, target := r.source }

/-- `Reversed(&g).edges(a)`: `edges_directed(a, Incoming)` (lattice_abstract/edges.rs:271-285), reference by reference the other way
round. It runs to its end and yields `l`. -/
def RevEdges [DecidableEq C] [DecidableEq D] (g : Graph C A D N E) (a : C) (l : List (EdgeRef C D E)) : Prop :=
  ∃ it rs, g.edgesDirected a .incoming = .ok it ∧ Yields (edgesNext g) it rs ∧ l = rs.map EdgeRef.rev

/-- `Reversed(&g).edges_directed(a, d)`. -/
def RevEdgesDirected [DecidableEq C] [DecidableEq D] (g : Graph C A D N E) (a : C) (d : PDir) (l : List (EdgeRef C D E)) : Prop :=
  ∃ it rs, g.edgesDirected a d.opposite = .ok it ∧ Yields (edgesNext g) it rs ∧ l = rs.map EdgeRef.rev

/-- The targets and costs of those edges, as `astar` sees them; an edge costs what its weight says. -/
def revLatEdges [DecidableEq C] [DecidableEq D] (g : Graph C A D N E) (cost : E → Nat) (a : C) (l : List (C × Nat)) : Prop :=
  ∃ rs, RevEdges g a rs ∧ l = rs.map fun r => (r.target, cost r.weight)
end
end LG
