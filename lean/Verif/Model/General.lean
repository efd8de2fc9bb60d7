import Verif.Model.Iter
import Verif.LegacySpec
/- petgraph's general-purpose `Graph`, which the README (README.md:6-8) offers the lattices as a replacement for: its adjacency lists, and
the program that copies a lattice into it through `node_references()`, `edge_references()` and `to_index`. petgraph is not part of
`/repo`; `Graph` is transcribed from petgraph 0.8 (`graph_impl/mod.rs`). Simplified: `EdgeIndex::end()` is `none`, so there is no
limit on the number of nodes and edges (`add_node` and `add_edge` panic when the index type is exhausted). -/
namespace LG

/-- `petgraph::graph::Node`: the weight and `next`, the first outgoing and the first incoming edge. -/
structure PNode (N : Type) where
  weight : N
  out : Option Nat
  inc : Option Nat

/-- `petgraph::graph::Edge`: the weight, `next`, the edges that follow it among the outgoing of its source and the incoming of its target,
and `node`, its ends. -/
structure PEdge (E : Type) where
  weight : E
  nextOut : Option Nat
  nextIn : Option Nat
  src : Nat
  dst : Nat

/-- `petgraph::graph::EdgeReference`: `source()`, `target()`, `weight()`. -/
structure PRef (E : Type) where
  source : Nat
  target : Nat
  weight : E
deriving DecidableEq, Repr

/-- `petgraph::Graph<N, E, Ty>`; `directed` is `Ty::is_directed()`. -/
structure PGraph (N E : Type) where
  directed : Bool
  nodes : List (PNode N)
  edges : List (PEdge E)

section
variable {N E : Type}

/-- `Graph::add_node`. -/
def PGraph.addNode (p : PGraph N E) (w : N) : PGraph N E := { p with nodes := p.nodes ++ [⟨w, none, none⟩] }

/-- `Graph::add_edge`: the new edge goes to the front of both lists; a loop (`Pair::One`) is in both lists of its node. -/
def PGraph.addEdge (p : PGraph N E) (a b : Nat) (w : E) : Res (PGraph N E) :=
  match p.nodes[a]?, p.nodes[b]? with
  | some an, some bn =>
    if a = b then
      .ok { p with
        nodes := p.nodes.set a { an with out := some p.edges.length, inc := some p.edges.length }
        edges := p.edges ++ [⟨w, an.out, an.inc, a, b⟩] }
    else
      .ok { p with
        nodes := (p.nodes.set a { an with out := some p.edges.length }).set b { bn with inc := some p.edges.length }
        edges := p.edges ++ [⟨w, an.out, bn.inc, a, b⟩] }
  | _, _ => .error .panic

/-- `self.edges.get(i.index())`. -/
def PGraph.edgeAt (p : PGraph N E) (o : Option Nat) : Option (PEdge E) := o.bind fun i => p.edges[i]?

/-- The reference to an edge, with `swap_pair` applied to its ends or not. -/
def PEdge.ref (e : PEdge E) (swap : Bool) : PRef E := if swap then ⟨e.dst, e.src, e.weight⟩ else ⟨e.src, e.dst, e.weight⟩

/-- `iterate_over.unwrap_or(Outgoing) == Outgoing` in `Edges::next`. -/
def PGraph.walksOut (p : PGraph N E) (dir : PDir) : Prop := p.directed = false ∨ dir = .outgoing

/-- `iterate_over.unwrap_or(Incoming) == Incoming` in `Edges::next`. -/
def PGraph.walksIn (p : PGraph N E) (dir : PDir) : Prop := p.directed = false ∨ dir = .incoming

/-- `Edges::next` of `Graph`, from the two cursors `next`: the outgoing list, then the incoming one; for undirected graphs both, without the
loops the second time, and with the ends swapped where the node asked for is on the wrong side. -/
inductive PNext (p : PGraph N E) (dir : PDir) (start : Nat) :
    Option Nat × Option Nat → Option (PRef E × (Option Nat × Option Nat)) → Prop where
  | out {o n : Option Nat} {e : PEdge E} : p.walksOut dir → p.edgeAt o = some e →
      PNext p dir start (o, n) (some (e.ref (!p.directed && dir == .incoming), (e.nextOut, n)))
  | skip {o n : Option Nat} {e : PEdge E} {r : Option (PRef E × (Option Nat × Option Nat))} :
      (p.walksOut dir → p.edgeAt o = none) → p.walksIn dir → p.edgeAt n = some e → p.directed = false → e.src = start →
      PNext p dir start (o, e.nextIn) r → PNext p dir start (o, n) r
  | inc {o n : Option Nat} {e : PEdge E} :
      (p.walksOut dir → p.edgeAt o = none) → p.walksIn dir → p.edgeAt n = some e → ¬ (p.directed = false ∧ e.src = start) →
      PNext p dir start (o, n) (some (e.ref (!p.directed && dir == .outgoing), (o, e.nextIn)))
  | done {o n : Option Nat} : (p.walksOut dir → p.edgeAt o = none) → (p.walksIn dir → p.edgeAt n = none) →
      PNext p dir start (o, n) none

/-- Collecting `Edges`. -/
inductive PAll (p : PGraph N E) (dir : PDir) (start : Nat) : Option Nat × Option Nat → List (PRef E) → Prop where
  | nil {c : Option Nat × Option Nat} : PNext p dir start c none → PAll p dir start c []
  | cons {c c' : Option Nat × Option Nat} {r : PRef E} {l : List (PRef E)} : PNext p dir start c (some (r, c')) →
      PAll p dir start c' l → PAll p dir start c (r :: l)

/-- `Graph::edges_directed(a, dir)` lists `l`. (`edges(a)` is `edges_directed(a, Outgoing)`.) -/
def PGraph.EdgesDirected (p : PGraph N E) (a : Nat) (dir : PDir) (l : List (PRef E)) : Prop :=
  PAll p dir a (match p.nodes[a]? with | none => (none, none) | some n => (n.out, n.inc)) l

/-- `Graph::node_weight(a)`. -/
def PGraph.nodeWeight (p : PGraph N E) (a : Nat) : Option N := p.nodes[a]?.map PNode.weight

/-- `Graph::with_capacity`, then `add_node` for each weight. -/
def PGraph.ofNodes (directed : Bool) (ws : List N) : PGraph N E := ws.foldl PGraph.addNode ⟨directed, [], []⟩

/-- `add_edge` for each edge. -/
def PGraph.addEdges (p : PGraph N E) (es : List (Nat × Nat × E)) : Res (PGraph N E) :=
  es.foldlM (fun p e => p.addEdge e.1 e.2.1 e.2.2) p
end

section
variable {C A D N E : Type}

/-- The ends of an edge reference by `to_index` (lattice_abstract/nodes.rs:101-103), and its weight. -/
def byIndex (g : Graph C A D N E) (r : EdgeRef C D E) : Res (Nat × Nat × E) :=
  do return (← g.toIndex r.source, ← g.toIndex r.target, r.weight)

/-- The copy `p` of a lattice: `add_node` for each of `node_references()` (lattice_abstract/nodes.rs:34-110), `add_edge` for each of
`edge_references()` (lattice_abstract/edges.rs:303-359), `Directed` or `Undirected` as `is_directed()` says
(lattice_abstract/mod.rs:344-352). -/
def Copied (g : Graph C A D N E) (p : PGraph N E) : Prop :=
  ∃ nrs rs es, Yields (nodeRefsNext g) g.nodeReferences nrs ∧ Yields (edgeRefsNext g) edgeRefsInit rs ∧ rs.mapM (byIndex g) = .ok es ∧
    (PGraph.ofNodes g.isDirected (nrs.map Prod.snd)).addEdges es = .ok p
end

section
variable {N E : Type}

/-- The same for an edge reference of a `SquareGraph`: `source()` and `target()` (square/edges.rs:77-85), `to_index`
(square/nodes.rs:150-152). -/
def Sq.byIndex (g : Sq.G N E) (r : Sq.Ref E) : Res (Nat × Nat × E) := do
  return (← g.toIndex (← r.source g.k), ← g.toIndex (← r.target g.k), r.weight)

/-- The copy `p` of a `SquareGraph`: `node_references()` is square/nodes.rs:73-107, `edge_references()` square/edges.rs:107-169;
`Undirected` is square/mod.rs:465. -/
def Sq.Copied (g : Sq.G N E) (p : PGraph N E) : Prop :=
  ∃ nrs rs es, Yields (Sq.nodeRefsNext g) (Sq.nodeRefsInit g) nrs ∧ Yields (Sq.edgeRefsNext g) (Sq.edgeRefsInit g) rs ∧
    rs.mapM (Sq.byIndex g) = .ok es ∧ (PGraph.ofNodes false (nrs.map Prod.snd)).addEdges es = .ok p
end
end LG
