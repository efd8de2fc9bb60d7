import Verif.Sound
import Verif.Model.Iter
/-
Graphs a program can obtain: built by `new_with`, then changed through the mutable accessors. `Built s L g k` also tracks, on
the specification side, the contents `k` (plain maps) such a program would expect.
-/
namespace LG
section
variable {C A D N E : Type} [DecidableEq C] [DecidableEq A]

/-- Map update at a node: apply `f` to the weight of `c` if there is one. -/
def Contents.mapNode (k : Contents C A N E) (c : C) (f : N → N) : Contents C A N E :=
  { k with node := fun c' => if c' = c then (k.node c).map f else k.node c' }

/-- Map update at an edge. -/
def Contents.mapEdge (k : Contents C A N E) (c : C) (a : A) (f : E → E) : Contents C A N E :=
  { k with edge := fun c' a' => if c' = c ∧ a' = a then (k.edge c a).map f else k.edge c' a' }

/-- `g` was obtained from `new_with` on shape `s` (lattice `L`) and a history of writes; `k` is the map it should be. -/
inductive Built (s : Shape C A D) (L : Lat C A D) : Graph C A D N E → Contents C A N E → Prop where
  /-- `LatticeGraph::new_with` with any closures -/
  | new {σ : Type} {n : σ → C → N × σ} {e : σ → C → A → E × σ} {st st' : σ} {g : Graph C A D N E}
      (h : newWith s n e st = .ok (g, st')) : Built s L g (runCalls n e (callSeq L) st emptyContents).1
  /-- `*g.node_weight_mut(c').unwrap() = f(..)`, where `c'` names node `c`. (Every coordinate for which the call returns something
  names a node, and only for double coordinates can that be another coordinate than `c'`: `Storable.built_node` in Lemmas/Stored.lean,
  `Lawful.built_node` in Lemmas/Access.lean.) -/
  | node {g g' : Graph C A D N E} {k : Contents C A N E} {c c' : C} {f : N → N} (hb : Built s L g k) (hc : L.Node c)
      (same : s.toOffset c' = s.toOffset c) (h : g.modifyNode c' f = .ok (some g')) : Built s L g' (k.mapNode c f)
  /-- `*g.edge_weight_mut((c', a)).unwrap() = f(..)`, where `c'` names node `c` -/
  | edge {g g' : Graph C A D N E} {k : Contents C A N E} {c c' : C} {a : A} {f : E → E} (hb : Built s L g k) (hc : L.Node c)
      (same : s.toOffset c' = s.toOffset c) (h : g.modifyEdge c' a f = .ok (some g')) : Built s L g' (k.mapEdge c a f)
  /-- `*g.node_weight_mut_unchecked(c) = f(..)` on a node -/
  | nodeUnchecked {g g' : Graph C A D N E} {k : Contents C A N E} {c : C} {f : N → N} (hb : Built s L g k)
      (hc : L.Node c) (h : g.modifyNodeUnchecked c f = .ok g') : Built s L g' (k.mapNode c f)
  /-- `*g.edge_weight_mut_unchecked((c, a)) = f(..)` on an edge -/
  | edgeUnchecked {g g' : Graph C A D N E} {k : Contents C A N E} {c : C} {a : A} {f : E → E} (hb : Built s L g k)
      (hc : L.HasEdge c a) (h : g.modifyEdgeUnchecked c a f = .ok g') : Built s L g' (k.mapEdge c a f)

end

section
variable {C A D N E : Type}

/-- Edge references expected from `edges(c)`: one per direction with a neighbour, carrying the weight of that edge. -/
def outEdges [DecidableEq D] (L : Lat C A D) (k : Contents C A N E) (c : C) : List (EdgeRef C D E) :=
  L.dirs.filterMap fun d => (L.nbr c d).bind fun t =>
    (k.edge (L.key c d t).1 (L.key c d t).2).map fun w => ⟨c, t, w, d⟩

/-- Edge references expected from `edges_directed(c, Incoming)`: one per neighbour `t`, for the edge from `t` to `c`, which
leaves `t` in the opposite direction. (`direction()` is the direction seen from `c`.) -/
def inEdges [DecidableEq D] (L : Lat C A D) (k : Contents C A N E) (c : C) : List (EdgeRef C D E) :=
  L.dirs.filterMap fun d => (L.nbr c d).bind fun t =>
    (k.edge (L.key t (L.opp d) c).1 (L.key t (L.opp d) c).2).map fun w => ⟨t, c, w, d⟩

/-- Edge references expected from `edge_references()`: one per stored edge. -/
def allEdges (L : Lat C A D) (k : Contents C A N E) : List (EdgeRef C D E) :=
  L.nodes.flatMap fun c => L.axes.filterMap fun a => (L.nbr c (L.fwd a)).bind fun t =>
    (k.edge c a).map fun w => ⟨c, t, w, L.fwd a⟩

/-- Node references expected from `node_references()`. -/
def allNodes (L : Lat C A D) (k : Contents C A N E) : List (C × N) :=
  L.nodes.filterMap fun c => (k.node c).map fun w => (c, w)

end
end LG
