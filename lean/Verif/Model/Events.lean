import Verif.Model.Scc
/-
A further client program of petgraph: `visit::depth_first_search` and `algo::is_cyclic_directed`, written against `neighbors`,
`node_identifiers` and the visit map as the two graph types implement them (lattice_abstract/neighbors.rs:7-82,
lattice_abstract/nodes.rs, lattice_abstract/mod.rs:355-413, square/neighbors.rs:8-92, square/nodes.rs, square/mod.rs:480-512). petgraph
itself is not part of /repo; this is its published algorithm. A call that faults has no rule.

The visitor is one that never prunes. Such a visitor can only end the search early, so the events it sees are the first of those listed
here. `Time` is a natural number: as a `usize` it would overflow from 2 ^ 63 nodes on.
-/
namespace LG

/-- `DfsEvent`. -/
inductive DfsEvent (C : Type) where
  | discover (c : C) (t : Nat)
  | treeEdge (u v : C)
  | backEdge (u v : C)
  | crossForwardEdge (u v : C)
  | finish (c : C) (t : Nat)
deriving DecidableEq, Repr

/-- Where `dfs_visitor` is: at the call for a node, or in its loop over the neighbours of `u`, of which `vs` are left. -/
inductive DfsJob (C : Type) where
  | enter (u : C)
  | scan (u : C) (vs : List C)

section
variable {C M : Type} (T : Rovable C M)

/-- `dfs_visitor`: `discovered`, `finished` and `time` before, the events, and the three afterwards. `finished.visit(u)` has to answer
`true` for a rule to apply: that is its `debug_assert!(first_finish)`. -/
inductive DfsEvents : DfsJob C → M → M → Nat → List (DfsEvent C) → M → M → Nat → Prop where
  | seen {u : C} {d d' f : M} {t : Nat} : T.visit d u = .ok (false, d') → DfsEvents (.enter u) d f t [] d' f t
  | enter {u : C} {nbs : List C} {d d' f d2 f2 f3 : M} {t t2 : Nat} {evs : List (DfsEvent C)} :
    T.visit d u = .ok (true, d') → T.neighbors u nbs → DfsEvents (.scan u nbs) d' f (t + 1) evs d2 f2 t2 →
    T.visit f2 u = .ok (true, f3) → DfsEvents (.enter u) d f t (.discover u t :: (evs ++ [.finish u t2])) d2 f3 (t2 + 1)
  | nil {u : C} {d f : M} {t : Nat} : DfsEvents (.scan u []) d f t [] d f t
  | tree {u v : C} {vs : List C} {d f d1 f1 d2 f2 : M} {t t1 t2 : Nat} {e1 e2 : List (DfsEvent C)} :
    T.isVisited d v = .ok false → DfsEvents (.enter v) d f t e1 d1 f1 t1 → DfsEvents (.scan u vs) d1 f1 t1 e2 d2 f2 t2 →
    DfsEvents (.scan u (v :: vs)) d f t (.treeEdge u v :: (e1 ++ e2)) d2 f2 t2
  | back {u v : C} {vs : List C} {d f d2 f2 : M} {t t2 : Nat} {e : List (DfsEvent C)} :
    T.isVisited d v = .ok true → T.isVisited f v = .ok false → DfsEvents (.scan u vs) d f t e d2 f2 t2 →
    DfsEvents (.scan u (v :: vs)) d f t (.backEdge u v :: e) d2 f2 t2
  | cross {u v : C} {vs : List C} {d f d2 f2 : M} {t t2 : Nat} {e : List (DfsEvent C)} :
    T.isVisited d v = .ok true → T.isVisited f v = .ok true → DfsEvents (.scan u vs) d f t e d2 f2 t2 →
    DfsEvents (.scan u (v :: vs)) d f t (.crossForwardEdge u v :: e) d2 f2 t2

/-- The loop of `depth_first_search` over its starts. -/
inductive DfsStarts : List C → M → M → Nat → List (DfsEvent C) → Prop where
  | done {d f : M} {t : Nat} : DfsStarts [] d f t []
  | next {u : C} {us : List C} {d f d1 f1 : M} {t t1 : Nat} {e1 e2 : List (DfsEvent C)} :
    DfsEvents T (.enter u) d f t e1 d1 f1 t1 → DfsStarts us d1 f1 t1 e2 → DfsStarts (u :: us) d f t (e1 ++ e2)

/-- `depth_first_search(g, starts, visitor)` ends and calls the visitor with `evs`. -/
def DepthFirst (starts : List C) (evs : List (DfsEvent C)) : Prop := DfsStarts T starts T.visitMap T.visitMap 0 evs

/-- The event at which the visitor of `is_cyclic_directed` ends the search. -/
def DfsEvent.isBack : DfsEvent C → Bool
  | .backEdge _ _ => true
  | _ => false

/-- `is_cyclic_directed(g)` ends and returns `b`. -/
def CyclicDirected (b : Bool) : Prop := ∃ ids evs, T.nodeIds ids ∧ DepthFirst T ids evs ∧ b = evs.any DfsEvent.isBack

end
end LG
