import Verif.Model.Scc
/-
A further client program of petgraph: the walker `visit::Topo`, over `node_identifiers`, `neighbors`, `neighbors_directed` and the visit map
as the two graph types implement them (lattice_abstract/neighbors.rs:7-86, lattice_abstract/nodes.rs, lattice_abstract/mod.rs:355-413,
square/neighbors.rs:8-113, square/nodes.rs, square/mod.rs:480-512). petgraph itself is not part of /repo. A call that faults has no rule.
Simplified: where petgraph looks only at the first of the incoming neighbours, or stops at the first that is not ordered, all of them are
listed here. The top of the stack is the head of the list.
-/
namespace LG
section
variable {C M : Type} (T : Rovable C M)

/-- `node_identifiers().filter(|&a| g.neighbors_directed(a, Incoming).next().is_none())` over the identifiers left. -/
inductive TopoInit : List C → List C → Prop where
  | done : TopoInit [] []
  | keep {c : C} {cs st : List C} : T.incoming c [] → TopoInit cs st → TopoInit (c :: cs) (c :: st)
  | drop {c x : C} {cs l st : List C} : T.incoming c (x :: l) → TopoInit cs st → TopoInit (c :: cs) st

/-- `for neigh in g.neighbors(nix) { if Reversed(g).neighbors(neigh).all(|b| ordered.is_visited(&b)) { tovisit.push(neigh) } }`. -/
inductive TopoPush (o : M) : List C → List C → List C → Prop where
  | done {st : List C} : TopoPush o [] st st
  | ready {w : C} {ws ins st st' : List C} : T.incoming w ins → (∀ b ∈ ins, T.isVisited o b = .ok true) → TopoPush o ws (w :: st) st' →
    TopoPush o (w :: ws) st st'
  | wait {w b : C} {ws p r st st' : List C} : T.incoming w (p ++ b :: r) → (∀ x ∈ p, T.isVisited o x = .ok true) →
    T.isVisited o b = .ok false → TopoPush o ws st st' → TopoPush o (w :: ws) st st'

/-- Calling `Topo::next` until it returns `None`: `tovisit`, `ordered`, the nodes returned. -/
inductive TopoRun : List C → M → List C → Prop where
  | done {o : M} : TopoRun [] o []
  | skip {c : C} {st l : List C} {o : M} : T.isVisited o c = .ok true → TopoRun st o l → TopoRun (c :: st) o l
  | next {c : C} {st st' nbs l : List C} {o o' : M} {b : Bool} : T.isVisited o c = .ok false → T.visit o c = .ok (b, o') →
    T.neighbors c nbs → TopoPush T o' nbs st st' → TopoRun st' o' l → TopoRun (c :: st) o (c :: l)

/-- `Topo::new(g)` and all calls of `next`. -/
def TopoWalk (l : List C) : Prop := ∃ ids st, T.nodeIds ids ∧ TopoInit T ids st ∧ TopoRun T st.reverse T.visitMap l
end
end LG
