import Verif.Model.LegacySearch
import Verif.Model.Search
/-
A further client program: `petgraph::algo::is_bipartite_undirected`, written against `neighbors`, `visit_map`, `visit` and
`is_visited` as the two graph types implement them (lattice_abstract/neighbors.rs:7-82, lattice_abstract/mod.rs:355-413,
square/neighbors.rs:8-92, square/mod.rs:480-512). petgraph itself is not part of /repo; this is its published algorithm.
-/
namespace LG

/-- The methods a traversal uses. `neighbors c l`: the iterator `neighbors(c)` yields `l` without a fault. -/
structure Traversable (C M : Type) where
  visitMap : M
  visit : M → C → Res (Bool × M)
  isVisited : M → C → Res Bool
  neighbors : C → List C → Prop

/-- Those of `LatticeGraph`. -/
def Graph.traversable {C A D N E : Type} [DecidableEq C] (g : Graph C A D N E) : Traversable C (VisMap C A D) where
  visitMap := VisMap.new g.s
  visit := VisMap.visit
  isVisited := VisMap.isVisited
  neighbors := fun c l => Yields (neighborsNext g.s c) 0 l

section
variable {C M : Type} (T : Traversable C M)

/-- The loop over the neighbours of a node that is red (blue): `none` is the early `return false`; otherwise the neighbours pushed
on the queue, in order, and the two maps. The last arm is `panic!("Invariant doesn't hold")`. -/
def bipLoop (isRed isBlue : Bool) : M → M → List C → Res (Option (List C × M × M))
  | red, blue, [] => .ok (some ([], red, blue))
  | red, blue, c :: l => do
    let nRed ← T.isVisited red c
    let nBlue ← T.isVisited blue c
    if (isRed && nRed) || (isBlue && nBlue) then .ok none
    else if !nRed && !nBlue then
      match isRed, isBlue with
      | true, false => do
        let (_, blue') ← T.visit blue c
        .ok ((← bipLoop isRed isBlue red blue' l).map fun (q, m) => (c :: q, m))
      | false, true => do
        let (_, red') ← T.visit red c
        .ok ((← bipLoop isRed isBlue red' blue l).map fun (q, m) => (c :: q, m))
      | _, _ => .error .panic
    else bipLoop isRed isBlue red blue l

/-- The `while let` loop over the queue; `assert!(is_red ^ is_blue)` has to hold for a rule to apply. -/
inductive BipRun : List C → M → M → Bool → Prop where
  | done {red blue : M} : BipRun [] red blue true
  | odd {c : C} {q nbs : List C} {red blue : M} {isRed isBlue : Bool} :
    T.isVisited red c = .ok isRed → T.isVisited blue c = .ok isBlue → (isRed ^^ isBlue) = true → T.neighbors c nbs →
    bipLoop T isRed isBlue red blue nbs = .ok none → BipRun (c :: q) red blue false
  | next {c : C} {q nbs new : List C} {red blue red' blue' : M} {isRed isBlue b : Bool} :
    T.isVisited red c = .ok isRed → T.isVisited blue c = .ok isBlue → (isRed ^^ isBlue) = true → T.neighbors c nbs →
    bipLoop T isRed isBlue red blue nbs = .ok (some (new, red', blue')) → BipRun (q ++ new) red' blue' b →
    BipRun (c :: q) red blue b

/-- `is_bipartite_undirected(g, start)` ends and returns `b`. -/
def IsBipartite (start : C) (b : Bool) : Prop :=
  ∃ new red, T.visit T.visitMap start = .ok (new, red) ∧ BipRun T [start] red T.visitMap b

end

namespace Sq
variable {N E : Type}

/-- The methods of the legacy `SquareGraph`. -/
def G.traversable (g : G N E) : Traversable NodeIx Vis where
  visitMap := g.visitMap
  visit := Vis.visit
  isVisited := Vis.isVisited
  neighbors := fun n l => Yields (Nbrs.next g.k) (g.neighbors n) l

end Sq
end LG
