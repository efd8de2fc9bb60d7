import Verif.Model.Search
import Verif.Model.LegacySearch
/- `petgraph::algo::all_simple_paths` as a client of the crate: depth-first with one live `neighbors_directed` iterator per node of
the current path. -/
namespace LG
section
variable {C It : Type} [DecidableEq C]

/-- `children.any(|v| v == to)`: what it returns and the iterator afterwards. -/
inductive AnyIs (next : It → Res (Option C × It)) (to : C) : It → Bool → It → Prop where
  | none {it it' : It} : next it = .ok (none, it') → AnyIs next to it false it'
  | hit {it it' : It} : next it = .ok (some to, it') → AnyIs next to it true it'
  | miss {it it' it2 : It} {c : C} {b : Bool} : next it = .ok (some c, it') → c ≠ to → AnyIs next to it' b it2 → AnyIs next to it b it2

/-- `child == to || children.any(|v| v == to)`. -/
def ChildIs (next : It → Res (Option C × It)) (to c : C) (it : It) (b : Bool) (it' : It) : Prop :=
  (c = to ∧ b = true ∧ it' = it) ∨ (c ≠ to ∧ AnyIs next to it b it')

/-- Calling the iterator until it returns `None`: `visited` in order of insertion, the stack with its top first, and the paths
returned. `start c` is `neighbors_directed(c, Outgoing)`; a path may have up to `maxL` nodes before `to` and must have `minL`. -/
inductive SpRun (next : It → Res (Option C × It)) (start : C → It) (to : C) (minL maxL : Nat) :
    List C → List It → List (List C) → Prop where
  | done {vis : List C} : SpRun next start to minL maxL vis [] []
  | empty {vis : List C} {it it' : It} {st : List It} {out : List (List C)} : next it = .ok (none, it') →
    SpRun next start to minL maxL vis.dropLast st out → SpRun next start to minL maxL vis (it :: st) out
  | found {vis : List C} {it it' : It} {st : List It} {out : List (List C)} : next it = .ok (some to, it') → vis.length < maxL →
    minL ≤ vis.length → SpRun next start to minL maxL vis (it' :: st) out → SpRun next start to minL maxL vis (it :: st) ((vis ++ [to]) :: out)
  | short {vis : List C} {it it' : It} {st : List It} {out : List (List C)} : next it = .ok (some to, it') → vis.length < maxL →
    ¬ minL ≤ vis.length → SpRun next start to minL maxL vis (it' :: st) out → SpRun next start to minL maxL vis (it :: st) out
  | seen {vis : List C} {it it' : It} {st : List It} {c : C} {out : List (List C)} : next it = .ok (some c, it') → vis.length < maxL →
    c ≠ to → c ∈ vis → SpRun next start to minL maxL vis (it' :: st) out → SpRun next start to minL maxL vis (it :: st) out
  | enter {vis : List C} {it it' : It} {st : List It} {c : C} {out : List (List C)} : next it = .ok (some c, it') → vis.length < maxL →
    c ≠ to → c ∉ vis → SpRun next start to minL maxL (vis ++ [c]) (start c :: it' :: st) out →
    SpRun next start to minL maxL vis (it :: st) out
  | last {vis : List C} {it it' it2 : It} {st : List It} {c : C} {out : List (List C)} : next it = .ok (some c, it') →
    ¬ vis.length < maxL → ChildIs next to c it' true it2 → minL ≤ vis.length → SpRun next start to minL maxL vis (it2 :: st) out →
    SpRun next start to minL maxL vis (it :: st) ((vis ++ [to]) :: out)
  | back {vis : List C} {it it' it2 : It} {st : List It} {c : C} {b : Bool} {out : List (List C)} : next it = .ok (some c, it') →
    ¬ vis.length < maxL → ChildIs next to c it' b it2 → ¬ (b = true ∧ minL ≤ vis.length) →
    SpRun next start to minL maxL vis.dropLast st out → SpRun next start to minL maxL vis (it :: st) out
end

/-- `max_length` and `min_length`, from the arguments and what `node_count()` returns. -/
def pathBounds (m : Machine) (nc : Res Nat) (minI : Nat) (maxI : Option Nat) : Res (Nat × Nat) := do
  let maxL ← match maxI with
    | some l => uadd m l 1
    | none => do usub m (← nc) 1
  let minL ← uadd m minI 1
  .ok (minL, maxL)

/-- `all_simple_paths(&g, a, b, minI, maxI)` with `neighbors_directed` (lattice_abstract/neighbors.rs:84-86) and `node_count`
(lattice_abstract/nodes.rs:88-90) of a `LatticeGraph`. -/
def SimplePaths {C A D N E : Type} [DecidableEq C] (g : Graph C A D N E) (a b : C) (minI : Nat) (maxI : Option Nat)
    (out : List (List C)) : Prop :=
  ∃ minL maxL, pathBounds g.s.m g.nodeBound minI maxI = .ok (minL, maxL) ∧
    SpRun (NeighborsIt.next g.s) (fun c => g.neighborsDirected c .outgoing) b minL maxL [a] [g.neighborsDirected a .outgoing] out

/-- The same with `neighbors_directed` (square/neighbors.rs:100-111) and `node_count` (square/nodes.rs:137-139) of the legacy
`SquareGraph`. -/
def Sq.SimplePaths {N E : Type} (g : Sq.G N E) (a b : Sq.NodeIx) (minI : Nat) (maxI : Option Nat) (out : List (List Sq.NodeIx)) : Prop :=
  ∃ minL maxL, pathBounds g.k.m (.ok g.nodeCount) minI maxI = .ok (minL, maxL) ∧
    SpRun (Sq.Nbrs.next g.k) (fun c => g.neighborsDirected c .outgoing) b minL maxL [a] [g.neighborsDirected a .outgoing] out
end LG
