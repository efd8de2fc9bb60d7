import Verif.Model.Search
import Verif.Model.LegacySearch
/- `petgraph::algo::astar` as a client of the crate. The crate's own tests (lattice_abstract/square.rs:742-780,
square/tests.rs:349-381) and its benchmarks (benches/bench_ndarray.rs:12-47, benches/square_comparison.rs:129-171) run it on
`LatticeGraph` and on the deprecated `SquareGraph`. -/
namespace LG
section
variable {V : Type}

/-! The algorithm uses only `edges(node)` of the graph and the endpoints and weights of what it yields, so it is written over a
relation `ex`: `ex c l` says that `edges(c)` runs to its end and yields edges of which `l` lists the targets and the costs.
Costs and estimates are natural numbers (the overflow of a machine type would be the client's). The `HashMap`s are functions, the
`BinaryHeap` is a list of which any entry of least estimate may be popped. -/

/-- The variables of `astar`: `scores`, `estimate_scores`, the `came_from` map of the `PathTracker`, and `visit_next`. -/
structure Ast (V : Type) where
  scores : V → Option Nat
  est : V → Option Nat
  came : V → Option V
  heap : List (Nat × V)

/-- Before the loop: the start has score zero and is in the heap with its estimate. -/
def astNew [DecidableEq V] (h : V → Nat) (start : V) : Ast V :=
  ⟨fun c => if c = start then some 0 else none, fun _ => none, fun _ => none, [(h start, start)]⟩

/-- `scores` set, `set_predecessor(next, node)`, and `next` pushed with its estimate. -/
def Ast.improve [DecidableEq V] (st : Ast V) (h : V → Nat) (node next : V) (n : Nat) : Ast V :=
  { st with
    scores := fun c => if c = next then some n else st.scores c
    came := fun c => if c = next then some node else st.came c
    heap := (n + h next, next) :: st.heap }

/-- The loop over the edges of the popped `node` of score `n`: `continue` when the target has no greater score already. -/
def astRelax [DecidableEq V] (h : V → Nat) (node : V) (n : Nat) : List (V × Nat) → Ast V → Ast V
  | [], st => st
  | (next, w) :: l, st =>
    match st.scores next with
    | some old => if old ≤ n + w then astRelax h node n l st else astRelax h node n l (st.improve h node next (n + w))
    | none => astRelax h node n l (st.improve h node next (n + w))

/-- One turn of the loop that does not return: a popped entry with no better estimate than the node was expanded with before is
skipped; otherwise the node is expanded. -/
inductive AstStep [DecidableEq V] (ex : V → List (V × Nat) → Prop) (h : V → Nat) (goal : V → Bool) : Ast V → Ast V → Prop where
  | skip {st : Ast V} {f f0 : Nat} {c : V} {rest : List (Nat × V)} :
    Pop st.heap (f, c) rest → goal c = false → st.est c = some f0 → f0 ≤ f → AstStep ex h goal st { st with heap := rest }
  | next {st : Ast V} {f n : Nat} {c : V} {rest : List (Nat × V)} {l : List (V × Nat)} :
    Pop st.heap (f, c) rest → goal c = false → (∀ f0, st.est c = some f0 → f < f0) → st.scores c = some n → ex c l →
    AstStep ex h goal st (astRelax h c n l { st with heap := rest, est := fun x => if x = c then some f else st.est x })

/-- Some number of turns. -/
inductive AstSteps [DecidableEq V] (ex : V → List (V × Nat) → Prop) (h : V → Nat) (goal : V → Bool) : Ast V → Ast V → Prop where
  | nil {st : Ast V} : AstSteps ex h goal st st
  | step {st st' st'' : Ast V} : AstSteps ex h goal st st' → AstStep ex h goal st' st'' → AstSteps ex h goal st st''

/-- `reconstruct_path_to`: follow the predecessors to their end, and reverse. -/
inductive Rebuilt (came : V → Option V) : V → List V → Prop where
  | root {v : V} : came v = none → Rebuilt came v [v]
  | step {v u : V} {p : List V} : came v = some u → Rebuilt came u p → Rebuilt came v (p ++ [v])

/-- The turn that returns: `None` when the heap is empty, the score and the path when a goal is popped. -/
inductive AstReturns (goal : V → Bool) (st : Ast V) : Option (Nat × List V) → Prop where
  | none : st.heap = [] → AstReturns goal st none
  | some {f n : Nat} {c : V} {rest : List (Nat × V)} {p : List V} :
    Pop st.heap (f, c) rest → goal c = true → st.scores c = some n → Rebuilt st.came c p → AstReturns goal st (some (n, p))

/-- `astar(g, start, goal, cost, h)` can return `o`. -/
def AstOutcome [DecidableEq V] (ex : V → List (V × Nat) → Prop) (h : V → Nat) (goal : V → Bool) (start : V)
    (o : Option (Nat × List V)) : Prop :=
  ∃ st, AstSteps ex h goal (astNew h start) st ∧ AstReturns goal st o
end

/-- `edges(c)` of a `LatticeGraph` (lattice_abstract/edges.rs:163-290), with `e.target()` (edges.rs:52-54) and the cost of each
edge. -/
def latEdges {C A D N E : Type} [DecidableEq C] [DecidableEq D] (g : Graph C A D N E) (cost : EdgeRef C D E → Nat) (c : C)
    (l : List (C × Nat)) : Prop :=
  ∃ it rs, g.edgesOf c = .ok it ∧ Yields (edgesNext g) it rs ∧ l = rs.map fun r => (r.target, cost r)

/-- `edges(x)` of a `SquareGraph` (square/edges.rs:187-314), with `e.target()` (square/edges.rs:83-85) and the cost of each
edge. -/
def Sq.sqEdges {N E : Type} (g : Sq.G N E) (cost : Sq.Ref E → Nat) (x : Sq.NodeIx) (l : List (Sq.NodeIx × Nat)) : Prop :=
  ∃ rs, Yields (Sq.EdgesOf.next g) (g.edges x) rs ∧ rs.mapM (fun r => do return (← r.target g.k, cost r)) = .ok l

end LG
