import Verif.Model.Iter
/-
Client programs: the traversals of petgraph (`petgraph::visit::{Bfs, Dfs}`) written against the trait methods the crate
implements: `neighbors` (lattice_abstract/neighbors.rs:7-40), `visit_map`, `visit`, `is_visited` (lattice_abstract/mod.rs:355-413).
petgraph itself is not part of /repo; these are its published algorithms, transcribed to state what the crate's methods add
up to. A call that faults has no rule, so a run existing means that nothing faulted.
-/
namespace LG
section
variable {C A D N E : Type}

/-- `Bfs { stack, discovered }`; `stack` is a `VecDeque` used as a queue, front first. -/
structure Bfs (C A D : Type) where
  queue : List C
  discovered : VisMap C A D

/-- `Bfs::new(graph, start)`. -/
def bfsNew (g : Graph C A D N E) (start : C) : Res (Bfs C A D) := do
  let (_, vm) ← (VisMap.new g.s).visit start
  .ok ⟨[start], vm⟩

/-- The body of `Bfs::next` for the neighbours `l`: visit each; those that were new are pushed, in order. -/
def discover (vm : VisMap C A D) : List C → Res (List C × VisMap C A D)
  | [] => .ok ([], vm)
  | c :: l => do
    let (new, vm1) ← vm.visit c
    let (rest, vm2) ← discover vm1 l
    .ok (if new then c :: rest else rest, vm2)

/-- Calling `Bfs::next` until it returns `None` returns the nodes `l`. -/
inductive BfsRun [DecidableEq C] (g : Graph C A D N E) : Bfs C A D → List C → Prop where
  | done {vm : VisMap C A D} : BfsRun g ⟨[], vm⟩ []
  | next {c : C} {q nbs new l : List C} {vm vm' : VisMap C A D} :
    Yields (neighborsNext g.s c) 0 nbs → discover vm nbs = .ok (new, vm') →
    BfsRun g ⟨q ++ new, vm'⟩ l → BfsRun g ⟨c :: q, vm⟩ (c :: l)

/-- `Dfs { stack, discovered }`; the top of the stack is the head of the list. -/
structure Dfs (C A D : Type) where
  stack : List C
  discovered : VisMap C A D

/-- `Dfs::new(graph, start)`. -/
def dfsNew (g : Graph C A D N E) (start : C) : Dfs C A D := ⟨[start], VisMap.new g.s⟩

/-- The body of `Dfs::next` for the neighbours `l`: push those not visited. -/
def pushUnvisited (vm : VisMap C A D) : List C → List C → Res (List C)
  | [], st => .ok st
  | c :: l, st => do
    if ← vm.isVisited c then pushUnvisited vm l st else pushUnvisited vm l (c :: st)

/-- Calling `Dfs::next` until it returns `None` returns the nodes `l`. -/
inductive DfsRun [DecidableEq C] (g : Graph C A D N E) : Dfs C A D → List C → Prop where
  | done {vm : VisMap C A D} : DfsRun g ⟨[], vm⟩ []
  /-- the popped node was visited before: the loop goes on -/
  | skip {c : C} {st l : List C} {vm vm' : VisMap C A D} :
    vm.visit c = .ok (false, vm') → DfsRun g ⟨st, vm'⟩ l → DfsRun g ⟨c :: st, vm⟩ l
  | next {c : C} {st st' nbs l : List C} {vm vm' : VisMap C A D} :
    vm.visit c = .ok (true, vm') → Yields (neighborsNext g.s c) 0 nbs → pushUnvisited vm' nbs st = .ok st' →
    DfsRun g ⟨st', vm'⟩ l → DfsRun g ⟨c :: st, vm⟩ (c :: l)

/-! `petgraph::algo::dijkstra` without a goal, on `edges` (lattice_abstract/edges.rs:163-260) and the visit map. Scores are natural
numbers (the overflow of a machine type would be the client's). The `HashMap` of scores is a function, the `BinaryHeap` a
list of which any entry of least score may be popped. -/

/-- The variables of `dijkstra`. -/
structure Dij (C A D : Type) where
  visited : VisMap C A D
  scores : C → Option Nat
  heap : List (Nat × C)

/-- Before the loop: the start has score zero and is in the heap. -/
def dijNew [DecidableEq C] (g : Graph C A D N E) (start : C) : Dij C A D :=
  ⟨VisMap.new g.s, fun c => if c = start then some 0 else none, [(0, start)]⟩

/-- Set the score of `c` and push it. -/
def Dij.improve [DecidableEq C] (st : Dij C A D) (c : C) (n : Nat) : Dij C A D :=
  { st with scores := fun c' => if c' = c then some n else st.scores c', heap := (n, c) :: st.heap }

/-- The loop over the edges `l` of the popped node of score `n`: skip visited targets, otherwise improve their score. -/
def relax [DecidableEq C] (cost : EdgeRef C D E → Nat) (n : Nat) : List (EdgeRef C D E) → Dij C A D → Res (Dij C A D)
  | [], st => .ok st
  | r :: l, st => do
    if ← st.visited.isVisited r.target then relax cost n l st
    else match st.scores r.target with
      | some old =>
        if n + cost r < old then relax cost n l (st.improve r.target (n + cost r)) else relax cost n l st
      | none => relax cost n l (st.improve r.target (n + cost r))

/-- `h` with the entry `e` of least score popped is `rest`. -/
def Pop (h : List (Nat × C)) (e : Nat × C) (rest : List (Nat × C)) : Prop :=
  (∃ h1 h2, h = h1 ++ e :: h2 ∧ rest = h1 ++ h2) ∧ ∀ e' ∈ h, e.1 ≤ e'.1

/-- One turn of the loop, popping `e` and leaving `rest`. -/
inductive DijStep [DecidableEq C] [DecidableEq D] (g : Graph C A D N E) (cost : EdgeRef C D E → Nat) :
    Dij C A D → Nat × C → List (Nat × C) → Dij C A D → Prop where
  | skip {st : Dij C A D} {n : Nat} {c : C} {rest : List (Nat × C)} :
    Pop st.heap (n, c) rest → st.visited.isVisited c = .ok true → DijStep g cost st (n, c) rest { st with heap := rest }
  | next {st st1 : Dij C A D} {n : Nat} {c : C} {rest : List (Nat × C)} {it : EdgesIt C} {l : List (EdgeRef C D E)}
      {b : Bool} {vm : VisMap C A D} :
    Pop st.heap (n, c) rest → st.visited.isVisited c = .ok false → g.edgesOf c = .ok it → Yields (edgesNext g) it l →
    relax cost n l { st with heap := rest } = .ok st1 → st1.visited.visit c = .ok (b, vm) →
    DijStep g cost st (n, c) rest { st1 with visited := vm }

/-- A number of turns. -/
inductive DijSteps [DecidableEq C] [DecidableEq D] (g : Graph C A D N E) (cost : EdgeRef C D E → Nat) :
    Dij C A D → Nat → Dij C A D → Prop where
  | nil {st : Dij C A D} : DijSteps g cost st 0 st
  | step {st st' st'' : Dij C A D} {j : Nat} {e : Nat × C} {rest : List (Nat × C)} :
    DijSteps g cost st j st' → DijStep g cost st' e rest st'' → DijSteps g cost st (j + 1) st''

end
end LG
