import Verif.Model.Legacy
import Verif.Model.Search
/-
Client programs on the deprecated `SquareGraph`: petgraph's `Bfs`, `Dfs` and `dijkstra` (see Model/Search.lean) written against
`neighbors` (square/neighbors.rs:79-90), `edges` (square/edges.rs:299-314), `EdgeReference::target` (83-85), and `visit_map`, `visit`,
`is_visited` (square/mod.rs:484-512).
-/
namespace LG.Sq
section
variable {N E : Type}

/-- `visit_map`. square/mod.rs:505-507. -/
def G.visitMap (g : G N E) : Vis := Vis.new g.horizontalNodeCount g.verticalNodeCount

/-- `neighbors_directed`: the direction is ignored. square/neighbors.rs:100-112. -/
def G.neighborsDirected (g : G N E) (a : NodeIx) (_d : PDir) : Nbrs := ⟨a, 0, g.horizontalNodeCount, g.verticalNodeCount⟩

/-- `Bfs { stack, discovered }`; the front of the queue is the head of the list. -/
structure BfsSt where
  queue : List NodeIx
  discovered : Vis

/-- `Bfs::new(graph, start)`. -/
def bfsNew (g : G N E) (start : NodeIx) : Res BfsSt := do
  let (_, vm) ← g.visitMap.visit start
  .ok ⟨[start], vm⟩

/-- The body of `Bfs::next` for the neighbours `l`: visit each; those that were new are pushed, in order. -/
def discover (vm : Vis) : List NodeIx → Res (List NodeIx × Vis)
  | [] => .ok ([], vm)
  | c :: l => do
    let (new, vm1) ← vm.visit c
    let (rest, vm2) ← discover vm1 l
    .ok (if new then c :: rest else rest, vm2)

/-- Calling `Bfs::next` until it returns `None` returns the nodes `l`. -/
inductive BfsRun (g : G N E) : BfsSt → List NodeIx → Prop where
  | done {vm : Vis} : BfsRun g ⟨[], vm⟩ []
  | next {c : NodeIx} {q nbs new l : List NodeIx} {vm vm' : Vis} :
    Yields (Nbrs.next g.k) (g.neighbors c) nbs → discover vm nbs = .ok (new, vm') →
    BfsRun g ⟨q ++ new, vm'⟩ l → BfsRun g ⟨c :: q, vm⟩ (c :: l)

/-- `Dfs { stack, discovered }`; the top of the stack is the head of the list. -/
structure DfsSt where
  stack : List NodeIx
  discovered : Vis

/-- `Dfs::new(graph, start)`. -/
def dfsNew (g : G N E) (start : NodeIx) : DfsSt := ⟨[start], g.visitMap⟩

/-- The body of `Dfs::next` for the neighbours `l`: push those not visited. -/
def pushUnvisited (vm : Vis) : List NodeIx → List NodeIx → Res (List NodeIx)
  | [], st => .ok st
  | c :: l, st => do
    if ← vm.isVisited c then pushUnvisited vm l st else pushUnvisited vm l (c :: st)

/-- Calling `Dfs::next` until it returns `None` returns the nodes `l`. -/
inductive DfsRun (g : G N E) : DfsSt → List NodeIx → Prop where
  | done {vm : Vis} : DfsRun g ⟨[], vm⟩ []
  /-- the popped node was visited before: the loop goes on -/
  | skip {c : NodeIx} {st l : List NodeIx} {vm vm' : Vis} :
    vm.visit c = .ok (false, vm') → DfsRun g ⟨st, vm'⟩ l → DfsRun g ⟨c :: st, vm⟩ l
  | next {c : NodeIx} {st st' nbs l : List NodeIx} {vm vm' : Vis} :
    vm.visit c = .ok (true, vm') → Yields (Nbrs.next g.k) (g.neighbors c) nbs → pushUnvisited vm' nbs st = .ok st' →
    DfsRun g ⟨st', vm'⟩ l → DfsRun g ⟨c :: st, vm⟩ (c :: l)

/-- The variables of `dijkstra`. -/
structure Dij where
  visited : Vis
  scores : NodeIx → Option Nat
  heap : List (Nat × NodeIx)

/-- Before the loop: the start has score zero and is in the heap. -/
def dijNew (g : G N E) (start : NodeIx) : Dij := ⟨g.visitMap, fun c => if c = start then some 0 else none, [(0, start)]⟩

/-- Set the score of `c` and push it. -/
def Dij.improve (st : Dij) (c : NodeIx) (n : Nat) : Dij :=
  { st with scores := fun c' => if c' = c then some n else st.scores c', heap := (n, c) :: st.heap }

/-- The loop over the edges `l` of the popped node of score `n`: skip visited targets, otherwise improve their score. -/
def relax (k : Cfg) (cost : Ref E → Nat) (n : Nat) : List (Ref E) → Dij → Res Dij
  | [], st => .ok st
  | r :: l, st => do
    let t ← r.target k
    if ← st.visited.isVisited t then relax k cost n l st
    else match st.scores t with
      | some old => if n + cost r < old then relax k cost n l (st.improve t (n + cost r)) else relax k cost n l st
      | none => relax k cost n l (st.improve t (n + cost r))

/-- One turn of the loop, popping `e` and leaving `rest`. -/
inductive DijStep (g : G N E) (cost : Ref E → Nat) : Dij → Nat × NodeIx → List (Nat × NodeIx) → Dij → Prop where
  | skip {st : Dij} {n : Nat} {c : NodeIx} {rest : List (Nat × NodeIx)} :
    Pop st.heap (n, c) rest → st.visited.isVisited c = .ok true → DijStep g cost st (n, c) rest { st with heap := rest }
  | next {st st1 : Dij} {n : Nat} {c : NodeIx} {rest : List (Nat × NodeIx)} {l : List (Ref E)} {b : Bool} {vm : Vis} :
    Pop st.heap (n, c) rest → st.visited.isVisited c = .ok false → Yields (EdgesOf.next g) (g.edges c) l →
    relax g.k cost n l { st with heap := rest } = .ok st1 → st1.visited.visit c = .ok (b, vm) →
    DijStep g cost st (n, c) rest { st1 with visited := vm }

/-- A number of turns. -/
inductive DijSteps (g : G N E) (cost : Ref E → Nat) : Dij → Nat → Dij → Prop where
  | nil {st : Dij} : DijSteps g cost st 0 st
  | step {st st' st'' : Dij} {j : Nat} {e : Nat × NodeIx} {rest : List (Nat × NodeIx)} :
    DijSteps g cost st j st' → DijStep g cost st' e rest st'' → DijSteps g cost st (j + 1) st''

end
end LG.Sq
