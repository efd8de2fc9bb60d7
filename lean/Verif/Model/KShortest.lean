import Verif.Model.Astar
/-
`petgraph::algo::k_shortest_path(graph, start, goal, k, edge_cost)` on the traits the crate implements: `NodeCount`,
`NodeIndexable::to_index` and `edges`. Nodes are popped up to `k` times each; the score of the `k`-th time is kept.

Scores are natural numbers (the overflow of a machine type would be the client's). The `HashMap` of scores is a function, the
`BinaryHeap` a list of which any entry of least score may be popped.
-/
namespace LG

section
variable {V : Type}

/-- The variables of `k_shortest_path`: how often each node was popped, by its number, the scores found and the heap. -/
structure KSt (V : Type) where
  counter : List Nat
  scores : V → Option Nat
  heap : List (Nat × V)

/-- Before the loop: `n` counters at zero, and the start in the heap with score zero. -/
def kNew (n : Nat) (start : V) : KSt V := ⟨List.replicate n 0, fun _ => none, [(0, start)]⟩

/-- `scores.insert(c, x)` if this is the `k`-th time `c` is popped, `j` being the times so far with this one. -/
def kScore [DecidableEq V] (k j : Nat) (c : V) (x : Nat) (sc : V → Option Nat) : V → Option Nat :=
  if j = k then fun v => if v = c then some x else sc v else sc

/-- One turn of the loop that does not leave it: pop an entry of least score, count it at its node, and push the ends of the node's edges
unless it was popped `k` times before. Indexing past the counters would panic: there is no such turn. -/
inductive KStep [DecidableEq V] (ix : V → Res Nat) (ex : V → List (V × Nat) → Prop) (goal : Option V) (k : Nat) : KSt V → KSt V → Prop where
  | over {st : KSt V} {x : Nat} {c : V} {rest : List (Nat × V)} {i j : Nat} :
    Pop st.heap (x, c) rest → ix c = .ok i → st.counter[i]? = some j → k < j + 1 →
    KStep ix ex goal k st { st with counter := st.counter.set i (j + 1), heap := rest }
  | next {st : KSt V} {x : Nat} {c : V} {rest : List (Nat × V)} {i j : Nat} {l : List (V × Nat)} :
    Pop st.heap (x, c) rest → ix c = .ok i → st.counter[i]? = some j → ¬ k < j + 1 → ¬ (goal = some c ∧ j + 1 = k) → ex c l →
    KStep ix ex goal k st
      ⟨st.counter.set i (j + 1), kScore k (j + 1) c x st.scores, (l.map fun e => (x + e.2, e.1)) ++ rest⟩

/-- Any number of turns. -/
inductive KSteps [DecidableEq V] (ix : V → Res Nat) (ex : V → List (V × Nat) → Prop) (goal : Option V) (k : Nat) : KSt V → KSt V → Prop where
  | refl {st : KSt V} : KSteps ix ex goal k st st
  | step {st st' st'' : KSt V} : KSteps ix ex goal k st st' → KStep ix ex goal k st' st'' → KSteps ix ex goal k st st''

/-- The loop is left with the scores `sc`: the heap is empty, or the goal is popped for the `k`-th time. -/
inductive KReturns [DecidableEq V] (ix : V → Res Nat) (goal : Option V) (k : Nat) (st : KSt V) : (V → Option Nat) → Prop where
  | empty : st.heap = [] → KReturns ix goal k st st.scores
  | goal {x : Nat} {c : V} {rest : List (Nat × V)} {i j : Nat} :
    Pop st.heap (x, c) rest → ix c = .ok i → st.counter[i]? = some j → goal = some c → j + 1 = k →
    KReturns ix goal k st (kScore k (j + 1) c x st.scores)

/-- `k_shortest_path` can return the scores `sc`. -/
def KShortest [DecidableEq V] (ix : V → Res Nat) (ex : V → List (V × Nat) → Prop) (n : Nat) (start : V) (goal : Option V) (k : Nat)
    (sc : V → Option Nat) : Prop :=
  ∃ st, KSteps ix ex goal k (kNew n start) st ∧ KReturns ix goal k st sc
end

/-- `k_shortest_path` on a `LatticeGraph`: `to_index` (lattice_abstract/nodes.rs:101-103), `node_count`
(lattice_abstract/nodes.rs:87-91) and `edges` (lattice_abstract/edges.rs:163-290). -/
def Graph.KShortest {C A D N E : Type} [DecidableEq C] [DecidableEq D] (g : Graph C A D N E) (cost : EdgeRef C D E → Nat) (start : C)
    (goal : Option C) (k : Nat) (sc : C → Option Nat) : Prop :=
  ∃ n, g.nodeBound = .ok n ∧ LG.KShortest g.toIndex (latEdges g cost) n start goal k sc

/-- `k_shortest_path` on a `SquareGraph`: `to_index` (square/nodes.rs:150-152), `node_count` (square/nodes.rs:137-139) and `edges`
(square/edges.rs:187-314). -/
def Sq.G.KShortest {N E : Type} (g : Sq.G N E) (cost : Sq.Ref E → Nat) (start : Sq.NodeIx) (goal : Option Sq.NodeIx) (k : Nat)
    (sc : Sq.NodeIx → Option Nat) : Prop :=
  LG.KShortest g.toIndex (Sq.sqEdges g cost) g.nodeCount start goal k sc

end LG
