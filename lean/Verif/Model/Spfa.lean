import Verif.Model.Bellman
/-
`petgraph::algo::spfa` (the shortest path faster algorithm) as a client of the two graph types: least costs where edges may have negative
weights, with a queue of the nodes whose distance became shorter. It goes through `node_bound`, `to_index` and `edges`
(lattice_abstract/nodes.rs:34-126, lattice_abstract/edges.rs:163-290, square/nodes.rs, square/edges.rs:187-314). petgraph itself is not part
of /repo; transcribed from petgraph 0.8.

The costs are taken as integers, `none` standing for `K::max()`, which only nodes have that were never in the queue; the additions are exact
(the test for overflow is left out).
-/
namespace LG
section
variable {V : Type}

/-- `distances` and `predecessors`, `queue`, `in_queue` and `visits`. -/
structure SpfaSt (V : Type) where
  bell : Bell V
  queue : List V
  inq : List Bool
  visits : List Nat

/-- The body of the loop over `edges(i)`, for an edge of weight `w` to `j`: the test and the update are those of `bellman_ford`, and a node
with a new distance is put at the end of the queue unless it is there. -/
def spfaEdge (ix : V → Res Nat) (i j : V) (w : Int) (st : SpfaSt V) : Res (SpfaSt V) := do
  let (bell, better) ← bfEdge ix i j w st.bell
  if better then
    let b ← ix j
    match st.inq[b]? with
    | none => .error .panic
    | some true => .ok { st with bell := bell }
    | some false => .ok { st with bell := bell, inq := st.inq.set b true, queue := st.queue ++ [j] }
  else .ok { st with bell := bell }

/-- The loop over `edges(i)`. -/
def spfaEdges (ix : V → Res Nat) (i : V) : List (V × Int) → SpfaSt V → Res (SpfaSt V)
  | [], st => .ok st
  | (j, w) :: l, st => do
    let st' ← spfaEdge ix i j w st
    spfaEdges ix i l st'

/-- `spfa_loop`, for `node_bound() = n`; `none` is `Err(NegativeCycle)`. `ex i l` says that `edges(i)` runs to its end and that `l` lists the
targets and costs. -/
inductive SpfaLoop (ix : V → Res Nat) (ex : V → List (V × Int) → Prop) (n : Nat) : SpfaSt V → Option (Bell V) → Prop where
  | done {bell : Bell V} {inq : List Bool} {visits : List Nat} : SpfaLoop ix ex n ⟨bell, [], inq, visits⟩ (some bell)
  | cycle {bell : Bell V} {i : V} {q : List V} {inq : List Bool} {visits : List Nat} {a k : Nat} :
    ix i = .ok a → a < inq.length → visits[a]? = some k → n ≤ k → SpfaLoop ix ex n ⟨bell, i :: q, inq, visits⟩ none
  | next {bell : Bell V} {i : V} {q : List V} {inq : List Bool} {visits : List Nat} {a k : Nat} {l : List (V × Int)} {st : SpfaSt V}
    {r : Option (Bell V)} : ix i = .ok a → a < inq.length → visits[a]? = some k → k < n → ex i l →
    spfaEdges ix i l ⟨bell, q, inq.set a false, visits.set a (k + 1)⟩ = .ok st → SpfaLoop ix ex n st r →
    SpfaLoop ix ex n ⟨bell, i :: q, inq, visits⟩ r

/-- `spfa(g, source, edge_cost)` for `node_bound() = n`. -/
def Spfa (ix : V → Res Nat) (ex : V → List (V × Int) → Prop) (n : Nat) (source : V) (r : Option (Bell V)) : Prop :=
  ∃ i, ix source = .ok i ∧ i < n ∧
    SpfaLoop ix ex n ⟨⟨(List.replicate n none).set i (some 0), List.replicate n none⟩, [source], (List.replicate n false).set i true,
      List.replicate n 0⟩ r
end

section
variable {C A D N E : Type} [DecidableEq C] [DecidableEq D]

/-- `spfa(&g, source, |e| val(e.weight()))` for a `LatticeGraph`. -/
def Graph.Spfa (g : Graph C A D N E) (val : E → Int) (source : C) (r : Option (Bell C)) : Prop :=
  ∃ n, g.nodeBound = .ok n ∧ LG.Spfa g.toIndex (latArcs g val) n source r

/-- `spfa(&g, source, |e| val(e.weight()))` for a `SquareGraph`. -/
def Sq.G.Spfa {N E : Type} (g : Sq.G N E) (val : E → Int) (source : Sq.NodeIx) (r : Option (Bell Sq.NodeIx)) : Prop :=
  LG.Spfa g.toIndex (Sq.sqArcs g val) g.nodeCount source r
end
end LG
