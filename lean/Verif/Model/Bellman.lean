import Verif.Model.Astar
/-
`petgraph::algo::bellman_ford` as a client of the two graph types: least costs where edges may have negative weights. It goes through
`node_count`, `node_bound`, `to_index`, `node_identifiers` and `edges` (lattice_abstract/nodes.rs:34-126, lattice_abstract/edges.rs:163-290,
square/nodes.rs, square/edges.rs:187-314). petgraph itself is not part of /repo; transcribed from petgraph 0.8.

The weights are taken as integers, `none` standing for `infinite()`; the additions are exact (petgraph uses `f32` and `f64`, of which the
rounding is left out).
-/
namespace LG
section
variable {V : Type}

/-- `distance` and `predecessor`. -/
structure Bell (V : Type) where
  dist : List (Option Int)
  pred : List (Option V)

/-- `distance[i]`; the index is checked. -/
def Bell.at (st : Bell V) (i : Nat) : Res (Option Int) :=
  match st.dist[i]? with
  | some x => .ok x
  | none => .error .panic

/-- `x + w < y`. -/
def shorter (x : Option Int) (w : Int) (y : Option Int) : Bool :=
  match x, y with
  | none, _ => false
  | some _, none => true
  | some a, some b => decide (a + w < b)

/-- The body of the loops over nodes and edges, for an edge of weight `w` from `i` to `j`; whether it was an improvement. -/
def bfEdge (ix : V → Res Nat) (i j : V) (w : Int) (st : Bell V) : Res (Bell V × Bool) := do
  let a ← ix i
  let b ← ix j
  let x ← st.at a
  let y ← st.at b
  if shorter x w y then
    if b < st.pred.length then .ok (⟨st.dist.set b (x.map (· + w)), st.pred.set b (some i)⟩, true) else .error .panic
  else .ok (st, false)

/-- The loops over nodes and edges, with `did_update`. -/
def bfSweep (ix : V → Res Nat) : List (V × V × Int) → Bell V → Bool → Res (Bell V × Bool)
  | [], st, did => .ok (st, did)
  | (i, j, w) :: l, st, did => do
    let (st', b) ← bfEdge ix i j w st
    bfSweep ix l st' (did || b)

/-- Step 3: can some edge still improve a distance? -/
def bfCheck (ix : V → Res Nat) : List (V × V × Int) → Bell V → Res Bool
  | [], _ => .ok false
  | (i, j, w) :: l, st => do
    let x ← st.at (← ix i)
    let y ← st.at (← ix j)
    if shorter x w y then .ok true else bfCheck ix l st

/-- Going through `node_identifiers()` and, for each, through `edges(i)`: the edges met, in order. `ex i l` says that `edges(i)` runs to its
end and that `l` lists the targets and weights. -/
inductive Swept (ex : V → List (V × Int) → Prop) : List V → List (V × V × Int) → Prop where
  | nil : Swept ex [] []
  | cons {i : V} {is : List V} {l : List (V × Int)} {a : List (V × V × Int)} :
    ex i l → Swept ex is a → Swept ex (i :: is) (l.map (fun e => (i, e.1, e.2)) ++ a)

/-- Step 2: at most so many rounds, `sw` being the edges a round meets; a round without an update is the last one. -/
inductive BfRounds (ix : V → Res Nat) (sw : List (V × V × Int) → Prop) : Nat → Bell V → Bell V → Prop where
  | zero {st : Bell V} : BfRounds ix sw 0 st st
  | stop {n : Nat} {st st' : Bell V} {a : List (V × V × Int)} : sw a → bfSweep ix a st false = .ok (st', false) →
    BfRounds ix sw (n + 1) st st'
  | more {n : Nat} {st st' st'' : Bell V} {a : List (V × V × Int)} : sw a → bfSweep ix a st false = .ok (st', true) →
    BfRounds ix sw n st' st'' → BfRounds ix sw (n + 1) st st''

/-- `bellman_ford(g, source)` for `node_bound() = bound` and `node_count() = count`; `none` is `Err(NegativeCycle)`. -/
def BellmanFord (ix : V → Res Nat) (sw : List (V × V × Int) → Prop) (bound count : Nat) (source : V) (r : Option (Bell V)) : Prop :=
  ∃ i st a b, ix source = .ok i ∧ i < bound ∧
    BfRounds ix sw (count - 1) ⟨(List.replicate bound none).set i (some 0), List.replicate bound none⟩ st ∧
    sw a ∧ bfCheck ix a st = .ok b ∧ r = if b then none else some st
end

section
variable {C A D N E : Type} [DecidableEq C] [DecidableEq D]

/-- `edges(c)` of a `LatticeGraph`, with `target()` and the weight of each edge as a number. -/
def latArcs (g : Graph C A D N E) (val : E → Int) (c : C) (l : List (C × Int)) : Prop :=
  ∃ it rs, g.edgesOf c = .ok it ∧ Yields (edgesNext g) it rs ∧ l = rs.map fun r => (r.target, val r.weight)

/-- `bellman_ford(&g, source)` for a `LatticeGraph`. -/
def Graph.BellmanFord (g : Graph C A D N E) (val : E → Int) (source : C) (r : Option (Bell C)) : Prop :=
  ∃ n, g.nodeBound = .ok n ∧
    LG.BellmanFord g.toIndex (fun a => ∃ ids, Yields (nodeIndicesNext g.s) 0 ids ∧ Swept (latArcs g val) ids a) n n source r

/-- `edges(x)` of a `SquareGraph`, with `target()` and the weight of each edge as a number. -/
def Sq.sqArcs {N E : Type} (g : Sq.G N E) (val : E → Int) (x : Sq.NodeIx) (l : List (Sq.NodeIx × Int)) : Prop :=
  ∃ rs, Yields (Sq.EdgesOf.next g) (g.edges x) rs ∧ rs.mapM (fun r => do return (← r.target g.k, val r.weight)) = .ok l

/-- `bellman_ford(&g, source)` for a `SquareGraph`. -/
def Sq.G.BellmanFord {N E : Type} (g : Sq.G N E) (val : E → Int) (source : Sq.NodeIx) (r : Option (Bell Sq.NodeIx)) : Prop :=
  LG.BellmanFord g.toIndex (fun a => ∃ ids, Yields (Sq.NodeIndices.next g.k) (.new g.horizontalNodeCount g.verticalNodeCount) ids ∧
    Swept (Sq.sqArcs g val) ids a) g.nodeCount g.nodeCount source r
end
end LG
