import Verif.Model.Articulation
/-
petgraph's `dsatur_coloring`, as a client of the crate: through `node_bound`, `node_identifiers()`, `to_index`, `edges` and the visit map.
Written after petgraph 0.8.

Simplified: a node is named here by the number `to_index` gives it, where the code keeps the node and asks for its number at each access
to a table; at the end the numbers are turned back by `from_index`. The visit map is a list of numbers. The set of colours of the
neighbors is a list without repetitions. The `BinaryHeap` is a list of which any entry of greatest score may be popped.
-/
namespace LG

/-- The variables of `dsatur_coloring`. -/
structure DsSt where
  heap : List ((Nat × Nat) × Nat)
  seen : List Nat
  colored : List (Nat × Nat)
  adj : Nat → List Nat
  top : Nat

/-- `queue.pop()`: an entry of greatest score, and what remains. Scores are compared as tuples. -/
def DsPop (h : List ((Nat × Nat) × Nat)) (e : (Nat × Nat) × Nat) (rest : List ((Nat × Nat) × Nat)) : Prop :=
  (∃ h1 h2, h = h1 ++ e :: h2 ∧ rest = h1 ++ h2) ∧ ∀ e' ∈ h, e'.1.1 < e.1.1 ∨ (e'.1.1 = e.1.1 ∧ e'.1.2 ≤ e.1.2)

/-- `adj_color.insert(color)`. -/
def insertColor (cs : List Nat) (c : Nat) : List Nat := if c ∈ cs then cs else c :: cs

/-- The loop over the neighbors: each is told the colour, and pushed with its new score. The tables have `n` entries. -/
def dsTell (n : Nat) (deg : Nat → Nat) (color : Nat) : List Nat → DsSt → DsSt
  | [], st => st
  | j :: l, st => dsTell n deg color l (if j < n then
      { st with adj := tset st.adj j (insertColor (st.adj j) color), heap := (((insertColor (st.adj j) color).length, deg j), j) :: st.heap }
    else st)

/-- One turn of the loop over the queue. `at_ i l` says that `edges` of the node `i` runs to its end and that the targets are `l`. The
colour is the first one that is not among those of the neighbors. -/
inductive DsStep (at_ : Nat → List Nat → Prop) (n : Nat) (deg : Nat → Nat) : DsSt → DsSt → Prop where
  | skip {st : DsSt} {e : (Nat × Nat) × Nat} {rest : List ((Nat × Nat) × Nat)} : DsPop st.heap e rest → e.2 ∈ st.seen →
    DsStep at_ n deg st { st with heap := rest }
  | color {st : DsSt} {e : (Nat × Nat) × Nat} {rest : List ((Nat × Nat) × Nat)} {c : Nat} {l : List Nat} : DsPop st.heap e rest →
    e.2 ∉ st.seen → c ∉ st.adj e.2 → (∀ c', c' < c → c' ∈ st.adj e.2) → at_ e.2 l →
    DsStep at_ n deg st (dsTell n deg c l ⟨rest, e.2 :: st.seen, (e.2, c) :: st.colored, st.adj, max st.top c⟩)

/-- Any number of turns. -/
inductive DsSteps (at_ : Nat → List Nat → Prop) (n : Nat) (deg : Nat → Nat) : DsSt → DsSt → Prop where
  | refl {st : DsSt} : DsSteps at_ n deg st st
  | step {st st' st'' : DsSt} : DsSteps at_ n deg st st' → DsStep at_ n deg st' st'' → DsSteps at_ n deg st st''

/-- Before the loop over the queue: the nodes `ids` with their degrees, which are counted. -/
def DsStart (at_ : Nat → List Nat → Prop) (ids : List Nat) (deg : Nat → Nat) (st : DsSt) : Prop :=
  (∀ i ∈ ids, ∃ l, at_ i l ∧ deg i = l.length) ∧ st = ⟨ids.map fun i => ((0, deg i), i), [], [], fun _ => [], 0⟩

section
variable {C A D N E : Type} [DecidableEq C] [DecidableEq D]

/-- `dsatur_coloring(g)` on a `LatticeGraph`, up to the loop: `node_bound` (lattice_abstract/nodes.rs:96-98), `node_identifiers`
(lattice_abstract/nodes.rs:11-47), `to_index` (lattice_abstract/nodes.rs:100-103), `edges` (lattice_abstract/edges.rs:163-290). -/
def Graph.DsStart (g : Graph C A D N E) (n : Nat) (deg : Nat → Nat) (st : DsSt) : Prop :=
  g.nodeBound = .ok n ∧ ∃ cs ids, Yields (nodeIndicesNext g.s) g.nodeIdentifiers cs ∧ cs.mapM g.toIndex = .ok ids ∧ LG.DsStart (latTo g) ids deg st

/-- `dsatur_coloring(g)` may return the colours `out`, `num` of them. -/
def Graph.Dsatur (g : Graph C A D N E) (out : List (C × Nat)) (num : Nat) : Prop :=
  ∃ n deg st st', g.DsStart n deg st ∧ DsSteps (latTo g) n deg st st' ∧ st'.heap = [] ∧
    st'.colored.mapM (fun p => do return (← g.fromIndex p.1, p.2)) = .ok out ∧ num = st'.top + 1
end

section
variable {N E : Type}

/-- The same of a `SquareGraph` (square/nodes.rs:9-68, 139-157, square/edges.rs:187-314). -/
def Sq.G.DsStart (g : Sq.G N E) (deg : Nat → Nat) (st : DsSt) : Prop :=
  ∃ cs ids, Yields (Sq.NodeIndices.next g.k) (.new g.horizontalNodeCount g.verticalNodeCount) cs ∧ cs.mapM g.toIndex = .ok ids ∧
    LG.DsStart (Sq.sqTo g) ids deg st

/-- `dsatur_coloring(g)` on a `SquareGraph`. -/
def Sq.G.Dsatur (g : Sq.G N E) (out : List (Sq.NodeIx × Nat)) (num : Nat) : Prop :=
  ∃ deg st st', g.DsStart deg st ∧ DsSteps (Sq.sqTo g) g.nodeCount deg st st' ∧ st'.heap = [] ∧
    st'.colored.mapM (fun p => do return (← g.fromIndex p.1, p.2)) = .ok out ∧ num = st'.top + 1
end
end LG
