import Verif.Model.Spanning
import Verif.Model.Search
/-
petgraph's `min_spanning_tree_prim` (Prim's algorithm), as a client of the crate: through `node_references()`, `to_index`, `from_index`
and `edges`. Written after petgraph 0.8.

The nodes are returned first, then the edges one call of `next` after the other; here the turns of the loop over the heap of all calls are
put together. `nodes_taken` is a list of numbers. The `BinaryHeap` is a list of which any entry of least cost may be popped.
-/
namespace LG

section
variable {E : Type}

/-- `sort_edges.pop()`: an entry of least cost and what remains. -/
def PrimPop (cost : E → Nat) (h : List (Nat × Nat × E)) (e : Nat × Nat × E) (rest : List (Nat × Nat × E)) : Prop :=
  (∃ h1 h2, h = h1 ++ e :: h2 ∧ rest = h1 ++ h2) ∧ ∀ e' ∈ h, cost e.2.2 ≤ cost e'.2.2

/-- The fields of `MinSpanningTreePrim`, and the edges returned so far. -/
structure PrimSt (E : Type) where
  taken : List Nat
  heap : List (Nat × Nat × E)
  out : List (Nat × Nat × E)

/-- One turn. An edge to a node taken is dropped; any other is returned, its end is taken, and the edges of the end are pushed. `at_ i l`
says that `edges(from_index(i))` runs to its end and yields the edges `l`, by the numbers of their ends. -/
inductive PrimStep (cost : E → Nat) (at_ : Nat → List (Nat × Nat × E) → Prop) : PrimSt E → PrimSt E → Prop where
  | drop {st : PrimSt E} {e : Nat × Nat × E} {rest : List (Nat × Nat × E)} : PrimPop cost st.heap e rest → e.2.1 ∈ st.taken →
    PrimStep cost at_ st { st with heap := rest }
  | take {st : PrimSt E} {e : Nat × Nat × E} {rest l : List (Nat × Nat × E)} : PrimPop cost st.heap e rest → e.2.1 ∉ st.taken →
    at_ e.2.1 l → PrimStep cost at_ st ⟨e.2.1 :: st.taken, l ++ rest, st.out ++ [e]⟩

/-- Any number of turns. -/
inductive PrimSteps (cost : E → Nat) (at_ : Nat → List (Nat × Nat × E) → Prop) : PrimSt E → PrimSt E → Prop where
  | refl {st : PrimSt E} : PrimSteps cost at_ st st
  | step {st st' st'' : PrimSt E} : PrimSteps cost at_ st st' → PrimStep cost at_ st' st'' → PrimSteps cost at_ st st''

/-- The start: the first node is taken and its edges are pushed; `ids` are the numbers of the nodes in the order of `node_references`. -/
inductive PrimStart (at_ : Nat → List (Nat × Nat × E) → Prop) : List Nat → PrimSt E → Prop where
  | none : PrimStart at_ [] ⟨[], [], []⟩
  | some {i : Nat} {ids : List Nat} {l : List (Nat × Nat × E)} : at_ i l → PrimStart at_ (i :: ids) ⟨[i], l, []⟩
end

section
variable {C A D N E : Type} [DecidableEq C] [DecidableEq D]

/-- `edges(from_index(i))` with the numbers of the ends: `from_index` (lattice_abstract/nodes.rs:105-108), `edges`
(lattice_abstract/edges.rs:163-290), `to_index` (lattice_abstract/nodes.rs:101-103). -/
def latAt (g : Graph C A D N E) (i : Nat) (l : List (Nat × Nat × E)) : Prop :=
  ∃ c it rs, g.fromIndex i = .ok c ∧ g.edgesOf c = .ok it ∧ Yields (edgesNext g) it rs ∧
    rs.mapM (fun r => do return (← g.toIndex r.source, ← g.toIndex r.target, r.weight)) = .ok l

/-- `min_spanning_tree_prim(g)` up to the first edge: the weights of the nodes, and the state in which the edges begin. `node_references` is
lattice_abstract/nodes.rs:34-84. -/
def Graph.PrimStart (g : Graph C A D N E) (ns : List N) (st : PrimSt E) : Prop :=
  ∃ nrs ids, Yields (nodeRefsNext g) 0 nrs ∧ nrs.mapM (fun p => g.toIndex p.1) = .ok ids ∧ ns = nrs.map Prod.snd ∧
    LG.PrimStart (latAt g) ids st

/-- `min_spanning_tree_prim(g)`, its elements collected, may be these nodes and these edges. -/
def Graph.Prim (g : Graph C A D N E) (cost : E → Nat) (ns : List N) (out : List (Nat × Nat × E)) : Prop :=
  ∃ st st', g.PrimStart ns st ∧ PrimSteps cost (latAt g) st st' ∧ st'.heap = [] ∧ out = st'.out
end

section
variable {N E : Type}

/-- `edges(from_index(i))` of a `SquareGraph` (square/nodes.rs:150-157, square/edges.rs:187-314). -/
def Sq.sqAt (g : Sq.G N E) (i : Nat) (l : List (Nat × Nat × E)) : Prop :=
  ∃ c rs, g.fromIndex i = .ok c ∧ Yields (Sq.EdgesOf.next g) (g.edges c) rs ∧
    rs.mapM (fun r => do return (← g.toIndex (← r.source g.k), ← g.toIndex (← r.target g.k), r.weight)) = .ok l

/-- The start on a `SquareGraph`. `node_references` is square/nodes.rs:73-107. -/
def Sq.G.PrimStart (g : Sq.G N E) (ns : List N) (st : PrimSt E) : Prop :=
  ∃ nrs ids, Yields (Sq.nodeRefsNext g) (Sq.nodeRefsInit g) nrs ∧ nrs.mapM (fun p => g.toIndex p.1) = .ok ids ∧ ns = nrs.map Prod.snd ∧
    LG.PrimStart (Sq.sqAt g) ids st

/-- The same for a `SquareGraph`. -/
def Sq.G.Prim (g : Sq.G N E) (cost : E → Nat) (ns : List N) (out : List (Nat × Nat × E)) : Prop :=
  ∃ st st', g.PrimStart ns st ∧ PrimSteps cost (Sq.sqAt g) st st' ∧ st'.heap = [] ∧ out = st'.out
end
end LG
