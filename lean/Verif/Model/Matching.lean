import Verif.Model.Bipartite
import Verif.Model.Articulation
/-
petgraph's `greedy_matching` and the `Matching` it returns, as a client of the crate: through `node_bound`, `node_identifiers()`, `to_index`,
`from_index`, `neighbors`, `node_count` and the visit map. Written after petgraph 0.8.

Simplified: `neighbors` is taken to run to its end, where the code stops asking at the first node not visited before. The table of mates is
a function of the index, of which the first `n` entries exist.
-/
namespace LG
section
variable {V M : Type}

/-- The variables of `greedy_matching_inner` other than the visit map: `mate`, `n_edges`, `last`. -/
structure GmSt (V : Type) where
  mate : Nat → Option V
  edges : Nat
  last : Option V

/-- The closure called with each node of a walk: alternately it matches it with the one before and keeps it for the next. -/
def gmVisit (ix : V → Res Nat) (n : Nat) (next : V) (st : GmSt V) : Res (GmSt V) :=
  match st.last with
  | some pred => do
    let i ← ix pred
    if i < n then
      let j ← ix next
      if j < n then .ok ⟨tset (tset st.mate i (some next)) j (some pred), st.edges + 1, none⟩
      else .error .panic
    else .error .panic
  | none => .ok { st with last := some next }

/-- The loop over the neighbors in `non_backtracking_dfs`: the first that is not visited. -/
def gmSeek (T : Traversable V M) (m : M) : List V → Res (Option V)
  | [] => .ok none
  | t :: l => do
    if ← T.isVisited m t then gmSeek T m l else .ok (some t)

/-- `non_backtracking_dfs(graph, u, visited, visitor)` with the closure above. -/
inductive GmDfs (T : Traversable V M) (ix : V → Res Nat) (n : Nat) : V → M → GmSt V → M → GmSt V → Prop where
  | seen {u : V} {m m' : M} {st : GmSt V} : T.visit m u = .ok (false, m') → GmDfs T ix n u m st m' st
  | stuck {u : V} {m m' : M} {st : GmSt V} {l : List V} : T.visit m u = .ok (true, m') → T.neighbors u l → gmSeek T m' l = .ok none →
    GmDfs T ix n u m st m' st
  | go {u t : V} {m m1 m' : M} {st st1 st' : GmSt V} {l : List V} : T.visit m u = .ok (true, m1) → T.neighbors u l →
    gmSeek T m1 l = .ok (some t) → gmVisit ix n t st = .ok st1 → GmDfs T ix n t m1 st1 m' st' → GmDfs T ix n u m st m' st'

/-- The loop over the nodes in `greedy_matching_inner`. -/
inductive GmLoop (T : Traversable V M) (ix : V → Res Nat) (n : Nat) : List V → M → GmSt V → GmSt V → Prop where
  | nil {m : M} {st : GmSt V} : GmLoop T ix n [] m st st
  | cons {u : V} {us : List V} {m m1 : M} {st st1 st' : GmSt V} : GmDfs T ix n u m { st with last := some u } m1 st1 →
    GmLoop T ix n us m1 st1 st' → GmLoop T ix n (u :: us) m st st'

/-- `greedy_matching_inner` on a graph of the nodes `us` ends and returns `mate` and `n_edges`. -/
def GmRun (T : Traversable V M) (ix : V → Res Nat) (n : Nat) (us : List V) (mate : Nat → Option V) (edges : Nat) : Prop :=
  ∃ last, GmLoop T ix n us T.visitMap ⟨fun _ => none, 0, none⟩ ⟨mate, edges, last⟩

/-- `Matching::edges()`, the items from the given entries of the table: each pair at the lower of its numbers. -/
def gmEdges (ix : V → Res Nat) (fr : Nat → Res V) (mate : Nat → Option V) : List Nat → Res (List (V × V))
  | [] => .ok []
  | i :: is =>
    match mate i with
    | none => gmEdges ix fr mate is
    | some t => do
      if i < (← ix t) then
        let u ← fr i
        return (u, t) :: (← gmEdges ix fr mate is)
      else gmEdges ix fr mate is

/-- `Matching::is_perfect()` of a graph of `nodes` nodes. -/
def gmPerfect (nodes edges : Nat) : Bool := nodes % 2 == 0 && edges == nodes / 2
end

section
variable {C A D N E : Type} [DecidableEq C]

/-- `greedy_matching(g)` on a `LatticeGraph`: `node_bound` (lattice_abstract/nodes.rs:96-98), `node_identifiers`
(lattice_abstract/nodes.rs:11-47), `to_index` (lattice_abstract/nodes.rs:100-103), `neighbors` (lattice_abstract/neighbors.rs:7-82), the visit
map (lattice_abstract/mod.rs:355-413). -/
def Graph.Greedy (g : Graph C A D N E) (mate : Nat → Option C) (edges : Nat) : Prop :=
  ∃ n us, g.nodeBound = .ok n ∧ Yields (nodeIndicesNext g.s) g.nodeIdentifiers us ∧ GmRun g.traversable g.toIndex n us mate edges

/-- `matching.edges()` on a `LatticeGraph` (`from_index`, lattice_abstract/nodes.rs:105-107). -/
def Graph.matchedEdges (g : Graph C A D N E) (mate : Nat → Option C) : Res (List (C × C)) := do
  gmEdges g.toIndex g.fromIndex mate (List.range (← g.nodeBound))

/-- `matching.is_perfect()` on a `LatticeGraph` (`node_count`, lattice_abstract/nodes.rs:87-92). -/
def Graph.matchingPerfect (g : Graph C A D N E) (edges : Nat) : Res Bool := do return gmPerfect (← g.s.nodeCount) edges
end

section
variable {N E : Type}

/-- The same of a `SquareGraph` (square/nodes.rs:9-68, 139-157, square/neighbors.rs:8-92, square/mod.rs:480-512). -/
def Sq.G.Greedy (g : Sq.G N E) (mate : Nat → Option Sq.NodeIx) (edges : Nat) : Prop :=
  ∃ us, Yields (Sq.NodeIndices.next g.k) (.new g.horizontalNodeCount g.verticalNodeCount) us ∧
    GmRun g.traversable g.toIndex g.nodeCount us mate edges

/-- `matching.edges()` on a `SquareGraph`. -/
def Sq.G.matchedEdges (g : Sq.G N E) (mate : Nat → Option Sq.NodeIx) : Res (List (Sq.NodeIx × Sq.NodeIx)) :=
  gmEdges g.toIndex g.fromIndex mate (List.range g.nodeCount)

/-- `matching.is_perfect()` on a `SquareGraph` (`node_count`, square/nodes.rs:133-140). -/
def Sq.G.matchingPerfect (g : Sq.G N E) (edges : Nat) : Bool := gmPerfect g.nodeCount edges
end
end LG
