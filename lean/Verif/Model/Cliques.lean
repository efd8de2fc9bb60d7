import Verif.Model.Search
/- `petgraph::algo::maximal_cliques` (Bron and Kerbosch with a pivot) as a client of the crate: the one algorithm that uses the
adjacency matrix (lattice_abstract/neighbors.rs:89-101). -/
namespace LG
section
variable {V : Type}

/-- The list holds the elements of a `HashSet`, in any order. -/
def IsSet (l : List V) (p : V → Prop) : Prop := l.Nodup ∧ ∀ c, c ∈ l ↔ p c

/-- What the algorithm calls: `nb v l` says that `neighbors(v)` runs to its end and yields `l`, `test u v b` that
`is_adjacent(u, v)` returns `b`. -/
structure CliqueCalls (V : Type) where
  nb : V → List V → Prop
  test : V → V → Bool → Prop

/-- The closure of the filter for pivot `u`: `u == v || !is_adjacent(u, v) || !is_adjacent(v, u)` gives `b`. -/
def PivotKeeps (k : CliqueCalls V) (u v : V) (b : Bool) : Prop :=
  (u = v ∧ b = true) ∨ (u ≠ v ∧ k.test u v false ∧ b = true) ∨
    (u ≠ v ∧ k.test u v true ∧ ∃ b', k.test v u b' ∧ b = !b')

/-- `u` is what `p.iter().max_by_key(|v| g.neighbors(*v).count())` may return. -/
def Pivot (k : CliqueCalls V) (p : List V) (u : V) : Prop :=
  u ∈ p ∧ (∀ v ∈ p, ∃ l, k.nb v l) ∧ ∀ v ∈ p, ∀ l l', k.nb v l → k.nb u l' → l.length ≤ l'.length

/-- `bron_kerbosch_pivot`: with `none` the call with `r`, `p` and `x`, with `some todo` its loop with `todo` left. It returns
`out`. -/
inductive Bron (k : CliqueCalls V) : Option (List V) → List V → List V → List V → List (List V) → Prop where
  | done {r : List V} : Bron k none r [] [] [r]
  | dead {r x : List V} : x ≠ [] → Bron k none r [] x []
  | call {r p x todo : List V} {u : V} {out : List (List V)} : Pivot k p u → (∀ v ∈ p, ∃ b, PivotKeeps k u v b) →
    IsSet todo (fun v => v ∈ p ∧ PivotKeeps k u v true) → Bron k (some todo) r p x out → Bron k none r p x out
  | last {r p x : List V} : Bron k (some []) r p x []
  | next {r p x r' p' x' p1 x1 ns todo : List V} {v : V} {out out' : List (List V)} : k.nb v ns →
    IsSet p1 (fun c => c ∈ p ∧ c ≠ v) → IsSet r' (fun c => c = v ∨ c ∈ r) → IsSet p' (fun c => c ∈ p1 ∧ c ∈ ns) →
    IsSet x' (fun c => c ∈ x ∧ c ∈ ns) → Bron k none r' p' x' out → IsSet x1 (fun c => c = v ∨ c ∈ x) →
    Bron k (some todo) r p1 x1 out' → Bron k (some (v :: todo)) r p x (out ++ out')

/-- `maximal_cliques`: `nodes` are what `node_identifiers()` yields. -/
def CliquesOutcome (k : CliqueCalls V) (nodes : List V) (out : List (List V)) : Prop :=
  ∃ p, IsSet p (fun c => c ∈ nodes) ∧ Bron k none [] p [] out
end

/-- `neighbors` (lattice_abstract/neighbors.rs:63-73) and `is_adjacent` (neighbors.rs:97-99) of a `LatticeGraph`. -/
def latCliques {C A D N E : Type} [DecidableEq C] (g : Graph C A D N E) : CliqueCalls C where
  nb := fun v l => Yields (NeighborsIt.next g.s) (g.neighbors v) l
  test := fun u v b => g.isAdjacent u v = .ok b

/-- `maximal_cliques(&g)` returns `out`; it begins with all of `node_identifiers()` (lattice_abstract/nodes.rs:42-47). -/
def MaximalCliques {C A D N E : Type} [DecidableEq C] (g : Graph C A D N E) (out : List (List C)) : Prop :=
  ∃ nodes, Yields (nodeIndicesNext g.s) g.nodeIdentifiers nodes ∧ CliquesOutcome (latCliques g) nodes out
end LG
