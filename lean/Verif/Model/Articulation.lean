import Verif.Model.Iter
import Verif.Model.Search
import Verif.Model.Legacy
/-
petgraph's `articulation_points`, as a client of the crate: through `node_references()`, its `size_hint()`, `to_index`, `from_index` and
`edges`. Written after petgraph 0.8.

The depth-first search keeps its own stack of steps to do. Its tables have as many entries as `node_references().size_hint().0` says; an
access beyond is a panic. An access is checked here where an entry is first written: every later one is to an entry written before.
`usize::MAX` in the table of parents, which is no node, is `none`. The set of the points found is a list that may repeat itself.
-/
namespace LG

/-- `RecursionStep`. -/
inductive ApItem where
  | base (x : Nat)
  | child (x c : Nat)
  | noBack (x c : Nat)
  | root (x : Nat)

/-- `ArticulationPointTracker` and the stack. -/
structure ApSt where
  visited : List Nat
  disc : Nat → Nat
  low : Nat → Nat
  parent : Nat → Option Nat
  aps : List Nat
  time : Nat
  stack : List ApItem

/-- A table with one entry written. -/
def tset {α : Type} (f : Nat → α) (i : Nat) (a : α) : Nat → α := fun j => if j = i then a else f j

/-- One turn of the loop over the stack, with tables of `m` entries. `at_ i l` says that `edges(from_index(i))` runs to its end and that the
targets have the numbers `l`. -/
inductive ApStep (at_ : Nat → List Nat → Prop) (m : Nat) : ApSt → Res ApSt → Prop where
  | base {st : ApSt} {x : Nat} {K : List ApItem} {l : List Nat} : st.stack = .base x :: K → x < m → at_ x l →
    ApStep at_ m st (.ok { st with
      visited := x :: st.visited, disc := tset st.disc x st.time, low := tset st.low x st.time, time := st.time + 1,
      stack := (l.map (ApItem.child x)).reverse ++ .root x :: K })
  | basePanic {st : ApSt} {x : Nat} {K : List ApItem} : st.stack = .base x :: K → ¬ x < m → ApStep at_ m st (.error .panic)
  | childNew {st : ApSt} {x c : Nat} {K : List ApItem} : st.stack = .child x c :: K → c ∉ st.visited → c < m →
    ApStep at_ m st (.ok { st with parent := tset st.parent c (some x), stack := .base c :: .noBack x c :: K })
  | childPanic {st : ApSt} {x c : Nat} {K : List ApItem} : st.stack = .child x c :: K → c ∉ st.visited → ¬ c < m →
    ApStep at_ m st (.error .panic)
  | childOld {st : ApSt} {x c : Nat} {K : List ApItem} : st.stack = .child x c :: K → c ∈ st.visited → st.parent x ≠ some c →
    ApStep at_ m st (.ok { st with low := tset st.low x (min (st.low x) (st.disc c)), stack := K })
  | childParent {st : ApSt} {x c : Nat} {K : List ApItem} : st.stack = .child x c :: K → c ∈ st.visited → st.parent x = some c →
    ApStep at_ m st (.ok { st with stack := K })
  | noBack {st : ApSt} {x c : Nat} {K : List ApItem} : st.stack = .noBack x c :: K →
    ApStep at_ m st (.ok { st with
      low := tset st.low x (min (st.low x) (st.low c)),
      aps := if (st.parent x).isSome ∧ st.disc x ≤ st.low c then x :: st.aps else st.aps, stack := K })
  | root {st : ApSt} {x : Nat} {K : List ApItem} : st.stack = .root x :: K →
    ApStep at_ m st (.ok { st with
      aps := if st.parent x = none ∧ 1 < (List.range m).countP (fun i => st.parent i == some x) then x :: st.aps else st.aps, stack := K })

/-- The loop until the stack is empty. -/
inductive ApRun (at_ : Nat → List Nat → Prop) (m : Nat) : ApSt → Res ApSt → Prop where
  | done {st : ApSt} : st.stack = [] → ApRun at_ m st (.ok st)
  | step {st st' : ApSt} {r : Res ApSt} : ApStep at_ m st (.ok st') → ApRun at_ m st' r → ApRun at_ m st r
  | fault {st : ApSt} {e : Fault} : ApStep at_ m st (.error e) → ApRun at_ m st (.error e)

/-- The loop over the nodes: a search from each one not visited. -/
inductive ApLoop (at_ : Nat → List Nat → Prop) (m : Nat) : List Nat → ApSt → Res ApSt → Prop where
  | nil {st : ApSt} : ApLoop at_ m [] st (.ok st)
  | seen {i : Nat} {ids : List Nat} {st : ApSt} {r : Res ApSt} : i ∈ st.visited → ApLoop at_ m ids st r → ApLoop at_ m (i :: ids) st r
  | run {i : Nat} {ids : List Nat} {st st' : ApSt} {r : Res ApSt} : i ∉ st.visited → ApRun at_ m { st with stack := [.base i] } (.ok st') →
    ApLoop at_ m ids st' r → ApLoop at_ m (i :: ids) st r
  | fault {i : Nat} {ids : List Nat} {st : ApSt} {e : Fault} : i ∉ st.visited → ApRun at_ m { st with stack := [.base i] } (.error e) →
    ApLoop at_ m (i :: ids) st (.error e)

/-- `ArticulationPointTracker::new`. -/
def apInit : ApSt := ⟨[], fun _ => 0, fun _ => 0, fun _ => none, [], 0, []⟩

section
variable {C A D N E : Type} [DecidableEq C] [DecidableEq D]

/-- The targets of `edges(from_index(i))`, by number: `from_index` (lattice_abstract/nodes.rs:105-108), `edges`
(lattice_abstract/edges.rs:163-290), `to_index` (lattice_abstract/nodes.rs:100-103). -/
def latTo (g : Graph C A D N E) (i : Nat) (l : List Nat) : Prop :=
  ∃ c it rs, g.fromIndex i = .ok c ∧ g.edgesOf c = .ok it ∧ Yields (edgesNext g) it rs ∧ rs.mapM (fun r => g.toIndex r.target) = .ok l

/-- `articulation_points(g)` with tables of `m` entries. `node_references` is lattice_abstract/nodes.rs:49-84. -/
def Graph.ArticulationIn (g : Graph C A D N E) (m : Nat) (r : Res (List C)) : Prop :=
  ∃ nrs ids r', Yields (nodeRefsNext g) 0 nrs ∧ nrs.mapM (fun p => g.toIndex p.1) = .ok ids ∧ ApLoop (latTo g) m ids apInit r' ∧
    r = (do (← r').aps.mapM g.fromIndex)

/-- `articulation_points(g)` may return `r`: the size of the tables is the lower `size_hint` of `node_references`, which the crate leaves at
the default of `Iterator` (lattice_abstract/nodes.rs:55-67). -/
def Graph.Articulation (g : Graph C A D N E) (r : Res (List C)) : Prop :=
  ∃ m hi, nodeRefsSizeHint g 0 = .ok (m, hi) ∧ g.ArticulationIn m r
end

section
variable {N E : Type}

/-- The same of a `SquareGraph` (square/nodes.rs:150-157, square/edges.rs:187-314). -/
def Sq.sqTo (g : Sq.G N E) (i : Nat) (l : List Nat) : Prop :=
  ∃ c rs, g.fromIndex i = .ok c ∧ Yields (Sq.EdgesOf.next g) (g.edges c) rs ∧
    rs.mapM (fun r => do g.toIndex (← r.target g.k)) = .ok l

/-- `articulation_points(g)` on a `SquareGraph`; its `node_references` has a `size_hint` (square/nodes.rs:73-115). -/
def Sq.G.Articulation (g : Sq.G N E) (r : Res (List Sq.NodeIx)) : Prop :=
  ∃ nrs ids r', Yields (Sq.nodeRefsNext g) (Sq.nodeRefsInit g) nrs ∧ nrs.mapM (fun p => g.toIndex p.1) = .ok ids ∧
    ApLoop (Sq.sqTo g) (Sq.nodeRefsSizeHint g (Sq.nodeRefsInit g)).1 ids apInit r' ∧ r = (do (← r').aps.mapM g.fromIndex)
end
end LG
