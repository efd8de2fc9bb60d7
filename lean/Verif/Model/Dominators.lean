import Verif.Model.Scc
import Verif.Model.Articulation
/-
petgraph's `algo::dominators::simple_fast`, as a client of the crate: through `DfsPostOrder` (the visit map and `neighbors`) and `neighbors`
(lattice_abstract/neighbors.rs:7-40, lattice_abstract/mod.rs:355-413, square/neighbors.rs:8-60, square/mod.rs:480-512). Written after
petgraph 0.8; petgraph is not part of /repo.

A node is named by its place in the post-order. The table of dominators holds `usize::MAX` (`UNDEFINED`) at first, which is `none`. The sets of
predecessors are hash sets: their order is any. A lookup that would fault has no rule, so a run existing means that nothing faulted.
-/
namespace LG

/-- `intersect`: two fingers go up the tree until they meet. -/
inductive DomMeet (dom : Nat → Option Nat) : Nat → Nat → Nat → Prop where
  | equal {x : Nat} : DomMeet dom x x x
  | less {x y d z : Nat} : x < y → dom x = some d → DomMeet dom d y z → DomMeet dom x y z
  | greater {x y d z : Nat} : y < x → dom y = some d → DomMeet dom x d z → DomMeet dom x y z

/-- The `fold` of `intersect` over the predecessors. -/
inductive DomFold (dom : Nat → Option Nat) : Nat → List Nat → Nat → Prop where
  | nil {x : Nat} : DomFold dom x [] x
  | cons {x p y z : Nat} {ps : List Nat} : DomMeet dom x p y → DomFold dom y ps z → DomFold dom x (p :: ps) z

/-- The `for` loop over the nodes below `k` of the post-order, last first: the table and `changed`, before and after. `P i` are the
predecessors of node `i`, of which those with a dominator count; the first of them must exist (`expect`). -/
inductive DomPass (P : Nat → List Nat) : Nat → (Nat → Option Nat) → Bool → (Nat → Option Nat) → Bool → Prop where
  | done {dom : Nat → Option Nat} {ch : Bool} : DomPass P 0 dom ch dom ch
  | same {k x z : Nat} {ps : List Nat} {dom dom' : Nat → Option Nat} {ch ch' : Bool} :
    (P k).filter (fun p => (dom p).isSome) = x :: ps → DomFold dom x ps z → dom k = some z →
    DomPass P k dom ch dom' ch' → DomPass P (k + 1) dom ch dom' ch'
  | change {k x z : Nat} {ps : List Nat} {dom dom' : Nat → Option Nat} {ch ch' : Bool} :
    (P k).filter (fun p => (dom p).isSome) = x :: ps → DomFold dom x ps z → dom k ≠ some z →
    DomPass P k (tset dom k (some z)) true dom' ch' → DomPass P (k + 1) dom ch dom' ch'

/-- The loop `while changed`; the root is node `r`. -/
inductive DomLoop (P : Nat → List Nat) (r : Nat) : (Nat → Option Nat) → (Nat → Option Nat) → Prop where
  | stop {dom dom' : Nat → Option Nat} : DomPass P r dom false dom' false → DomLoop P r dom dom'
  | again {dom dom1 dom' : Nat → Option Nat} : DomPass P r dom false dom1 true → DomLoop P r dom1 dom' → DomLoop P r dom dom'

section
variable {C M : Type}

/-- `predecessor_sets_to_idx_vecs` after `simple_fast_post_order`: the vector for node `i` has the places of the nodes that have node `i` among
their neighbors, each once, in some order. -/
def DomPreds (nb : C → List C → Prop) (post : List C) (P : Nat → List Nat) : Prop :=
  (∀ p ∈ post, ∃ l, nb p l) ∧
  ∀ i c, post[i]? = some c → (P i).Nodup ∧ ∀ j, j ∈ P i ↔ ∃ p l, post[j]? = some p ∧ nb p l ∧ c ∈ l

/-- `simple_fast(g, root)` may return the table `dom` over the post-order `post`. -/
def Dominating (T : Rovable C M) (root : C) (post : List C) (dom : Nat → Option Nat) : Prop :=
  ∃ d f P r, PostTo T T.neighbors [root] T.visitMap T.visitMap post d f ∧ DomPreds T.neighbors post P ∧ post.length = r + 1 ∧
    DomLoop P r (tset (fun _ => none) r (some r)) dom

variable [DecidableEq C]

/-- `immediate_dominator(node)`: a lookup in the map of the result, none for the root. -/
def immediateDominator (root : C) (post : List C) (dom : Nat → Option Nat) (c : C) : Option C :=
  if c = root then none else if c ∈ post then (dom (post.idxOf c)).bind (post[·]?) else none

/-- `dominators(node)` yields: the node itself, then the immediate dominator of the last one. -/
inductive DominatorsOf (root : C) (post : List C) (dom : Nat → Option Nat) : C → List C → Prop where
  | last {c : C} : immediateDominator root post dom c = none → DominatorsOf root post dom c [c]
  | next {c d : C} {l : List C} : immediateDominator root post dom c = some d → DominatorsOf root post dom d l →
    DominatorsOf root post dom c (c :: l)
end
end LG
