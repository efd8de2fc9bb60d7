import Verif.Model.Scc
/-
A further client program of petgraph: `algo::tarjan_scc`, in the version of Pearce that petgraph 0.8 has. It goes through `node_bound`,
`to_index`, `node_identifiers` and `neighbors` as the two graph types implement them (lattice_abstract/nodes.rs:34-126,
lattice_abstract/neighbors.rs:7-82, square/nodes.rs, square/neighbors.rs:8-92). petgraph itself is not part of /repo. A call that faults
has no rule, so a run existing means that nothing faulted.

An `Option<NonZeroUsize>` is a number here, `None` being 0, which keeps the order. The top of the stack is the head of the list. `max` is
`usize::MAX`: an addition beyond it or a subtraction below 0 has no rule.
-/
namespace LG

/-- `TarjanScc`, and the components handed to the closure so far. -/
structure TarSt (C : Type) where
  index : Nat
  cc : Nat
  roots : List Nat
  stack : List C
  out : List (List C)

/-- Where `visit` is: at the call for a node, or in its loop over the neighbours of `v`, of which `ws` are left. -/
inductive TarJob (C : Type) where
  | visit (v : C)
  | scan (v : C) (ws : List C) (isRoot : Bool)

section
variable {C : Type} (ix : C → Res Nat) (nbr : C → List C → Prop) (max : Nat)

/-- `node![c].rootindex`; the index is checked. -/
def rootAt (roots : List Nat) (c : C) : Res Nat := do
  match roots[← ix c]? with
  | some r => .ok r
  | none => .error .panic

/-- `node![c].rootindex = x`. -/
def setRoot (roots : List Nat) (c : C) (x : Nat) : Res (List Nat) := do
  let i ← ix c
  if i < roots.length then .ok (roots.set i x) else .error .panic

/-- `if node![w].rootindex < node![v].rootindex { node![v].rootindex = node![w].rootindex; v_is_local_root = false }`. -/
def tarLower (v w : C) (isRoot : Bool) (roots : List Nat) : Res (Bool × List Nat) := do
  let a ← rootAt ix roots w
  let b ← rootAt ix roots v
  if a < b then .ok (false, ← setRoot ix roots v a) else .ok (isRoot, roots)

/-- `stack.iter().rposition(…)` with what it does on the way: the nodes passed, which get the number of the component, and those below. -/
def tarPop (v : C) (c : Nat) : List C → List Nat → Res (List C × List C × List Nat)
  | [], roots => .ok ([], [], roots)
  | w :: st, roots => do
    if (← rootAt ix roots v) > (← rootAt ix roots w) then .ok ([], w :: st, roots)
    else do
      let (p, rest, roots') ← tarPop v c st (← setRoot ix roots w c)
      .ok (w :: p, rest, roots')

/-- The end of `visit`. -/
def tarClose (v : C) (isRoot : Bool) (st : TarSt C) : Res (TarSt C) := do
  if isRoot then
    let (p, rest, roots) ← tarPop ix v st.cc st.stack st.roots
    let roots' ← setRoot ix roots v st.cc
    if 1 + p.length ≤ st.index ∧ 1 ≤ st.cc then
      .ok ⟨st.index - (1 + p.length), st.cc - 1, roots', rest, st.out ++ [p.reverse ++ [v]]⟩
    else .error .panic
  else .ok { st with stack := v :: st.stack }

/-- `visit`: the state before and after. The first premise of `visit` is `debug_assert!(node_v.rootindex.is_none())`. -/
inductive TarRun : TarJob C → TarSt C → TarSt C → Prop where
  | visit {v : C} {nbs : List C} {st st' : TarSt C} {roots : List Nat} : rootAt ix st.roots v = .ok 0 →
    setRoot ix st.roots v st.index = .ok roots → st.index + 1 ≤ max → nbr v nbs →
    TarRun (.scan v nbs true) { st with index := st.index + 1, roots := roots } st' → TarRun (.visit v) st st'
  | fresh {v w : C} {ws : List C} {b b' : Bool} {st st1 st' : TarSt C} {roots : List Nat} : rootAt ix st.roots w = .ok 0 →
    TarRun (.visit w) st st1 → tarLower ix v w b st1.roots = .ok (b', roots) → TarRun (.scan v ws b') { st1 with roots := roots } st' →
    TarRun (.scan v (w :: ws) b) st st'
  | known {v w : C} {ws : List C} {b b' : Bool} {st st' : TarSt C} {r : Nat} {roots : List Nat} : rootAt ix st.roots w = .ok (r + 1) →
    tarLower ix v w b st.roots = .ok (b', roots) → TarRun (.scan v ws b') { st with roots := roots } st' →
    TarRun (.scan v (w :: ws) b) st st'
  | close {v : C} {b : Bool} {st st' : TarSt C} : tarClose ix v b st = .ok st' → TarRun (.scan v [] b) st st'

/-- The loop of `run` over the node identifiers, with `debug_assert!(self.stack.is_empty())` at its end. -/
inductive TarAll : List C → TarSt C → List (List C) → Prop where
  | done {st : TarSt C} : st.stack = [] → TarAll [] st st.out
  | seen {n : C} {ns : List C} {st : TarSt C} {r : Nat} {sccs : List (List C)} : rootAt ix st.roots n = .ok (r + 1) → TarAll ns st sccs →
    TarAll (n :: ns) st sccs
  | next {n : C} {ns : List C} {st st1 : TarSt C} {sccs : List (List C)} : rootAt ix st.roots n = .ok 0 → TarRun ix nbr max (.visit n) st st1 →
    TarAll ns st1 sccs → TarAll (n :: ns) st sccs

/-- `tarjan_scc(g)` for `node_bound() = bound` ends and returns `sccs`. -/
def TarjanScc (ids : List C → Prop) (bound : Nat) (sccs : List (List C)) : Prop :=
  ∃ l, ids l ∧ TarAll ix nbr max l ⟨1, max, List.replicate bound 0, [], []⟩ sccs
end

/-- `tarjan_scc(&g)` for a `LatticeGraph`. -/
def Graph.Tarjan {C A D N E : Type} [DecidableEq C] (g : Graph C A D N E) (sccs : List (List C)) : Prop :=
  ∃ n, g.nodeBound = .ok n ∧ TarjanScc g.toIndex g.rovable.neighbors (2 * g.s.m.half - 1) g.rovable.nodeIds n sccs

/-- `tarjan_scc(&g)` for a `SquareGraph`. -/
def Sq.G.Tarjan {N E : Type} (g : Sq.G N E) (sccs : List (List Sq.NodeIx)) : Prop :=
  TarjanScc g.toIndex g.rovable.neighbors (2 * g.k.m.half - 1) g.rovable.nodeIds g.nodeCount sccs
end LG
