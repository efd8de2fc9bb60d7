import Verif.Model.Graph
/-
The `new_uninit` workflow of src/lattice_abstract/mod.rs: a `LatticeGraph<MaybeUninit<N>, MaybeUninit<E>, S>` is filled through
`node_weight_mut` / `edge_weight_mut` and then turned into a `LatticeGraph<N, E, S>` by `assume_init`.
-/
namespace LG
section
variable {C A D N E : Type}

/-- `*a.uget_mut((i, j)) = MaybeUninit::new(x)`: the slot may be uninitialised before, nothing is read or dropped. Bounds are
only `debug_assert!`ed by ndarray. -/
def Arr2.usetUninit {α : Type} (m : Machine) (a : Arr2 α) (i j : Nat) (x : α) : Res (Arr2 α) :=
  match a.slot i j with
  | some k => .ok (a.writeSlot k x)
  | none => unreachableDebugChecked m

namespace Graph

/-- `if let Some(n) = g.node_weight_mut(c) { *n = MaybeUninit::new(x) }`. lattice_abstract/mod.rs:243-248, used as in the
documentation at 143-152. -/
def initNode (g : Graph C A D N E) (c : C) (x : N) : Res (Graph C A D N E) := do
  match ← g.s.toOffset c with
  | none => .ok g
  | some o => do .ok { g with nodes := ← g.nodes.usetUninit g.s.m o.horizontal o.vertical x }

/-- `if let Some(w) = g.edge_weight_mut((c, a)) { *w = MaybeUninit::new(x) }`. lattice_abstract/mod.rs:250-263. -/
def initEdge (g : Graph C A D N E) (c : C) (a : A) (x : E) : Res (Graph C A D N E) := do
  match ← g.s.toOffset c with
  | none => .ok g
  | some o => do
    let ax := g.s.axis.toIndex a
    let d ← g.s.axis.foward a
    match ← g.s.moveCoord c d with
    | none => .ok g
    | some _ => do
      let arr ← g.edgeArr ax
      .ok { g with edges := g.edges.set ax (← arr.usetUninit g.s.m o.horizontal o.vertical x) }

/-- `assume_init`: the arrays are moved unchanged. lattice_abstract/mod.rs:162-172. Uninitialised slots stay uninitialised;
reading one later is undefined behaviour. -/
def assumeInit (g : Graph C A D N E) : Graph C A D N E := g

end Graph

/-- A write to a graph of `MaybeUninit` weights. -/
inductive InitOp (C A N E : Type) where
  | node (c : C) (x : N)
  | edge (c : C) (a : A) (x : E)

/-- The writes, in program order. -/
def runInit : Graph C A D N E → List (InitOp C A N E) → Res (Graph C A D N E)
  | g, [] => .ok g
  | g, .node c x :: ops => do runInit (← g.initNode c x) ops
  | g, .edge c a x :: ops => do runInit (← g.initEdge c a x) ops

end
end LG
