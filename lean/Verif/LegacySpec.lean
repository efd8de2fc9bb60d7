import Verif.Model.Legacy
import Verif.Built
/-
Specification of the deprecated `SquareGraph`: a grid of `h × v` cells, each axis possibly cyclic, with weights on cells and on
the edges between neighbouring cells. Independent of the model of the code, except for the names of indices and directions.
-/
namespace LG.Sq

/-- The cell reached from cell `x` of a row of `len` cells by moving `δ`, going round if the row is cyclic. -/
def along (cyclic : Bool) (len x : Nat) (δ : Int) : Option Nat :=
  let y : Int := x + δ
  if 0 ≤ y ∧ y < len then some y.toNat else if cyclic then some (y % len).toNat else none

/-- A grid. -/
structure Grid where
  h : Nat
  v : Nat
  loopH : Bool
  loopV : Bool
deriving DecidableEq, Repr

namespace Grid

/-- The cells. -/
def Node (s : Grid) (n : NodeIx) : Prop := n.horizontal < s.h ∧ n.vertical < s.v

instance (s : Grid) (n : NodeIx) : Decidable (s.Node n) := by unfold Node; infer_instance

/-- The neighbour in a direction. -/
def step (s : Grid) (n : NodeIx) : Dir → Option NodeIx
  | .foward .horizontal => (along s.loopH s.h n.horizontal 1).map fun x => ⟨x, n.vertical⟩
  | .backward .horizontal => (along s.loopH s.h n.horizontal (-1)).map fun x => ⟨x, n.vertical⟩
  | .foward .vertical => (along s.loopV s.v n.vertical 1).map fun y => ⟨n.horizontal, y⟩
  | .backward .vertical => (along s.loopV s.v n.vertical (-1)).map fun y => ⟨n.horizontal, y⟩

/-- The documented order: left, right, down, up. -/
def dirs : List Dir := [.backward .horizontal, .foward .horizontal, .backward .vertical, .foward .vertical]

/-- The neighbours in order. -/
def nbrs (s : Grid) (n : NodeIx) : List NodeIx := dirs.filterMap (s.step n)

/-- An edge is named by its lower or left end (the last cell of a cyclic axis for the edge closing the circle). -/
def HasEdge (s : Grid) (n : NodeIx) (a : Axis) : Prop := s.Node n ∧ (s.step n (.foward a)).isSome

instance (s : Grid) (n : NodeIx) (a : Axis) : Decidable (s.HasEdge n a) := by unfold HasEdge; infer_instance

/-- The name of the edge crossed by going from `n` to its neighbour `t` in direction `d`. -/
def key (n t : NodeIx) : Dir → EdgeIx
  | .foward a => ⟨n, a⟩
  | .backward a => ⟨t, a⟩

/-- The cells, column by column. -/
def nodes (s : Grid) : List NodeIx := (List.range s.h).flatMap fun i => (List.range s.v).map fun j => ⟨i, j⟩

/-- The edge names, cell by cell. -/
def edgeKeys (s : Grid) : List EdgeIx :=
  s.nodes.flatMap fun n => [Axis.horizontal, Axis.vertical].filterMap fun a => if s.HasEdge n a then some ⟨n, a⟩ else none

end Grid

/-- The closure calls of `new_with`: all cells, then all horizontal edges, then all vertical edges. -/
def callSeq (s : Grid) : List (Call NodeIx Axis) :=
  s.nodes.map .node ++ (s.nodes.filter fun n => s.HasEdge n .horizontal).map (fun n => .edge n .horizontal) ++
    (s.nodes.filter fun n => s.HasEdge n .vertical).map (fun n => .edge n .vertical)

/-- What can be seen of an edge reference. -/
structure View (E : Type) where
  source : NodeIx
  target : NodeIx
  weight : E
  id : EdgeIx
deriving DecidableEq, Repr

section
variable {N E : Type}

/-- The edge references of a cell, in neighbour order. -/
def outViews (s : Grid) (c : Contents NodeIx Axis N E) (n : NodeIx) : List (View E) :=
  Grid.dirs.filterMap fun d => (s.step n d).bind fun t =>
    (c.edge (Grid.key n t d).node (Grid.key n t d).axis).map fun w => ⟨n, t, w, Grid.key n t d⟩

/-- All edge references, cell by cell. -/
def allViews (s : Grid) (c : Contents NodeIx Axis N E) : List (View E) :=
  s.nodes.flatMap fun n => [Axis.horizontal, Axis.vertical].filterMap fun a => (s.step n (.foward a)).bind fun t =>
    (c.edge n a).map fun w => ⟨n, t, w, ⟨n, a⟩⟩

/-- All node references. -/
def allNodeRefs (s : Grid) (c : Contents NodeIx Axis N E) : List (NodeIx × N) :=
  s.nodes.filterMap fun n => (c.node n).map fun w => (n, w)

/-- `source()`, `target()`, `weight()`, `id()` of an edge reference. -/
def Ref.view (k : Cfg) (r : Ref E) : Res (View E) := do
  .ok ⟨← r.source k, ← r.target k, r.weight, r.id⟩

/-- The grid a configuration describes. -/
def Cfg.grid (k : Cfg) (h v : Nat) : Grid := ⟨h, v, k.loopH, k.loopV⟩

/-- Graphs obtained from `new_with` by writes through `node_weight_mut` and `edge_weight_mut`, with their weights. The sides are at
least one, as everything else assumes (see C43, C45 for side zero). -/
inductive Built (k : Cfg) (h v : Nat) : G N E → Contents NodeIx Axis N E → Prop where
  | new {σ : Type} {fn : σ → Nat → Nat → N × σ} {fe : σ → Nat → Nat → Axis → E × σ} {st st' : σ} {g : G N E} :
      G.newWith k h v fn fe st = .ok (g, st') → 0 < v →
      Built k h v g (runCalls (fun st (n : NodeIx) => fn st n.horizontal n.vertical)
        (fun st (n : NodeIx) a => fe st n.horizontal n.vertical a) (callSeq (k.grid h v)) st emptyContents).1
  | node {g g' : G N E} {c : Contents NodeIx Axis N E} {n : NodeIx} {f : N → N} :
      Built k h v g c → g.modifyNode n f = some g' → Built k h v g' (c.mapNode n f)
  | edge {g g' : G N E} {c : Contents NodeIx Axis N E} {e : EdgeIx} {f : E → E} :
      Built k h v g c → g.modifyEdge e f = some g' → Built k h v g' (c.mapEdge e.node e.axis f)

/-- The sides fit the index type. -/
def Cfg.Fits (k : Cfg) (h v : Nat) : Prop := h ≤ k.ix ∧ v ≤ k.ix

end
end LG.Sq
