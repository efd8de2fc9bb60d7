import Verif.Model.Iter
/-
The iterators of src/lattice_abstract/{nodes,neighbors,edges}.rs, for a caller that catches panics (`std::panic::catch_unwind`)
and goes on using the iterator. `next` takes `&mut self`, so what it has assigned to its fields before the panic stays. In
`Model/Iter.lean` a fault hides the state; here every function returns the outcome of the call together with the fields as the
call leaves them. (What an iterator does after undefined behaviour is not specified by anything; the second component then
means nothing.)
-/
namespace LG
section
variable {C A D N E : Type}

/-- `NodeIndices::next`: `index` is advanced (22) after `index_to_coordinate` (21). lattice_abstract/nodes.rs:19-27. -/
def nodeIndicesNextCaught (s : Shape C A D) (index : Nat) : Res (Option C) × Nat :=
  match s.nodeCount with
  | .error f => (.error f, index)
  | .ok nc =>
    if index < nc then
      match s.indexToCoordinate index with
      | .error f => (.error f, index)
      | .ok x => (.ok (some x), index + 1)
    else (.ok none, index)

/-- `NodeReferences::next`: `index` is advanced (62) before the weight is looked up (63). lattice_abstract/nodes.rs:59-67. -/
def nodeRefsNextCaught (g : Graph C A D N E) (index : Nat) : Res (Option (C × N)) × Nat :=
  match g.s.nodeCount with
  | .error f => (.error f, index)
  | .ok nc =>
    if index < nc then
      match g.s.indexToCoordinate index with
      | .error f => (.error f, index)
      | .ok x =>
        match g.nodeWeightUnchecked x with
        | .error f => (.error f, index + 1)
        | .ok w => (.ok (some (x, w)), index + 1)
    else (.ok none, index)

/-- `Neighbors::next`: `state` is advanced (39) after `move_coord` (38). lattice_abstract/neighbors.rs:34-46. -/
def neighborsNextCaught (s : Shape C A D) (node : C) (state : Nat) : Res (Option C) × Nat :=
  if _h : state < s.axis.undirectedCount then
    match s.axis.dirFromIndexUnchecked state with
    | .error f => (.error f, state)
    | .ok d =>
      match s.moveCoord node d with
      | .error f => (.error f, state)
      | .ok (some target) => (.ok (some target), state + 1)
      | .ok none => neighborsNextCaught s node (state + 1)
  else (.ok none, state)
termination_by s.axis.undirectedCount - state

/-- `Edges::next`: `state` is advanced (211) after `move_coord` (209) and before `get_raw_id`, the `debug_assert_eq!` and the
look-up of the weight (213-218). lattice_abstract/edges.rs:199-235. -/
def edgesNextCaught (g : Graph C A D N E) (it : EdgesIt C) : Res (Option (EdgeRef C D E)) × EdgesIt C :=
  if _h : it.state < edgesBound g.s it.dt then
    match g.s.axis.dirFromIndexUnchecked it.state with
    | .error f => (.error f, it)
    | .ok d =>
      match g.s.moveCoord it.node d with
      | .error f => (.error f, it)
      | .ok (some target) =>
        match edgesMake g it d target with
        | .error f => (.error f, { it with state := it.state + 1 })
        | .ok r => (.ok (some r), { it with state := it.state + 1 })
      | .ok none => edgesNextCaught g { it with state := it.state + 1 }
  else (.ok none, it)
termination_by edgesBound g.s it.dt - it.state

/-- Polling the current node's edges: `self.e` is updated in place. lattice_abstract/edges.rs:305-310. -/
def edgeRefsPollCaught (g : Graph C A D N E) (e : Option (EdgesIt C)) :
    Res (Option (EdgeRef C D E)) × Option (EdgesIt C) :=
  match e with
  | none => (.ok none, none)
  | some it => ((edgesNextCaught g it).1, some (edgesNextCaught g it).2)

/-- The `loop` of `EdgeReferences::next`: `index` is advanced (313) after `index_to_coordinate` (312) and before
`Edges::new_unchecked` (315); if that panics, `self.e` is still the exhausted iterator of the node before.
lattice_abstract/edges.rs:303-320. -/
def edgeRefsLoopCaught (g : Graph C A D N E) (nc : Nat) (it : EdgeRefsIt C) :
    Res (Option (EdgeRef C D E)) × EdgeRefsIt C :=
  match edgeRefsPollCaught g it.e with
  | (.error f, e') => (.error f, ⟨e', it.index⟩)
  | (.ok (some r), e') => (.ok (some r), ⟨e', it.index⟩)
  | (.ok none, e') =>
    if _h : it.index < nc then
      match g.s.indexToCoordinate it.index with
      | .error f => (.error f, ⟨e', it.index⟩)
      | .ok x =>
        match edgesNewUnchecked g x with
        | .error f => (.error f, ⟨e', it.index + 1⟩)
        | .ok ed => edgeRefsLoopCaught g nc ⟨some ed, it.index + 1⟩
    else (.ok none, ⟨e', it.index⟩)
termination_by nc - it.index

/-- `EdgeReferences::next`. (`node_count()` is evaluated once here, as in `edgeRefsNext`.) lattice_abstract/edges.rs:303-320. -/
def edgeRefsNextCaught (g : Graph C A D N E) (it : EdgeRefsIt C) : Res (Option (EdgeRef C D E)) × EdgeRefsIt C :=
  match g.s.nodeCount with
  | .error f => (.error f, it)
  | .ok nc => edgeRefsLoopCaught g nc it

end
end LG
