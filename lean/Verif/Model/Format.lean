import Verif.Model.Iter
/-
`{:?}` and `{:#?}` of a `LatticeGraph`: `#[derive(Debug)]`, lattice_abstract/mod.rs:24-32. It formats the fields `nodes`, `edges` and
`s` in this order. The iterators `Neighbors`, `Edges` and `EdgeReferences` derive `Debug` too and hold a reference to the graph
(neighbors.rs:8-13, edges.rs:67-74, 287-292), so formatting one of them formats the graph. Of the text only the weights are modelled,
in the order in which they are written.
-/
namespace LG
section
variable {C A D N E α : Type}

/-- `ndarray::arrayformat::format_with_overflow`: the positions written along an axis of length `len`. -/
def shownAlong (limit : Option Nat) (len : Nat) : List Nat :=
  match limit with
  | none => List.range len
  | some l => if len ≤ l then List.range len else List.range (l / 2) ++ List.range' (len - l / 2) (l / 2)

/-- `FormatOptions::default_for_array`: both axes are collapsed to at most eleven positions, but not with `{:#?}` nor if there are
less than 500 elements. -/
def axisLimit (alt : Bool) (nelem : Nat) : Option Nat := if alt || decide (nelem < 500) then none else some 11

/-- The slots read along a row. -/
def debugRow (a : Arr2 α) (i : Nat) : List Nat → Res (List α)
  | [] => .ok []
  | j :: js => do
    let x ← a.read (i * a.cols + j)
    .ok (x :: (← debugRow a i js))

/-- The rows, one after the other. -/
def debugRows (a : Arr2 α) (js : List Nat) : List Nat → Res (List α)
  | [] => .ok []
  | i :: is => do
    let l ← debugRow a i js
    .ok (l ++ (← debugRows a js is))

/-- `impl Debug for ArrayBase`: the weights written, in order. Formatting an uninitialised slot reads it. -/
def Arr2.debug (alt : Bool) (a : Arr2 α) : Res (List α) :=
  debugRows a (shownAlong (axisLimit alt (a.rows * a.cols)) a.cols) (shownAlong (axisLimit alt (a.rows * a.cols)) a.rows)

/-- `impl Debug for Vec`: all arrays. -/
def debugArrs (alt : Bool) : List (Arr2 E) → Res (List (List E))
  | [] => .ok []
  | a :: rest => do
    let l ← a.debug alt
    .ok (l :: (← debugArrs alt rest))

/-- `#[derive(Debug)]` on `LatticeGraph`; `alt`: `{:#?}`. lattice_abstract/mod.rs:24-32. -/
def Graph.debug (g : Graph C A D N E) (alt : Bool) : Res (List N × List (List E)) := do
  let n ← g.nodes.debug alt
  let e ← debugArrs alt g.edges
  .ok (n, e)

end
end LG
