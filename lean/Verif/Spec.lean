import Verif.Model.Square
import Verif.Model.HexAxial
/-
The specification side. Nothing here refers to the model's functions: lattices are described by integer geometry and the
graph's contents by plain maps. Only the coordinate and direction *types* are shared with the model.
-/
namespace LG

/-- A finite lattice as a user thinks of it: `width × height` cells, the coordinate naming each cell, which cell lies in
each direction, the directions in index order, and which directions are "axes" (owners of a stored edge). -/
structure Lat (C A D : Type) where
  width : Nat
  height : Nat
  /-- coordinate of the cell in column `x`, row `y` -/
  coord : Nat → Nat → C
  /-- the cell next to `c` in direction `d`, if it is in the lattice -/
  nbr : C → D → Option C
  axes : List A
  dirs : List D
  /-- opposite direction -/
  opp : D → D
  /-- direction an axis points to -/
  fwd : A → D
  /-- axis a direction runs along -/
  ax : D → A
  directed : Bool

namespace Lat
variable {C A D : Type}

/-- `c` names a cell of the lattice. -/
def Node (L : Lat C A D) (c : C) : Prop := ∃ x y, x < L.width ∧ y < L.height ∧ c = L.coord x y

/-- The cells, column by column. -/
def nodes (L : Lat C A D) : List C :=
  (List.range L.width).flatMap fun x => (List.range L.height).map fun y => L.coord x y

/-- Neighbours of a cell in direction order (one entry per direction with a cell). -/
def nbrs (L : Lat C A D) (c : C) : List C := L.dirs.filterMap (L.nbr c)

/-- The edge `(c, a)` exists: `c` is a cell and there is a cell forward along `a`. -/
def HasEdge (L : Lat C A D) (c : C) (a : A) : Prop := L.Node c ∧ (L.nbr c (L.fwd a)).isSome

/-- Under which `(node, axis)` the edge leaving `c` in direction `d` towards `t` is stored: at `c` when `d` is the
axis' own direction, at `t` otherwise. -/
def key [DecidableEq D] (L : Lat C A D) (c : C) (d : D) (t : C) : C × A :=
  if L.fwd (L.ax d) = d then (c, L.ax d) else (t, L.ax d)

/-- The `(node, axis)` pairs of all edges: node by node, axes in order. -/
def edgeKeys (L : Lat C A D) : List (C × A) :=
  L.nodes.flatMap fun c => L.axes.filterMap fun a => (L.nbr c (L.fwd a)).map fun _ => (c, a)

end Lat

/-! ### Square lattices -/

/-- Unit vector of a square direction. -/
def DSquareAxis.vec : DSquareAxis → Int × Int
  | .X => (1, 0) | .Y => (0, 1) | .RX => (-1, 0) | .RY => (0, -1)

/-- Vector of a square-with-diagonals direction. -/
def DDiagAxis.vec : DDiagAxis → Int × Int
  | .N => (0, 1) | .NE => (1, 1) | .E => (1, 0) | .SE => (1, -1)
  | .S => (0, -1) | .SW => (-1, -1) | .W => (-1, 0) | .NW => (-1, 1)

/-- The cell of a `w × h` rectangle at integer position `(x, y)`, if inside. -/
def inRect (w h : Nat) (x y : Int) : Option Offset :=
  if 0 ≤ x ∧ x < w ∧ 0 ≤ y ∧ y < h then some ⟨x.toNat, y.toNat⟩ else none

/-- Rectangle with translation moves. -/
def rectNbr (w h : Nat) (c : Offset) (v : Int × Int) : Option Offset :=
  inRect w h (c.horizontal + v.1) (c.vertical + v.2)

/-- Square lattice, undirected. -/
def squareLat (w h : Nat) : Lat Offset SquareAxis DSquareAxis where
  width := w
  height := h
  coord := fun x y => ⟨x, y⟩
  nbr := fun c d => rectNbr w h c d.vec
  axes := [.X, .Y]
  dirs := [.X, .Y, .RX, .RY]
  opp := fun | .X => .RX | .Y => .RY | .RX => .X | .RY => .Y
  fwd := fun | .X => .X | .Y => .Y
  ax := fun | .X => .X | .Y => .Y | .RX => .X | .RY => .Y
  directed := false

/-- Square lattice, directed: every direction is its own axis. -/
def squareLatDirected (w h : Nat) : Lat Offset DSquareAxis DSquareAxis where
  width := w
  height := h
  coord := fun x y => ⟨x, y⟩
  nbr := fun c d => rectNbr w h c d.vec
  axes := [.X, .Y, .RX, .RY]
  dirs := [.X, .Y, .RX, .RY]
  opp := fun | .X => .RX | .Y => .RY | .RX => .X | .RY => .Y
  fwd := fun a => a
  ax := fun d => d
  directed := true

/-- Square lattice with diagonals, undirected. -/
def diagLat (w h : Nat) : Lat Offset DiagAxis DDiagAxis where
  width := w
  height := h
  coord := fun x y => ⟨x, y⟩
  nbr := fun c d => rectNbr w h c d.vec
  axes := [.N, .NE, .E, .SE]
  dirs := [.N, .NE, .E, .SE, .S, .SW, .W, .NW]
  opp := fun | .N => .S | .NE => .SW | .E => .W | .SE => .NW | .S => .N | .SW => .NE | .W => .E | .NW => .SE
  fwd := fun | .N => .N | .NE => .NE | .E => .E | .SE => .SE
  ax := fun | .N => .N | .NE => .NE | .E => .E | .SE => .SE | .S => .N | .SW => .NE | .W => .E | .NW => .SE
  directed := false

/-- Square lattice with diagonals, directed. -/
def diagLatDirected (w h : Nat) : Lat Offset DDiagAxis DDiagAxis where
  width := w
  height := h
  coord := fun x y => ⟨x, y⟩
  nbr := fun c d => rectNbr w h c d.vec
  axes := [.N, .NE, .E, .SE, .S, .SW, .W, .NW]
  dirs := [.N, .NE, .E, .SE, .S, .SW, .W, .NW]
  opp := fun | .N => .S | .NE => .SW | .E => .W | .SE => .NW | .S => .N | .SW => .NE | .W => .E | .NW => .SE
  fwd := fun a => a
  ax := fun d => d
  directed := true

/-! ### Hexagonal lattices

Cells are placed in the plane by doubled coordinates `(X, Y)`: the six neighbours of a point-top hexagon differ by
`(±2, 0)` and `(±1, ±1)` (so `ΔX² + 3ΔY² = 4`, centres at distance 1 after scaling `x = X/2`, `y = Y·√3/2`). -/

/-- Doubled-plane vector of a point-top direction. -/
def AxisDR.vec : AxisDR → Int × Int
  | .E => (2, 0) | .W => (-2, 0) | .NE => (1, 1) | .NW => (-1, 1) | .SE => (1, -1) | .SW => (-1, -1)

/-- Opposite of a point-top direction. -/
def AxisDR.rev : AxisDR → AxisDR
  | .NE => .SW | .E => .W | .SE => .NW | .SW => .NE | .W => .E | .NW => .SE

/-- Opposite of a flat-top direction. -/
def AxisDQ.rev : AxisDQ → AxisDQ
  | .N => .S | .NE => .SW | .SE => .NW | .S => .N | .SW => .NE | .NW => .SE

/-- In an "odd" layout the odd rows are shoved half a cell to the right, in an "even" layout the even rows. -/
def rowShift (even : Bool) (y : Int) : Int :=
  if even then 1 - y % 2 else y % 2

/-- Doubled-plane position of the point-top offset cell `(x, y)`. -/
def offPos (even : Bool) (c : Offset) : Int × Int := (2 * c.horizontal + rowShift even c.vertical, c.vertical)

/-- The point-top offset cell at doubled-plane position `P` (a position has a cell only if the parities agree). -/
def offAt (even : Bool) (w h : Nat) (p : Int × Int) : Option Offset :=
  inRect w h ((p.1 - rowShift even p.2) / 2) p.2

/-- The same on a cylinder: columns wrap around. -/
def offAtLoop (even : Bool) (w h : Nat) (p : Int × Int) : Option Offset :=
  inRect w h ((p.1 - rowShift even p.2) / 2 % w) p.2

/-- Direction structure of undirected point-top hexagonal lattices, with given cells and moves. -/
def hexLatR {C : Type} (w h : Nat) (coord : Nat → Nat → C) (nbr : C → AxisDR → Option C) : Lat C AxisR AxisDR where
  width := w
  height := h
  coord := coord
  nbr := nbr
  axes := [.NE, .E, .SE]
  dirs := [.NE, .E, .SE, .SW, .W, .NW]
  opp := AxisDR.rev
  fwd := fun | .NE => .NE | .E => .E | .SE => .SE
  ax := fun | .NE => .NE | .E => .E | .SE => .SE | .SW => .NE | .W => .E | .NW => .SE
  directed := false

/-- Direction structure of directed point-top hexagonal lattices. -/
def hexLatDR {C : Type} (w h : Nat) (coord : Nat → Nat → C) (nbr : C → AxisDR → Option C) : Lat C AxisDR AxisDR where
  width := w
  height := h
  coord := coord
  nbr := nbr
  axes := [.NE, .E, .SE, .SW, .W, .NW]
  dirs := [.NE, .E, .SE, .SW, .W, .NW]
  opp := AxisDR.rev
  fwd := fun a => a
  ax := fun d => d
  directed := true

/-- Direction structure of undirected flat-top hexagonal lattices. -/
def hexLatQ {C : Type} (w h : Nat) (coord : Nat → Nat → C) (nbr : C → AxisDQ → Option C) : Lat C AxisQ AxisDQ where
  width := w
  height := h
  coord := coord
  nbr := nbr
  axes := [.N, .NE, .SE]
  dirs := [.N, .NE, .SE, .S, .SW, .NW]
  opp := AxisDQ.rev
  fwd := fun | .N => .N | .NE => .NE | .SE => .SE
  ax := fun | .N => .N | .NE => .NE | .SE => .SE | .S => .N | .SW => .NE | .NW => .SE
  directed := false

/-- Direction structure of directed flat-top hexagonal lattices. -/
def hexLatDQ {C : Type} (w h : Nat) (coord : Nat → Nat → C) (nbr : C → AxisDQ → Option C) : Lat C AxisDQ AxisDQ where
  width := w
  height := h
  coord := coord
  nbr := nbr
  axes := [.N, .NE, .SE, .S, .SW, .NW]
  dirs := [.N, .NE, .SE, .S, .SW, .NW]
  opp := AxisDQ.rev
  fwd := fun a => a
  ax := fun d => d
  directed := true

/-- Point-top offset lattice: move in the doubled plane and look up the cell there. -/
def offNbr (even : Bool) (w h : Nat) (c : Offset) (d : AxisDR) : Option Offset :=
  offAt even w h ((offPos even c).1 + d.vec.1, (offPos even c).2 + d.vec.2)

/-- Point-top offset lattice on a cylinder. -/
def offNbrLoop (even : Bool) (w h : Nat) (c : Offset) (d : AxisDR) : Option Offset :=
  offAtLoop even w h ((offPos even c).1 + d.vec.1, (offPos even c).2 + d.vec.2)

/-- Axial displacement of a point-top direction, in `(r, q)`: `E` is `+r`, `NE` is `+q`, `SE = E - NE`. -/
def AxisDR.axial : AxisDR → Int × Int
  | .E => (1, 0) | .NE => (0, 1) | .SE => (1, -1) | .W => (-1, 0) | .SW => (0, -1) | .NW => (-1, 1)

/-- Axial displacement of a flat-top direction: `N` is `+q`, `NE` is `+r`, `SE = NE - N`. -/
def AxisDQ.axial : AxisDQ → Int × Int
  | .N => (0, 1) | .NE => (1, 0) | .SE => (1, -1) | .S => (0, -1) | .SW => (-1, 0) | .NW => (-1, 1)

/-- How far row (or column) `y` of an axial map is shifted: `⌊y/2⌋` in an odd layout, `⌈y/2⌉` in an even one. -/
def axShift (even : Bool) (y : Int) : Int := (y + if even then 1 else 0) / 2

/-- Is `(r, q)` a cell of the `w × h` axial map? Rows are sheared for point-top maps, columns for flat-top maps. -/
def axIn (even flat : Bool) (w h : Nat) (c : Axial) : Bool :=
  if flat then decide (0 ≤ c.r ∧ c.r < w ∧ 0 ≤ c.q + axShift even c.r ∧ c.q + axShift even c.r < h)
  else decide (0 ≤ c.q ∧ c.q < h ∧ 0 ≤ c.r + axShift even c.q ∧ c.r + axShift even c.q < w)

/-- Axial coordinate of column `x`, row `y`. -/
def axCoord (even flat : Bool) (x y : Nat) : Axial :=
  if flat then ⟨x, y - axShift even x⟩ else ⟨x - axShift even y, y⟩

/-- Axial move: translate, keep if still a cell. -/
def axNbr (even flat : Bool) (w h : Nat) (c : Axial) (v : Int × Int) : Option Axial :=
  if axIn even flat w h ⟨c.r + v.1, c.q + v.2⟩ then some ⟨c.r + v.1, c.q + v.2⟩ else none

/-- The axial map with point-top directions, undirected. -/
def axLatR (even flat : Bool) (w h : Nat) : Lat Axial AxisR AxisDR :=
  hexLatR w h (axCoord even flat) fun c d => axNbr even flat w h c d.axial
/-- The axial map with point-top directions, directed. -/
def axLatDR (even flat : Bool) (w h : Nat) : Lat Axial AxisDR AxisDR :=
  hexLatDR w h (axCoord even flat) fun c d => axNbr even flat w h c d.axial
/-- The axial map with flat-top directions, undirected. -/
def axLatQ (even flat : Bool) (w h : Nat) : Lat Axial AxisQ AxisDQ :=
  hexLatQ w h (axCoord even flat) fun c d => axNbr even flat w h c d.axial
/-- The axial map with flat-top directions, directed. -/
def axLatDQ (even flat : Bool) (w h : Nat) : Lat Axial AxisDQ AxisDQ :=
  hexLatDQ w h (axCoord even flat) fun c d => axNbr even flat w h c d.axial

/-- Point-top offset map, undirected. -/
def offLatR (even : Bool) (w h : Nat) : Lat Offset AxisR AxisDR := hexLatR w h Offset.mk (offNbr even w h)
/-- Point-top offset map, directed. -/
def offLatDR (even : Bool) (w h : Nat) : Lat Offset AxisDR AxisDR := hexLatDR w h Offset.mk (offNbr even w h)
/-- Point-top offset map on a cylinder (east and west ends glued). -/
def offLatRLoop (even : Bool) (w h : Nat) : Lat Offset AxisR AxisDR := hexLatR w h Offset.mk (offNbrLoop even w h)

/-- The coordinate type can hold every cell of a `w × h` map and every cell one step outside. -/
structure Holds (t : CoordTy) (flat : Bool) (w h : Nat) : Prop where
  neg : t.lo ≤ -1
  width : (w : Int) ≤ t.hi
  height : (h : Int) ≤ t.hi
  shear : t.lo ≤ -(((if flat then (w : Int) else h) + 1) / 2) - 1

/-- Components are machine integers, and adding the shift does not overflow where that would panic. -/
def axRep (m : Machine) (even flat : Bool) (c : Axial) : Prop :=
  InI m c.r ∧ InI m c.q ∧
    (m.mode = .release ∨ if flat then InI m (c.q + axShift even c.r) else InI m (c.r + axShift even c.q))

/-! ### Contents of a graph -/

/-- What a graph stores: a weight for every node and every edge, nothing elsewhere. -/
structure Contents (C A N E : Type) where
  node : C → Option N
  edge : C → A → Option E

/-- A closure call made by construction. -/
inductive Call (C A : Type) where
  | node (c : C)
  | edge (c : C) (a : A)
deriving DecidableEq, Repr

/-- The calls construction should make: node by node in index order; for each node the node closure, then the edge closure
for each axis (in order) whose forward neighbour exists. -/
def callSeq {C A D : Type} (L : Lat C A D) : List (Call C A) :=
  L.nodes.flatMap fun c =>
    Call.node c :: (L.axes.filter fun a => (L.nbr c (L.fwd a)).isSome).map fun a => Call.edge c a

/-- Make the calls in order, threading the closures' state and recording each result under its argument. -/
def runCalls {C A N E σ : Type} [DecidableEq C] [DecidableEq A] (n : σ → C → N × σ) (e : σ → C → A → E × σ) :
    List (Call C A) → σ → Contents C A N E → Contents C A N E × σ
  | [], st, k => (k, st)
  | .node c :: rest, st, k =>
    runCalls n e rest (n st c).2 { k with node := fun c' => if c' = c then some (n st c).1 else k.node c' }
  | .edge c a :: rest, st, k =>
    runCalls n e rest (e st c a).2
      { k with edge := fun c' a' => if c' = c ∧ a' = a then some (e st c a).1 else k.edge c' a' }

/-- Nothing stored. -/
def emptyContents {C A N E : Type} : Contents C A N E := ⟨fun _ => none, fun _ _ => none⟩

end LG
