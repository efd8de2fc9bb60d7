import Verif.Model.Graph
import Verif.Model.Square
import Verif.Model.HexOffset
import Verif.Model.HexAxial
import Verif.Model.DoubleCoord
import Verif.Model.Legacy
/-
`Default` of the shapes and of the graph, the constructors that use it (src/lattice_abstract/mod.rs), conversions to and from pairs,
and the derived orders of the coordinate types.
-/
namespace LG

/-! ### Shapes by default -/

/-- `#[derive(Default)]` on `SquareShape`: both sides are `usize::default()`. square.rs:115-121. -/
def squareShapeDefault (m : Machine) : Shape Offset SquareAxis DSquareAxis := squareShape m 0 0

/-- The same for `SquareShape<Directed>`. square.rs:115-121. -/
def squareShapeDirectedDefault (m : Machine) : Shape Offset DSquareAxis DSquareAxis := squareShapeDirected m 0 0

/-- `Default for ConstHexOffsetShape<T, L, H, V>`: `Self::new(WrapUSIZE::<H>, WrapUSIZE::<V>)`. `B` is what `T` and `L` choose.
hex/offset_based/shapes.rs:317-325. -/
def constHexOffsetDefault {A D : Type} (B : Nat → Nat → Shape Offset A D) (H V : Nat) : Shape Offset A D := B H V

/-- `Default for ConstHexAxialShape<T, L, H, V>`, hex/axial_based/shapes.rs:173-184, and for `HexShapeConst<B, L, I, H, V>`,
hex/hex2d.rs:55-65. -/
def constHexAxialDefault {A D : Type} (B : Nat → Nat → Shape Axial A D) (H V : Nat) : Shape Axial A D := B H V

/-- `Default for ConstDoubleCoordShape<T, L, H, V>`. hex/double_coord/shapes.rs:243-255. -/
def constDoubleCoordDefault (m : Machine) (H V : Nat) : Shape DCoord AxisR AxisDR := dblShape m H V

section
variable {C A D N E σ : Type}

/-- `LatticeGraph::new_s`; `d` is `S::default()`, `dn` and `de` are `N::default()` and `E::default()`.
lattice_abstract/mod.rs:106-112. -/
def newS (d : Shape C A D) (dn : N) (de : E) : Res (Graph C A D N E) := newDefault d dn de

/-- `LatticeGraph::new_uninit_s`. lattice_abstract/mod.rs:122-124. -/
def newUninitS (d : Shape C A D) : Res (Graph C A D N E) := newUninit d

/-- `LatticeGraph::new_with_s`. lattice_abstract/mod.rs:127-133. -/
def newWithS (d : Shape C A D) (n : σ → C → N × σ) (e : σ → C → A → E × σ) (st : σ) : Res (Graph C A D N E × σ) := newWith d n e st

/-- `LatticeGraph::default`. lattice_abstract/mod.rs:196-205. -/
def graphDefault (d : Shape C A D) (dn : N) (de : E) : Res (Graph C A D N E) := newDefault d dn de
end

/-! ### Pairs -/

/-- `From<(T, T)> for Offset`, `into` being `T: Into<usize>`. lattice_abstract/shapes.rs:417-424. -/
def Offset.ofPair {T : Type} (into : T → Nat) (p : T × T) : Offset := ⟨into p.1, into p.2⟩

/-- `From<Offset> for (T, T)`, `from_` being `T: From<usize>`. lattice_abstract/shapes.rs:426-430. -/
def Offset.toPair {T : Type} (from_ : Nat → T) (x : Offset) : T × T := (from_ x.horizontal, from_ x.vertical)

/-- `PartialEq<(usize, usize)> for SquareOffset`. square.rs:96-101. -/
def squareOffsetEq (c : Offset) (p : Nat × Nat) : Bool := c.horizontal == p.1 && c.vertical == p.2

/-- `From<(usize, usize)> for SquareOffset`. square.rs:103-111. -/
def squareOffsetOf (p : Nat × Nat) : Offset := ⟨p.1, p.2⟩

/-- `PartialEq<(usize, usize)> for NodeIndex<Ix>`. square/index.rs:154-158. -/
def Sq.NodeIx.eqPair (n : Sq.NodeIx) (p : Nat × Nat) : Bool := (n.horizontal, n.vertical) == p

/-- `From<NodeIndex<Ix>> for (usize, usize)`. square/index.rs:166-170. -/
def Sq.NodeIx.toPair (n : Sq.NodeIx) : Nat × Nat := (n.horizontal, n.vertical)

/-! ### Derived orders -/

/-- What `#[derive(Ord)]` makes of two fields compared in the order of their declaration. -/
def lexCmp (a b : Ordering) : Ordering := match a with | .eq => b | o => o

/-- `Ord` of `Offset` (lattice_abstract/shapes.rs:348-352), hence of `SquareOffset` (square.rs:92-94) and `HexOffset`
(hex/offset_based/shapes.rs:8-9). -/
def Offset.cmp (a b : Offset) : Ordering := lexCmp (compare a.horizontal b.horizontal) (compare a.vertical b.vertical)

/-- `Ord` of `HexAxial`: field `r`, then `q`. hex/axial_based/shapes.rs:20-24. -/
def Axial.cmp (a b : Axial) : Ordering := lexCmp (compare a.r b.r) (compare a.q b.q)

/-- `Ord` of `DoubleCoord`: field `h`, then `v`. hex/double_coord/shapes.rs:8-12. -/
def DCoord.cmp (a b : DCoord) : Ordering := lexCmp (compare a.h b.h) (compare a.v b.v)

/-- `Ord` of `NodeIndex`: field `horizontal`, then `vertical`. square/index.rs:77-81. -/
def Sq.NodeIx.cmp (a b : Sq.NodeIx) : Ordering := lexCmp (compare a.horizontal b.horizontal) (compare a.vertical b.vertical)

/-- `Ord` of the legacy `Axis`: in the order of declaration. square/index.rs:4-8. -/
def Sq.Axis.cmp (a b : Sq.Axis) : Ordering := compare (if a = .horizontal then 0 else 1) (if b = .horizontal then 0 else 1)

/-- `Ord` of `SquareDirection`: the variant, then its axis. square/index.rs:22-26. -/
def Sq.Dir.cmp (a b : Sq.Dir) : Ordering :=
  match a, b with
  | .foward x, .foward y => Sq.Axis.cmp x y
  | .backward x, .backward y => Sq.Axis.cmp x y
  | .foward _, .backward _ => .lt
  | .backward _, .foward _ => .gt

/-- `Ord` of `EdgeIndex`: field `node`, then `axis`. square/index.rs:173-177. -/
def Sq.EdgeIx.cmp (a b : Sq.EdgeIx) : Ordering := lexCmp (a.node.cmp b.node) (Sq.Axis.cmp a.axis b.axis)

/-- `Ord` of the legacy `EdgeReference`: the fields in order; `wcmp` and `scmp` are the orders of the weights and of the size
information. square/edges.rs:24-31. -/
def Sq.Ref.cmp {E : Type} (wcmp : E → E → Ordering) (scmp : Sq.SizeInfo → Sq.SizeInfo → Ordering) (a b : Sq.Ref E) : Ordering :=
  lexCmp (a.id.cmp b.id) (lexCmp (wcmp a.weight b.weight) (lexCmp (compare a.direction b.direction) (scmp a.s b.s)))

/-- `Ord` of `Direction<T>`: `Foward(_)` before `Backward(_)`, then the axis. lattice_abstract/shapes.rs:301-306. -/
def Direction.cmp {T : Type} (cmp : T → T → Ordering) (a b : Direction T) : Ordering :=
  match a, b with
  | .foward x, .foward y => cmp x y
  | .backward x, .backward y => cmp x y
  | .foward _, .backward _ => .lt
  | .backward _, .foward _ => .gt

/-- `Ord` of an edge id of `LatticeGraph`, the pair `(S::Coordinate, S::Axis)`: field by field. lattice_abstract/mod.rs:207-210. -/
def edgeIdCmp {C A : Type} (cmpC : C → C → Ordering) (cmpA : A → A → Ordering) (e f : C × A) : Ordering :=
  lexCmp (cmpC e.1 f.1) (cmpA e.2 f.2)

end LG
