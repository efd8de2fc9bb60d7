import Verif.Lemmas.Hints
/- Concrete machines, shapes and graphs used by the examples beside the theorems. -/
namespace LG

/-- 64-bit debug build -/
def m64 : Machine := ⟨2 ^ 63, .debug, by decide⟩
/-- 64-bit release build -/
def m64r : Machine := ⟨2 ^ 63, .release, by decide⟩
/-- 16-bit debug build, where word-size limits are within reach -/
def m16 : Machine := ⟨2 ^ 15, .debug, by decide⟩

section
variable {C A D N E σ : Type} [DecidableEq C] [DecidableEq A] [DecidableEq D]

/-- Every accepted size of every sound shape has a graph, whatever the closures. -/
theorem Lawful.exists_built {s : Shape C A D} {L : Lat C A D} {rep : C → Prop} (hs : Lawful s L rep)
    (hc : Constructible s) (n : σ → C → N × σ) (e : σ → C → A → E × σ) (st : σ) :
    ∃ g : Graph C A D N E, Built s L g (runCalls n e (callSeq L) st emptyContents).1 := by
  obtain ⟨g, h, _⟩ := newWith_ok hs hc n e st
  exact ⟨g, .new h⟩
end

/-- node weight `10x + y` -/
def exN (u : Unit) (c : Offset) : Nat × Unit := (10 * c.horizontal + c.vertical, u)
/-- edge weight `1000·axis + 10x + y` on undirected squares -/
def exE (u : Unit) (c : Offset) (a : SquareAxis) : Nat × Unit :=
  (1000 * (a.toIndex + 1) + 10 * c.horizontal + c.vertical, u)
/-- the same on directed squares -/
def exED (u : Unit) (c : Offset) (a : DSquareAxis) : Nat × Unit :=
  (1000 * (a.toIndex + 1) + 10 * c.horizontal + c.vertical, u)

/-- contents of the 3 × 2 square graph built with these weights -/
def exK : Contents Offset SquareAxis Nat Nat := (runCalls exN exE (callSeq (squareLat 3 2)) () emptyContents).1
/-- contents of the directed 3 × 2 square graph built with these weights -/
def exKD : Contents Offset DSquareAxis Nat Nat :=
  (runCalls exN exED (callSeq (squareLatDirected 3 2)) () emptyContents).1

theorem exSquare : ∃ g : Graph Offset SquareAxis DSquareAxis Nat Nat,
    Built (squareShape m64 3 2) (squareLat 3 2) g exK :=
  (Lawful.square m64 3 2).exists_built (by decide) exN exE ()
theorem exSquareD (m : Machine) (hm : m.half = 2 ^ 63) : ∃ g : Graph Offset DSquareAxis DSquareAxis Nat Nat,
    Built (squareShapeDirected m 3 2) (squareLatDirected 3 2) g exKD :=
  (Lawful.squareDirected m 3 2).exists_built (by unfold Constructible; simp [squareShapeDirected, hm]) exN exED ()

end LG
