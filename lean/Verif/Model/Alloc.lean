import Verif.Model.Graph
/-
The allocations of src/lattice_abstract/mod.rs with the sizes of the elements. `Vec::with_capacity(n)` panics ("capacity overflow")
if `n` elements take more than `isize::MAX` bytes; `Model/Graph.lean` leaves that out. That a smaller request may still fail for want
of memory (which aborts the process) is not modelled here either.
-/
namespace LG
section
variable {C A D N E σ α : Type}

/-- `Vec::with_capacity(n)` for elements of `size` bytes. -/
def withCapacity (m : Machine) (size n : Nat) : Res Unit := if n * size < m.half then .ok () else .error .panic

/-- `Array2::uninit((r, c))`: ndarray checks the number of elements, then allocates a vector of that many. -/
def Arr2.uninitB (m : Machine) (size r c : Nat) : Res (Arr2 α) := do
  let a ← Arr2.uninit m r c
  withCapacity m size (r * c)
  .ok a

/-- The loop pushing `COUNT` uninitialised edge arrays. lattice_abstract/mod.rs:53-55. -/
def uninitEdgesB (szE : Nat) (s : Shape C A D) : Nat → Res (List (Arr2 E))
  | 0 => .ok []
  | n + 1 => do
    let a ← Arr2.uninitB s.m szE s.horizontal s.vertical
    let rest ← uninitEdgesB szE s n
    .ok (a :: rest)

/-- `LatticeGraph::new_uninit`; `szN`, `szE` and `szA` are the sizes of `N`, `E` and `Array2<E>`. lattice_abstract/mod.rs:49-58. -/
def newUninitB (szN szE szA : Nat) (s : Shape C A D) : Res (Graph C A D N E) := do
  let nodes ← Arr2.uninitB s.m szN s.horizontal s.vertical
  withCapacity s.m szA s.axis.count
  let edges ← uninitEdgesB szE s s.axis.count
  .ok ⟨nodes, edges, s⟩

/-- `LatticeGraph::new_with`. lattice_abstract/mod.rs:70-96. -/
def newWithB (szN szE szA : Nat) (s : Shape C A D) (n : σ → C → N × σ) (e : σ → C → A → E × σ) (st : σ) :
    Res (Graph C A D N E × σ) := do
  let g ← newUninitB szN szE szA s
  let cnt ← s.nodeCount
  let (nodes, edges, st') ← newWithNodes s n e 0 cnt g.nodes g.edges st
  .ok (⟨nodes, edges, s⟩, st')

/-- `VisMap::new`; `szB` is the size of `FixedBitSet`. The bits of one column take an eighth of the bytes their number says, so
allocating them cannot fail in this way. lattice_abstract/mod.rs:362-370. -/
def VisMap.newB (szB : Nat) (s : Shape C A D) : Res (VisMap C A D) := do
  withCapacity s.m szB s.horizontal
  .ok (VisMap.new s)
end
end LG
