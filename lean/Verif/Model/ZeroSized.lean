import Verif.Model.Iter
/-
Edge weights of a zero-sized type, such as `()`: there is nothing to initialise, so every slot of an edge array holds the one value
of the type from the start. The rest of the model marks unwritten slots as uninitialised, which is right for all other types.
-/
namespace LG
section
variable {C A D N E σ α : Type}

/-- An array of a zero-sized type with value `u`: unwritten slots hold `u` as well. -/
def Arr2.zst (u : α) (a : Arr2 α) : Arr2 α := { a with data := a.data.map fun o => some (o.getD u) }

/-- The graph of the model, seen with a zero-sized edge type. lattice_abstract/mod.rs:28-32. -/
def Graph.zst (u : E) (g : Graph C A D N E) : Graph C A D N E := { g with edges := g.edges.map (·.zst u) }

/-- `LatticeGraph::new_with` for a zero-sized edge type: as `newWith`, but the arrays that `new_uninit` returns hold values already.
lattice_abstract/mod.rs:70-96. -/
def newWithZ (s : Shape C A D) (u : E) (n : σ → C → N × σ) (e : σ → C → A → E × σ) (st : σ) : Res (Graph C A D N E × σ) := do
  let g ← newUninit s
  let cnt ← s.nodeCount
  let (nodes, edges, st') ← newWithNodes s n e 0 cnt g.nodes (g.zst u).edges st
  .ok (⟨nodes, edges, s⟩, st')

end
end LG
