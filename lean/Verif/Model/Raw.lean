import Verif.Model.Iter
/- `LatticeGraph::new_raw` and `shape`. -/
namespace LG
section
variable {C A D N E : Type}

/-- `LatticeGraph::new_raw`: takes the arrays and the shape as they are. lattice_abstract/mod.rs:36-39. (The arrays are taken to be in
standard layout, as everywhere in the model; `Array2` can also be in another one.) -/
def newRaw (nodes : Arr2 N) (edges : List (Arr2 E)) (s : Shape C A D) : Graph C A D N E := ⟨nodes, edges, s⟩

/-- `LatticeGraph::shape`. lattice_abstract/mod.rs:99-101. -/
def Graph.shape (g : Graph C A D N E) : Shape C A D := g.s

end
end LG
