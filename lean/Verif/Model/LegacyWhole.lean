import Verif.Model.Whole
import Verif.LegacySpec
/- petgraph's `floyd_warshall`, `connected_components` and `is_cyclic_undirected` as clients of the deprecated `SquareGraph`. The
loops are those of `Model/Whole.lean`. -/
namespace LG.Sq
section
variable {N E : Type}

/-- The edges of `edge_references()` (square/edges.rs:9-21, 125-169) by index: `to_index` (square/nodes.rs:150-152) of `source()` and
`target()`, and the cost of the weight. -/
def edgeIndices (g : G N E) (cost : E → Nat) (es : List (Nat × Nat × Nat)) : Prop :=
  ∃ rs, Yields (edgeRefsNext g) (edgeRefsInit g) rs ∧ rs.mapM (fun r => do
    return (← g.toIndex (← r.source g.k), ← g.toIndex (← r.target g.k), cost r.weight)) = .ok es

/-- `floyd_warshall(g, |e| cost(e.weight()))` computes `m`. `type EdgeType = Undirected` is square/mod.rs:465. -/
def Floyd (g : G N E) (cost : E → Nat) (m : Mat) : Prop :=
  ∃ es cs ids, edgeIndices g cost es ∧ Yields (NodeIndices.next g.k) (.new g.horizontalNodeCount g.verticalNodeCount) cs ∧
    cs.mapM g.toIndex = .ok ids ∧ fwRun false g.nodeCount es ids = .ok m

/-- `connected_components(g)` returns `r`. -/
def Components (g : G N E) (r : Nat) : Prop :=
  ∃ es, edgeIndices g (fun _ => 0) es ∧ ccRun g.nodeCount (es.map fun e => (e.1, e.2.1)) = .ok r

/-- `is_cyclic_undirected(g)` returns `b`. -/
def Cyclic (g : G N E) (b : Bool) : Prop :=
  ∃ es, edgeIndices g (fun _ => 0) es ∧ cycLoop g.nodeCount (es.map fun e => (e.1, e.2.1)) id = .ok b
end
end LG.Sq
