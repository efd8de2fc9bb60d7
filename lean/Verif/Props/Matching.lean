import Verif.Lemmas.Matching
import Verif.Props.Bipartite
import Verif.Props.Cut
import Verif.Props.Spanning
import Verif.Props.Floyd
import Verif.Props.Articulation
/- C123: `greedy_matching`. -/
set_option linter.unusedSectionVars false
namespace LG
section
variable {C A D N E : Type} [DecidableEq C] [DecidableEq A] [DecidableEq D]
variable {g : Graph C A D N E} {s : Shape C A D} {L : Lat C A D} {rep : C → Prop} {k : Contents C A N E}

/-- **C123.** `greedy_matching` returns, with one result only. It pairs adjacent nodes, each with at most one other and both ways, `edges`
pairs in all, and leaves no two adjacent nodes without a mate. -/
theorem c123_matching (hs : Lawful s L rep) (hb : Built s L g k) :
    ∃ mate edges, (∀ mate' edges', g.Greedy mate' edges' ↔ mate' = mate ∧ edges' = edges) ∧
      IsMatching (Adjacent g) L.Node (fun a => mate (nodeIdx g a)) edges := by
  have hadj : ∀ a b, L.Node a → (b ∈ L.nbrs a ↔ Adjacent g a b) := fun a b ha => by
    rw [adjacent_nbr hs hb ha, (c07_neighbors_exact hs ha b).1]
  obtain ⟨mate, edges, h1, h2⟩ := gmRun_spec (hs.behaves hb) (nodes_indexed hs hb) (ix := g.toIndex) (fun u hu => (nodeIdx_spec hs hb hu).1)
    (fun a b ha h => (hadj b a ((c07_neighbors_exact hs ha b).2 h)).2 (adjacent_symm hs hb ha ((hadj a b ha).1 h)))
    (us := L.nodes) (fun a => Lat.mem_nodes)
  refine ⟨mate, edges, fun mate' edges' => ?_, h2.congr hadj⟩
  rw [← h1]
  constructor
  · rintro ⟨n, us, g1, g2, g3⟩
    rw [nodeBound_eq hs hb] at g1; cases g1
    rw [Yields.unique g2 (c05_node_identifiers hs hb)] at g3
    exact g3
  · exact fun h => ⟨_, _, nodeBound_eq hs hb, c05_node_identifiers hs hb, h⟩

theorem greedy_isMatching (hs : Lawful s L rep) (hb : Built s L g k) {mate : Nat → Option C} {edges : Nat} (h : g.Greedy mate edges) :
    IsMatching (Adjacent g) L.Node (fun a => mate (nodeIdx g a)) edges := by
  obtain ⟨_, _, h1, h2⟩ := c123_matching hs hb
  obtain ⟨rfl, rfl⟩ := (h1 _ _).1 h
  exact h2

/-- **C123.** `edges()` of the result lists each pair once, from the node of the lower number, and `len()` is how many there are. -/
theorem c123_edges (hs : Lawful s L rep) (hb : Built s L g k) {mate : Nat → Option C} {edges : Nat} (h : g.Greedy mate edges) :
    ∃ es, g.matchedEdges mate = .ok es ∧ es.Nodup ∧ es.length = edges ∧
      ∀ a b, (a, b) ∈ es ↔ L.Node a ∧ mate (nodeIdx g a) = some b ∧ nodeIdx g a < nodeIdx g b := by
  obtain ⟨es, h1, h2, h3, h4⟩ := (greedy_isMatching hs hb h).edges (nodes_indexed hs hb) (ix := g.toIndex) (fun u hu => (nodeIdx_spec hs hb hu).1)
    (fr := g.fromIndex) (fun u hu => by
      have hfi : g.fromIndex (nodeIdx g u) = .ok (L.at (nodeIdx g u)) := (hb.good hs).impl.indexToCoordinate ((nodes_indexed hs hb).lt hu)
      rw [hfi, at_nodeIdx hs hb hu]) (mate := mate) fun _ _ => rfl
  refine ⟨es, ?_, h3, h4, h2⟩
  unfold Graph.matchedEdges
  rw [nodeBound_eq hs hb]
  exact h1

/-- **C123.** No way to pair adjacent nodes has more than twice as many pairs. There are none exactly if no two nodes are adjacent. -/
theorem c123_half (hs : Lawful s L rep) (hb : Built s L g k) {mate : Nat → Option C} {edges : Nat} (h : g.Greedy mate edges) :
    (∀ es : List (C × C), (es.map Prod.fst ++ es.map Prod.snd).Nodup → (∀ e ∈ es, L.Node e.1 ∧ Adjacent g e.1 e.2) → es.length ≤ 2 * edges) ∧
    (edges = 0 ↔ ∀ a b, L.Node a → Adjacent g a b → a = b) :=
  ⟨fun _ hd he => (greedy_isMatching hs hb h).half hd fun e hm => ⟨(he e hm).1, adjacent_node hs hb (he e hm).1 (he e hm).2, (he e hm).2⟩,
    (greedy_isMatching hs hb h).zero fun _ _ ha hr => adjacent_node hs hb ha hr⟩

/-- **C123.** `is_perfect()` says whether every node has a mate. -/
theorem c123_perfect (hs : Lawful s L rep) (hb : Built s L g k) {mate : Nat → Option C} {edges : Nat} (h : g.Greedy mate edges) :
    ∃ b, g.matchingPerfect edges = .ok b ∧ (b = true ↔ ∀ a, L.Node a → mate (nodeIdx g a) ≠ none) := by
  have hn : g.s.nodeCount = .ok (L.width * L.height) := nodeBound_eq hs hb
  refine ⟨gmPerfect (L.width * L.height) edges, ?_, ?_⟩
  · unfold Graph.matchingPerfect
    rw [hn]
    rfl
  · have := (greedy_isMatching hs hb h).perfect (nodes := L.nodes) (c05_nodes_exact hs hb).1 (fun a => Lat.mem_nodes)
    rw [latNodes_length] at this
    exact this
end

/-! ### Cases -/

/-- On the 3 × 2 grid there is a matching, with at least one pair. -/
example : ∃ (g : Graph Offset SquareAxis DSquareAxis Nat Nat) (mate : Nat → Option Offset) (edges : Nat) (es : List (Offset × Offset)) (b : Bool),
    g.Greedy mate edges ∧ IsMatching (Adjacent g) (squareLat 3 2).Node (fun a => mate (nodeIdx g a)) edges ∧
      edges ≠ 0 ∧ g.matchedEdges mate = .ok es ∧ es.length = edges ∧ g.matchingPerfect edges = .ok b := by
  have hs := Lawful.square m64 3 2
  obtain ⟨g, hb⟩ := exSquare
  obtain ⟨mate, edges, h1, h2⟩ := c123_matching hs hb
  have h := (h1 _ _).2 ⟨rfl, rfl⟩
  obtain ⟨es, h3, -, h4, -⟩ := c123_edges hs hb h
  obtain ⟨b, h5, -⟩ := c123_perfect hs hb h
  refine ⟨g, mate, edges, es, b, h, h2, fun e => ?_, h3, h4, h5⟩
  have hn : (squareLat 3 2).Node ⟨0, 0⟩ := ⟨0, 0, by decide, by decide, rfl⟩
  have := (c123_half hs hb h).2.1 e ⟨0, 0⟩ ⟨1, 0⟩ hn ((adjacent_nbr hs hb hn _).2 ⟨.X, by decide⟩)
  exact absurd this (by decide)
end LG
