import Verif.Lemmas.Matching
import Verif.Props.LegacyArticulation
import Verif.Props.LegacyBipartite
/- C123 for the deprecated `SquareGraph`. -/
namespace LG.Sq
section
variable {N E : Type}
variable {g : G N E} {k : Cfg} {h v : Nat} {c : Contents NodeIx Axis N E}

/-- **C123.** `greedy_matching` on a `SquareGraph`. -/
theorem c123_legacy (hb : Built k h v g c) (hf : k.Fits h v) :
    ∃ mate edges, (∀ mate' edges', g.Greedy mate' edges' ↔ mate' = mate ∧ edges' = edges) ∧
      IsMatching (Walk g · 1 ·) (k.grid h v).Node (fun a => mate (nodeIdx g a)) edges := by
  have hn := (c45_index_bijection_partial hb hf).1
  have hy : Yields (NodeIndices.next g.k) (.new g.horizontalNodeCount g.verticalNodeCount) (k.grid h v).nodes := by
    rw [hb.stores.cfg]; exact c45_node_identifiers_partial hb hf
  have hadj : ∀ a b, (k.grid h v).Node a → (b ∈ (k.grid h v).nbrs a ↔ Walk g a 1 b) := fun a b ha => (walk_one hb hf ha).symm
  obtain ⟨mate, edges, h1, h2⟩ := gmRun_spec (behaves hb hf) (indexed hb hf) (ix := g.toIndex) (fun u hu => nodeIdx_eq hb hf hu)
    (fun a b ha h => (hadj b a (nbrs_node ha h)).2 (walk_one_symm hb hf ha ((hadj a b ha).1 h)))
    (us := (k.grid h v).nodes) (fun a => (c45_nodes_exact (k.grid h v)).2.1 a)
  refine ⟨mate, edges, fun mate' edges' => ?_, h2.congr hadj⟩
  rw [← h1]
  constructor
  · rintro ⟨us, g2, g3⟩
    rw [Yields.unique g2 hy, hn] at g3
    exact g3
  · exact fun h => ⟨_, hy, by rw [hn]; exact h⟩

/-- **C123.** What `Matching` says of the result on a `SquareGraph`: `edges()` lists each pair once, no way to pair adjacent nodes has more
than twice as many, there are none exactly if no two nodes are adjacent, and `is_perfect()` says whether every node has a mate. -/
theorem c123_legacy_result (hb : Built k h v g c) (hf : k.Fits h v) {mate : Nat → Option NodeIx} {edges : Nat} (hg : g.Greedy mate edges) :
    (∃ es, g.matchedEdges mate = .ok es ∧ es.Nodup ∧ es.length = edges ∧
      ∀ a b, (a, b) ∈ es ↔ (k.grid h v).Node a ∧ mate (nodeIdx g a) = some b ∧ nodeIdx g a < nodeIdx g b) ∧
    (∀ es : List (NodeIx × NodeIx), (es.map Prod.fst ++ es.map Prod.snd).Nodup → (∀ e ∈ es, (k.grid h v).Node e.1 ∧ Walk g e.1 1 e.2) →
      es.length ≤ 2 * edges) ∧
    (edges = 0 ↔ ∀ a b, (k.grid h v).Node a → Walk g a 1 b → a = b) ∧
    (g.matchingPerfect edges = true ↔ ∀ a, (k.grid h v).Node a → mate (nodeIdx g a) ≠ none) := by
  obtain ⟨_, _, h1, h2⟩ := c123_legacy hb hf
  obtain ⟨rfl, rfl⟩ := (h1 _ _).1 hg
  have hn := (c45_index_bijection_partial hb hf).1
  refine ⟨?_, fun _ hd he => h2.half hd fun e hm => ⟨(he e hm).1, walk_one_node hb hf (he e hm).1 (he e hm).2, (he e hm).2⟩,
    h2.zero fun _ _ ha hr => walk_one_node hb hf ha hr, ?_⟩
  · obtain ⟨es, g1, g2, g3, g4⟩ := h2.edges (indexed hb hf) (ix := g.toIndex) (fun u hu => nodeIdx_eq hb hf hu)
      (fr := g.fromIndex) (fun u hu => sq_fromIndex hb hf hu) (mate := mate) fun _ _ => rfl
    refine ⟨es, ?_, g3, g4, g2⟩
    unfold G.matchedEdges
    rw [hn]
    exact g1
  · have := h2.perfect (nodes := (k.grid h v).nodes) (c45_nodes_exact (k.grid h v)).1 (fun a => (c45_nodes_exact (k.grid h v)).2.1 a)
    rw [(c45_nodes_exact (k.grid h v)).2.2] at this
    unfold G.matchingPerfect
    rw [hn]
    exact this
end

/-! ### Cases -/

/-- The 3 × 2 grid. -/
example : ∃ (g : G Nat Nat) (mate : Nat → Option NodeIx) (edges : Nat) (es : List (NodeIx × NodeIx)), g.Greedy mate edges ∧
    IsMatching (Walk g · 1 ·) (exCfg.grid 3 2).Node (fun a => mate (nodeIdx g a)) edges ∧ g.matchedEdges mate = .ok es ∧ es.length = edges := by
  obtain ⟨g, c, hb, _⟩ := exGraph exCfg (by decide)
  have hf : exCfg.Fits 3 2 := ⟨by decide, by decide⟩
  obtain ⟨mate, edges, h1, h2⟩ := c123_legacy hb hf
  have h := (h1 _ _).2 ⟨rfl, rfl⟩
  obtain ⟨⟨es, h3, -, h4, -⟩, -⟩ := c123_legacy_result hb hf h
  exact ⟨g, mate, edges, es, h, h2, h3, h4⟩
end LG.Sq
