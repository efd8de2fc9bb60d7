import Verif.Props.Walks
/- C63: what `is_directed` tells. -/
set_option linter.unusedSectionVars false
namespace LG
section
variable {C A D N E : Type} [DecidableEq C] [DecidableEq A] [DecidableEq D]
variable {g : Graph C A D N E} {s : Shape C A D} {L : Lat C A D} {rep : C → Prop} {k : Contents C A N E}

/-- Iterating `edges(c)` meets an edge to `t` in direction `d` of weight `w`. -/
def SeesEdge (g : Graph C A D N E) (c t : C) (d : D) (w : E) : Prop :=
  ∃ it, g.edgesOf c = .ok it ∧ Item (edgesNext g) it ⟨c, t, w, d⟩

theorem seesEdge_iff (hs : Lawful s L rep) (hb : Built s L g k) {c t : C} (hc : L.Node c) {d : D} {w : E} :
    SeesEdge g c t d w ↔ L.nbr c d = some t ∧ k.edge (L.key c d t).1 (L.key c d t).2 = some w := by
  obtain ⟨it, h1, h2⟩ := c10_edges hs hb hc
  constructor
  · rintro ⟨it', h3, h4⟩
    rw [h1] at h3; cases h3
    obtain ⟨_, h5, h6⟩ := (mem_outEdges hs.laws.dir).1 (h4.mem h2)
    exact ⟨h5, h6⟩
  · rintro ⟨h3, h4⟩
    exact ⟨it, h1, .of_mem h2 ((mem_outEdges hs.laws.dir).2 ⟨rfl, h3, h4⟩)⟩

/-- **C63.** When `is_directed()` is false, the weight seen from `c` towards `t` is the weight seen from `t` towards `c`. -/
theorem c63_undirected (hs : Lawful s L rep) (hb : Built s L g k) (hd : g.isDirected = false) {c t : C} (hc : L.Node c)
    {d : D} {w : E} (h : SeesEdge g c t d w) : L.Node t ∧ ∀ w', SeesEdge g t c (L.opp d) w' ↔ w' = w := by
  have hg := hb.good hs
  rw [Graph.isDirected, hg.impl.axis.directed] at hd
  obtain ⟨h1, h2⟩ := (seesEdge_iff hs hb hc).1 h
  have ht := hs.laws.nbr_node hc h1
  refine ⟨ht, fun w' => ?_⟩
  rw [seesEdge_iff hs hb ht, key_symm hs.laws.dir hd, h2]
  simp only [hs.laws.nbr_opp hc h1, true_and, Option.some.injEq, eq_comm]

/-- **C63.** When `is_directed()` is true, the two weights between neighbours are independent: from any reachable state they
can be given any two values through `edge_weight_mut`. -/
theorem c63_directed (hs : Lawful s L rep) (hb : Built s L g k) (hd : g.isDirected = true) {c t : C} (hc : L.Node c)
    {d : D} (ht : L.nbr c d = some t) (w w' : E) :
    ∃ g1 g2, g.modifyEdge c (L.ax d) (fun _ => w) = .ok (some g1) ∧
      g1.modifyEdge t (L.ax (L.opp d)) (fun _ => w') = .ok (some g2) ∧
      SeesEdge g2 c t d w ∧ SeesEdge g2 t c (L.opp d) w' := by
  have hg := hb.good hs
  have hl := hs.laws
  rw [Graph.isDirected, hg.impl.axis.directed] at hd
  have hfa : ∀ d, L.fwd (L.ax d) = d := fun d => (hl.dir.fwd_ax d).resolve_right fun h => by rw [h.1] at hd; cases hd
  have htn := hl.nbr_node hc ht
  have hto := hl.nbr_opp hc ht
  have e1 : L.HasEdge c (L.ax d) := ⟨hc, by rw [hfa, ht]; rfl⟩
  have e2 : L.HasEdge t (L.ax (L.opp d)) := ⟨htn, by rw [hfa, hto]; rfl⟩
  have hne : L.ax d ≠ L.ax (L.opp d) := fun h => by
    have := congrArg L.fwd h
    rw [hfa, hfa] at this
    exact hl.dir.opp_ne d this.symm
  rcases modifyEdge_eq (a := L.ax d) hg.laws hg.impl hg.inv hg.total (.inl hc) (fun _ => w) with ⟨g1, h1, -⟩ | ⟨_, h⟩
  rotate_left
  · exact absurd e1 h
  have hb1 := hs.built_edge hb h1
  have hg1 := hb1.good hs
  rcases modifyEdge_eq (a := L.ax (L.opp d)) hg1.laws hg1.impl hg1.inv hg1.total (.inl htn) (fun _ => w') with
    ⟨g2, h2, -⟩ | ⟨_, h⟩
  rotate_left
  · exact absurd e2 h
  have hb2 := hs.built_edge hb1 h2
  obtain ⟨v, hv⟩ := hg.total.edge_some e1
  obtain ⟨v', hv'⟩ := hg.total.edge_some e2
  refine ⟨g1, g2, h1, h2, (seesEdge_iff hs hb2 hc).2 ⟨ht, ?_⟩, (seesEdge_iff hs hb2 htn).2 ⟨hto, ?_⟩⟩
  · simp only [Lat.key, hfa, if_true, Contents.mapEdge, hne, and_false, if_false, and_self, hv, Option.map_some]
  · simp only [Lat.key, hfa, if_true, Contents.mapEdge, Ne.symm hne, and_false, if_false, and_self, hv', Option.map_some]

/-- **C63.** Summed up, for a graph with at least one edge and an edge type with at least two values: `is_directed()` is false
exactly if in all states the graph can be brought into by writing edge weights, both ends see the same weight. -/
theorem c63_is_directed (hs : Lawful s L rep) (hb : Built s L g k) {c0 t0 : C} {d0 : D} (hc0 : L.Node c0)
    (ht0 : L.nbr c0 d0 = some t0) {w0 w1 : E} (hw : w0 ≠ w1) :
    g.isDirected = false ↔
    ∀ (g' : Graph C A D N E) (k' : Contents C A N E), Built s L g' k' →
      ∀ c t d w w', L.Node c → SeesEdge g' c t d w → SeesEdge g' t c (L.opp d) w' → w = w' := by
  constructor
  · intro hd g' k' hb' c t d w w' hc h1 h2
    have : g'.isDirected = false := by
      rw [← hd, Graph.isDirected, Graph.isDirected, (hb'.good hs).shape, (hb.good hs).shape]
    exact (((c63_undirected hs hb' this hc h1).2 w').1 h2).symm
  · intro h
    cases hd : g.isDirected with
    | false => rfl
    | true =>
      obtain ⟨g1, g2, h1, h2, h3, h4⟩ := c63_directed hs hb hd hc0 ht0 w0 w1
      exact absurd (h g2 _ (hs.built_edge (hs.built_edge hb h1) h2) _ _ _ _ _ hc0 h3 h4) hw

end

/-- Example: the undirected 3 × 2 square graph reports `false`, the directed one `true`, and both meet the hypotheses of
`c63_is_directed` with the edge from (0,0) to (1,0). -/
example : (∃ g : Graph Offset SquareAxis DSquareAxis Nat Nat, g.isDirected = false ∧ SeesEdge g ⟨0, 0⟩ ⟨1, 0⟩ .X 1000 ∧
      SeesEdge g ⟨1, 0⟩ ⟨0, 0⟩ .RX 1000) ∧
    ∃ g : Graph Offset DSquareAxis DSquareAxis Nat Nat, g.isDirected = true ∧ SeesEdge g ⟨0, 0⟩ ⟨1, 0⟩ .X 1000 ∧
      SeesEdge g ⟨1, 0⟩ ⟨0, 0⟩ .RX 3010 := by
  constructor
  · obtain ⟨g, hb⟩ := exSquare
    have hs := Lawful.square m64 3 2
    have hn : (squareLat 3 2).Node ⟨0, 0⟩ := ⟨0, 0, by decide, by decide, rfl⟩
    have hd : g.isDirected = false := by rw [Graph.isDirected, (hb.good hs).shape]; rfl
    have h1 : SeesEdge g ⟨0, 0⟩ ⟨1, 0⟩ .X 1000 := (seesEdge_iff hs hb hn).2 ⟨rfl, rfl⟩
    exact ⟨g, hd, h1, ((c63_undirected hs hb hd hn h1).2 _).2 rfl⟩
  · obtain ⟨g, hb⟩ := exSquareD m64 rfl
    have hs := Lawful.squareDirected m64 3 2
    refine ⟨g, by rw [Graph.isDirected, (hb.good hs).shape]; rfl, (seesEdge_iff hs hb ⟨0, 0, by decide, by decide, rfl⟩).2
      ⟨rfl, rfl⟩, (seesEdge_iff hs hb ⟨1, 0, by decide, by decide, rfl⟩).2 ⟨rfl, rfl⟩⟩

example : ∃ g g1 g2 : Graph Offset DSquareAxis DSquareAxis Nat Nat, g.modifyEdge ⟨0, 0⟩ .X (fun _ => 5) = .ok (some g1) ∧
    g1.modifyEdge ⟨1, 0⟩ .RX (fun _ => 6) = .ok (some g2) ∧ SeesEdge g2 ⟨0, 0⟩ ⟨1, 0⟩ .X 5 ∧ SeesEdge g2 ⟨1, 0⟩ ⟨0, 0⟩ .RX 6 := by
  obtain ⟨g, hb⟩ := exSquareD m64 rfl
  have hs := Lawful.squareDirected m64 3 2
  have hd : g.isDirected = true := by rw [Graph.isDirected, (hb.good hs).shape]; rfl
  obtain ⟨g1, g2, h⟩ := c63_directed hs hb hd (c := ⟨0, 0⟩) (t := ⟨1, 0⟩) (d := .X) ⟨0, 0, by decide, by decide, rfl⟩ rfl 5 6
  exact ⟨g, g1, g2, h⟩
example : ∃ (g : Graph Offset SquareAxis DSquareAxis Nat Nat), Built (squareShape m64 3 2) (squareLat 3 2) g exK ∧
    ∀ c t d w w', (squareLat 3 2).Node c → SeesEdge g c t d w → SeesEdge g t c ((squareLat 3 2).opp d) w' → w = w' := by
  obtain ⟨g, hb⟩ := exSquare
  have hs := Lawful.square m64 3 2
  have hd : g.isDirected = false := by rw [Graph.isDirected, (hb.good hs).shape]; rfl
  exact ⟨g, hb, (c63_is_directed hs hb (c0 := ⟨0, 0⟩) (t0 := ⟨1, 0⟩) (d0 := .X) ⟨0, 0, by decide, by decide, rfl⟩ rfl
    (show (0 : Nat) ≠ 1 by decide)).1 hd g exK hb⟩

end LG
