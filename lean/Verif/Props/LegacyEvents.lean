import Verif.Props.LegacyScc
import Verif.Lemmas.Events
/- C115 on the deprecated `SquareGraph`. -/
set_option linter.unusedSectionVars false
namespace LG.Sq
section
variable {N E : Type} {g : G N E} {k : Cfg} {h v : Nat} {c : Contents NodeIx Axis N E}

/-- **C115** for the deprecated graph: from a node `a`, with any further starts, `depth_first_search` ends without a panic with determined
events. They keep the rules, with what `neighbors` yields; every node is discovered and finished once; the times count from 0; the edges
reported from a node are what `neighbors` yields there, in this order; there is one tree edge for every node but `a`; and a cross or
forward edge leads to a node discovered later. -/
theorem c115_legacy (hb : Built k h v g c) (hf : k.Fits h v) {a : NodeIx} {us : List NodeIx} (ha : (k.grid h v).Node a)
    (hu : ∀ u ∈ us, (k.grid h v).Node u) :
    ∃ evs nb, (∀ evs', DepthFirst g.rovable (a :: us) evs' ↔ evs' = evs) ∧ (∀ n, (k.grid h v).Node n → Yields (Nbrs.next g.k) (g.neighbors n) (nb n)) ∧
      Legal (k.grid h v).nodes nb (a :: us) [] (fun _ => false) 0 evs ∧ (discovered evs).Nodup ∧ (finished evs).Nodup ∧
      (∀ x, x ∈ discovered evs ↔ (k.grid h v).Node x) ∧ (∀ x, x ∈ finished evs ↔ (k.grid h v).Node x) ∧
      stamps evs = List.range (2 * (h * v)) ∧ (∀ x, (k.grid h v).Node x → reported x evs = nb x) ∧ treeEdges evs + 1 = h * v ∧
      ∀ x y, (.treeEdge x y ∈ evs ∨ .crossForwardEdge x y ∈ evs → [x, y].Sublist (discovered evs)) ∧
        (.backEdge x y ∈ evs → y = x ∨ [y, x].Sublist (discovered evs)) := by
  have hT := roams hb hf
  have hm : ∀ {n}, n ∈ (k.grid h v).nodes ↔ (k.grid h v).Node n := fun {n} => (c45_nodes_exact _).2.1 n
  have hu' : ∀ u ∈ a :: us, (k.grid h v).Node u := fun u h => by
    rcases List.mem_cons.1 h with rfl | h
    · exact ha
    · exact hu u h
  obtain ⟨evs, h1, h2, h3, h4, h5, h6, h7, h8⟩ := depthFirst_run hT hu'
  have hwalk : ∀ x ∈ (k.grid h v).nodes, Reached (within (k.grid h v).nodes (k.grid h v).nbrs) a x := fun x hx => by
    obtain ⟨d, -, hw⟩ := c50_walk hb hf ha (hm.1 hx)
    exact (reached_walk hb hf ha).2 ⟨d, hw⟩
  have hd : ∀ x, x ∈ discovered evs ↔ (k.grid h v).Node x := fun x => by
    rw [h5]
    constructor
    · rintro ⟨u, -, hn, hr⟩
      exact hm.1 (hr.inside hn)
    · exact fun hx => ⟨a, List.mem_cons_self, hm.2 ha, hwalk x (hm.2 hx)⟩
  have hlen : (k.grid h v).nodes.length = h * v := by
    rw [Grid.nodes_eq, List.length_map, List.length_range]; rfl
  have hlen' : (discovered evs).length = h * v := by
    rw [← hlen]
    exact ((List.perm_ext_iff_of_nodup h3 hT.nodup).2 fun x => (hd x).trans hm.symm).length_eq
  have ht := depthFirst_tree hT (fun n hn y hy => hm.2 (c46_neighbors_nodes _ (hm.1 hn) hy).1) (hm.2 ha) hwalk hu ((h1 evs).2 rfl)
  have hin : ∀ x y, .treeEdge x y ∈ evs → (k.grid h v).Node y := fun x y he => by
    have hr : y ∈ reported x evs := List.mem_filterMap.2 ⟨_, he, by simp⟩
    rw [h8] at hr
    by_cases hx : x ∈ discovered evs
    · rw [if_pos hx] at hr
      exact (c46_neighbors_nodes _ ((hd x).1 hx) hr).1
    · rw [if_neg hx] at hr; simp at hr
  refine ⟨evs, (k.grid h v).nbrs, h1, fun n hn => nbrs_at hb hf hn, h2, h3, h4, hd, fun x => (h6 x).trans (hd x), by rw [h7, hlen'],
    fun x hx => by rw [h8, if_pos ((hd x).2 hx)], ht.2.trans hlen, fun x y => ?_⟩
  have ho := h2.order (o := []) (List.Sublist.refl _) x y
  have hfw := h2.forward (fun u hu v _ h => (c46_neighbors_nodes _ (hm.1 hu) h).2) (o := []) .nil (by simp) (by simp) (List.Sublist.refl _)
    (by simp) (by simp) x y
  rw [List.nil_append] at ho hfw
  exact ⟨fun h => h.elim (fun h => ho.1 h (hm.2 (hin x y h))) hfw, ho.2⟩

/-- **C115** for the deprecated graph: `is_cyclic_directed` answers whether any node has a neighbour. -/
theorem c115_legacy_cyclic (hb : Built k h v g c) (hf : k.Fits h v) (b : Bool) :
    CyclicDirected g.rovable b ↔ (b = true ↔ ∃ a n, (k.grid h v).Node a ∧ Walk g a 1 n) := by
  have hm : ∀ {n}, n ∈ (k.grid h v).nodes ↔ (k.grid h v).Node n := fun {n} => (c45_nodes_exact _).2.1 n
  have e : (∃ x ∈ (k.grid h v).nodes, ∃ y ∈ within (k.grid h v).nodes (k.grid h v).nbrs x, Reached (within (k.grid h v).nodes (k.grid h v).nbrs) y x) ↔
      ∃ a n, (k.grid h v).Node a ∧ Walk g a 1 n := by
    constructor
    · rintro ⟨x, hx, y, hy, -⟩
      exact ⟨x, y, hm.1 hx, .step .nil (nbrs_at hb hf (hm.1 hx)) (mem_within.1 hy).1⟩
    · rintro ⟨a, n, ha, hw⟩
      cases hw with
      | step hw hl hy =>
        cases hw
        rw [Yields.unique hl (nbrs_at hb hf ha)] at hy
        obtain ⟨hn, hback⟩ := c46_neighbors_nodes _ ha hy
        exact ⟨a, hm.2 ha, n, mem_within.2 ⟨hy, hm.2 hn⟩, .step .refl (mem_within.2 ⟨hback, hm.2 ha⟩)⟩
  rw [cyclicDirected_run (roams hb hf), e]
end

/-- The 3 × 2 graph: five tree edges, times up to 11, and cyclic. -/
example : ∃ (g : G Nat Nat) (evs : List (DfsEvent NodeIx)), DepthFirst g.rovable [⟨1, 0⟩] evs ∧ treeEdges evs = 5 ∧ stamps evs = List.range 12 ∧
    CyclicDirected g.rovable true := by
  obtain ⟨g, c, hb, hc⟩ := exGraph exCfg (by decide)
  have hf : exCfg.Fits 3 2 := ⟨by decide, by decide⟩
  have h0 : (exCfg.grid 3 2).Node ⟨1, 0⟩ := ⟨by decide, by decide⟩
  obtain ⟨evs, nb, k1, -, -, -, -, -, -, k8, -, k10, -⟩ := c115_legacy hb hf h0 (us := []) nofun
  refine ⟨g, evs, (k1 evs).2 rfl, Nat.succ.inj k10, k8, (c115_legacy_cyclic hb hf true).2 ⟨fun _ => ⟨⟨1, 0⟩, ⟨2, 0⟩, h0, .step .nil (nbrs_at hb hf h0) (by decide)⟩, fun _ => rfl⟩⟩
end LG.Sq
