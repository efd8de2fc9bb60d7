import Verif.Lemmas.Spanning
import Verif.Props.Spanning
import Verif.Props.LegacyWhole
/- C92: `min_spanning_tree` on the deprecated `SquareGraph`. -/
namespace LG.Sq
section
variable {N E : Type}
variable {g : G N E} {k : Cfg} {h v : Nat} {c : Contents NodeIx Axis N E}

theorem mst_edges (hb : Built k h v g c) (hf : k.Fits h v) : ∃ rs : List (Ref E), Yields (edgeRefsNext g) (edgeRefsInit g) rs ∧
    rs.mapM (Ref.view g.k) = .ok (allViews (k.grid h v) c) ∧
    rs.mapM (fun r => do return (← g.toIndex (← r.source g.k), ← g.toIndex (← r.target g.k), r.weight)) =
      (.ok ((allViews (k.grid h v) c).map fun w => (nodeIdx g w.source, nodeIdx g w.target, w.weight)) : Res (List (Nat × Nat × E))) := by
  obtain ⟨l, h1, h2⟩ := c48_edge_references hb hf
  refine ⟨l, h1, by rw [hb.stores.cfg]; exact h2, mapM_view l _ h2 fun r w hw hr => ?_⟩
  obtain ⟨h3, h4, h5⟩ := view_parts hr
  obtain ⟨h6, h7⟩ := allViews_nodes hw
  rw [hb.stores.cfg, h3, h4, h5]
  simp only [bind, Except.bind]
  rw [nodeIdx_eq hb hf h6, nodeIdx_eq hb hf h7]
  rfl

theorem mst_nodes (hb : Built k h v g c) (hf : k.Fits h v) :
    (allNodeRefs (k.grid h v) c).mapM (fun p => g.toIndex p.1) = .ok (List.range' 0 (h * v)) := by
  obtain ⟨-, h1⟩ := c45_node_references hb hf
  obtain ⟨-, h2, h3⟩ := c45_nodes_exact (k.grid h v)
  obtain ⟨-, h4, -⟩ := c45_index_bijection_partial hb hf
  have h5 : (allNodeRefs (k.grid h v) c).mapM (fun p => g.toIndex p.1) = .ok ((allNodeRefs (k.grid h v) c).map fun p => nodeIdx g p.1) :=
    mapM_ok _ fun p hp => nodeIdx_eq hb hf ((h2 p.1).1 (by rw [← h1]; exact List.mem_map_of_mem hp))
  have h6 : (allNodeRefs (k.grid h v) c).map (fun p => nodeIdx g p.1) = (k.grid h v).nodes.map (nodeIdx g) := by
    rw [← h1, List.map_map]; rfl
  have h3 : (k.grid h v).nodes.length = h * v := h3
  rw [h5, h6]
  refine congrArg _ (List.ext_getElem (by rw [List.length_map, List.length_range', h3]) fun i hi1 hi2 => ?_)
  rw [List.getElem_map, List.getElem_range']
  rw [List.length_map] at hi1
  obtain ⟨n, h7, -, h8⟩ := h4 i (by rw [← h3]; exact hi1)
  rw [List.getElem?_eq_getElem hi1] at h7
  cases h7
  rw [nodeIdx_eq hb hf ((h2 _).1 (List.getElem_mem hi1))] at h8
  have := Except.ok.inj h8
  omega

/-- **C92.** On every `SquareGraph`, looped or not, `min_spanning_tree` completes without a fault whatever the heap does with equal weights.
It returns the weight of each node at the place of its index, then one edge less than there are nodes: a part of `edge_references`, as
`source()` and `target()` show it, which joins all nodes, of which no edge could be left out, and of which the total cost is the least
of all parts that join all nodes. -/
theorem c92_spanning (hb : Built k h v g c) (hf : k.Fits h v) (cost : E → Nat) :
    (∃ ns res, Spanning g cost ns res) ∧
    ∀ ns res, Spanning g cost ns res →
      (ns.length = h * v ∧ ∀ n, (k.grid h v).Node n → ∃ i, g.toIndex n = .ok i ∧ ns[i]? = g.nodeWeight n) ∧
      ∃ rs vs picked out, Yields (edgeRefsNext g) (edgeRefsInit g) rs ∧ rs.mapM (Ref.view g.k) = .ok vs ∧
        MinSpanning View.source View.target (fun w => cost w.weight) vs picked ∧
        (∀ a b, (k.grid h v).Node a → (k.grid h v).Node b → Joined (ViewIn picked) a b) ∧
        picked.mapM (fun w => do return (← g.toIndex w.source, ← g.toIndex w.target, w.weight)) = .ok out ∧
        out.length + 1 = h * v ∧ res = .ok out := by
  have hall : ∀ w ∈ allViews (k.grid h v) c, (k.grid h v).Node w.source ∧ (k.grid h v).Node w.target := fun w hw => allViews_nodes hw
  have hn := (c45_index_bijection_partial hb hf).1
  obtain ⟨rs0, y1, y2, y3⟩ := mst_edges hb hf
  obtain ⟨y4, y5⟩ := c45_node_references hb hf
  constructor
  · obtain ⟨popped, hp⟩ := heapRun_exists cost ((allViews (k.grid h v) c).map fun w => (nodeIdx g w.source, nodeIdx g w.target, w.weight))
    exact ⟨_, _, _, _, _, _, _, y1, y3, hp, y4, mst_nodes hb hf, rfl, rfl⟩
  · rintro ns res ⟨rs, es, popped, nrs, ids, h2, h3, h4, h5, h6, rfl, rfl⟩
    rw [Yields.unique h2 y1, y3] at h3; cases h3
    have hnr := Yields.unique h5 y4
    subst hnr
    rw [mst_nodes hb hf] at h6; cases h6
    obtain ⟨picked, h7, h8⟩ := kruskal (indexed hb hf) hall (wt := View.weight)
      (mstOrder_range _ _ 0 (fun _ => none) (Nat.zero_add _) (fun _ h => absurd h (Nat.not_lt_zero _))) h4
    obtain ⟨-, e3, e4⟩ := c45_nodes_exact (k.grid h v)
    have e4 : (k.grid h v).nodes.length = h * v := e4
    have hlen : (allNodeRefs (k.grid h v) c).length = h * v := by rw [← e4, ← y5, List.length_map]
    obtain ⟨rest, hp⟩ := h7.part
    have hpk : ∀ w ∈ picked, (k.grid h v).Node w.source ∧ (k.grid h v).Node w.target := fun r hr =>
      hall r (hp.mem_iff.1 (List.mem_append_left _ hr))
    have hj : ∀ a b, (k.grid h v).Node a → (k.grid h v).Node b → Joined (ViewIn picked) a b := fun a b ha hb' =>
      (h7.spans a b).1 (joined_all hb hf ha hb')
    refine ⟨⟨by rw [List.length_map, hlen], fun n hnn => ?_⟩, rs0, _, picked, picked.map fun w => (nodeIdx g w.source, nodeIdx g w.target, w.weight),
      y1, y2, h7, hj, mapM_ok _ fun w hw => ?_, ?_, by rw [hn]; exact h8⟩
    · have hlt := (indexed hb hf).lt hnn
      obtain ⟨n', h9, -, h10⟩ := (c45_index_bijection_partial hb hf).2.1 _ hlt
      have hl : nodeIdx g n < (allNodeRefs (k.grid h v) c).length := by rw [hlen]; exact hlt
      have hn' := (e3 n').1 (List.mem_of_getElem? h9)
      rw [nodeIdx_eq hb hf hn'] at h10
      have := (indexed hb hf).inj hn' hnn (Except.ok.inj h10)
      subst this
      refine ⟨_, nodeIdx_eq hb hf hnn, ?_⟩
      rw [List.getElem?_map, List.getElem?_eq_getElem hl]
      rw [← y5, List.getElem?_map, List.getElem?_eq_getElem hl] at h9
      have hm := List.getElem_mem hl
      unfold allNodeRefs at hm
      obtain ⟨x, -, hx⟩ := List.mem_filterMap.1 hm
      obtain ⟨w, hw, e⟩ := Option.map_eq_some_iff.1 hx
      have hfst := Option.some.inj h9
      change some ((allNodeRefs (k.grid h v) c)[nodeIdx g n']).2 = _
      have e' : (x, w) = (allNodeRefs (k.grid h v) c)[nodeIdx g n'] := e
      rw [← e'] at hfst ⊢
      have hfst : x = n' := hfst
      rw [(weights_eq hb n' .horizontal).1, ← hfst, hw]
    · rw [nodeIdx_eq hb hf (hpk w hw).1, nodeIdx_eq hb hf (hpk w hw).2]
      rfl
    · rw [List.length_map]
      have h0 : (k.grid h v).Node ⟨0, 0⟩ := ⟨(hb.sizes hf).pos_h, (hb.sizes hf).pos_v⟩
      refine forest_count (indexed hb hf) hpk View.weight h7.forest ⟨[⟨0, 0⟩], rfl, ?_, List.pairwise_singleton _ _, fun x hx => ?_⟩
      · intro x hx
        cases List.mem_singleton.1 hx
        exact h0
      · exact ⟨_, List.mem_cons_self, hj x _ hx h0⟩
end

/-- the 3 × 2 graph looped horizontally: nine edges, five of them in the tree -/
example : ∃ (g : G Nat Nat) (ns : List Nat) (out : List (Nat × Nat × Nat)), Spanning g id ns (.ok out) ∧ ns.length = 6 ∧ out.length = 5 := by
  obtain ⟨g, c, hb, -⟩ := exGraph exCfg (by decide)
  have hf : exCfg.Fits 3 2 := ⟨by decide, by decide⟩
  obtain ⟨ns, res, h1⟩ := (c92_spanning hb hf id).1
  obtain ⟨⟨h2, -⟩, rs, vs, picked, out, -, -, -, -, -, h3, rfl⟩ := (c92_spanning hb hf id).2 _ _ h1
  exact ⟨g, ns, out, h1, h2, Nat.succ.inj h3⟩
end LG.Sq
