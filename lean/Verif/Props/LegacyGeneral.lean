import Verif.Props.General
import Verif.Props.LegacyWhole
/- C107 for the deprecated `SquareGraph`. -/
set_option linter.unusedSectionVars false
namespace LG.Sq
section
variable {N E : Type}
variable {g : G N E} {k : Cfg} {s : Grid} {h v : Nat} {c : Contents NodeIx Axis N E} {p : PGraph N E}

/-- A view by the indices of its ends. -/
def idxTriple (g : G N E) (w : View E) : Nat × Nat × E := (nodeIdx g w.source, nodeIdx g w.target, w.weight)

theorem byIndex_map (hb : Built k h v g c) (hf : k.Fits h v) {l : List (Ref E)} {ws : List (View E)} (hl : l.mapM (Ref.view k) = .ok ws)
    (hw : ∀ w ∈ ws, (k.grid h v).Node w.source ∧ (k.grid h v).Node w.target) : l.mapM (byIndex g) = .ok (ws.map (idxTriple g)) := by
  refine mapM_view l _ hl fun r w hwm hr => ?_
  obtain ⟨h3, h4, h5⟩ := view_parts hr
  obtain ⟨h6, h7⟩ := hw w hwm
  unfold byIndex
  rw [hb.stores.cfg, h3, h4, h5]
  simp only [bind, Except.bind]
  rw [nodeIdx_eq hb hf h6, nodeIdx_eq hb hf h7]
  rfl

theorem mapM_length {α β : Type} {f : α → Res β} : ∀ (l : List α) (m : List β), l.mapM f = .ok m → m.length = l.length
  | [], m, e => by cases e; rfl
  | a :: l, m, e => by
    rw [List.mapM_cons] at e
    cases h1 : f a with
    | error x => rw [h1] at e; cases e
    | ok b =>
      cases h2 : l.mapM f with
      | error x => rw [h1, h2] at e; cases e
      | ok m' =>
        rw [h1, h2] at e
        cases e
        rw [List.length_cons, mapM_length l m' h2, List.length_cons]

theorem allViews_nodup (hb : Built k h v g c) : (allViews (k.grid h v) c).Nodup := by
  have hx := c48_exact hb
  have h1 : ((allViews (k.grid h v) c).map View.id).Nodup := by rw [hx.1]; exact hx.2.1
  exact (List.pairwise_map.1 h1).imp fun hne e => hne (by rw [e])

/-- The references of a cell along forward directions, and those along backward ones. -/
def sideViews (s : Grid) (c : Contents NodeIx Axis N E) (n : NodeIx) (ds : List Dir) : List (View E) :=
  ds.filterMap fun d => (s.step n d).bind fun t =>
    (c.edge (Grid.key n t d).node (Grid.key n t d).axis).map fun w => ⟨n, t, w, Grid.key n t d⟩

theorem outViews_split (s : Grid) (c : Contents NodeIx Axis N E) (n : NodeIx) :
    (outViews s c n).Perm (sideViews s c n [.foward .horizontal, .foward .vertical] ++
      sideViews s c n [.backward .horizontal, .backward .vertical]) := by
  unfold sideViews
  rw [← List.filterMap_append]
  refine List.Perm.filterMap _ ?_
  decide

theorem foward_views {n : NodeIx} (hn : s.Node n) : sideViews s c n [.foward .horizontal, .foward .vertical] =
    (allViews s c).filter fun w => decide (w.source = n) := by
  refine Eq.trans ?_ (filter_flatMap_one (f := fun n => [Axis.horizontal, Axis.vertical].filterMap fun a => (s.step n (.foward a)).bind fun t =>
    (c.edge n a).map fun w => (⟨n, t, w, ⟨n, a⟩⟩ : View E)) (c45_nodes_exact s).1 (((c45_nodes_exact s).2.1 n).2 hn) fun x _ w hw => ?_).symm
  · rfl
  · simp only [List.mem_filterMap, Option.bind_eq_some_iff, Option.map_eq_some_iff] at hw
    obtain ⟨a, -, t, -, w, -, rfl⟩ := hw
    exact decide_eq_true_iff

/-- A view from the other end. -/
def View.turn (w : View E) : View E := ⟨w.target, w.source, w.weight, w.id⟩

theorem backward_views (hb : Built k h v g c) {n : NodeIx} (hn : (k.grid h v).Node n) :
    (((allViews (k.grid h v) c).filter fun w => decide (w.target = n)).map View.turn).Perm
      (sideViews (k.grid h v) c n [.backward .horizontal, .backward .vertical]) := by
  have hnd : (((allViews (k.grid h v) c).filter fun w => decide (w.target = n)).map View.turn).Nodup := by
    rw [← List.filterMap_eq_map]
    refine nodup_filterMap_of_inj ((allViews_nodup hb).filter _) fun a _ b _ y h1 h2 => ?_
    have e := (Option.some.inj h1).trans (Option.some.inj h2).symm
    obtain ⟨a1, a2, a3, a4⟩ := a
    obtain ⟨b1, b2, b3, b4⟩ := b
    simp only [View.turn, View.mk.injEq] at e
    obtain ⟨rfl, rfl, rfl, rfl⟩ := e
    rfl
  have hnd2 : (sideViews (k.grid h v) c n [.backward .horizontal, .backward .vertical]).Nodup := by
    refine nodup_filterMap_of_inj (by decide) fun a ha b hb' y h1 h2 => ?_
    simp only [Option.bind_eq_some_iff, Option.map_eq_some_iff] at h1 h2
    obtain ⟨t, -, w, -, rfl⟩ := h1
    obtain ⟨t', -, w', -, e⟩ := h2
    have e := congrArg (fun w => w.id.axis) e
    simp only [List.mem_cons, List.not_mem_nil, or_false] at ha hb'
    rcases ha with rfl | rfl <;> rcases hb' with rfl | rfl <;> first | rfl | cases e
  refine (List.perm_ext_iff_of_nodup hnd hnd2).2 fun w => ?_
  obtain ⟨src, tgt, x, ⟨m, ax⟩⟩ := w
  unfold sideViews
  simp only [List.mem_map, List.mem_filter, decide_eq_true_iff, mem_allViews, List.mem_filterMap, Option.bind_eq_some_iff,
    Option.map_eq_some_iff, View.mk.injEq, View.turn]
  constructor
  · rintro ⟨⟨a, b, y, ⟨m', ax'⟩⟩, ⟨⟨h1, h2, h3, h4⟩, h5⟩, rfl, rfl, rfl, e⟩
    cases e
    simp only at h1 h2 h3 h4 h5
    subst h4; subst h5
    exact ⟨.backward ax, by cases ax <;> simp, m, Grid.step_opp h1 h2, _, h3, rfl, rfl, rfl, rfl⟩
  · rintro ⟨d, hd, t, h1, y, h2, rfl, rfl, rfl, e⟩
    simp only [List.mem_cons, List.not_mem_nil, or_false] at hd
    have ht := Grid.step_node hn h1
    have ho := Grid.step_opp hn h1
    rcases hd with rfl | rfl <;> cases e <;>
      exact ⟨⟨_, _, _, ⟨_, _⟩⟩, ⟨⟨ht, ho, h2, rfl⟩, rfl⟩, rfl, rfl, rfl, rfl⟩

theorem allNodeRefs_weights (hb : Built k h v g c) (hf : k.Fits h v) :
    (allNodeRefs (k.grid h v) c).length = h * v ∧
    ∀ n, (k.grid h v).Node n → ((allNodeRefs (k.grid h v) c).map Prod.snd)[nodeIdx g n]? = c.node n := by
  obtain ⟨-, h1⟩ := c45_node_references hb hf
  have hlen : (allNodeRefs (k.grid h v) c).length = h * v := by
    rw [← List.length_map (f := Prod.fst), h1, (c45_nodes_exact _).2.2]; rfl
  refine ⟨hlen, fun n hn => ?_⟩
  have hi := (indexed hb hf).lt hn
  obtain ⟨n', h2, -, h4⟩ := (c45_index_bijection_partial hb hf).2.1 _ hi
  have hn' := ((c45_nodes_exact (k.grid h v)).2.1 n').1 (List.mem_of_getElem? h2)
  rw [nodeIdx_eq hb hf hn'] at h4
  have hnn : n' = n := (indexed hb hf).inj hn' hn (Except.ok.inj h4)
  subst hnn
  obtain ⟨x, hq⟩ : ∃ x, (allNodeRefs (k.grid h v) c)[nodeIdx g n']? = some x := ⟨_, List.getElem?_eq_getElem (by rw [hlen]; exact hi)⟩
  have hx1 : x.1 = n' := by
    have h5 : ((allNodeRefs (k.grid h v) c).map Prod.fst)[nodeIdx g n']? = some x.1 := by rw [List.getElem?_map, hq]; rfl
    rw [h1, h2] at h5
    exact (Option.some.inj h5).symm
  rw [List.getElem?_map, hq]
  obtain ⟨y, hy, h5⟩ := List.mem_filterMap.1 (List.mem_of_getElem? hq)
  obtain ⟨w, h6, rfl⟩ := Option.map_eq_some_iff.1 h5
  have hx1 : y = n' := hx1
  rw [← hx1, h6]; rfl

theorem copied_adj (hb : Built k h v g c) (hf : k.Fits h v) :
    ∃ p, Copied g p ∧ (∀ p', Copied g p' → p' = p) ∧
      Adj false ((allNodeRefs (k.grid h v) c).map Prod.snd) ((allViews (k.grid h v) c).map (idxTriple g)) p := by
  obtain ⟨p, h1, h2⟩ := addEdges_adj (more := (allViews (k.grid h v) c).map (idxTriple g))
    (ofNodes_adj false ((allNodeRefs (k.grid h v) c).map Prod.snd) : Adj _ _ _ (PGraph.ofNodes _ _ : PGraph N E)) (by
      intro e he
      obtain ⟨w, hw, rfl⟩ := List.mem_map.1 he
      rw [List.length_map, (allNodeRefs_weights hb hf).1]
      obtain ⟨h1, h2⟩ := allViews_nodes hw
      exact ⟨(indexed hb hf).lt h1, (indexed hb hf).lt h2⟩)
  obtain ⟨rs, h3, h4⟩ := c48_edge_references hb hf
  have hby := byIndex_map hb hf h4 fun w hw => allViews_nodes hw
  have hnr := (c45_node_references hb hf).1
  refine ⟨p, ⟨_, _, _, hnr, h3, hby, h1⟩, ?_, by rwa [List.nil_append] at h2⟩
  rintro p' ⟨nrs, rs', es, h5, h6, h7, h8⟩
  rw [h5.unique hnr] at h8
  rw [h6.unique h3, hby] at h7
  cases h7
  rw [h1] at h8
  exact (Except.ok.inj h8).symm

theorem Copied.adj (hb : Built k h v g c) (hf : k.Fits h v) (hp : Copied g p) :
    Adj false ((allNodeRefs (k.grid h v) c).map Prod.snd) ((allViews (k.grid h v) c).map (idxTriple g)) p := by
  obtain ⟨p', -, h2, h3⟩ := copied_adj hb hf
  rw [h2 p hp]; exact h3

/-- **C107** for `SquareGraph`: copying it into petgraph's `Graph` succeeds, with one result. -/
theorem c107_legacy_copy (hb : Built k h v g c) (hf : k.Fits h v) : ∃ p, Copied g p ∧ ∀ p', Copied g p' → p' = p := by
  obtain ⟨p, h1, h2, -⟩ := copied_adj hb hf
  exact ⟨p, h1, h2⟩

/-- **C107** for `SquareGraph`: the copy has as many nodes and edges; the weight of the node `to_index(n)` is that of `n`. -/
theorem c107_legacy_nodes (hb : Built k h v g c) (hf : k.Fits h v) (hp : Copied g p) :
    p.directed = false ∧ p.nodes.length = g.nodeCount ∧ (∀ l, Yields (edgeRefsNext g) (edgeRefsInit g) l → p.edges.length = l.length) ∧
    ∀ n i, (k.grid h v).Node n → g.toIndex n = .ok i → g.nodeWeight n = p.nodeWeight i := by
  have ha := hp.adj hb hf
  obtain ⟨h1, h2⟩ := allNodeRefs_weights hb hf
  refine ⟨ha.directed, ?_, fun l hl => ?_, fun n i hn hi => ?_⟩
  · rw [← List.length_map (f := PNode.weight), ha.weights, List.length_map, h1, (c45_index_bijection_partial hb hf).1]
  · obtain ⟨rs, h3, h4⟩ := c48_edge_references hb hf
    rw [← List.length_map (f := PEdge.triple), ha.edges, hl.unique h3, List.length_map, mapM_length rs _ h4]
  · rw [nodeIdx_eq hb hf hn] at hi
    cases hi
    unfold PGraph.nodeWeight
    rw [← List.getElem?_map, ha.weights, h2 n hn]
    exact (weights_eq hb n .horizontal).1

theorem outViews_nodes {n : NodeIx} (hn : s.Node n) {w : View E} (hw : w ∈ outViews s c n) : s.Node w.source ∧ s.Node w.target := by
  obtain ⟨d, -, h1, h2, -⟩ := mem_outViews.1 hw
  rw [h2]; exact ⟨hn, Grid.step_node hn h1⟩

/-- **C107** for `SquareGraph`: `edges(n)` lists what that of the copy lists, except that an edge of a node to itself is listed twice by the
crate and once by `Graph`. -/
theorem c107_legacy_edges (hb : Built k h v g c) (hf : k.Fits h v) (hp : Copied g p) {n : NodeIx} (hn : (k.grid h v).Node n) {i : Nat}
    (hi : g.toIndex n = .ok i) {l : List (Ref E)} (hl : Yields (EdgesOf.next g) (g.edges n) l) :
    ∃ t pl, l.mapM (byIndex g) = .ok t ∧ p.EdgesDirected i .outgoing pl ∧ (∀ pl', p.EdgesDirected i .outgoing pl' → pl' = pl) ∧
      t.Perm ((pl ++ pl.filter fun e => e.source == e.target).map fun e => (e.source, e.target, e.weight)) := by
  rw [nodeIdx_eq hb hf hn] at hi
  cases hi
  obtain ⟨l', h1, h2⟩ := c47_edges hb hf hn
  cases hl.unique h1
  have hlt : nodeIdx g n < ((allNodeRefs (k.grid h v) c).map Prod.snd).length := by
    rw [List.length_map, (allNodeRefs_weights hb hf).1]; exact (indexed hb hf).lt hn
  have hfo : (((allViews (k.grid h v) c).map (idxTriple g)).filter fun e => e.1 == nodeIdx g n) =
      ((allViews (k.grid h v) c).filter fun w => decide (w.source = n)).map (idxTriple g) := by
    rw [List.filter_map]
    congr 1
    refine List.filter_congr fun r hr => ?_
    rw [Bool.eq_iff_iff, decide_eq_true_iff]
    refine beq_iff_eq.trans ⟨fun e => (indexed hb hf).inj (allViews_nodes hr).1 hn e, fun e => ?_⟩
    show nodeIdx g r.source = _
    rw [e]
  have hfi : (((allViews (k.grid h v) c).map (idxTriple g)).filter fun e => e.2.1 == nodeIdx g n) =
      ((allViews (k.grid h v) c).filter fun w => decide (w.target = n)).map (idxTriple g) := by
    rw [List.filter_map]
    congr 1
    refine List.filter_congr fun r hr => ?_
    rw [Bool.eq_iff_iff, decide_eq_true_iff]
    refine beq_iff_eq.trans ⟨fun e => (indexed hb hf).inj (allViews_nodes hr).2 hn e, fun e => ?_⟩
    show nodeIdx g r.target = _
    rw [e]
  obtain ⟨pl, h3, h4⟩ := (undirected_spec (hp.adj hb hf) hlt (out := (outViews (k.grid h v) c n).map (idxTriple g)) (by
    rw [hfo, hfi]
    have h5 := (outViews_split (k.grid h v) c n).map (idxTriple g)
    rw [List.map_append, foward_views hn] at h5
    refine h5.trans (.append (.refl _) ?_)
    have h6 := ((backward_views hb hn).map (idxTriple g)).symm
    rw [List.map_map] at h6
    rw [List.map_map]
    exact h6)).1
  refine ⟨_, pl, byIndex_map hb hf h2 fun w hw => outViews_nodes hn hw, h3, fun pl' h' => PAll.unique h' h3, ?_⟩
  rw [List.map_append]
  rw [List.filter_map] at h4
  exact h4

/-- **C107** for `SquareGraph`: the lists are the same exactly if no step from the cell stays there, as it does where the grid loops along a
side of one cell. -/
theorem c107_legacy_same_iff (hb : Built k h v g c) (hf : k.Fits h v) (hp : Copied g p) {n : NodeIx} (hn : (k.grid h v).Node n) {i : Nat}
    (hi : g.toIndex n = .ok i) {l : List (Ref E)} {t : List (Nat × Nat × E)} {pl : List (PRef E)}
    (hl : Yields (EdgesOf.next g) (g.edges n) l) (ht : l.mapM (byIndex g) = .ok t) (hpl : p.EdgesDirected i .outgoing pl) :
    t.Perm (pl.map fun e => (e.source, e.target, e.weight)) ↔ n ∉ (k.grid h v).nbrs n := by
  obtain ⟨t', pl', h1, h2, h3, h4⟩ := c107_legacy_edges hb hf hp hn hi hl
  rw [ht] at h1; cases h1
  cases h3 pl hpl
  obtain ⟨l', h5, h6⟩ := c47_edges hb hf hn
  cases hl.unique h5
  rw [byIndex_map hb hf h6 fun w hw => outViews_nodes hn hw] at ht
  cases ht
  rw [← (c47_meaning hb hn).1]
  have hsrc := (c47_meaning hb hn).2
  constructor
  · intro h7 hmem
    obtain ⟨w, hw, e⟩ := List.mem_map.1 hmem
    have hlen := (h7.symm.trans h4).length_eq
    rw [List.map_append, List.length_append, List.length_map, List.length_map] at hlen
    have hnil : (pl.filter fun e => e.source == e.target) = [] := List.length_eq_zero_iff.1 (by omega)
    obtain ⟨q, hq, hqe⟩ := List.mem_map.1 (h7.mem_iff.1 (List.mem_map.2 ⟨w, hw, rfl⟩))
    have : q ∈ pl.filter fun e => e.source == e.target := by
      refine List.mem_filter.2 ⟨hq, beq_iff_eq.2 ?_⟩
      have e1 : q.source = nodeIdx g w.source := congrArg (fun x => x.1) hqe
      have e2 : q.target = nodeIdx g w.target := congrArg (fun x => x.2.1) hqe
      rw [e1, e2, (hsrc w hw).1, e]
    rw [hnil] at this
    cases this
  · intro hmem
    have hnil : (pl.filter fun e => e.source == e.target) = [] := by
      rw [List.filter_eq_nil_iff]
      intro q hq he
      obtain ⟨w, hw, hwe⟩ := List.mem_map.1 (h4.mem_iff.2 (List.mem_map.2 ⟨q, List.mem_append_left _ hq, rfl⟩))
      have e1 : nodeIdx g w.source = q.source := congrArg (fun x => x.1) hwe
      have e2 : nodeIdx g w.target = q.target := congrArg (fun x => x.2.1) hwe
      have hnn := outViews_nodes hn hw
      have e3 := (indexed hb hf).inj hnn.1 hnn.2 (by rw [e1, e2]; exact beq_iff_eq.1 he)
      exact hmem (List.mem_map.2 ⟨w, hw, by rw [← e3]; exact (hsrc w hw).1⟩)
    rw [hnil, List.append_nil] at h4
    exact h4

theorem plink_iff (hb : Built k h v g c) (hf : k.Fits h v) (hp : Copied g p) (cost : E → Nat) {n : NodeIx} (hn : (k.grid h v).Node n)
    {j w : Nat} : PLink p cost (nodeIdx g n) j w ↔ ∃ t, nodeIdx g t = j ∧ Link g (fun r => cost r.weight) n t w := by
  obtain ⟨l, h1, h2⟩ := c47_edges hb hf hn
  obtain ⟨t, pl, h3, h4, h5, h6⟩ := c107_legacy_edges hb hf hp hn (nodeIdx_eq hb hf hn) h1
  rw [byIndex_map hb hf h2 fun w hw => outViews_nodes hn hw] at h3
  cases h3
  have hmem : ∀ x : Nat × Nat × E, x ∈ (outViews (k.grid h v) c n).map (idxTriple g) ↔
      x ∈ pl.map fun e => (e.source, e.target, e.weight) := fun x => by
    refine (List.Perm.mem_iff h6).trans ?_
    simp only [List.mem_map, List.mem_append, List.mem_filter]
    exact ⟨fun ⟨e, h, h'⟩ => ⟨e, h.elim id And.left, h'⟩, fun ⟨e, h, h'⟩ => ⟨e, .inl h, h'⟩⟩
  -- references and their views
  have hview : ∀ (l : List (Ref E)) (ws : List (View E)), l.mapM (Ref.view k) = .ok ws →
      (∀ r ∈ l, ∃ w ∈ ws, Ref.view k r = .ok w) ∧ ∀ w ∈ ws, ∃ r ∈ l, Ref.view k r = .ok w := by
    intro l
    induction l with
    | nil => intro ws e; cases e; exact ⟨fun r hr => (nomatch hr), fun r hr => (nomatch hr)⟩
    | cons a l ih =>
      intro ws e
      rw [List.mapM_cons] at e
      cases e1 : Ref.view k a with
      | error x => rw [e1] at e; cases e
      | ok b =>
        cases e2 : l.mapM (Ref.view k) with
        | error x => rw [e1, e2] at e; cases e
        | ok m =>
          rw [e1, e2] at e
          cases e
          obtain ⟨ih1, ih2⟩ := ih m e2
          refine ⟨fun r hr => ?_, fun w hw => ?_⟩
          · rcases List.mem_cons.1 hr with rfl | hr
            · exact ⟨b, List.mem_cons_self, e1⟩
            · obtain ⟨w, hw, e⟩ := ih1 r hr
              exact ⟨w, List.mem_cons_of_mem _ hw, e⟩
          · rcases List.mem_cons.1 hw with rfl | hw
            · exact ⟨a, List.mem_cons_self, e1⟩
            · obtain ⟨r, hr, e⟩ := ih2 w hw
              exact ⟨r, List.mem_cons_of_mem _ hr, e⟩
  obtain ⟨hv1, hv2⟩ := hview l _ h2
  constructor
  · rintro ⟨l', r, h7, h8, rfl, rfl⟩
    cases h5 l' h7
    obtain ⟨w, h9, h10⟩ := List.mem_map.1 ((hmem _).2 (List.mem_map.2 ⟨r, h8, rfl⟩))
    obtain ⟨r', h11, h12⟩ := hv2 w h9
    obtain ⟨-, h13, h14⟩ := view_parts h12
    refine ⟨w.target, congrArg (fun x => x.2.1) h10, r', ⟨l, h1, h11, by rw [hb.stores.cfg]; exact h13⟩, ?_⟩
    show cost r'.weight = _
    rw [h14]; exact congrArg (fun x => cost x.2.2) h10
  · rintro ⟨t, rfl, r, ⟨l', h7, h8, h9⟩, rfl⟩
    cases h7.unique h1
    obtain ⟨w, h10, h11⟩ := hv1 r h8
    obtain ⟨-, h13, h14⟩ := view_parts h11
    rw [hb.stores.cfg, h13] at h9
    cases h9
    obtain ⟨r', h15, h16⟩ := List.mem_map.1 ((hmem _).1 (List.mem_map.2 ⟨w, h10, rfl⟩))
    refine ⟨pl, r', h4, h15, congrArg (fun x => x.2.1) h16, ?_⟩
    show _ = cost r.weight
    rw [h14]; exact congrArg (fun x => cost x.2.2) h16

/-- **C107** for `SquareGraph`: the walks are the same, and cost the same. -/
theorem c107_legacy_walks (hb : Built k h v g c) (hf : k.Fits h v) (hp : Copied g p) (cost : E → Nat) {a b : NodeIx}
    (ha : (k.grid h v).Node a) (hb' : (k.grid h v).Node b) {i j : Nat} (hi : g.toIndex a = .ok i) (hj : g.toIndex b = .ok j) {n : Nat} :
    LinkWalk (Link g fun r => cost r.weight) a b n ↔ LinkWalk (PLink p cost) i j n := by
  rw [nodeIdx_eq hb hf ha] at hi
  rw [nodeIdx_eq hb hf hb'] at hj
  have hi' := Except.ok.inj hi
  have hj' := Except.ok.inj hj
  clear hi hj
  constructor
  · intro hw
    rw [← hi', ← hj']
    clear hi' hj'
    induction hw with
    | nil => exact .nil
    | cons e _ ih => exact .cons ((plink_iff hb hf hp cost ha).2 ⟨_, rfl, e⟩) (ih (Link.node hb hf ha e) hb')
  · intro hw
    induction hw generalizing a with
    | nil => rw [(indexed hb hf).inj ha hb' (hi'.trans hj'.symm)]; exact .nil
    | cons e _ ih =>
      rw [← hi'] at e
      obtain ⟨t, h1, h2⟩ := (plink_iff hb hf hp cost ha).1 e
      exact .cons h2 (ih (Link.node hb hf ha h2) h1 hj')
end

/-! ### Examples -/

/-- The 3×2 grid of `exCfg`, which loops horizontally: no step stays, so both list the same at every cell. -/
example : ∃ (g : G Nat Nat) (p : PGraph Nat Nat), Copied g p ∧ p.directed = false ∧ p.nodes.length = g.nodeCount ∧
    ∃ l t pl, Yields (EdgesOf.next g) (g.edges ⟨2, 1⟩) l ∧ l.mapM (byIndex g) = .ok t ∧ p.EdgesDirected 5 .outgoing pl ∧
      t.Perm (pl.map fun e => (e.source, e.target, e.weight)) := by
  obtain ⟨g, c, hb, -⟩ := exGraph exCfg (by decide)
  have hf : exCfg.Fits 3 2 := ⟨by decide, by decide⟩
  have hn : (exCfg.grid 3 2).Node ⟨2, 1⟩ := by decide
  obtain ⟨p, hp, -⟩ := c107_legacy_copy hb hf
  obtain ⟨h1, h2, -⟩ := c107_legacy_nodes hb hf hp
  obtain ⟨l, h3, -⟩ := c47_edges hb hf hn
  have hi : g.toIndex ⟨2, 1⟩ = .ok 5 := by
    obtain ⟨n, e1, -, e3⟩ := (c45_index_bijection_partial hb hf).2.1 5 (by decide)
    have e4 : (exCfg.grid 3 2).nodes[5]? = some ⟨2, 1⟩ := by decide
    rw [e4] at e1
    cases e1; exact e3
  obtain ⟨t, pl, h4, h5, -⟩ := c107_legacy_edges hb hf hp hn hi h3
  exact ⟨g, p, hp, h1, h2, l, t, pl, h3, h4, h5, (c107_legacy_same_iff hb hf hp hn hi h3 h4 h5).2 (by decide)⟩

/-- A column of two cells that loops horizontally: each cell is its own neighbour, and the lists differ. -/
example : ∃ (g : G Nat Nat) (p : PGraph Nat Nat), Copied g p ∧
    ∃ l t pl, Yields (EdgesOf.next g) (g.edges ⟨0, 1⟩) l ∧ l.mapM (byIndex g) = .ok t ∧ p.EdgesDirected 1 .outgoing pl ∧
      ¬ t.Perm (pl.map fun e => (e.source, e.target, e.weight)) := by
  obtain ⟨g, hg, -⟩ := c43_new_with exCfg (h := 1) (v := 2) (by decide) (by decide) (by decide)
    (fun (_ : Unit) i j => (10 * i + j, ())) (fun _ i j a => (100 * (if a = .horizontal then 0 else 1) + 10 * i + j, ())) ()
  have hb := Built.new hg (by decide)
  have hf : exCfg.Fits 1 2 := ⟨by decide, by decide⟩
  have hn : (exCfg.grid 1 2).Node ⟨0, 1⟩ := by decide
  obtain ⟨p, hp, -⟩ := c107_legacy_copy hb hf
  obtain ⟨l, h3, -⟩ := c47_edges hb hf hn
  have hi : g.toIndex ⟨0, 1⟩ = .ok 1 := by
    obtain ⟨n, e1, -, e3⟩ := (c45_index_bijection_partial hb hf).2.1 1 (by decide)
    have e4 : (exCfg.grid 1 2).nodes[1]? = some ⟨0, 1⟩ := by decide
    rw [e4] at e1
    cases e1; exact e3
  obtain ⟨t, pl, h4, h5, -⟩ := c107_legacy_edges hb hf hp hn hi h3
  exact ⟨g, p, hp, l, t, pl, h3, h4, h5, fun hperm => (c107_legacy_same_iff hb hf hp hn hi h3 h4 h5).1 hperm (by decide)⟩

/-- A walk of one step. -/
example : ∃ (g : G Nat Nat) (p : PGraph Nat Nat), Copied g p ∧ ∃ w, LinkWalk (PLink p id) 0 1 w := by
  obtain ⟨g, c, hb, -⟩ := exGraph exCfg (by decide)
  have hf : exCfg.Fits 3 2 := ⟨by decide, by decide⟩
  have hn : (exCfg.grid 3 2).Node ⟨0, 0⟩ := by decide
  have hn' : (exCfg.grid 3 2).Node ⟨0, 1⟩ := by decide
  obtain ⟨p, hp, -⟩ := c107_legacy_copy hb hf
  have hi : g.toIndex ⟨0, 0⟩ = .ok 0 ∧ g.toIndex ⟨0, 1⟩ = .ok 1 := by
    constructor
    · obtain ⟨n, e1, -, e3⟩ := (c45_index_bijection_partial hb hf).2.1 0 (by decide)
      have e4 : (exCfg.grid 3 2).nodes[0]? = some ⟨0, 0⟩ := by decide
      rw [e4] at e1
      cases e1; exact e3
    · obtain ⟨n, e1, -, e3⟩ := (c45_index_bijection_partial hb hf).2.1 1 (by decide)
      have e4 : (exCfg.grid 3 2).nodes[1]? = some ⟨0, 1⟩ := by decide
      rw [e4] at e1
      cases e1; exact e3
  obtain ⟨w, hw⟩ := (link_step (cost := fun r => id r.weight) hb hf hn).2 ⟨.foward .vertical, rfl⟩
  exact ⟨g, p, hp, w + 0, (c107_legacy_walks hb hf hp id hn hn' hi.1 hi.2).1 (.cons hw .nil)⟩
end LG.Sq
