import Verif.Props.Floyd
import Verif.Props.EdgeCount
import Verif.Lemmas.General
import Verif.Lemmas.Filtered
/- C107: a `LatticeGraph` is the general-purpose `Graph` it stands for. -/
set_option linter.unusedSectionVars false
namespace LG
section
variable {C A D N E : Type} [DecidableEq C] [DecidableEq A] [DecidableEq D]
variable {s : Shape C A D} {L : Lat C A D} {rep : C → Prop} {g : Graph C A D N E} {k : Contents C A N E} {p : PGraph N E}

/-! ### The edges of a node among all edges -/

theorem filter_flatMap_one {α β : Type} {f : α → List β} {q : β → Bool} {c : α} : ∀ {l : List α}, l.Nodup → c ∈ l →
    (∀ x ∈ l, ∀ y ∈ f x, (q y = true ↔ x = c)) → (l.flatMap f).filter q = f c
  | x :: l, hn, hc, hq => by
    rw [List.nodup_cons] at hn
    rw [List.flatMap_cons, List.filter_append]
    by_cases h : x = c
    · subst h
      rw [List.filter_eq_self.2 fun y hy => (hq x List.mem_cons_self y hy).2 rfl, List.filter_eq_nil_iff.2, List.append_nil]
      intro y hy hq'
      obtain ⟨z, hz, hy⟩ := List.mem_flatMap.1 hy
      exact hn.1 ((hq z (List.mem_cons_of_mem _ hz) y hy).1 hq' ▸ hz)
    · rw [List.filter_eq_nil_iff.2 fun y hy hq' => h ((hq x List.mem_cons_self y hy).1 hq'), List.nil_append]
      exact filter_flatMap_one hn.2 ((List.mem_cons.1 hc).resolve_left fun e => h e.symm) fun z hz => hq z (List.mem_cons_of_mem _ hz)

/-- Those stored at the node. -/
theorem allEdges_source (hs : Lawful s L rep) {c : C} (hc : L.Node c) : (allEdges L k).filter (fun r => decide (r.source = c)) =
    L.axes.filterMap fun a => (L.nbr c (L.fwd a)).bind fun t => (k.edge c a).map fun w => ⟨c, t, w, L.fwd a⟩ := by
  refine filter_flatMap_one (Lat.nodes_nodup hs.laws) (Lat.mem_nodes.2 hc) fun x _ r hr => ?_
  simp only [List.mem_filterMap, Option.bind_eq_some_iff, Option.map_eq_some_iff] at hr
  obtain ⟨a, -, t, -, w, -, rfl⟩ := hr
  exact decide_eq_true_iff

theorem outEdges_directed (hs : Lawful s L rep) (hd : L.directed = true) {c : C} (hc : L.Node c) :
    outEdges L k c = (allEdges L k).filter fun r => decide (r.source = c) := by
  have hl := hs.laws.dir
  rw [allEdges_source hs hc, outEdges, hl.dirs_dir hd, List.filterMap_map]
  congr 1
  funext a
  show (L.nbr c (L.fwd a)).bind _ = _
  unfold Lat.key
  simp only [hl.ax_fwd, if_true]

theorem outEdges_nodup (hl : DirLaws L) (c : C) : (outEdges L k c).Nodup := by
  refine nodup_filterMap_of_inj hl.dirs_nodup ?_
  intro a _ b _ y h1 h2
  simp only [Option.bind_eq_some_iff, Option.map_eq_some_iff] at h1 h2
  obtain ⟨t, -, w, -, rfl⟩ := h1
  obtain ⟨t', -, w', -, h⟩ := h2
  exact (congrArg EdgeRef.direction h).symm

theorem inEdges_nodup (hl : DirLaws L) (c : C) : (inEdges L k c).Nodup := by
  refine nodup_filterMap_of_inj hl.dirs_nodup ?_
  intro a _ b _ y h1 h2
  simp only [Option.bind_eq_some_iff, Option.map_eq_some_iff] at h1 h2
  obtain ⟨t, -, w, -, rfl⟩ := h1
  obtain ⟨t', -, w', -, h⟩ := h2
  exact (congrArg EdgeRef.direction h).symm

theorem mem_inEdges (hl : DirLaws L) {c : C} {r : EdgeRef C D E} : r ∈ inEdges L k c ↔ r.target = c ∧ L.nbr c r.direction = some r.source ∧
    k.edge (L.key r.source (L.opp r.direction) c).1 (L.key r.source (L.opp r.direction) c).2 = some r.weight := by
  obtain ⟨src, tgt, w, d⟩ := r
  simp only [inEdges, List.mem_filterMap, Option.bind_eq_some_iff, Option.map_eq_some_iff, EdgeRef.mk.injEq, hl.dirs_mem, true_and]
  constructor
  · rintro ⟨d', t, h1, w', h2, rfl, rfl, rfl, rfl⟩; exact ⟨rfl, h1, h2⟩
  · rintro ⟨rfl, h1, h2⟩; exact ⟨d, src, h1, w, h2, rfl, rfl, rfl, rfl⟩

theorem allEdges_nodup (hs : Lawful s L rep) (hb : Built s L g k) : (allEdges L k).Nodup := by
  have h := c13_keys hs hb
  have h1 : ((allEdges L k).map fun r => (r.source, L.ax r.direction)).Nodup := by rw [h.1]; exact h.2.1
  exact (List.pairwise_map.1 h1).imp fun hne e => hne (by rw [e])

/-- A reference with its direction as seen from the other end. -/
def EdgeRef.flipDir (L : Lat C A D) (r : EdgeRef C D E) : EdgeRef C D E := { r with direction := L.opp r.direction }

theorem flipDir_inj (hl : DirLaws L) {r r' : EdgeRef C D E} (h : r.flipDir L = r'.flipDir L) : r = r' := by
  obtain ⟨a, b, w, d⟩ := r
  obtain ⟨a', b', w', d'⟩ := r'
  simp only [EdgeRef.flipDir, EdgeRef.mk.injEq] at h
  obtain ⟨rfl, rfl, rfl, h⟩ := h
  have := congrArg L.opp h
  rw [hl.opp_opp, hl.opp_opp] at this
  rw [this]

/-- Among the references of `edges`, those stored at the node. -/
theorem source_perm (hs : Lawful s L rep) (hb : Built s L g k) {c : C} (hc : L.Node c) :
    ((allEdges L k).filter fun r => decide (r.source = c)).Perm
      ((outEdges L k c).filter fun r => decide (L.fwd (L.ax r.direction) = r.direction)) := by
  have hl := hs.laws.dir
  refine (List.perm_ext_iff_of_nodup ((allEdges_nodup hs hb).filter _) ((outEdges_nodup hl c).filter _)).2 fun r => ?_
  rw [List.mem_filter, List.mem_filter, mem_allEdges hl, mem_outEdges hl, decide_eq_true_iff, decide_eq_true_iff]
  unfold Lat.key
  constructor
  · rintro ⟨⟨h1, h2, h3, h4⟩, rfl⟩
    rw [if_pos h2]
    exact ⟨⟨rfl, h3, h4⟩, h2⟩
  · rintro ⟨⟨rfl, h3, h4⟩, h2⟩
    rw [if_pos h2] at h4
    exact ⟨⟨hc, h2, h3, h4⟩, rfl⟩

/-- Among the references to incoming edges, those stored at the other end. -/
theorem target_perm (hs : Lawful s L rep) (hb : Built s L g k) {c : C} (hc : L.Node c) :
    (((allEdges L k).filter fun r => decide (r.target = c)).map (EdgeRef.flipDir L)).Perm
      ((inEdges L k c).filter fun r => decide (L.fwd (L.ax (L.opp r.direction)) = L.opp r.direction)) := by
  have hl := hs.laws.dir
  have hnd : (((allEdges L k).filter fun r => decide (r.target = c)).map (EdgeRef.flipDir L)).Nodup := by
    rw [← List.filterMap_eq_map]
    refine nodup_filterMap_of_inj ((allEdges_nodup hs hb).filter _) fun a _ b _ y h1 h2 => flipDir_inj hl ?_
    exact (Option.some.inj h1).trans (Option.some.inj h2).symm
  refine (List.perm_ext_iff_of_nodup hnd ((inEdges_nodup hl c).filter _)).2 fun r => ?_
  rw [List.mem_map, List.mem_filter, mem_inEdges hl, decide_eq_true_iff]
  unfold Lat.key
  constructor
  · rintro ⟨r', h, rfl⟩
    obtain ⟨h1, h2⟩ := List.mem_filter.1 h
    obtain ⟨h3, h4, h5, h6⟩ := (mem_allEdges hl).1 h1
    have h2 : r'.target = c := of_decide_eq_true h2
    subst h2
    simp only [EdgeRef.flipDir, hl.opp_opp]
    rw [if_pos h4]
    exact ⟨⟨trivial, hs.laws.nbr_opp h3 h5, h6⟩, h4⟩
  · rintro ⟨⟨rfl, h3, h4⟩, h2⟩
    rw [if_pos h2] at h4
    refine ⟨r.flipDir L, List.mem_filter.2 ⟨(mem_allEdges hl).2 ⟨hs.laws.nbr_node hc h3, h2, hs.laws.nbr_opp hc h3, h4⟩,
      decide_eq_true rfl⟩, ?_⟩
    simp only [EdgeRef.flipDir, hl.opp_opp]

/-- A reference from the other end. -/
def EdgeRef.turn (r : EdgeRef C D E) : EdgeRef C D E := ⟨r.target, r.source, r.weight, r.direction⟩

theorem inEdges_undirected (hs : Lawful s L rep) (hd : L.directed = false) (c : C) :
    inEdges L k c = (outEdges L k c).map EdgeRef.turn := by
  unfold inEdges outEdges
  rw [List.map_filterMap]
  congr 1
  funext d
  cases L.nbr c d with
  | none => rfl
  | some t =>
    simp only [Option.bind_some, key_symm hs.laws.dir hd, Option.map_map]
    rfl

/-- In an undirected lattice each edge is stored at one of its ends. -/
theorem fwd_opp (hl : DirLaws L) (hd : L.directed = false) (d : D) : (¬ L.fwd (L.ax d) = d) ↔ L.fwd (L.ax (L.opp d)) = L.opp d := by
  constructor
  · intro h
    have h1 := (hl.fwd_ax d).resolve_left h
    have h2 := congrArg L.ax h1.2
    rw [hl.ax_fwd] at h2
    rw [← h2]; exact h1.2
  · intro h h'
    have hnd := hl.dirs_nodup
    rw [hl.dirs_und hd, List.nodup_append] at hnd
    refine hnd.2.2 (L.opp d) ?_ (L.opp d) ?_ rfl
    · exact List.mem_map.2 ⟨L.ax (L.opp d), hl.axes_mem _, h⟩
    · exact List.mem_map.2 ⟨L.ax d, hl.axes_mem _, by rw [h']⟩

/-! ### By index -/

/-- A reference by the indices of its ends. -/
def idxTriple (g : Graph C A D N E) (r : EdgeRef C D E) : Nat × Nat × E := (nodeIdx g r.source, nodeIdx g r.target, r.weight)

theorem byIndex_map (hs : Lawful s L rep) (hb : Built s L g k) {l : List (EdgeRef C D E)}
    (hl : ∀ r ∈ l, L.Node r.source ∧ L.Node r.target) : l.mapM (byIndex g) = .ok (l.map (idxTriple g)) := by
  refine mapM_ok _ fun r hr => ?_
  unfold byIndex
  rw [(nodeIdx_spec hs hb (hl r hr).1).1, (nodeIdx_spec hs hb (hl r hr).2).1]
  rfl

theorem allNodes_weights (hs : Lawful s L rep) (hb : Built s L g k) :
    (allNodes L k).length = L.width * L.height ∧ ∀ c, L.Node c → ((allNodes L k).map Prod.snd)[nodeIdx g c]? = k.node c := by
  obtain ⟨h1, h2⟩ := c06_node_references_exact hs hb
  have hlen : (allNodes L k).length = L.width * L.height := by
    rw [← List.length_map (f := Prod.fst), h1, L.nodes_eq, List.length_map, List.length_range]
  refine ⟨hlen, fun c hc => ?_⟩
  have hi := nodeIdx_spec hs hb hc
  have hnl : nodeIdx g c < L.nodes.length := by rw [← h1, List.length_map, hlen]; exact hi.2
  have h3 := (c05_nodes_exact hs hb).2.2 _ hnl
  have hc' : L.nodes[nodeIdx g c] = c :=
    nodeIdx_inj hs hb (Lat.mem_nodes.1 (List.getElem_mem hnl)) hc (by unfold nodeIdx at *; rw [h3.1])
  obtain ⟨x, hq⟩ : ∃ x, (allNodes L k)[nodeIdx g c]? = some x := ⟨_, List.getElem?_eq_getElem (by rw [hlen]; exact hi.2)⟩
  have hxm := List.mem_of_getElem? hq
  have hx1 : x.1 = c := by
    have h4 : ((allNodes L k).map Prod.fst)[nodeIdx g c]? = some x.1 := by rw [List.getElem?_map, hq]; rfl
    rw [h1, List.getElem?_eq_getElem hnl, hc'] at h4
    exact (Option.some.inj h4).symm
  rw [List.getElem?_map, hq]
  obtain ⟨y, hy, h5⟩ := List.mem_filterMap.1 hxm
  obtain ⟨w, h6, rfl⟩ := Option.map_eq_some_iff.1 h5
  have hx1 : y = c := hx1
  rw [← hx1, h6]; rfl

theorem copied_adj (hs : Lawful s L rep) (hb : Built s L g k) :
    ∃ p, Copied g p ∧ (∀ p', Copied g p' → p' = p) ∧
      Adj g.isDirected ((allNodes L k).map Prod.snd) ((allEdges L k).map (idxTriple g)) p := by
  obtain ⟨p, h1, h2⟩ := addEdges_adj (more := (allEdges L k).map (idxTriple g))
    (ofNodes_adj g.isDirected ((allNodes L k).map Prod.snd) : Adj _ _ _ (PGraph.ofNodes _ _ : PGraph N E)) (by
      intro e he
      obtain ⟨r, hr, rfl⟩ := List.mem_map.1 he
      rw [List.length_map, (allNodes_weights hs hb).1]
      obtain ⟨h1, h2⟩ := allEdges_nodes hs hr
      exact ⟨(nodeIdx_spec hs hb h1).2, (nodeIdx_spec hs hb h2).2⟩)
  have hby := byIndex_map hs hb (l := allEdges L k) fun r hr => allEdges_nodes hs hr
  refine ⟨p, ⟨_, _, _, c06_node_references hs hb, c13_edge_references hs hb, hby, h1⟩, ?_, by rwa [List.nil_append] at h2⟩
  rintro p' ⟨nrs, rs, es, h3, h4, h5, h6⟩
  rw [h3.unique (c06_node_references hs hb)] at h6
  rw [h4.unique (c13_edge_references hs hb), hby] at h5
  cases h5
  rw [h1] at h6
  exact (Except.ok.inj h6).symm

theorem filter_idx (hs : Lawful s L rep) (hb : Built s L g k) {c : C} (hc : L.Node c) :
    (((allEdges L k).map (idxTriple g)).filter fun e => e.1 == nodeIdx g c) =
      ((allEdges L k).filter fun r => decide (r.source = c)).map (idxTriple g) ∧
    (((allEdges L k).map (idxTriple g)).filter fun e => e.2.1 == nodeIdx g c) =
      ((allEdges L k).filter fun r => decide (r.target = c)).map (idxTriple g) := by
  constructor
  · rw [List.filter_map]
    congr 1
    refine List.filter_congr fun r hr => ?_
    rw [Bool.eq_iff_iff, decide_eq_true_iff]
    refine beq_iff_eq.trans ⟨fun h => nodeIdx_inj hs hb (allEdges_nodes hs hr).1 hc h, fun h => ?_⟩
    show nodeIdx g r.source = _
    rw [h]
  · rw [List.filter_map]
    congr 1
    refine List.filter_congr fun r hr => ?_
    rw [Bool.eq_iff_iff, decide_eq_true_iff]
    refine beq_iff_eq.trans ⟨fun h => nodeIdx_inj hs hb (allEdges_nodes hs hr).2 hc h, fun h => ?_⟩
    show nodeIdx g r.target = _
    rw [h]

/-- Both ways of listing the edges of a node, compared. -/
theorem edges_perm (hs : Lawful s L rep) (hb : Built s L g k)
    (hp : Adj g.isDirected ((allNodes L k).map Prod.snd) ((allEdges L k).map (idxTriple g)) p) {c : C} (hc : L.Node c) :
    (g.isDirected = true →
      (∃ l, p.EdgesDirected (nodeIdx g c) .outgoing l ∧ l.map PRef.triple = ((outEdges L k c).map (idxTriple g)).reverse) ∧
      ∃ l, p.EdgesDirected (nodeIdx g c) .incoming l ∧ ((inEdges L k c).map (idxTriple g)).Perm (l.map PRef.triple)) ∧
    (g.isDirected = false →
      (∃ l, p.EdgesDirected (nodeIdx g c) .outgoing l ∧
        ((outEdges L k c).map (idxTriple g)).Perm (l.map PRef.triple ++ (l.map PRef.triple).filter isLoop)) ∧
      ∃ l, p.EdgesDirected (nodeIdx g c) .incoming l ∧
        ((inEdges L k c).map (idxTriple g)).Perm (l.map PRef.triple ++ (l.map PRef.triple).filter isLoop)) := by
  have hl := hs.laws.dir
  have hlt : nodeIdx g c < ((allNodes L k).map Prod.snd).length := by
    rw [List.length_map, (allNodes_weights hs hb).1]; exact (nodeIdx_spec hs hb hc).2
  obtain ⟨hf1, hf2⟩ := filter_idx hs hb hc
  have hdir : g.isDirected = L.directed := (hb.good hs).impl.axis.directed
  have hflip : ∀ l : List (EdgeRef C D E), (l.map (EdgeRef.flipDir L)).map (idxTriple g) = l.map (idxTriple g) := fun l => by
    rw [List.map_map]; rfl
  rw [hdir] at hp ⊢
  constructor
  · intro hd
    rw [hd] at hp
    constructor
    · obtain ⟨l, h1, h2⟩ := edgesDirected_spec hp hlt .outgoing
      refine ⟨l, h1, (h2.trans ?_)⟩
      show List.reverse _ = _
      rw [hf1, outEdges_directed hs hd hc]
    · obtain ⟨l, h1, h2⟩ := edgesDirected_spec hp hlt .incoming
      refine ⟨l, h1, ?_⟩
      have h2 : l.map PRef.triple = (((allEdges L k).filter fun r => decide (r.target = c)).map (idxTriple g)).reverse := by
        rw [← hf2]; exact h2
      rw [h2]
      refine .trans ?_ (List.reverse_perm _).symm
      have h3 := (target_perm hs hb hc).map (idxTriple g)
      rw [hflip, List.filter_eq_self (l := inEdges L k c) |>.2] at h3
      · exact h3.symm
      · intro r _
        refine decide_eq_true ?_
        rcases hl.fwd_ax (L.opp r.direction) with h | h
        · exact h
        · rw [hd] at h; exact nomatch h.1
  · intro hd
    rw [hd] at hp
    have key := undirected_spec hp hlt (out := (outEdges L k c).map (idxTriple g)) (by
      rw [hf1, hf2]
      have h1 := (filter_perm_split (fun r : EdgeRef C D E => decide (L.fwd (L.ax r.direction) = r.direction)) (outEdges L k c)).map
        (idxTriple g)
      rw [List.map_append] at h1
      refine h1.trans (.append ((source_perm hs hb hc).map _).symm ?_)
      have h2 := ((target_perm hs hb hc).map (idxTriple g)).map swapEnds
      rw [hflip] at h2
      refine .trans ?_ h2.symm
      rw [inEdges_undirected hs hd, List.filter_map, List.map_map, List.map_map]
      refine .of_eq ?_
      show _ = List.map (idxTriple g) _
      congr 1
      refine List.filter_congr fun r _ => ?_
      rw [Bool.eq_iff_iff]
      show (!decide _) = true ↔ decide _ = true
      rw [Bool.not_eq_true', decide_eq_false_iff_not, decide_eq_true_iff]
      exact fwd_opp hl hd r.direction)
    refine ⟨key.1, ?_⟩
    obtain ⟨l, h1, h2⟩ := key.2
    refine ⟨l, h1, ?_⟩
    rw [inEdges_undirected hs hd, List.map_map]
    rw [List.map_map] at h2
    exact h2

/-! ### C107 -/

/-- **C107.** Copying a lattice node by node and edge by edge into petgraph's `Graph` succeeds, with one result. -/
theorem c107_copy (hs : Lawful s L rep) (hb : Built s L g k) : ∃ p, Copied g p ∧ ∀ p', Copied g p' → p' = p := by
  obtain ⟨p, h1, h2, -⟩ := copied_adj hs hb
  exact ⟨p, h1, h2⟩

theorem Copied.adj (hs : Lawful s L rep) (hb : Built s L g k) (hp : Copied g p) :
    Adj g.isDirected ((allNodes L k).map Prod.snd) ((allEdges L k).map (idxTriple g)) p := by
  obtain ⟨p', -, h2, h3⟩ := copied_adj hs hb
  rw [h2 p hp]; exact h3

/-- **C107.** The copy is directed if the lattice is, and has as many nodes and edges; the weight of the node `to_index(c)` is that of `c`. -/
theorem c107_nodes (hs : Lawful s L rep) (hb : Built s L g k) (hp : Copied g p) :
    p.directed = g.isDirected ∧ g.nodeBound = .ok p.nodes.length ∧ (∀ n, HasEdges g L n → p.edges.length = n) ∧
    ∀ c i, L.Node c → g.toIndex c = .ok i → g.nodeWeight c = .ok (p.nodeWeight i) := by
  have ha := hp.adj hs hb
  obtain ⟨h1, h2⟩ := allNodes_weights hs hb
  refine ⟨ha.directed, ?_, fun n hn => ?_, fun c i hc hi => ?_⟩
  · rw [nodeBound_eq hs hb, ← List.length_map (f := PNode.weight), ha.weights, List.length_map, h1]
  · obtain ⟨⟨l, h3, h4⟩, -⟩ := hn
    rw [← List.length_map (f := PEdge.triple), ha.edges, List.length_map, ← h4, h3.unique (c13_edge_references hs hb)]
  · have h3 := (nodeIdx_spec hs hb hc).1
    rw [hi] at h3
    have h3 := Except.ok.inj h3
    unfold PGraph.nodeWeight
    rw [← List.getElem?_map, ha.weights, h3, h2 c hc]
    exact nodeWeight_eq (hb.good hs).impl (hb.good hs).inv (hb.good hs).total (.inl hc)

/-- What is to be listed for a direction. -/
def listed (L : Lat C A D) (k : Contents C A N E) (c : C) : PDir → List (EdgeRef C D E)
  | .outgoing => outEdges L k c
  | .incoming => inEdges L k c

/-- What the crate lists for `edges(c)` or `edges_directed(c, dir)`, wherever that does not panic (C12). -/
theorem listed_eq (hs : Lawful s L rep) (hb : Built s L g k) {c : C} (hc : L.Node c) {dir : PDir} {it : EdgesIt C}
    {l : List (EdgeRef C D E)} (hm : g.isDirected = false ∨ g.s.m.mode = .release ∨ dir = .outgoing)
    (hit : g.edgesDirected c dir = .ok it ∨ dir = .outgoing ∧ g.edgesOf c = .ok it) (hl : Yields (edgesNext g) it l) :
    l = listed L k c dir := by
  cases dir with
  | outgoing =>
    obtain ⟨it1, h1, h2⟩ := c12_outgoing hs hb hc
    obtain ⟨it2, h3, h4⟩ := c10_edges hs hb hc
    rcases hit with h | ⟨-, h⟩
    · rw [h] at h1; cases h1; exact hl.unique h2
    · rw [h] at h3; cases h3; exact hl.unique h4
  | incoming =>
    obtain ⟨it1, h1, h2⟩ := c12_incoming_partial hs hb hc
      (hm.imp_right fun h => h.resolve_right fun e => nomatch e)
    rcases hit with h | ⟨h, -⟩
    · rw [h] at h1; cases h1; exact hl.unique h2
    · cases h

theorem listed_nodes (hs : Lawful s L rep) {c : C} (hc : L.Node c) {dir : PDir} {r : EdgeRef C D E}
    (hr : r ∈ listed L k c dir) : L.Node r.source ∧ L.Node r.target := by
  cases dir with
  | outgoing =>
    obtain ⟨h1, h2, -⟩ := (mem_outEdges hs.laws.dir).1 hr
    rw [h1]; exact ⟨hc, hs.laws.nbr_node hc h2⟩
  | incoming =>
    obtain ⟨h1, h2, -⟩ := (mem_inEdges hs.laws.dir).1 hr
    rw [h1]; exact ⟨hs.laws.nbr_node hc h2, hc⟩

/-- **C107.** `edges(c)` and `edges_directed(c, dir)` list what those of the copy list: for a directed lattice the same edges with the same
ends and weights, and for an undirected one too, except that the loops of a node are listed twice by the crate and once by `Graph`. -/
theorem c107_edges (hs : Lawful s L rep) (hb : Built s L g k) (hp : Copied g p) {c : C} (hc : L.Node c) {i : Nat} (hi : g.toIndex c = .ok i)
    {dir : PDir} {it : EdgesIt C} {l : List (EdgeRef C D E)} (hm : g.isDirected = false ∨ g.s.m.mode = .release ∨ dir = .outgoing)
    (hit : g.edgesDirected c dir = .ok it ∨ dir = .outgoing ∧ g.edgesOf c = .ok it) (hl : Yields (edgesNext g) it l) :
    ∃ t pl, l.mapM (byIndex g) = .ok t ∧ p.EdgesDirected i dir pl ∧ (∀ pl', p.EdgesDirected i dir pl' → pl' = pl) ∧
      if g.isDirected then t.Perm (pl.map fun e => (e.source, e.target, e.weight))
      else t.Perm ((pl ++ pl.filter fun e => e.source == e.target).map fun e => (e.source, e.target, e.weight)) := by
  have hli := listed_eq hs hb hc hm hit hl
  have hi' : i = nodeIdx g c := by
    have h := (nodeIdx_spec hs hb hc).1
    rw [hi] at h; exact Except.ok.inj h
  subst hi'
  have hby := byIndex_map hs hb (l := l) fun r hr => listed_nodes (k := k) (dir := dir) hs hc (by rw [← hli]; exact hr)
  obtain ⟨h1, h2⟩ := edges_perm hs hb (hp.adj hs hb) hc
  have hloop : ∀ pl : List (PRef E), (pl ++ pl.filter fun e => e.source == e.target).map (fun e => (e.source, e.target, e.weight)) =
      pl.map PRef.triple ++ (pl.map PRef.triple).filter isLoop := fun pl => by
    rw [List.map_append, List.filter_map]; rfl
  suffices h : ∃ pl, p.EdgesDirected (nodeIdx g c) dir pl ∧
      if g.isDirected then (l.map (idxTriple g)).Perm (pl.map PRef.triple)
      else (l.map (idxTriple g)).Perm (pl.map PRef.triple ++ (pl.map PRef.triple).filter isLoop) by
    obtain ⟨pl, h3, h4⟩ := h
    refine ⟨_, pl, hby, h3, fun pl' h' => PAll.unique h' h3, ?_⟩
    rw [hloop]
    exact h4
  cases hd : g.isDirected with
  | true =>
    simp only [if_true]
    cases dir with
    | outgoing =>
      obtain ⟨pl, h3, h4⟩ := (h1 hd).1
      refine ⟨pl, h3, ?_⟩
      rw [h4, hli]
      exact (List.reverse_perm _).symm
    | incoming =>
      obtain ⟨pl, h3, h4⟩ := (h1 hd).2
      exact ⟨pl, h3, by rw [hli]; exact h4⟩
  | false =>
    simp only [Bool.false_eq_true, if_false]
    cases dir with
    | outgoing =>
      obtain ⟨pl, h3, h4⟩ := (h2 hd).1
      exact ⟨pl, h3, by rw [hli]; exact h4⟩
    | incoming =>
      obtain ⟨pl, h3, h4⟩ := (h2 hd).2
      exact ⟨pl, h3, by rw [hli]; exact h4⟩

/-- **C107.** So an undirected lattice lists the edges of a node as the copy does exactly if the node has no edge to itself. -/
theorem c107_same_iff (hs : Lawful s L rep) (hb : Built s L g k) (hp : Copied g p) {c : C} (hc : L.Node c) {i : Nat} (hi : g.toIndex c = .ok i)
    {dir : PDir} {it : EdgesIt C} {l : List (EdgeRef C D E)} {t : List (Nat × Nat × E)} {pl : List (PRef E)} (hu : g.isDirected = false)
    (hit : g.edgesDirected c dir = .ok it ∨ dir = .outgoing ∧ g.edgesOf c = .ok it) (hl : Yields (edgesNext g) it l)
    (ht : l.mapM (byIndex g) = .ok t) (hpl : p.EdgesDirected i dir pl) :
    t.Perm (pl.map fun e => (e.source, e.target, e.weight)) ↔ ∀ r ∈ l, r.source ≠ r.target := by
  obtain ⟨t', pl', h1, h2, h3, h4⟩ := c107_edges hs hb hp hc hi (.inl hu) hit hl
  rw [ht] at h1; cases h1
  cases h3 pl hpl
  rw [hu] at h4
  simp only [Bool.false_eq_true, if_false] at h4
  have hli := listed_eq hs hb hc (.inl hu) hit hl
  have hn : ∀ r ∈ l, L.Node r.source ∧ L.Node r.target := fun r hr =>
    listed_nodes (k := k) (dir := dir) hs hc (by rw [← hli]; exact hr)
  rw [byIndex_map hs hb hn] at ht
  cases ht
  constructor
  · intro h r hr e
    have hlen := (h.symm.trans h4).length_eq
    rw [List.map_append, List.length_append, List.length_map, List.length_map] at hlen
    have hnil : (pl.filter fun e => e.source == e.target) = [] := List.length_eq_zero_iff.1 (by omega)
    have hm := h.mem_iff.1 (List.mem_map.2 ⟨r, hr, rfl⟩)
    obtain ⟨q, hq, hqe⟩ := List.mem_map.1 hm
    have : q ∈ pl.filter fun e => e.source == e.target := by
      refine List.mem_filter.2 ⟨hq, beq_iff_eq.2 ?_⟩
      have e1 : q.source = nodeIdx g r.source := congrArg (fun x => x.1) hqe
      have e2 : q.target = nodeIdx g r.target := congrArg (fun x => x.2.1) hqe
      rw [e1, e2, e]
    rw [hnil] at this
    cases this
  · intro h
    have hnil : (pl.filter fun e => e.source == e.target) = [] := by
      rw [List.filter_eq_nil_iff]
      intro q hq he
      have hm := h4.mem_iff.2 (List.mem_map.2 ⟨q, List.mem_append_left _ hq, rfl⟩)
      obtain ⟨r, hr, hre⟩ := List.mem_map.1 hm
      have e1 : nodeIdx g r.source = q.source := congrArg (fun x => x.1) hre
      have e2 : nodeIdx g r.target = q.target := congrArg (fun x => x.2.1) hre
      exact h r hr (nodeIdx_inj hs hb (hn r hr).1 (hn r hr).2 (by rw [e1, e2]; exact beq_iff_eq.1 he))
    rw [hnil, List.append_nil] at h4
    exact h4

/-- **C107.** For a directed lattice `edges(c)` and `edges` of the copy list the same, each in the order opposite to the other's. -/
theorem c107_order (hs : Lawful s L rep) (hb : Built s L g k) (hp : Copied g p) {c : C} (hc : L.Node c) {i : Nat} (hi : g.toIndex c = .ok i)
    (hd : g.isDirected = true) {it : EdgesIt C} {l : List (EdgeRef C D E)} {t : List (Nat × Nat × E)} {pl : List (PRef E)}
    (hit : g.edgesOf c = .ok it) (hl : Yields (edgesNext g) it l) (ht : l.mapM (byIndex g) = .ok t)
    (hpl : p.EdgesDirected i .outgoing pl) : pl.map (fun e => (e.source, e.target, e.weight)) = t.reverse := by
  have hli := listed_eq hs hb hc (dir := .outgoing) (.inr (.inr rfl)) (.inr ⟨rfl, hit⟩) hl
  have hi' : i = nodeIdx g c := by
    have h := (nodeIdx_spec hs hb hc).1
    rw [hi] at h; exact Except.ok.inj h
  subst hi'
  rw [byIndex_map hs hb fun r hr => listed_nodes (k := k) (dir := .outgoing) hs hc (by rw [← hli]; exact hr)] at ht
  cases ht
  obtain ⟨pl', h1, h2⟩ := ((edges_perm hs hb (hp.adj hs hb) hc).1 hd).1
  cases PAll.unique hpl h1
  rw [hli]
  exact h2

/-- `edges(i)` of the copy has a reference to `j` of cost `w`. -/
def PLink (p : PGraph N E) (cost : E → Nat) (i j w : Nat) : Prop :=
  ∃ l r, p.EdgesDirected i .outgoing l ∧ r ∈ l ∧ r.target = j ∧ cost r.weight = w

theorem plink_iff (hs : Lawful s L rep) (hb : Built s L g k) (hp : Copied g p) (cost : E → Nat) {c : C} (hc : L.Node c) {j w : Nat} :
    PLink p cost (nodeIdx g c) j w ↔ ∃ t, nodeIdx g t = j ∧ Link g (fun r => cost r.weight) c t w := by
  obtain ⟨it, h1, h2⟩ := c10_edges hs hb hc
  obtain ⟨t, pl, h3, h4, h5, h6⟩ := c107_edges hs hb hp hc (nodeIdx_spec hs hb hc).1 (dir := .outgoing) (.inr (.inr rfl)) (.inr ⟨rfl, h1⟩) h2
  rw [byIndex_map hs hb (l := outEdges L k c) fun r hr => listed_nodes (k := k) (dir := .outgoing) hs hc hr] at h3
  cases h3
  have hmem : ∀ x : Nat × Nat × E, x ∈ (outEdges L k c).map (idxTriple g) ↔ x ∈ pl.map fun e => (e.source, e.target, e.weight) := fun x => by
    cases hd : g.isDirected with
    | true => rw [hd] at h6; exact List.Perm.mem_iff h6
    | false =>
      rw [hd] at h6
      refine (List.Perm.mem_iff h6).trans ?_
      simp only [List.mem_map, List.mem_append, List.mem_filter]
      exact ⟨fun ⟨e, h, h'⟩ => ⟨e, h.elim id And.left, h'⟩, fun ⟨e, h, h'⟩ => ⟨e, .inl h, h'⟩⟩
  constructor
  · rintro ⟨l, r, h7, h8, rfl, rfl⟩
    cases h5 l h7
    obtain ⟨r', h9, h10⟩ := List.mem_map.1 ((hmem _).2 (List.mem_map.2 ⟨r, h8, rfl⟩))
    exact ⟨r'.target, congrArg (fun x => x.2.1) h10, r', (edgeOf_iff hs hb hc).2 h9, rfl, congrArg (fun x => cost x.2.2) h10⟩
  · rintro ⟨t, rfl, r, h7, rfl, rfl⟩
    obtain ⟨r', h9, h10⟩ := List.mem_map.1 ((hmem _).1 (List.mem_map.2 ⟨r, (edgeOf_iff hs hb hc).1 h7, rfl⟩))
    exact ⟨pl, r', h4, h9, congrArg (fun x => x.2.1) h10, congrArg (fun x => cost x.2.2) h10⟩

/-- **C107.** The walks are the same, and cost the same: so does the cheapest way from one node to another, and a node is within reach in
the one exactly if it is in the other. -/
theorem c107_walks (hs : Lawful s L rep) (hb : Built s L g k) (hp : Copied g p) (cost : E → Nat) {a b : C} (ha : L.Node a) (hb' : L.Node b)
    {i j : Nat} (hi : g.toIndex a = .ok i) (hj : g.toIndex b = .ok j) {n : Nat} :
    LinkWalk (Link g fun r => cost r.weight) a b n ↔ LinkWalk (PLink p cost) i j n := by
  have hi' : nodeIdx g a = i := by
    have h := (nodeIdx_spec hs hb ha).1
    rw [hi] at h; exact (Except.ok.inj h).symm
  have hj' : nodeIdx g b = j := by
    have h := (nodeIdx_spec hs hb hb').1
    rw [hj] at h; exact (Except.ok.inj h).symm
  constructor
  · intro h
    rw [← hi', ← hj']
    clear hi hi' hj hj'
    induction h with
    | nil => exact .nil
    | cons e _ ih => exact .cons ((plink_iff hs hb hp cost ha).2 ⟨_, rfl, e⟩) (ih (e.node hs hb ha) hb')
  · intro h
    clear hi hj
    induction h generalizing a with
    | nil => rw [nodeIdx_inj hs hb ha hb' (hi'.trans hj'.symm)]; exact .nil
    | cons e _ ih =>
      rw [← hi'] at e
      obtain ⟨t, h1, h2⟩ := (plink_iff hs hb hp cost ha).1 e
      exact .cons h2 (ih (h2.node hs hb ha) h1 hj')
end

/-! ### Examples -/

/-- The 3×2 square of `exK`: its copy has 6 nodes and 7 edges, and at the corner both list an edge of weight 1000 to the node of index 2 and
one of weight 2000 to the node of index 1. -/
example : ∃ (g : Graph Offset SquareAxis DSquareAxis Nat Nat) (p : PGraph Nat Nat), Built (squareShape m64 3 2) (squareLat 3 2) g exK ∧
    Copied g p ∧ p.directed = false ∧ p.nodes.length = 6 ∧ p.edges.length = 7 ∧
    ∃ it pl, g.edgesOf ⟨0, 0⟩ = .ok it ∧ Yields (edgesNext g) it [⟨⟨0, 0⟩, ⟨1, 0⟩, 1000, .X⟩, ⟨⟨0, 0⟩, ⟨0, 1⟩, 2000, .Y⟩] ∧
      p.EdgesDirected 0 .outgoing pl ∧ ([(0, 2, 1000), (0, 1, 2000)] : List (Nat × Nat × Nat)).Perm
        (pl.map fun e => (e.source, e.target, e.weight)) := by
  obtain ⟨g, hb⟩ := exSquare
  have hs := Lawful.square m64 3 2
  obtain ⟨p, hp, -⟩ := c107_copy hs hb
  obtain ⟨h1, h2, h3, -⟩ := c107_nodes hs hb hp
  have hix : ∀ x y, x < 3 → y < 2 → g.toIndex ⟨x, y⟩ = .ok (x * 2 + y) := fun x y hx hy => (hb.good hs).toIndex hx hy
  have hc : (squareLat 3 2).Node ⟨0, 0⟩ := ⟨0, 0, by decide, by decide, rfl⟩
  obtain ⟨it, h4, h5⟩ := c10_edges hs hb hc
  have hd : g.isDirected = false := (hb.good hs).impl.axis.directed
  obtain ⟨t, pl, h6, h7, -⟩ := c107_edges hs hb hp hc (hix 0 0 (by decide) (by decide)) (dir := .outgoing) (.inl hd) (.inr ⟨rfl, h4⟩) h5
  have h8 := (c107_same_iff hs hb hp hc (hix 0 0 (by decide) (by decide)) hd (.inr ⟨rfl, h4⟩) h5 h6 h7).2 (by decide)
  have he : outEdges (squareLat 3 2) exK ⟨0, 0⟩ = [⟨⟨0, 0⟩, ⟨1, 0⟩, 1000, .X⟩, ⟨⟨0, 0⟩, ⟨0, 1⟩, 2000, .Y⟩] := by decide
  rw [he] at h5 h6
  have h9 : t = [(0, 2, 1000), (0, 1, 2000)] := by
    simp only [List.mapM_cons, List.mapM_nil, byIndex, hix 0 0 (by decide) (by decide), hix 1 0 (by decide) (by decide),
      hix 0 1 (by decide) (by decide)] at h6
    exact (Except.ok.inj h6).symm
  rw [h9] at h8
  refine ⟨g, p, hb, hp, h1.trans hd, ?_, h3 7 (c60_square hs hb), it, pl, h4, h5, h7, h8⟩
  rw [nodeBound_eq hs hb] at h2
  exact (Except.ok.inj h2).symm

/-- The directed 3×2 square: the copy lists in the opposite order. -/
example : ∃ (g : Graph Offset DSquareAxis DSquareAxis Nat Nat) (p : PGraph Nat Nat),
    Built (squareShapeDirected m64 3 2) (squareLatDirected 3 2) g exKD ∧ Copied g p ∧
    p.EdgesDirected 0 .outgoing [⟨0, 1, 2000⟩, ⟨0, 2, 1000⟩] := by
  obtain ⟨g, hb⟩ := exSquareD m64 rfl
  have hs := Lawful.squareDirected m64 3 2
  obtain ⟨p, hp, -⟩ := c107_copy hs hb
  have hix : ∀ x y, x < 3 → y < 2 → g.toIndex ⟨x, y⟩ = .ok (x * 2 + y) := fun x y hx hy => (hb.good hs).toIndex hx hy
  have hc : (squareLatDirected 3 2).Node ⟨0, 0⟩ := ⟨0, 0, by decide, by decide, rfl⟩
  obtain ⟨it, h4, h5⟩ := c10_edges hs hb hc
  have hd : g.isDirected = true := (hb.good hs).impl.axis.directed
  obtain ⟨t, pl, h6, h7, -⟩ := c107_edges hs hb hp hc (hix 0 0 (by decide) (by decide)) (dir := .outgoing) (.inr (.inr rfl))
    (.inr ⟨rfl, h4⟩) h5
  have h8 := c107_order hs hb hp hc (hix 0 0 (by decide) (by decide)) hd h4 h5 h6 h7
  have he : outEdges (squareLatDirected 3 2) exKD ⟨0, 0⟩ = [⟨⟨0, 0⟩, ⟨1, 0⟩, 1000, .X⟩, ⟨⟨0, 0⟩, ⟨0, 1⟩, 2000, .Y⟩] := by decide
  rw [he] at h6
  have h9 : t = [(0, 2, 1000), (0, 1, 2000)] := by
    simp only [List.mapM_cons, List.mapM_nil, byIndex, hix 0 0 (by decide) (by decide), hix 1 0 (by decide) (by decide),
      hix 0 1 (by decide) (by decide)] at h6
    exact (Except.ok.inj h6).symm
  rw [h9] at h8
  have h10 : pl = [⟨0, 1, 2000⟩, ⟨0, 2, 1000⟩] := by
    match pl, h8 with
    | [⟨_, _, _⟩, ⟨_, _, _⟩], h8 =>
      simp only [List.map_cons, List.map_nil, List.reverse_cons, List.reverse_nil, List.nil_append, List.cons_append, List.cons.injEq,
        Prod.mk.injEq, and_true] at h8
      obtain ⟨⟨rfl, rfl, rfl⟩, rfl, rfl, rfl⟩ := h8
      rfl
  exact ⟨g, p, hb, hp, h10 ▸ h7⟩

/-- A cheapest walk costs the same in both: 1000 + 2010 from the corner to the node of index 3. -/
example : ∃ (g : Graph Offset SquareAxis DSquareAxis Nat Nat) (p : PGraph Nat Nat), Built (squareShape m64 3 2) (squareLat 3 2) g exK ∧
    Copied g p ∧ LinkWalk (PLink p id) 0 3 3010 := by
  obtain ⟨g, hb⟩ := exSquare
  have hs := Lawful.square m64 3 2
  obtain ⟨p, hp, -⟩ := c107_copy hs hb
  have hix : ∀ x y, x < 3 → y < 2 → g.toIndex ⟨x, y⟩ = .ok (x * 2 + y) := fun x y hx hy => (hb.good hs).toIndex hx hy
  have hn : ∀ x y, x < 3 → y < 2 → (squareLat 3 2).Node ⟨x, y⟩ := fun x y hx hy => ⟨x, y, hx, hy, rfl⟩
  refine ⟨g, p, hb, hp, (c107_walks hs hb hp id (hn 0 0 (by decide) (by decide)) (hn 1 1 (by decide) (by decide))
    (hix 0 0 (by decide) (by decide)) (hix 1 1 (by decide) (by decide))).1 ?_⟩
  refine .cons (x := ⟨1, 0⟩) (w := 1000) (n := 2010)
    ⟨⟨⟨0, 0⟩, ⟨1, 0⟩, 1000, .X⟩, (edgeOf_iff hs hb (hn 0 0 (by decide) (by decide))).2 (by decide), rfl, rfl⟩ ?_
  exact .cons (w := 2010) (n := 0)
    ⟨⟨⟨1, 0⟩, ⟨1, 1⟩, 2010, .Y⟩, (edgeOf_iff hs hb (hn 1 0 (by decide) (by decide))).2 (by decide), rfl, rfl⟩ .nil

/-- **C107.** On the hex lattice of width one that loops horizontally every node is its own eastern and western neighbour: there `edges` and the
copy do list differently, at every node. -/
theorem c107_loops_differ (m : Machine) (mk : Marker) (v : Nat) {N E : Type} {g : Graph Offset AxisR AxisDR N E}
    {k : Contents Offset AxisR N E} {p : PGraph N E} (hb : Built (hexOffRLew m mk 1 v) (offLatRLoop mk.isEven 1 v) g k) (hp : Copied g p)
    {y : Nat} (hy : y < v) {i : Nat} (hi : g.toIndex ⟨0, y⟩ = .ok i) {it : EdgesIt Offset} {l : List (EdgeRef Offset AxisDR E)}
    {t : List (Nat × Nat × E)} {pl : List (PRef E)} (hit : g.edgesOf ⟨0, y⟩ = .ok it) (hl : Yields (edgesNext g) it l)
    (ht : l.mapM (byIndex g) = .ok t) (hpl : p.EdgesDirected i .outgoing pl) :
    ¬ t.Perm (pl.map fun e => (e.source, e.target, e.weight)) := by
  have hs := Lawful.hexOffRLew m mk 1 v
  have hc : (offLatRLoop mk.isEven 1 v).Node ⟨0, y⟩ := ⟨0, y, Nat.zero_lt_one, hy, rfl⟩
  have hd : g.isDirected = false := (hb.good hs).impl.axis.directed
  have hli := listed_eq hs hb hc (dir := .outgoing) (.inl hd) (.inr ⟨rfl, hit⟩) hl
  intro h
  have h1 := (c107_same_iff hs hb hp hc hi hd (.inr ⟨rfl, hit⟩) hl ht hpl).1 h
  have h2 : (⟨0, y⟩ : Offset) ∈ (outEdges (offLatRLoop mk.isEven 1 v) k ⟨0, y⟩).map EdgeRef.target := by
    rw [(c10_targets hs hb hc).1]
    refine List.mem_filterMap.2 ⟨.E, hs.laws.dir.dirs_mem _, ?_⟩
    show offNbrLoop mk.isEven 1 v _ _ = _
    unfold offNbrLoop
    simp only [AxisDR.vec, offPos]
    unfold offAtLoop
    simp only [Int.add_zero, Int.natCast_one, Int.emod_one]
    unfold inRect
    rw [if_pos ⟨Int.le_refl _, by decide, by omega, by omega⟩]
    rfl
  obtain ⟨r, h3, h4⟩ := List.mem_map.1 h2
  refine h1 r (by rw [hli]; exact h3) ?_
  rw [h4, ((mem_outEdges hs.laws.dir).1 h3).1]

/-- With weights: a column of two cells. -/
example : ∃ (g : Graph Offset AxisR AxisDR Unit Unit) (p : PGraph Unit Unit) (k : _), Built (hexOffRLew m64 evenR 1 2) (offLatRLoop true 1 2) g k ∧
    Copied g p ∧ ∃ it l t pl, g.edgesOf ⟨0, 1⟩ = .ok it ∧ Yields (edgesNext g) it l ∧ l.mapM (byIndex g) = .ok t ∧
      p.EdgesDirected 1 .outgoing pl ∧ ¬ t.Perm (pl.map fun e => (e.source, e.target, e.weight)) := by
  obtain ⟨g, hb⟩ := (Lawful.hexOffRLew m64 evenR 1 2).exists_built (by decide) (fun u _ => ((), u)) (fun u _ _ => ((), u)) ()
  have hs := Lawful.hexOffRLew m64 evenR 1 2
  obtain ⟨p, hp, -⟩ := c107_copy hs hb
  have hc : (offLatRLoop true 1 2).Node ⟨0, 1⟩ := ⟨0, 1, by decide, by decide, rfl⟩
  have hi : g.toIndex ⟨0, 1⟩ = .ok 1 := (hb.good hs).toIndex (x := 0) (y := 1) (by decide) (by decide)
  obtain ⟨it, h4, h5⟩ := c10_edges hs hb hc
  have hd : g.isDirected = false := (hb.good hs).impl.axis.directed
  obtain ⟨t, pl, h6, h7, -⟩ := c107_edges hs hb hp hc hi (dir := .outgoing) (.inl hd) (.inr ⟨rfl, h4⟩) h5
  exact ⟨g, p, _, hb, hp, it, _, t, pl, h4, h5, h6, h7, c107_loops_differ m64 evenR 2 hb hp (by decide) hi h4 h5 h6 h7⟩
end LG
