import Verif.Lemmas.Prim
import Verif.Props.Spanning
import Verif.Props.General
/- C120: `min_spanning_tree_prim`. -/
set_option linter.unusedSectionVars false
namespace LG
section
variable {C A D N E : Type} [DecidableEq C] [DecidableEq A] [DecidableEq D]
variable {g : Graph C A D N E} {s : Shape C A D} {L : Lat C A D} {rep : C → Prop} {k : Contents C A N E} {cost : E → Nat}

/-- The edges pushed for the node of number `i`. -/
def primAdj (L : Lat C A D) (k : Contents C A N E) (g : Graph C A D N E) (i : Nat) : List (Nat × Nat × E) :=
  (outEdges L k (L.at i)).map fun r => (nodeIdx g r.source, nodeIdx g r.target, r.weight)

theorem at_nodeIdx (hs : Lawful s L rep) (hb : Built s L g k) {c : C} (hc : L.Node c) : L.at (nodeIdx g c) = c := by
  have hi := (nodeIdx_spec hs hb hc).2
  have hg := hb.good hs
  obtain ⟨c', h1, h2, h3⟩ := c04_from_index hs hb hi
  rw [Graph.fromIndex, hg.impl.indexToCoordinate hi] at h1
  cases h1
  rw [(nodeIdx_spec hs hb h2).1] at h3
  exact nodeIdx_inj hs hb h2 hc (Except.ok.inj h3)

theorem nodeIdx_at (hs : Lawful s L rep) (hb : Built s L g k) {i : Nat} (hi : i < L.width * L.height) : nodeIdx g (L.at i) = i := by
  obtain ⟨c, hc, rfl⟩ := (nodes_indexed hs hb).onto hi
  rw [at_nodeIdx hs hb hc]

theorem mem_primAdj (hs : Lawful s L rep) (hb : Built s L g k) {c : C} (hc : L.Node c) {e : Nat × Nat × E} :
    e ∈ primAdj L k g (nodeIdx g c) ↔ ∃ r, EdgeOf g c r ∧ e = (nodeIdx g c, nodeIdx g r.target, r.weight) := by
  unfold primAdj
  rw [at_nodeIdx hs hb hc, List.mem_map]
  constructor
  · rintro ⟨r, hr, rfl⟩
    exact ⟨r, (edgeOf_iff hs hb hc).2 hr, by rw [((mem_outEdges hs.laws.dir).1 hr).1]⟩
  · rintro ⟨r, hr, rfl⟩
    have hr := (edgeOf_iff hs hb hc).1 hr
    exact ⟨r, hr, by rw [((mem_outEdges hs.laws.dir).1 hr).1]⟩

theorem edgeOf_target (hs : Lawful s L rep) (hb : Built s L g k) {c : C} (hc : L.Node c) {r : EdgeRef C D E} (hr : EdgeOf g c r) :
    L.Node r.target :=
  hs.laws.nbr_node hc ((mem_outEdges hs.laws.dir).1 ((edgeOf_iff hs hb hc).1 hr)).2.1

theorem prim_graph (hs : Lawful s L rep) (hb : Built s L g k) : PrimGraph (latAt g) (primAdj L k g) (L.width * L.height) where
  lists := fun i hi l => by
    have hc : L.Node (L.at i) := Lat.at_node hi
    have hfi : g.fromIndex i = .ok (L.at i) := (hb.good hs).impl.indexToCoordinate hi
    obtain ⟨it, h1, h2⟩ := c58_edges_partial hs.storable hb hc (hs.readable hc)
    have h3 : ∀ r ∈ outEdges L k (L.at i), L.Node r.source ∧ L.Node r.target := fun r hr => by
      obtain ⟨h4, h5, -⟩ := (mem_outEdges hs.laws.dir).1 hr
      rw [h4]
      exact ⟨hc, hs.laws.nbr_node hc h5⟩
    constructor
    · rintro ⟨c, it', rs, g1, g2, g3, g4⟩
      rw [hfi] at g1; cases g1
      rw [h1] at g2; cases g2
      rw [Yields.unique g3 h2, edge_ids hs hb h3] at g4
      exact (Except.ok.inj g4).symm
    · rintro rfl
      exact ⟨_, it, _, hfi, h1, h2, edge_ids hs hb h3⟩
  ends := fun i hi e he => by
    obtain ⟨c, hc, rfl⟩ := (nodes_indexed hs hb).onto hi
    obtain ⟨r, hr, rfl⟩ := (mem_primAdj hs hb hc).1 he
    exact ⟨rfl, (nodes_indexed hs hb).lt (edgeOf_target hs hb hc hr)⟩

theorem primStart_lat (hs : Lawful s L rep) (hb : Built s L g k) {ns : List N} {st : PrimSt E} :
    g.PrimStart ns st ↔ ns = (allNodes L k).map Prod.snd ∧ PrimStart (latAt g) (List.range' 0 (L.width * L.height)) st := by
  constructor
  · rintro ⟨nrs, ids, h1, h2, rfl, h3⟩
    have e := Yields.unique h1 (c06_node_references hs hb)
    subst e
    rw [node_ids hs hb] at h2; cases h2
    exact ⟨rfl, h3⟩
  · rintro ⟨rfl, h⟩
    exact ⟨_, _, c06_node_references hs hb, node_ids hs hb, rfl, h⟩

/-- **C120.** `min_spanning_tree_prim` can be run on every graph, and never faults: from every state that can be reached it can go on to
the end, and no run goes on forever. The weights of the nodes come first, the same ones in the same order as `min_spanning_tree` gives. -/
theorem c120_runs (hs : Lawful s L rep) (hb : Built s L g k) (cost : E → Nat) :
    (∃ ns out, g.Prim cost ns out) ∧
    ∀ ns st, g.PrimStart ns st → (∀ ns' res, Spanning g cost ns' res → ns = ns') ∧
      (∀ st', PrimSteps cost (latAt g) st st' → ∃ st'', PrimSteps cost (latAt g) st' st'' ∧ st''.heap = []) ∧
      ∀ run : Nat → PrimSt E, run 0 = st → ¬ ∀ i, PrimStep cost (latAt g) (run i) (run (i + 1)) := by
  have hg := prim_graph hs hb
  constructor
  · obtain ⟨st, h⟩ : ∃ st, PrimStart (latAt g) (List.range' 0 (L.width * L.height)) st := by
      by_cases h0 : L.width * L.height = 0
      · exact ⟨_, (primStart_iff hg).2 (.inl ⟨h0, rfl⟩)⟩
      · exact ⟨_, (primStart_iff hg).2 (.inr ⟨by omega, rfl⟩)⟩
    obtain ⟨st', h1, h2⟩ := (prim_runs (cost := cost) hg h).1 st .refl
    exact ⟨_, _, st, st', (primStart_lat hs hb).2 ⟨rfl, h⟩, h1, h2, rfl⟩
  · intro ns st h
    obtain ⟨rfl, h'⟩ := (primStart_lat hs hb).1 h
    refine ⟨?_, prim_runs hg h'⟩
    rintro ns' res ⟨_, _, _, _, nrs', _, -, -, -, -, g5, -, rfl, -⟩
    rw [Yields.unique g5 (c06_node_references hs hb)]

/-- **C120.** What is returned on every graph, directed or not. Each edge leads from the first node, or from where an edge before it leads,
to a node not reached so far; none leading so costs less. The nodes reached in the end are those that can be reached from the first. -/
theorem c120_tree (hs : Lawful s L rep) (hb : Built s L g k) {ns : List N} {out : List (Nat × Nat × E)} (hp : g.Prim cost ns out) :
    (∀ l1 e l2, out = l1 ++ e :: l2 → e.1 ∈ 0 :: l1.map (fun f => f.2.1) ∧ e.2.1 ∉ 0 :: l1.map (fun f => f.2.1) ∧
      (∃ u r, L.Node u ∧ EdgeOf g u r ∧ g.toIndex u = .ok e.1 ∧ g.toIndex r.target = .ok e.2.1 ∧ r.weight = e.2.2) ∧
      ∀ u r i j, L.Node u → EdgeOf g u r → g.toIndex u = .ok i → g.toIndex r.target = .ok j → i ∈ 0 :: l1.map (fun f => f.2.1) →
        j ∉ 0 :: l1.map (fun f => f.2.1) → cost e.2.2 ≤ cost r.weight) ∧
    ∀ c i, L.Node c → g.toIndex c = .ok i →
      (i ∈ 0 :: out.map (fun f => f.2.1) ↔ ∃ a n, g.fromIndex 0 = .ok a ∧ CostWalk g (fun _ => 1) a c n) := by
  have hg := prim_graph hs hb
  have hi := nodes_indexed hs hb
  obtain ⟨st, st', h1, h2, h3, rfl⟩ := hp
  rcases prim_result hg ((primStart_lat hs hb).1 h1).2 h2 h3 with ⟨h0, h4⟩ | ⟨h0, h4, h5, h6⟩
  · refine ⟨fun l1 e l2 h => ?_, fun c i hc _ => ?_⟩
    · rw [h4] at h
      cases l1 <;> cases h
    · exact absurd (hi.lt hc) (by omega)
  · have hidx : ∀ {c i}, L.Node c → g.toIndex c = .ok i → nodeIdx g c = i := fun hc h => by
      rw [(nodeIdx_spec hs hb hc).1] at h; exact Except.ok.inj h
    refine ⟨fun l1 e l2 h => ?_, fun c i hc hci => ?_⟩
    · obtain ⟨g1, g2, g3, g4⟩ := h4 l1 e l2 h
      refine ⟨g1, g2, ?_, fun u r i j hu hr hui hrj hmi hmj => ?_⟩
      · have hlt : e.1 < L.width * L.height := by
          refine h5 _ ?_
          rw [h]
          rcases List.mem_cons.1 g1 with g1 | g1
          · rw [g1]; exact List.mem_cons_self
          · refine List.mem_cons_of_mem _ ?_
            unfold heads at g1 ⊢
            rw [List.map_append]
            exact List.mem_append_left _ g1
        obtain ⟨u, hu, e1⟩ := hi.onto hlt
        rw [← e1] at g3
        obtain ⟨r, hr, e2⟩ := (mem_primAdj hs hb hu).1 g3
        refine ⟨u, r, hu, hr, by rw [← e1]; exact (nodeIdx_spec hs hb hu).1, ?_, by rw [e2]⟩
        rw [e2]
        exact (nodeIdx_spec hs hb (edgeOf_target hs hb hu hr)).1
      · have e1 := hidx hu hui
        have e2 := hidx (edgeOf_target hs hb hu hr) hrj
        refine g4 i hmi (i, j, r.weight) ?_ hmj
        rw [← e1, ← e2]
        exact (mem_primAdj hs hb hu).2 ⟨r, hr, rfl⟩
    · have hc0 : L.Node (L.at 0) := Lat.at_node h0
      have hf0 : g.fromIndex 0 = .ok (L.at 0) := (hb.good hs).impl.indexToCoordinate h0
      have hz := nodeIdx_at hs hb h0
      have e1 := hidx hc hci
      subst e1
      constructor
      · intro hm
        obtain ⟨c', hc', e2, n, hw⟩ := PrimGood.all (Q := fun i => ∃ c, L.Node c ∧ nodeIdx g c = i ∧ ∃ n, CostWalk g (fun _ => 1) (L.at 0) c n)
          ⟨L.at 0, hc0, hz, 0, .nil⟩ (fun i hq e he => by
            obtain ⟨u, hu, rfl, n, hw⟩ := hq
            obtain ⟨r, hr, rfl⟩ := (mem_primAdj hs hb hu).1 he
            exact ⟨_, edgeOf_target hs hb hu hr, rfl, _, .step hw hr⟩) h4 _ hm
        have := hi.inj hc' hc e2
        subst this
        exact ⟨_, n, hf0, hw⟩
      · rintro ⟨a, n, ha, hw⟩
        rw [hf0] at ha; cases ha
        clear hc hci
        induction hw with
        | nil => rw [hz]; exact List.mem_cons_self
        | step hw hr ih =>
          exact h6 _ ih _ ((mem_primAdj hs hb (hw.node hs hb hc0)).2 ⟨_, hr, rfl⟩)

/-- Each edge can be gone back along another one at the same cost. -/
def EvenCost (g : Graph C A D N E) (L : Lat C A D) (cost : E → Nat) : Prop :=
  ∀ u r, L.Node u → EdgeOf g u r → ∃ r', EdgeOf g r.target r' ∧ r'.target = u ∧ cost r'.weight = cost r.weight

theorem evenCost_undirected (hs : Lawful s L rep) (hb : Built s L g k) (hu : g.isDirected = false) : EvenCost g L cost := by
  intro u r hu' hr
  obtain ⟨h1, h2⟩ := c11_undirected_weight hs hb hu hu' ((edgeOf_iff hs hb hu').1 hr)
  exact ⟨_, (edgeOf_iff hs hb h1).2 h2, rfl, rfl⟩

theorem joined_sound (hs : Sound s L rep) (hb : Built s L g k) {a b : C} (ha : L.Node a) (hn : L.Node b) :
    Joined (RefIn (allEdges L k)) a b := by
  obtain ⟨n, hw⟩ := costWalk_exists (cost := fun _ => 0) hs hb ha hn
  exact (joined_refs hs.lawful hb).2 (hw.joined hs.lawful hb ha)

theorem primAdj_drawn (hs : Lawful s L rep) (hb : Built s L g k) {i : Nat} (hi : i < L.width * L.height) {e : Nat × Nat × E}
    (he : e ∈ primAdj L k g i) : ∃ q ∈ allEdges L k, Drawn (nodeIdx g) EdgeRef.source EdgeRef.target EdgeRef.weight e q := by
  obtain ⟨u, hu, rfl⟩ := (nodes_indexed hs hb).onto hi
  obtain ⟨r, hr, rfl⟩ := (mem_primAdj hs hb hu).1 he
  obtain ⟨h2, h3, h4⟩ := (mem_outEdges hs.laws.dir).1 ((edgeOf_iff hs hb hu).1 hr)
  have ht := hs.laws.nbr_node hu h3
  unfold Lat.key at h4
  by_cases e : L.fwd (L.ax r.direction) = r.direction
  · rw [if_pos e] at h4
    exact ⟨r, (mem_allEdges hs.laws.dir).2 ⟨by rw [h2]; exact hu, e, by rw [h2]; exact h3, by rw [h2]; exact h4⟩, rfl, .inl ⟨by rw [h2], rfl⟩⟩
  · rw [if_neg e] at h4
    obtain ⟨h5, h6⟩ := (hs.laws.dir.fwd_ax r.direction).resolve_left e
    have h7 : L.ax (L.opp r.direction) = L.ax r.direction := by rw [← h6, hs.laws.dir.ax_fwd]
    exact ⟨⟨r.target, u, r.weight, L.opp r.direction⟩,
      (mem_allEdges hs.laws.dir).2 ⟨ht, by rw [h7]; exact h6, hs.laws.nbr_opp hu h3, by rw [h7]; exact h4⟩, rfl, .inr ⟨rfl, rfl⟩⟩

/-- **C120.** On the shapes of the crate, if each edge costs the same both ways — as it does on all undirected graphs — the edges returned
are a minimum spanning tree: each is an edge of `edge_references`, read in one direction or the other, all of them together join all
nodes, none could be left out, and no part of `edge_references` that joins as much costs less. -/
theorem c120_min (hs : Sound s L rep) (hb : Built s L g k) (he : g.isDirected = false ∨ EvenCost g L cost) {ns : List N}
    {out : List (Nat × Nat × E)} (hp : g.Prim cost ns out) :
    out.length = s.horizontal * s.vertical - 1 ∧
    ∃ (rs : List (EdgeRef C D E)) (ps : List ((Nat × Nat × E) × EdgeRef C D E)), Yields (edgeRefsNext g) edgeRefsInit rs ∧ ps.map Prod.fst = out ∧
      (∀ e q, (e, q) ∈ ps → e.2.2 = q.weight ∧
        ((g.toIndex q.source = .ok e.1 ∧ g.toIndex q.target = .ok e.2.1) ∨ (g.toIndex q.target = .ok e.1 ∧ g.toIndex q.source = .ok e.2.1))) ∧
      MinSpanning EdgeRef.source EdgeRef.target (fun r => cost r.weight) rs (ps.map Prod.snd) := by
  have hl := hs.lawful
  have he : EvenCost g L cost := he.elim (evenCost_undirected hl hb) id
  have hg := prim_graph hl hb
  have hi := nodes_indexed hl hb
  have hn : L.width * L.height = s.horizontal * s.vertical := by
    have h := nodeBound_eq hl hb
    rw [c04_node_count hl hb] at h
    exact (Except.ok.inj h).symm
  have hall : ∀ r ∈ allEdges L k, L.Node r.source ∧ L.Node r.target := fun r hr => allEdges_nodes hl hr
  obtain ⟨st, st', h1, h2, h3, rfl⟩ := hp
  rcases prim_result hg ((primStart_lat hl hb).1 h1).2 h2 h3 with ⟨h0, h4⟩ | ⟨h0, h4, h5, h6⟩
  · have hemp : allEdges L k = [] := List.eq_nil_iff_forall_not_mem.2 fun r hr => absurd (hi.lt (hall r hr).1) (by omega)
    refine ⟨by rw [h4, ← hn, h0]; rfl, allEdges L k, [], c13_edge_references hl hb, by rw [h4]; rfl, (fun _ _ h => nomatch h), ?_⟩
    rw [hemp]
    exact ⟨⟨[], .refl _⟩, fun _ _ => Iff.rfl, (fun l1 r l2 h => by cases l1 <;> cases h), (fun _ _ _ _ => Nat.zero_le _)⟩
  · obtain ⟨g1, ps, g2, g3, g4⟩ := prim_minSpanning (wt := EdgeRef.weight) hi hall (allEdges_nodup hl hb)
      (fun i hi e he => primAdj_drawn hl hb hi he)
      (fun q hq => by
        obtain ⟨hq1, hq2⟩ := hall q hq
        have hqo := (edgeOf_iff hl hb hq1).2 (allEdges_out hl hq)
        obtain ⟨r', e1, e2, e3⟩ := he _ _ hq1 hqo
        exact ⟨⟨_, (mem_primAdj hl hb hq1).2 ⟨q, hqo, rfl⟩, rfl, rfl⟩,
          ⟨_, (mem_primAdj hl hb hq2).2 ⟨r', e1, rfl⟩, by rw [← e2], e3⟩⟩)
      (fun a b ha hb' => joined_sound hs hb ha hb') h0 h4 h5 h6
    obtain ⟨rest, hperm⟩ := g4.part
    have hps : ∀ p ∈ ps, L.Node p.2.source ∧ L.Node p.2.target := fun p hp =>
      hall _ (hperm.mem_iff.1 (List.mem_append_left _ (List.mem_map_of_mem hp)))
    refine ⟨?_, _, ps, c13_edge_references hl hb, g2, fun e q hp => ?_, g4⟩
    · have hnd : (0 :: heads st'.out).Nodup := nodup_of_prefix fun l1 a l2 h => by
        cases l1 with
        | nil => exact List.not_mem_nil
        | cons b l1 =>
          have h' := List.cons.inj h
          obtain ⟨m1, m2, e1, e2, e3⟩ := List.map_eq_append_iff.1 (show st'.out.map (fun e => e.2.1) = l1 ++ a :: l2 from h'.2)
          obtain ⟨e, m3, rfl, e4, -⟩ := List.map_eq_cons_iff.1 e3
          have := (h4 m1 e m3 e1).2.1
          rw [← h'.1, ← e4, ← e2]
          exact this
      have := (List.perm_ext_iff_of_nodup hnd List.nodup_range).2 fun i => by
        rw [List.mem_range]
        exact ⟨h5 i, g1 i⟩
      have := this.length_eq
      unfold heads at this
      rw [List.length_range, List.length_cons, List.length_map] at this
      omega
    · obtain ⟨e1, e2⟩ := g3 _ hp
      obtain ⟨n1, n2⟩ := hps _ hp
      refine ⟨e1, ?_⟩
      rcases e2 with ⟨e2, e3⟩ | ⟨e2, e3⟩
      · have e2 : e.1 = _ := e2
        have e3 : e.2.1 = _ := e3
        exact .inl ⟨by rw [e2]; exact (nodeIdx_spec hl hb n1).1, by rw [e3]; exact (nodeIdx_spec hl hb n2).1⟩
      · have e2 : e.1 = _ := e2
        have e3 : e.2.1 = _ := e3
        exact .inr ⟨by rw [e2]; exact (nodeIdx_spec hl hb n2).1, by rw [e3]; exact (nodeIdx_spec hl hb n1).1⟩

/-- **C120.** Under the same condition the total cost is the one `min_spanning_tree` (C91) reaches. -/
theorem c120_kruskal (hs : Sound s L rep) (hb : Built s L g k) (he : g.isDirected = false ∨ EvenCost g L cost) {ns ns' : List N}
    {out out' : List (Nat × Nat × E)} (hp : g.Prim cost ns out) (hm : Spanning g cost ns' (.ok out')) :
    ns = ns' ∧ out.length = out'.length ∧ (out.map fun e => cost e.2.2).sum = (out'.map fun e => cost e.2.2).sum := by
  have hl := hs.lawful
  obtain ⟨h1, rs, ps, h2, h3, h4, h5⟩ := c120_min hs hb he hp
  obtain ⟨-, rs', picked, out'', g1, g2, -, g4, g5⟩ := (c91_spanning hl hb cost).2 _ _ hm
  cases g5
  have e := Yields.unique g1 h2
  subst e
  have e := Yields.unique h2 (c13_edge_references hl hb)
  subst e
  obtain ⟨rest, hp1⟩ := h5.part
  obtain ⟨rest', hp2⟩ := g2.part
  rw [edge_ids hl hb fun r hr => allEdges_nodes hl (hp2.mem_iff.1 (List.mem_append_left _ hr))] at g4; cases g4
  refine ⟨?_, by rw [h1, c91_tree hs hb hm], ?_⟩
  · obtain ⟨st, _, h, -⟩ := hp
    exact ((c120_runs hl hb cost).2 _ _ h).1 _ _ hm
  · have e1 : (out.map fun e => cost e.2.2) = (ps.map Prod.snd).map fun r => cost r.weight := by
      rw [← h3, List.map_map, List.map_map]
      exact List.map_congr_left fun p hp => by
        show cost p.1.2.2 = cost p.2.weight
        rw [(h4 p.1 p.2 hp).1]
    rw [e1, List.map_map (l := picked)]
    exact Nat.le_antisymm (h5.least picked rest' hp2 fun a b h => (g2.spans a b).1 h) (g2.least _ rest hp1 fun a b h => (h5.spans a b).1 h)
end

/-- the 3 × 2 square graph: five edges, as cheap as those of `min_spanning_tree`; and the run that led there -/
example : ∃ (g : Graph Offset SquareAxis DSquareAxis Nat Nat) (ns : List Nat) (out : List (Nat × Nat × Nat)),
    g.Prim id ns out ∧ out.length = 5 ∧ (∀ l1 e l2, out = l1 ++ e :: l2 → e.2.1 ∉ 0 :: l1.map (fun f => f.2.1)) ∧
    ∃ ns' out', Spanning g id ns' (.ok out') ∧ ns = ns' ∧ (out.map fun e => e.2.2).sum = (out'.map fun e => e.2.2).sum := by
  obtain ⟨g, hb⟩ := exSquare
  have hs := Sound.square m64 3 2
  have hu : g.isDirected = false := by rw [Graph.isDirected, (hb.good hs.lawful).impl.axis.directed]; rfl
  obtain ⟨ns, out, hp⟩ := (c120_runs hs.lawful hb id).1
  obtain ⟨ns', res, h1⟩ := (c91_spanning hs.lawful hb id).1
  obtain ⟨-, rs, picked, out', -, -, -, -, rfl⟩ := (c91_spanning hs.lawful hb id).2 _ _ h1
  obtain ⟨h2, -, h3⟩ := c120_kruskal hs hb (.inl hu) hp h1
  exact ⟨g, ns, out, hp, (c120_min hs hb (.inl hu) hp).1, fun l1 e l2 h => ((c120_tree hs.lawful hb hp).1 l1 e l2 h).2.1,
    ns', out', h1, h2, h3⟩

/-- edge weight `p` at the first node and `q` at the others -/
def unevenE (p q : Nat) (u : Unit) (c : Offset) (_ : DSquareAxis) : Nat × Unit := (if c.horizontal = 0 then p else q, u)

/-- contents of the directed 2 × 1 square graph with these weights -/
def unevenK (p q : Nat) : Contents Offset DSquareAxis Nat Nat :=
  (runCalls exN (unevenE p q) (callSeq (squareLatDirected 2 1)) () emptyContents).1

theorem unevenK_edges (p q : Nat) :
    allEdges (squareLatDirected 2 1) (unevenK p q) = [⟨⟨0, 0⟩, ⟨1, 0⟩, p, .X⟩, ⟨⟨1, 0⟩, ⟨0, 0⟩, q, .RX⟩] := by rfl

/-- **C120.** The condition on the costs is needed: on directed graphs where the way back is cheaper the edges returned cost more than the
ones of `min_spanning_tree`, by any amount. -/
theorem c120_uneven (p q : Nat) : ∃ g : Graph Offset DSquareAxis DSquareAxis Nat Nat,
    Built (squareShapeDirected m64 2 1) (squareLatDirected 2 1) g (unevenK p q) ∧ ∀ ns out ns' out', g.Prim id ns out →
      Spanning g id ns' (.ok out') → p ≤ (out.map fun e => e.2.2).sum ∧ (out'.map fun e => e.2.2).sum ≤ q := by
  have hs := Sound.squareDirected m64 2 1
  have hl := hs.lawful
  obtain ⟨g, hb⟩ : ∃ g, Built (squareShapeDirected m64 2 1) (squareLatDirected 2 1) g (unevenK p q) :=
    hl.exists_built (by decide) exN (unevenE p q) ()
  refine ⟨g, hb, fun ns out ns' out' hp hm => ⟨?_, ?_⟩⟩
  · have hn0 : (squareLatDirected 2 1).Node ⟨0, 0⟩ := Lat.at_node (L := squareLatDirected 2 1) (i := 0) (by decide)
    have hn1 : (squareLatDirected 2 1).Node ⟨1, 0⟩ := Lat.at_node (L := squareLatDirected 2 1) (i := 1) (by decide)
    have h0 : nodeIdx g ⟨0, 0⟩ = 0 := nodeIdx_at hl hb (i := 0) (by decide)
    have h1 : nodeIdx g ⟨1, 0⟩ = 1 := nodeIdx_at hl hb (i := 1) (by decide)
    have hf0 : g.fromIndex 0 = .ok ⟨0, 0⟩ := (hb.good hl).impl.indexToCoordinate (i := 0) (by decide)
    obtain ⟨h2, h3⟩ := c120_tree hl hb hp
    obtain ⟨n, hw⟩ := costWalk_exists (cost := fun _ => 1) hs hb hn0 hn1
    have h4 := (h3 ⟨1, 0⟩ 1 hn1 (by rw [(nodeIdx_spec hl hb hn1).1, h1])).2 ⟨_, n, hf0, hw⟩
    rcases List.mem_cons.1 h4 with h4 | h4
    · cases h4
    · obtain ⟨e, he, e1⟩ := List.mem_map.1 h4
      obtain ⟨l1, l2, rfl⟩ := List.append_of_mem he
      obtain ⟨-, -, ⟨u, r, hu, hr, -, g1, g2⟩, -⟩ := h2 l1 e l2 rfl
      have ht := edgeOf_target hl hb hu hr
      rw [(nodeIdx_spec hl hb ht).1, e1, ← h1] at g1
      have ht1 := nodeIdx_inj hl hb ht hn1 (Except.ok.inj g1)
      obtain ⟨g3, g4, g5⟩ := (mem_outEdges hl.laws.dir).1 ((edgeOf_iff hl hb hu).1 hr)
      have hmem : r ∈ allEdges (squareLatDirected 2 1) (unevenK p q) := by
        have hfw : ∀ d : DSquareAxis, (squareLatDirected 2 1).fwd ((squareLatDirected 2 1).ax d) = d := by intro d; cases d <;> rfl
        unfold Lat.key at g5
        rw [if_pos (hfw _)] at g5
        exact (mem_allEdges hl.laws.dir).2 ⟨by rw [g3]; exact hu, hfw _, by rw [g3]; exact g4, by rw [g3]; exact g5⟩
      rw [unevenK_edges] at hmem
      have hw : r.weight = p := by
        rcases List.mem_cons.1 hmem with rfl | hmem
        · rfl
        · cases List.mem_singleton.1 hmem
          exact absurd ht1 (show ¬ (⟨0, 0⟩ : Offset) = ⟨1, 0⟩ by decide)
      rw [List.map_append, List.map_cons, List.sum_append, List.sum_cons, ← g2, hw]
      omega
  · obtain ⟨-, rs, picked, out'', g1, g2, -, g4, g5⟩ := (c91_spanning hl hb id).2 _ _ hm
    cases g5
    have e := Yields.unique g1 (c13_edge_references hl hb)
    subst e
    obtain ⟨rest, hperm⟩ := g2.part
    rw [edge_ids hl hb fun r hr => allEdges_nodes hl (hperm.mem_iff.1 (List.mem_append_left _ hr))] at g4; cases g4
    rw [unevenK_edges] at g2
    have := g2.least [⟨⟨1, 0⟩, ⟨0, 0⟩, q, .RX⟩] [⟨⟨0, 0⟩, ⟨1, 0⟩, p, .X⟩] (List.Perm.swap _ _ _) fun a b h => by
      refine h.bind fun u t h => ?_
      obtain ⟨r, hr, rfl, rfl⟩ := h
      have hlast : Joined (Among (V := Offset) (R := EdgeRef Offset DSquareAxis Nat) EdgeRef.source EdgeRef.target
          [⟨⟨1, 0⟩, ⟨0, 0⟩, q, .RX⟩]) ⟨1, 0⟩ ⟨0, 0⟩ := .edge ⟨_, List.mem_cons_self, rfl, rfl⟩
      rcases List.mem_cons.1 hr with rfl | hr
      · exact hlast.symm
      · cases List.mem_singleton.1 hr
        exact hlast
    rw [List.map_map]
    exact this

/-- 9 there and 2 back: `min_spanning_tree_prim` returns 9 or more, `min_spanning_tree` 2 at most -/
example : ∃ (g : Graph Offset DSquareAxis DSquareAxis Nat Nat) (ns : List Nat) (out : List (Nat × Nat × Nat)) (ns' : List Nat)
    (out' : List (Nat × Nat × Nat)), g.Prim id ns out ∧ Spanning g id ns' (.ok out') ∧
    9 ≤ (out.map fun e => e.2.2).sum ∧ (out'.map fun e => e.2.2).sum ≤ 2 := by
  have hs := Sound.squareDirected m64 2 1
  obtain ⟨g, hb, h⟩ := c120_uneven 9 2
  obtain ⟨ns, out, hp⟩ := (c120_runs hs.lawful hb id).1
  obtain ⟨ns', res, h1⟩ := (c91_spanning hs.lawful hb id).1
  obtain ⟨-, rs, picked, out', -, -, -, -, rfl⟩ := (c91_spanning hs.lawful hb id).2 _ _ h1
  exact ⟨g, ns, out, ns', out', hp, h1, h ns out ns' out' hp h1⟩
end LG
