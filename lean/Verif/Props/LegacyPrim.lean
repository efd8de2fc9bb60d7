import Verif.Lemmas.Prim
import Verif.Props.LegacySpanning
import Verif.Props.LegacyGeneral
/- C120 for the deprecated `SquareGraph`. -/
namespace LG.Sq
section
variable {N E : Type}
variable {g : G N E} {k : Cfg} {h v : Nat} {c : Contents NodeIx Axis N E} {cost : E → Nat}

/-- The edges pushed for the node of number `i`. -/
def primAdj (g : G N E) (s : Grid) (c : Contents NodeIx Axis N E) (i : Nat) : List (Nat × Nat × E) :=
  (outViews s c (s.nodes[i]?.getD ⟨0, 0⟩)).map fun w => (nodeIdx g w.source, nodeIdx g w.target, w.weight)

theorem primAdj_eq (hb : Built k h v g c) (hf : k.Fits h v) {n : NodeIx} (hn : (k.grid h v).Node n) :
    primAdj g (k.grid h v) c (nodeIdx g n) = (outViews (k.grid h v) c n).map fun w => (nodeIdx g w.source, nodeIdx g w.target, w.weight) := by
  obtain ⟨n', h1, -, h2⟩ := (c45_index_bijection_partial hb hf).2.1 _ ((indexed hb hf).lt hn)
  have hn' := ((c45_nodes_exact (k.grid h v)).2.1 n').1 (List.mem_of_getElem? h1)
  rw [nodeIdx_eq hb hf hn'] at h2
  have := (indexed hb hf).inj hn' hn (Except.ok.inj h2)
  subst this
  unfold primAdj
  rw [h1]
  rfl

theorem outViews_ends {n : NodeIx} (hn : (k.grid h v).Node n) {w : View E} (hw : w ∈ outViews (k.grid h v) c n) :
    w.source = n ∧ (k.grid h v).Node w.target := by
  obtain ⟨d, -, h1, h2, -⟩ := mem_outViews.1 hw
  exact ⟨h2, Grid.step_node hn h1⟩

theorem prim_graph (hb : Built k h v g c) (hf : k.Fits h v) : PrimGraph (sqAt g) (primAdj g (k.grid h v) c) (h * v) where
  lists := fun i hi l => by
    obtain ⟨n, hn, rfl⟩ := (indexed hb hf).onto hi
    obtain ⟨i', -, h1, h2⟩ := (c45_index_bijection_partial hb hf).2.2 n hn
    rw [nodeIdx_eq hb hf hn] at h1
    have e := Except.ok.inj h1
    subst e
    obtain ⟨rs, h3, h4⟩ := c47_edges hb hf hn
    have h5 : rs.mapM (fun r => do return (← g.toIndex (← r.source g.k), ← g.toIndex (← r.target g.k), r.weight)) =
        (.ok (primAdj g (k.grid h v) c (nodeIdx g n)) : Res (List (Nat × Nat × E))) := by
      rw [primAdj_eq hb hf hn]
      refine mapM_view rs _ h4 fun r w hw hr => ?_
      obtain ⟨h6, h7, h8⟩ := view_parts hr
      obtain ⟨h9, h10⟩ := outViews_ends hn hw
      rw [hb.stores.cfg, h6, h7, h8]
      simp only [bind, Except.bind]
      rw [nodeIdx_eq hb hf (by rw [h9]; exact hn), nodeIdx_eq hb hf h10]
      rfl
    constructor
    · rintro ⟨n', rs', g1, g2, g3⟩
      rw [h2] at g1; cases g1
      rw [Yields.unique g2 h3, h5] at g3
      exact (Except.ok.inj g3).symm
    · rintro rfl
      exact ⟨n, rs, h2, h3, h5⟩
  ends := fun i hi e he => by
    obtain ⟨n, hn, rfl⟩ := (indexed hb hf).onto hi
    rw [primAdj_eq hb hf hn] at he
    obtain ⟨w, hw, rfl⟩ := List.mem_map.1 he
    obtain ⟨h1, h2⟩ := outViews_ends hn hw
    exact ⟨by rw [h1], (indexed hb hf).lt h2⟩

theorem primStart_sq (hb : Built k h v g c) (hf : k.Fits h v) {ns : List N} {st : PrimSt E} :
    g.PrimStart ns st ↔ ns = (allNodeRefs (k.grid h v) c).map Prod.snd ∧ LG.PrimStart (sqAt g) (List.range' 0 (h * v)) st := by
  obtain ⟨y4, -⟩ := c45_node_references hb hf
  constructor
  · rintro ⟨nrs, ids, h1, h2, rfl, h3⟩
    have e := Yields.unique h1 y4
    subst e
    rw [mst_nodes hb hf] at h2; cases h2
    exact ⟨rfl, h3⟩
  · rintro ⟨rfl, h⟩
    exact ⟨_, _, y4, mst_nodes hb hf, rfl, h⟩

theorem primAdj_drawn (hb : Built k h v g c) (hf : k.Fits h v) {i : Nat} (hi : i < h * v) {e : Nat × Nat × E}
    (he : e ∈ primAdj g (k.grid h v) c i) :
    ∃ q ∈ allViews (k.grid h v) c, Drawn (nodeIdx g) View.source View.target View.weight e q := by
  obtain ⟨n, hn, rfl⟩ := (indexed hb hf).onto hi
  rw [primAdj_eq hb hf hn] at he
  obtain ⟨w, hw, rfl⟩ := List.mem_map.1 he
  obtain ⟨d, -, h1, h2, h3, h4⟩ := mem_outViews.1 hw
  have ht := Grid.step_node hn h1
  cases d with
  | foward a =>
    refine ⟨w, mem_allViews.2 ?_, rfl, .inl ⟨rfl, rfl⟩⟩
    rw [h3] at h4
    rw [h2, h3]
    exact ⟨hn, h1, h4, rfl⟩
  | backward a =>
    rw [h3] at h4
    refine ⟨⟨w.target, n, w.weight, ⟨w.target, a⟩⟩, mem_allViews.2 ⟨ht, Grid.step_opp hn h1, h4, rfl⟩, rfl, .inr ⟨by rw [h2], rfl⟩⟩

theorem primAdj_both (hb : Built k h v g c) (hf : k.Fits h v) {q : View E} (hq : q ∈ allViews (k.grid h v) c) :
    (∃ f ∈ primAdj g (k.grid h v) c (nodeIdx g q.source), f.2.1 = nodeIdx g q.target ∧ cost f.2.2 = cost q.weight) ∧
    ∃ f ∈ primAdj g (k.grid h v) c (nodeIdx g q.target), f.2.1 = nodeIdx g q.source ∧ cost f.2.2 = cost q.weight := by
  obtain ⟨h1, h2, h3, h4⟩ := mem_allViews.1 hq
  have ht := Grid.step_node h1 h2
  have hd : ∀ d : Dir, d ∈ Grid.dirs := fun d => by rcases d with (_ | _) | (_ | _) <;> decide
  rw [primAdj_eq hb hf h1, primAdj_eq hb hf ht]
  refine ⟨⟨_, List.mem_map.2 ⟨⟨q.source, q.target, q.weight, ⟨q.source, q.id.axis⟩⟩, ?_, rfl⟩, rfl, rfl⟩,
    ⟨_, List.mem_map.2 ⟨⟨q.target, q.source, q.weight, ⟨q.source, q.id.axis⟩⟩, ?_, rfl⟩, rfl, rfl⟩⟩
  · exact mem_outViews.2 ⟨.foward q.id.axis, hd _, h2, rfl, rfl, h3⟩
  · exact mem_outViews.2 ⟨.backward q.id.axis, hd _, Grid.step_opp h1 h2, rfl, rfl, h3⟩

/-- **C120** for the deprecated graph: it can be run, never faults, can go on to the end from everywhere and never goes on forever. -/
theorem c120_legacy_runs (hb : Built k h v g c) (hf : k.Fits h v) (cost : E → Nat) :
    (∃ ns out, g.Prim cost ns out) ∧
    ∀ ns st, g.PrimStart ns st → (∀ ns' res, Spanning g cost ns' res → ns = ns') ∧
      (∀ st', PrimSteps cost (sqAt g) st st' → ∃ st'', PrimSteps cost (sqAt g) st' st'' ∧ st''.heap = []) ∧
      ∀ run : Nat → PrimSt E, run 0 = st → ¬ ∀ i, PrimStep cost (sqAt g) (run i) (run (i + 1)) := by
  have hg := prim_graph hb hf
  constructor
  · have hst : LG.PrimStart (sqAt g) (List.range' 0 (h * v)) ⟨[0], primAdj g (k.grid h v) c 0, []⟩ :=
      (primStart_iff hg).2 (.inr ⟨Nat.mul_pos (hb.sizes hf).pos_h (hb.sizes hf).pos_v, rfl⟩)
    obtain ⟨st', h1, h2⟩ := (prim_runs (cost := cost) hg hst).1 _ .refl
    exact ⟨_, _, _, st', (primStart_sq hb hf).2 ⟨rfl, hst⟩, h1, h2, rfl⟩
  · intro ns st hst
    obtain ⟨rfl, h'⟩ := (primStart_sq hb hf).1 hst
    refine ⟨?_, prim_runs hg h'⟩
    rintro ns' res ⟨_, _, _, nrs', _, -, -, -, g5, -, rfl, -⟩
    rw [Yields.unique g5 (c45_node_references hb hf).1]

/-- **C120** for the deprecated graph: the edges returned are a minimum spanning tree, looped or not. -/
theorem c120_legacy_min (hb : Built k h v g c) (hf : k.Fits h v) {ns : List N} {out : List (Nat × Nat × E)} (hp : g.Prim cost ns out) :
    ∃ (rs : List (Ref E)) (vs : List (View E)) (ps : List ((Nat × Nat × E) × View E)),
      Yields (edgeRefsNext g) (edgeRefsInit g) rs ∧ rs.mapM (Ref.view g.k) = .ok vs ∧ ps.map Prod.fst = out ∧
      (∀ e q, (e, q) ∈ ps → e.2.2 = q.weight ∧
        ((g.toIndex q.source = .ok e.1 ∧ g.toIndex q.target = .ok e.2.1) ∨ (g.toIndex q.target = .ok e.1 ∧ g.toIndex q.source = .ok e.2.1))) ∧
      MinSpanning View.source View.target (fun w => cost w.weight) vs (ps.map Prod.snd) := by
  have hg := prim_graph hb hf
  have hi := indexed hb hf
  have hall : ∀ w ∈ allViews (k.grid h v) c, (k.grid h v).Node w.source ∧ (k.grid h v).Node w.target := fun w hw => allViews_nodes hw
  obtain ⟨rs, y1, y2, -⟩ := mst_edges hb hf
  obtain ⟨st, st', h1, h2, h3, rfl⟩ := hp
  rcases prim_result hg ((primStart_sq hb hf).1 h1).2 h2 h3 with ⟨h0, -⟩ | ⟨h0, h4, h5, h6⟩
  · exact absurd h0 (Nat.ne_of_gt (Nat.mul_pos (hb.sizes hf).pos_h (hb.sizes hf).pos_v))
  · obtain ⟨-, ps, g2, g3, g4⟩ := prim_minSpanning (wt := View.weight) hi hall (allViews_nodup hb)
      (fun i hi e he => primAdj_drawn hb hf hi he) (fun q hq => primAdj_both hb hf hq)
      (fun a b ha hb' => joined_all hb hf ha hb') h0 h4 h5 h6
    obtain ⟨rest, hperm⟩ := g4.part
    refine ⟨rs, _, ps, y1, y2, g2, fun e q hq => ?_, g4⟩
    obtain ⟨e1, e2⟩ := g3 _ hq
    obtain ⟨n1, n2⟩ := hall _ (hperm.mem_iff.1 (List.mem_append_left _ (List.mem_map_of_mem hq)))
    refine ⟨e1, ?_⟩
    rcases e2 with ⟨e2, e3⟩ | ⟨e2, e3⟩
    · have e2 : e.1 = _ := e2
      have e3 : e.2.1 = _ := e3
      exact .inl ⟨by rw [e2]; exact nodeIdx_eq hb hf n1, by rw [e3]; exact nodeIdx_eq hb hf n2⟩
    · have e2 : e.1 = _ := e2
      have e3 : e.2.1 = _ := e3
      exact .inr ⟨by rw [e2]; exact nodeIdx_eq hb hf n2, by rw [e3]; exact nodeIdx_eq hb hf n1⟩

/-- **C120** for the deprecated graph: as many edges as `min_spanning_tree` (C92) returns, of the same total cost. -/
theorem c120_legacy_kruskal (hb : Built k h v g c) (hf : k.Fits h v) {ns ns' : List N} {out out' : List (Nat × Nat × E)}
    (hp : g.Prim cost ns out) (hm : Spanning g cost ns' (.ok out')) :
    ns = ns' ∧ out.length = out'.length ∧ (out.map fun e => cost e.2.2).sum = (out'.map fun e => cost e.2.2).sum := by
  obtain ⟨rs, vs, ps, h1, h2, h3, h4, h5⟩ := c120_legacy_min hb hf hp
  obtain ⟨-, rs', vs', picked, out'', g1, g2, g3, g4, g5, g6, g7⟩ := (c92_spanning hb hf cost).2 _ _ hm
  cases g7
  have e := Yields.unique g1 h1
  subst e
  rw [h2] at g2; cases g2
  obtain ⟨rs0, y1, y2, -⟩ := mst_edges hb hf
  have e := Yields.unique y1 h1
  subst e
  rw [y2] at h2; cases h2
  obtain ⟨rest, hp1⟩ := h5.part
  obtain ⟨rest', hp2⟩ := g3.part
  have hpk : ∀ w ∈ picked, (k.grid h v).Node w.source ∧ (k.grid h v).Node w.target := fun r hr =>
    allViews_nodes (hp2.mem_iff.1 (List.mem_append_left _ hr))
  have hps : ∀ w ∈ ps.map Prod.snd, (k.grid h v).Node w.source ∧ (k.grid h v).Node w.target := fun r hr =>
    allViews_nodes (hp1.mem_iff.1 (List.mem_append_left _ hr))
  have e2 : out' = picked.map fun w => (nodeIdx g w.source, nodeIdx g w.target, w.weight) := by
    have := mapM_ok (f := fun w : View E => do return (← g.toIndex w.source, ← g.toIndex w.target, w.weight)) picked
      (F := fun w => (nodeIdx g w.source, nodeIdx g w.target, w.weight)) fun w hw => by
        rw [nodeIdx_eq hb hf (hpk w hw).1, nodeIdx_eq hb hf (hpk w hw).2]; rfl
    rw [this] at g5
    exact (Except.ok.inj g5).symm
  refine ⟨?_, ?_, ?_⟩
  · obtain ⟨st, _, hst, -⟩ := hp
    exact ((c120_legacy_runs hb hf cost).2 _ _ hst).1 _ _ hm
  · have h0 : (k.grid h v).Node ⟨0, 0⟩ := ⟨(hb.sizes hf).pos_h, (hb.sizes hf).pos_v⟩
    have := forest_count (indexed hb hf) hps View.weight h5.forest (r := 1) ⟨[⟨0, 0⟩], rfl, (fun x hx => by
      cases List.mem_singleton.1 hx; exact h0), List.pairwise_singleton _ _, fun x hx =>
        ⟨_, List.mem_cons_self, (h5.spans _ _).1 (joined_all hb hf hx h0)⟩⟩
    rw [List.length_map] at this
    rw [← h3, List.length_map]
    omega
  · have e1 : (out.map fun e => cost e.2.2) = (ps.map Prod.snd).map fun r => cost r.weight := by
      rw [← h3, List.map_map, List.map_map]
      exact List.map_congr_left fun p hp => by
        show cost p.1.2.2 = cost p.2.weight
        rw [(h4 p.1 p.2 hp).1]
    rw [e1, e2, List.map_map (l := picked)]
    exact Nat.le_antisymm (h5.least picked rest' hp2 fun a b h => (g3.spans a b).1 h) (g3.least _ rest hp1 fun a b h => (h5.spans a b).1 h)
end

/-- the 3 × 2 graph looped horizontally: five edges, as cheap as those of `min_spanning_tree` -/
example : ∃ (g : G Nat Nat) (ns : List Nat) (out : List (Nat × Nat × Nat)), g.Prim id ns out ∧ out.length = 5 ∧
    ∃ ns' out', Spanning g id ns' (.ok out') ∧ ns = ns' ∧ (out.map fun e => e.2.2).sum = (out'.map fun e => e.2.2).sum := by
  obtain ⟨g, c, hb, -⟩ := exGraph exCfg (by decide)
  have hf : exCfg.Fits 3 2 := ⟨by decide, by decide⟩
  obtain ⟨ns, out, hp⟩ := (c120_legacy_runs hb hf id).1
  obtain ⟨ns', res, h1⟩ := (c92_spanning hb hf id).1
  obtain ⟨-, rs, vs, picked, out', -, -, -, -, -, h3, rfl⟩ := (c92_spanning hb hf id).2 _ _ h1
  obtain ⟨h4, h5, h6⟩ := c120_legacy_kruskal hb hf hp h1
  exact ⟨g, ns, out, hp, by omega, ns', out', h1, h4, h6⟩

example : ∃ (g : G Nat Nat) (ns : List Nat) (out : List (Nat × Nat × Nat)) (ps : List ((Nat × Nat × Nat) × View Nat)),
    g.Prim id ns out ∧ ps.map Prod.fst = out ∧ ∀ e q, (e, q) ∈ ps → e.2.2 = q.weight := by
  obtain ⟨g, c, hb, -⟩ := exGraph exCfg (by decide)
  have hf : exCfg.Fits 3 2 := ⟨by decide, by decide⟩
  obtain ⟨ns, out, hp⟩ := (c120_legacy_runs hb hf id).1
  obtain ⟨rs, vs, ps, -, -, h1, h2, -⟩ := c120_legacy_min hb hf hp
  exact ⟨g, ns, out, ps, hp, h1, fun e q h => (h2 e q h).1⟩
end LG.Sq
