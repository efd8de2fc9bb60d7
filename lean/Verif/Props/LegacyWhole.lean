import Verif.Model.LegacyWhole
import Verif.Lemmas.Indexed
import Verif.Props.Floyd
import Verif.Props.LegacyAstar
import Verif.Props.LegacyDirs
/- C86: `floyd_warshall`, `connected_components` and `is_cyclic_undirected` on the deprecated `SquareGraph`. -/
set_option linter.unusedSectionVars false
namespace LG.Sq
section
variable {N E : Type}
variable {g : G N E} {k : Cfg} {s : Grid} {h v : Nat} {c : Contents NodeIx Axis N E}

/-- The index of a node. -/
def nodeIdx (g : G N E) (n : NodeIx) : Nat :=
  match g.toIndex n with
  | .ok i => i
  | .error _ => 0

theorem nodeIdx_eq (hb : Built k h v g c) (hf : k.Fits h v) {n : NodeIx} (hn : (k.grid h v).Node n) : g.toIndex n = .ok (nodeIdx g n) := by
  obtain ⟨i, -, h1, -⟩ := (c45_index_bijection_partial hb hf).2.2 n hn
  unfold nodeIdx
  rw [h1]

theorem indexed (hb : Built k h v g c) (hf : k.Fits h v) : Indexed (k.grid h v).Node (nodeIdx g) (h * v) where
  inj := fun {u t} hu ht e => by
    obtain ⟨i, -, h1, h2⟩ := (c45_index_bijection_partial hb hf).2.2 u hu
    obtain ⟨j, -, h3, h4⟩ := (c45_index_bijection_partial hb hf).2.2 t ht
    rw [nodeIdx_eq hb hf hu] at h1
    rw [nodeIdx_eq hb hf ht, ← e] at h3
    cases h1; cases h3
    rw [h2] at h4
    cases h4; rfl
  lt := fun {u} hu => by
    obtain ⟨i, h0, h1, -⟩ := (c45_index_bijection_partial hb hf).2.2 u hu
    rw [nodeIdx_eq hb hf hu] at h1
    cases h1; exact h0
  onto := fun {i} hi => by
    obtain ⟨n, h1, -, h3⟩ := (c45_index_bijection_partial hb hf).2.1 i hi
    have hn := ((c45_nodes_exact (k.grid h v)).2.1 n).1 (List.mem_of_getElem? h1)
    rw [nodeIdx_eq hb hf hn] at h3
    exact ⟨n, hn, Except.ok.inj h3⟩

theorem view_parts {r : Ref E} {w : View E} (h : Ref.view k r = .ok w) : r.source k = .ok w.source ∧ r.target k = .ok w.target ∧
    r.weight = w.weight := by
  unfold Ref.view at h
  cases h1 : r.source k with
  | error e => simp only [h1, bind, Except.bind] at h; cases h
  | ok a =>
    cases h2 : r.target k with
    | error e => simp only [h1, h2, bind, Except.bind] at h; cases h
    | ok b =>
      simp only [h1, h2, bind, Except.bind] at h
      cases h
      exact ⟨rfl, rfl, rfl⟩

theorem mapM_view {β : Type} {f : Ref E → Res β} {F : View E → β} : ∀ (l : List (Ref E)) (ws : List (View E)),
    l.mapM (Ref.view k) = .ok ws → (∀ r w, w ∈ ws → Ref.view k r = .ok w → f r = .ok (F w)) → l.mapM f = .ok (ws.map F)
  | [], ws, h, _ => by cases h; rfl
  | r :: l, ws, h, hF => by
    rw [List.mapM_cons] at h ⊢
    cases h1 : Ref.view k r with
    | error e => rw [h1] at h; cases h
    | ok w =>
      cases h2 : l.mapM (Ref.view k) with
      | error e => rw [h1, h2] at h; cases h
      | ok ws' =>
        rw [h1, h2] at h
        cases h
        rw [hF r w List.mem_cons_self h1, mapM_view l ws' h2 fun r w hw => hF r w (List.mem_cons_of_mem _ hw)]
        rfl

theorem mem_allViews {w : View E} : w ∈ allViews s c ↔ s.Node w.source ∧ s.step w.source (.foward w.id.axis) = some w.target ∧
    c.edge w.source w.id.axis = some w.weight ∧ w.id.node = w.source := by
  obtain ⟨a, b, x, ⟨n, ax⟩⟩ := w
  unfold allViews
  simp only [List.mem_flatMap, List.mem_filterMap, Option.bind_eq_some_iff, Option.map_eq_some_iff, View.mk.injEq, EdgeIx.mk.injEq]
  constructor
  · rintro ⟨n', h1, a', -, t, h2, w, h3, rfl, rfl, rfl, rfl, rfl⟩
    exact ⟨mem_cells.1 h1, h2, h3, rfl⟩
  · rintro ⟨h1, h2, h3, rfl⟩
    exact ⟨n, mem_cells.2 h1, ax, by cases ax <;> simp, b, h2, x, h3, rfl, rfl, rfl, rfl, rfl⟩

theorem allViews_nodes {w : View E} (hw : w ∈ allViews s c) : s.Node w.source ∧ s.Node w.target := by
  obtain ⟨h1, h2, -⟩ := mem_allViews.1 hw
  exact ⟨h1, Grid.step_node h1 h2⟩

/-- The edges by index, as the crate enumerates them. -/
def idxEdges (g : G N E) (s : Grid) (c : Contents NodeIx Axis N E) (cost : E → Nat) : List (Nat × Nat × Nat) :=
  (allViews s c).map fun w => (nodeIdx g w.source, nodeIdx g w.target, cost w.weight)

theorem edgeIndices_iff (hb : Built k h v g c) (hf : k.Fits h v) (cost : E → Nat) {es : List (Nat × Nat × Nat)} :
    edgeIndices g cost es ↔ es = idxEdges g (k.grid h v) c cost := by
  obtain ⟨l, h1, h2⟩ := c48_edge_references hb hf
  have hm : l.mapM (fun r => do return (← g.toIndex (← r.source g.k), ← g.toIndex (← r.target g.k), cost r.weight)) =
      .ok (idxEdges g (k.grid h v) c cost) := by
    refine mapM_view l _ h2 fun r w hw hr => ?_
    obtain ⟨h3, h4, h5⟩ := view_parts hr
    obtain ⟨h6, h7⟩ := allViews_nodes hw
    rw [hb.stores.cfg, h3, h4, h5]
    simp only [bind, Except.bind]
    rw [nodeIdx_eq hb hf h6, nodeIdx_eq hb hf h7]
    rfl
  constructor
  · rintro ⟨rs, h3, h4⟩
    rw [Yields.unique h3 h1, hm] at h4
    cases h4; rfl
  · rintro rfl
    exact ⟨_, h1, hm⟩

theorem idxEdges_lt (hb : Built k h v g c) (hf : k.Fits h v) (cost : E → Nat) :
    ∀ e ∈ idxEdges g (k.grid h v) c cost, e.1 < h * v ∧ e.2.1 < h * v := by
  intro e he
  obtain ⟨w, hw, rfl⟩ := List.mem_map.1 he
  obtain ⟨h1, h2⟩ := allViews_nodes hw
  exact ⟨(indexed hb hf).lt h1, (indexed hb hf).lt h2⟩

theorem link_iff (hb : Built k h v g c) (hf : k.Fits h v) (cost : E → Nat) {u t : NodeIx} (hu : (k.grid h v).Node u) {w : Nat} :
    Link g (fun r => cost r.weight) u t w ↔ ∃ d x, (k.grid h v).step u d = some t ∧
      c.edge (Grid.key u t d).node (Grid.key u t d).axis = some x ∧ cost x = w := by
  constructor
  · rintro ⟨r, h1, rfl⟩
    obtain ⟨h2, h3⟩ := (edgeTo_iff hb hf hu).1 h1
    obtain ⟨d, -, hd⟩ := List.mem_filterMap.1 h2
    cases hst : (k.grid h v).step u d with
    | none => rw [refOf_none hst] at hd; cases hd
    | some t' =>
      obtain ⟨x, h4, h5⟩ := refOf_some hb.stores hu hst
      rw [h5] at hd
      cases hd
      have h6 := (view_parts (view_eq (hb.sizes hf) hu hst x)).2.1
      rw [(outRefs_target hb hf hu h2).1, h3] at h6
      cases h6
      exact ⟨d, x, hst, h4, rfl⟩
  · rintro ⟨d, x, hst, h1, rfl⟩
    obtain ⟨x', h4, h5⟩ := refOf_some hb.stores hu hst
    rw [h1] at h4; cases h4
    have hm : (⟨Grid.key u t d, x, d.isFwd, k.sizeInfo h v⟩ : Ref E) ∈ outRefs k (k.grid h v) c u := by
      refine List.mem_filterMap.2 ⟨d, ?_, h5⟩
      rcases d with (_ | _) | (_ | _) <;> decide
    refine ⟨_, (edgeTo_iff hb hf hu).2 ⟨hm, ?_⟩, rfl⟩
    have h6 := (view_parts (view_eq (hb.sizes hf) hu hst x)).2.1
    have h7 := (outRefs_target hb hf hu hm).1
    exact Except.ok.inj (h7.symm.trans h6)

/-- The references of `edge_references`, both ways, are the links of `edges`. -/
theorem idxEdge_iff (hb : Built k h v g c) (hf : k.Fits h v) (cost : E → Nat) (i j w : Nat) :
    IdxEdge false (idxEdges g (k.grid h v) c cost) i j w ↔
    ∃ u t, (k.grid h v).Node u ∧ nodeIdx g u = i ∧ nodeIdx g t = j ∧ Link g (fun r => cost r.weight) u t w := by
  constructor
  · rintro (hm | ⟨-, hm⟩)
    · obtain ⟨x, hx, e⟩ := List.mem_map.1 hm
      cases e
      obtain ⟨h1, h2, h3, -⟩ := mem_allViews.1 hx
      exact ⟨_, _, h1, rfl, rfl, (link_iff hb hf cost h1).2 ⟨_, _, h2, h3, rfl⟩⟩
    · obtain ⟨x, hx, e⟩ := List.mem_map.1 hm
      cases e
      obtain ⟨h1, h2, h3, -⟩ := mem_allViews.1 hx
      have ht := Grid.step_node h1 h2
      exact ⟨_, _, ht, rfl, rfl, (link_iff hb hf cost ht).2 ⟨_, _, Grid.step_opp h1 h2, h3, rfl⟩⟩
  · rintro ⟨u, t, hu, rfl, rfl, hl⟩
    obtain ⟨d, x, hst, h1, rfl⟩ := (link_iff hb hf cost hu).1 hl
    cases d with
    | foward a => exact .inl (List.mem_map.2 ⟨⟨u, t, x, ⟨u, a⟩⟩, mem_allViews.2 ⟨hu, hst, h1, rfl⟩, rfl⟩)
    | backward a =>
      exact .inr ⟨rfl, List.mem_map.2 ⟨⟨t, u, x, ⟨t, a⟩⟩, mem_allViews.2 ⟨Grid.step_node hu hst, Grid.step_opp hu hst, h1, rfl⟩, rfl⟩⟩

theorem gWalk_iff (hb : Built k h v g c) (hf : k.Fits h v) {cost : Ref E → Nat} {a b : NodeIx} (ha : (k.grid h v).Node a) {n : Nat} :
    GWalk (Link g cost) a b n ↔ CostWalk g cost a b n := by
  constructor
  · intro hw
    have key : ∀ {x : NodeIx} {m : Nat}, CostWalk g cost x a m → CostWalk g cost x b (m + n) := by
      induction hw with
      | nil => exact fun h => h
      | cons he _ ih =>
        intro x m h1
        obtain ⟨r, h2, rfl⟩ := he
        rw [← Nat.add_assoc]
        exact ih (Link.node (cost := cost) hb hf ha ⟨r, h2, rfl⟩) (.step h1 h2)
    have := key .nil
    rwa [Nat.zero_add] at this
  · intro hw
    induction hw with
    | nil => exact .nil
    | step h1 he ih => exact ih.trans (.cons ⟨_, he, rfl⟩ .nil)

/-- **C86.** `floyd_warshall` completes on every `SquareGraph`, looped or not, and each entry is the least total cost of a walk along
`edges` from the one node to the other; there always is one. -/
theorem c86_floyd_warshall (hb : Built k h v g c) (hf : k.Fits h v) (cost : E → Nat) :
    (∃ m, Floyd g cost m) ∧ ∀ m, Floyd g cost m → ∀ a b, (k.grid h v).Node a → (k.grid h v).Node b →
      ∃ i j x, g.toIndex a = .ok i ∧ g.toIndex b = .ok j ∧ m i j = some x ∧
        CostWalk g (fun r => cost r.weight) a b x ∧ ∀ y, CostWalk g (fun r => cost r.weight) a b y → x ≤ y := by
  have hn := (c45_index_bijection_partial hb hf).1
  have hi := indexed hb hf
  have hids : (k.grid h v).nodes.mapM g.toIndex = .ok ((k.grid h v).nodes.map (nodeIdx g)) :=
    mapM_ok _ fun x hx => nodeIdx_eq hb hf (((c45_nodes_exact (k.grid h v)).2.1 x).1 hx)
  have hmem : ∀ i, i ∈ (k.grid h v).nodes.map (nodeIdx g) ↔ i < h * v := by
    intro i
    constructor
    · intro hm
      obtain ⟨x, hx, rfl⟩ := List.mem_map.1 hm
      exact hi.lt (((c45_nodes_exact (k.grid h v)).2.1 x).1 hx)
    · intro hlt
      obtain ⟨x, hx, e⟩ := hi.onto hlt
      exact List.mem_map.2 ⟨x, ((c45_nodes_exact (k.grid h v)).2.1 x).2 hx, e⟩
  obtain ⟨m, h1, h2⟩ := fwRun_spec (directed := false) (idxEdges_lt hb hf cost) hmem
  have hy : Yields (NodeIndices.next g.k) (.new g.horizontalNodeCount g.verticalNodeCount) (k.grid h v).nodes := by
    rw [hb.stores.cfg]; exact c45_node_identifiers_partial hb hf
  refine ⟨⟨m, _, _, _, (edgeIndices_iff hb hf cost).2 rfl, hy, hids, by rw [hn]; exact h1⟩, ?_⟩
  rintro m' ⟨es, cs, ids, h4, h5, h6, h7⟩ a b ha hb'
  rw [(edgeIndices_iff hb hf cost).1 h4, hn] at h7
  rw [Yields.unique h5 hy, hids] at h6
  cases h6
  rw [h1] at h7; cases h7
  obtain ⟨h8, h9⟩ := h2 _ _ (hi.lt ha) (hi.lt hb')
  have hw : ∀ {x}, GWalk (IdxEdge false (idxEdges g (k.grid h v) c cost)) (nodeIdx g a) (nodeIdx g b) x ↔
      CostWalk g (fun r => cost r.weight) a b x := fun {x} =>
    (hi.gwalk (R := Link g fun r => cost r.weight) (fun u t w hu hl => hl.node hb hf hu) (idxEdge_iff hb hf cost) ha hb').trans
      (gWalk_iff hb hf ha)
  obtain ⟨y, hy'⟩ := costWalk_exists (cost := fun r : Ref E => cost r.weight) hb hf ha hb'
  cases hx : m (nodeIdx g a) (nodeIdx g b) with
  | none => exact absurd (hw.2 hy') (h9.1 hx y)
  | some x =>
    obtain ⟨h10, h11⟩ := (h8 x).1 hx
    exact ⟨_, _, x, nodeIdx_eq hb hf ha, nodeIdx_eq hb hf hb', hx, hw.1 h10, fun y hy => h11 y (hw.2 hy)⟩

/-- The pairs of indices. -/
def idxPairs (g : G N E) (l : List (View E)) : List (Nat × Nat) := l.map fun w => (nodeIdx g w.source, nodeIdx g w.target)

/-- One of these references, taken as an edge. -/
def ViewIn (l : List (View E)) (u t : NodeIx) : Prop := ∃ w ∈ l, w.source = u ∧ w.target = t

/-- Some edge of `edge_references()`, as `source()` and `target()` show it, joins what the others join without it. -/
def EdgeCycle (g : G N E) : Prop :=
  ∃ rs l1 w l2, Yields (edgeRefsNext g) (edgeRefsInit g) rs ∧ rs.mapM (Ref.view g.k) = .ok (l1 ++ w :: l2) ∧
    Joined (ViewIn (l1 ++ l2)) w.source w.target

theorem joined_idx (hb : Built k h v g c) (hf : k.Fits h v) {l : List (View E)}
    (hl : ∀ w ∈ l, (k.grid h v).Node w.source ∧ (k.grid h v).Node w.target) {a b : NodeIx} (ha : (k.grid h v).Node a)
    (hb' : (k.grid h v).Node b) : Joined (EdgeIn (idxPairs g l)) (nodeIdx g a) (nodeIdx g b) ↔ Joined (ViewIn l) a b := by
  refine (indexed hb hf).joined ?_ ?_ ha hb'
  · rintro u t ⟨w, hw, rfl, rfl⟩
    exact hl w hw
  · intro i j
    unfold EdgeIn idxPairs ViewIn
    simp only [List.mem_map, Prod.mk.injEq]
    constructor
    · rintro ⟨w, hw, h1, h2⟩
      exact ⟨_, _, h1, h2, w, hw, rfl, rfl⟩
    · rintro ⟨u, t, h1, h2, w, hw, rfl, rfl⟩
      exact ⟨w, hw, h1, h2⟩

theorem idxEdges_pairs (cost : E → Nat) : (idxEdges g s c cost).map (fun e => (e.1, e.2.1)) = idxPairs g (allViews s c) := by
  unfold idxEdges idxPairs
  rw [List.map_map]; rfl

theorem components_iff (hb : Built k h v g c) (hf : k.Fits h v) {r : Nat} :
    Components g r ↔ ccRun (h * v) (idxPairs g (allViews (k.grid h v) c)) = .ok r := by
  have hn := (c45_index_bijection_partial hb hf).1
  unfold Components
  rw [hn]
  constructor
  · rintro ⟨es, h2, h3⟩
    rwa [(edgeIndices_iff hb hf _).1 h2, idxEdges_pairs] at h3
  · intro h
    exact ⟨_, (edgeIndices_iff hb hf _).2 rfl, by rw [idxEdges_pairs]; exact h⟩

theorem cyclic_iff (hb : Built k h v g c) (hf : k.Fits h v) {b : Bool} :
    Cyclic g b ↔ cycLoop (h * v) (idxPairs g (allViews (k.grid h v) c)) id = .ok b := by
  have hn := (c45_index_bijection_partial hb hf).1
  unfold Cyclic
  rw [hn]
  constructor
  · rintro ⟨es, h2, h3⟩
    rwa [(edgeIndices_iff hb hf _).1 h2, idxEdges_pairs] at h3
  · intro h
    exact ⟨_, (edgeIndices_iff hb hf _).2 rfl, by rw [idxEdges_pairs]; exact h⟩

theorem pairs_lt (hb : Built k h v g c) (hf : k.Fits h v) :
    ∀ e ∈ idxPairs g (allViews (k.grid h v) c), e.1 < h * v ∧ e.2 < h * v := by
  intro e he
  obtain ⟨w, hw, rfl⟩ := List.mem_map.1 he
  obtain ⟨h1, h2⟩ := allViews_nodes hw
  exact ⟨(indexed hb hf).lt h1, (indexed hb hf).lt h2⟩

theorem joined_all (hb : Built k h v g c) (hf : k.Fits h v) {a b : NodeIx} (ha : (k.grid h v).Node a) (hb' : (k.grid h v).Node b) :
    Joined (ViewIn (allViews (k.grid h v) c)) a b := by
  obtain ⟨n, hw⟩ := costWalk_exists (cost := fun _ : Ref E => 0) hb hf ha hb'
  clear hb'
  induction hw with
  | nil => exact .refl
  | @step b t n r h1 he ih =>
    have hbn := h1.node hb hf ha
    obtain ⟨d, x, hst, h2, -⟩ := (link_iff hb hf (fun _ => 0) hbn).1 ⟨r, he, rfl⟩
    refine ih.trans ?_
    cases d with
    | foward a => exact .edge ⟨⟨b, t, x, ⟨b, a⟩⟩, mem_allViews.2 ⟨hbn, hst, h2, rfl⟩, rfl, rfl⟩
    | backward a =>
      exact .symm (.edge ⟨⟨t, b, x, ⟨t, a⟩⟩, mem_allViews.2 ⟨Grid.step_node hbn hst, Grid.step_opp hbn hst, h2, rfl⟩, rfl, rfl⟩)

theorem run_spec (hb : Built k h v g c) (hf : k.Fits h v) :
    ∃ b, ccRun (h * v) (idxPairs g (allViews (k.grid h v) c)) = .ok 1 ∧
      cycLoop (h * v) (idxPairs g (allViews (k.grid h v) c)) id = .ok b ∧ (b = true ↔ HasCycle (idxPairs g (allViews (k.grid h v) c))) ∧
      (b = false ↔ total (k.grid h v) + 1 = h * v) := by
  obtain ⟨r, b, h1, h2, h3, h4, -, h5⟩ := ccRun_spec (pairs_lt hb hf)
  have hall : ∀ w ∈ allViews (k.grid h v) c, (k.grid h v).Node w.source ∧ (k.grid h v).Node w.target := fun w hw => allViews_nodes hw
  obtain ⟨l, h6, h7, h8, h9⟩ := (indexed hb hf).components (fun ha hb' => joined_idx hb hf hall ha hb') h2
  have h0 : (k.grid h v).Node ⟨0, 0⟩ := ⟨(hb.sizes hf).pos_h, (hb.sizes hf).pos_v⟩
  have hr : r = 1 := by
    rw [← h6]
    match l, h7, h8, h9 with
    | [], _, _, h9 =>
      obtain ⟨y, hy, -⟩ := h9 _ h0
      cases hy
    | [_], _, _, _ => rfl
    | x :: y :: l, h7, h8, _ =>
      exact absurd (joined_all hb hf (h7 x List.mem_cons_self) (h7 y (List.mem_cons_of_mem _ List.mem_cons_self)))
        ((List.pairwise_cons.1 h8).1 y List.mem_cons_self)
  subst hr
  obtain ⟨e1, e2, e3, -⟩ := c48_exact hb
  refine ⟨b, h1, h3, h4, ?_⟩
  rw [h5]
  unfold idxPairs
  rw [List.length_map, ← edgeKeys_length _ e3 e2, ← e1, List.length_map]

/-- **C86.** `connected_components` of every `SquareGraph` is one. -/
theorem c86_components (hb : Built k h v g c) (hf : k.Fits h v) :
    (∀ r, Components g r ↔ r = 1) ∧
    ComponentCount (k.grid h v).Node (fun u t => (k.grid h v).Node u ∧ ∃ r, EdgeTo g u r t) 1 := by
  obtain ⟨b, h1, -⟩ := run_spec hb hf
  refine ⟨fun r => ?_, [⟨0, 0⟩], rfl, ?_, List.pairwise_singleton _ _, fun x hx => ⟨_, List.mem_cons_self, ?_⟩⟩
  · rw [components_iff hb hf, h1]
    exact ⟨fun e => (Except.ok.inj e).symm, fun e => by rw [e]⟩
  · intro x hx
    cases List.mem_singleton.1 hx
    exact ⟨(hb.sizes hf).pos_h, (hb.sizes hf).pos_v⟩
  · have key : ∀ {b n}, CostWalk g (fun _ : Ref E => 0) x b n →
        Joined (fun u t => (k.grid h v).Node u ∧ ∃ r, EdgeTo g u r t) x b := fun hw => by
      induction hw with
      | nil => exact .refl
      | step h1 he ih => exact ih.trans (.edge ⟨h1.node hb hf hx, _, he⟩)
    obtain ⟨n, hw⟩ := costWalk_exists (cost := fun _ : Ref E => 0) hb hf hx (b := ⟨0, 0⟩) ⟨(hb.sizes hf).pos_h, (hb.sizes hf).pos_v⟩
    exact key hw

/-- **C86.** `is_cyclic_undirected` returns `true` exactly if some edge joins what the others join without it, that is exactly if the
graph is looped or has two rows and two columns. -/
theorem c86_cyclic (hb : Built k h v g c) (hf : k.Fits h v) :
    ∃ b, (∀ b', Cyclic g b' ↔ b' = b) ∧ (b = true ↔ EdgeCycle g) ∧
      (b = true ↔ k.loopH = true ∨ k.loopV = true ∨ (2 ≤ h ∧ 2 ≤ v)) := by
  obtain ⟨b, -, h1, h2, h3⟩ := run_spec hb hf
  refine ⟨b, fun b' => ?_, ?_, ?_⟩
  · rw [cyclic_iff hb hf, h1]
    exact ⟨fun e => (Except.ok.inj e).symm, fun e => by rw [e]⟩
  · rw [h2]
    obtain ⟨rs, h4, h5⟩ := c48_edge_references hb hf
    have sub : ∀ {l1 l2 : List (View E)} {w}, l1 ++ w :: l2 = allViews (k.grid h v) c →
        (∀ w' ∈ l1 ++ l2, (k.grid h v).Node w'.source ∧ (k.grid h v).Node w'.target) ∧ (k.grid h v).Node w.source ∧
          (k.grid h v).Node w.target := fun {l1 l2 w} e => by
      have hm : ∀ w', w' ∈ l1 ∨ w' = w ∨ w' ∈ l2 → (k.grid h v).Node w'.source ∧ (k.grid h v).Node w'.target := fun w' h =>
        allViews_nodes (c := c) (by rw [← e]; simpa using h)
      refine ⟨fun w' h => hm w' ?_, hm w (.inr (.inl rfl))⟩
      rcases List.mem_append.1 h with h | h
      · exact .inl h
      · exact .inr (.inr h)
    constructor
    · rintro ⟨l1, x, y, l2, he, hj⟩
      obtain ⟨m1, m2, e1, rfl, e2⟩ := List.map_eq_append_iff.1 he
      obtain ⟨w, m3, rfl, e3, rfl⟩ := List.map_eq_cons_iff.1 e2
      cases e3
      obtain ⟨h6, h7, h8⟩ := sub e1.symm
      refine ⟨rs, m1, w, m3, h4, by rw [hb.stores.cfg, ← e1]; exact h5, (joined_idx hb hf h6 h7 h8).1 ?_⟩
      unfold idxPairs
      rw [List.map_append]; exact hj
    · rintro ⟨rs', l1, w, l2, h6, h7, hj⟩
      rw [Yields.unique h6 h4, hb.stores.cfg, h5] at h7
      have e := (Except.ok.inj h7).symm
      obtain ⟨h8, h9, h10⟩ := sub e
      refine ⟨idxPairs g l1, nodeIdx g w.source, nodeIdx g w.target, idxPairs g l2, ?_, ?_⟩
      · rw [← e]; simp [idxPairs]
      · have := (joined_idx hb hf h8 h9 h10).2 hj
        unfold idxPairs at this ⊢
        rwa [List.map_append] at this
  · have ph : 0 < h := (hb.sizes hf).pos_h
    have pv : 0 < v := (hb.sizes hf).pos_v
    have hp : 0 < h * v := Nat.mul_pos ph pv
    have ht : total (k.grid h v) = (if k.loopH then h else h - 1) * v + h * (if k.loopV then v else v - 1) := rfl
    have key : total (k.grid h v) + 1 = h * v ↔ ¬ (k.loopH = true ∨ k.loopV = true ∨ (2 ≤ h ∧ 2 ≤ v)) := by
      rw [ht]
      cases hH : k.loopH with
      | true =>
        simp only [if_true, true_or, not_true, iff_false]
        omega
      | false =>
        cases hV : k.loopV with
        | true =>
          simp only [if_true, true_or, or_true, not_true, iff_false]
          omega
        | false =>
          simp only [Bool.false_eq_true, if_false, false_or]
          obtain ⟨a, rfl⟩ : ∃ a, h = a + 1 := ⟨h - 1, by omega⟩
          obtain ⟨d, rfl⟩ : ∃ d, v = d + 1 := ⟨v - 1, by omega⟩
          simp only [Nat.add_sub_cancel, Nat.add_mul, Nat.mul_add, Nat.one_mul, Nat.mul_one]
          have := Nat.mul_eq_zero (m := d) (n := a)
          by_cases h0 : a * d = 0
          · have h1 := this.1 h0
            rw [h0]
            constructor <;> intro <;> omega
          · have h1 : a ≠ 0 ∧ d ≠ 0 := ⟨fun e => h0 (this.2 (.inl e)), fun e => h0 (this.2 (.inr e))⟩
            constructor
            · intro; omega
            · intro hc; exact absurd ⟨by omega, by omega⟩ hc
    rw [key] at h3
    cases b with
    | true =>
      refine ⟨fun _ => Classical.byContradiction fun hc => Bool.noConfusion (h3.2 hc), fun _ => rfl⟩
    | false => exact ⟨fun e => Bool.noConfusion e, fun hc => absurd hc (h3.1 rfl)⟩
end

/-- the 3 × 2 graph looped horizontally -/
example : ∃ (g : G Nat Nat) (m : Mat), Floyd g (fun w => w) m ∧ Components g 1 ∧ Cyclic g true := by
  obtain ⟨g, c, hb, -⟩ := exGraph exCfg (by decide)
  have hf : exCfg.Fits 3 2 := ⟨by decide, by decide⟩
  obtain ⟨m, hm⟩ := (c86_floyd_warshall hb hf (fun w => w)).1
  obtain ⟨b, h1, -, h2⟩ := c86_cyclic hb hf
  exact ⟨g, m, hm, ((c86_components hb hf).1 1).2 rfl, (h1 true).2 (h2.2 (.inl rfl)).symm⟩
end LG.Sq
