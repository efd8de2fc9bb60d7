import Verif.Props.Filtered
import Verif.Props.LegacyAstar
import Verif.Props.LegacyScc
/- C106 on the deprecated `SquareGraph`. -/
set_option linter.unusedSectionVars false
namespace LG.Sq
section
variable {N E : Type} {g : G N E} {k : Cfg} {h v : Nat} {c : Contents NodeIx Axis N E}

/-- Walks along `neighbors` that leave and enter open cells only. -/
inductive OpenWalk (g : G N E) (f : NodeIx → Bool) (a : NodeIx) : NodeIx → Prop where
  | nil : OpenWalk g f a a
  | step {x y : NodeIx} : OpenWalk g f a x → f x = true → Walk g x 1 y → f y = true → OpenWalk g f a y

/-- **C106** for the deprecated graph: what `NodeFiltered` iterates over. -/
theorem c106_legacy_lists (hb : Built k h v g c) (hf : k.Fits h v) (f : NodeIx → Bool) :
    (∀ l, (g.nodeFiltered f).nodeIds l ↔ l = (k.grid h v).nodes.filter f) ∧
    ∀ x, (k.grid h v).Node x → (∀ l, (g.nodeFiltered f).neighbors x l ↔ l = if f x then ((k.grid h v).nbrs x).filter f else []) ∧
      ∀ l, (g.nodeFiltered f).incoming x l ↔ l = if f x then ((k.grid h v).nbrs x).filter f else [] :=
  have hT := roams hb hf
  have hm : ∀ {n}, (k.grid h v).Node n → n ∈ (k.grid h v).nodes := fun {n} => ((c45_nodes_exact _).2.1 n).2
  ⟨fun _ => filters_iff hT.ids fun _ _ => rfl, fun _ hc => ⟨fun _ => openNeighbors_iff (hT.neighbors (hm hc)),
    fun _ => openNeighbors_iff (hT.incoming (hm hc))⟩⟩

theorem roamsOpen (hb : Built k h v g c) (hf : k.Fits h v) (f : NodeIx → Bool) :
    Roams (g.nodeFiltered f) ((k.grid h v).nodes.filter f) (fun x => (k.grid h v).Node x ∧ f x = true)
      (fun x => ((k.grid h v).nbrs x).filter f)
      (fun m S => (VisIs m (k.grid h v) S ∧ ∀ x, S x = true → (k.grid h v).Node x) ∧ ∀ x, S x = true → f x = true) := by
  have hm : ∀ {n}, n ∈ (k.grid h v).nodes → (k.grid h v).Node n := fun {n} => ((c45_nodes_exact _).2.1 n).1
  obtain ⟨h1, h2⟩ := c106_legacy_lists hb hf f
  exact (roams hb hf).opened f rfl rfl rfl rfl (fun hc => ((h2 _ (hm hc)).1 _).2 rfl)
    (fun hc => ((h2 _ (hm hc)).2 _).2 rfl) (fun h h' => OpenNeighbors.unique h h')
    (fun h h' => OpenNeighbors.unique h h') ((h1 _).2 rfl) (fun h h' => Filters.unique h h')

theorem walk_one (hb : Built k h v g c) (hf : k.Fits h v) {a b : NodeIx} (ha : (k.grid h v).Node a) :
    Walk g a 1 b ↔ b ∈ (k.grid h v).nbrs a := by
  constructor
  · intro hw
    cases hw with
    | step hw hl hy =>
      cases hw
      rwa [Yields.unique hl (nbrs_at hb hf ha)] at hy
  · exact fun hy => .step .nil (nbrs_at hb hf ha) hy

theorem OpenWalk.node (hb : Built k h v g c) (hf : k.Fits h v) {f : NodeIx → Bool} {a b : NodeIx} (ha : (k.grid h v).Node a)
    (hw : OpenWalk g f a b) : (k.grid h v).Node b := by
  induction hw with
  | nil => exact ha
  | step _ _ h1 _ ih => exact (c46_neighbors_nodes _ ih ((walk_one hb hf ih).1 h1)).1

theorem reached_open (hb : Built k h v g c) (hf : k.Fits h v) {f : NodeIx → Bool} {a b : NodeIx} (ha : (k.grid h v).Node a)
    (hfa : f a = true) :
    Reached (within ((k.grid h v).nodes.filter f) fun x => ((k.grid h v).nbrs x).filter f) a b ↔ OpenWalk g f a b := by
  constructor
  · intro h
    have key : OpenWalk g f a b ∧ f b = true := by
      induction h with
      | refl => exact ⟨.nil, hfa⟩
      | step _ hy ih =>
        obtain ⟨h3, h4⟩ := List.mem_filter.1 (mem_within.1 hy).1
        exact ⟨.step ih.1 ih.2 ((walk_one hb hf (ih.1.node hb hf ha)).2 h3) h4, h4⟩
    exact key.1
  · intro h
    induction h with
    | nil => exact .refl
    | step h0 hx h1 hy ih =>
      have hxn := h0.node hb hf ha
      have h2 := (walk_one hb hf hxn).1 h1
      have hyn := ((c45_nodes_exact _).2.1 _).2 (c46_neighbors_nodes _ hxn h2).1
      exact ih.step (mem_within.2 ⟨List.mem_filter.2 ⟨h2, hy⟩, List.mem_filter.2 ⟨hyn, hy⟩⟩)

/-- **C106** for the deprecated graph: `has_path_connecting` on the filtered graph. -/
theorem c106_legacy_has_path (hb : Built k h v g c) (hf : k.Fits h v) (f : NodeIx → Bool) {a : NodeIx} (ha : (k.grid h v).Node a)
    (b : NodeIx) (r : Bool) : HasPath (g.nodeFiltered f) a b r ↔ (r = true ↔ OpenWalk g f a b) := by
  have hm := ((c45_nodes_exact _).2.1 a).2 ha
  cases hfa : f a with
  | true => rw [hasPath_spec (roamsOpen hb hf f) (List.mem_filter.2 ⟨hm, hfa⟩), reached_open hb hf ha hfa]
  | false =>
    rw [hasPath_alone (T' := g.nodeFiltered f) (roams hb hf) rfl rfl rfl hm fun {l} => by
      rw [((c106_legacy_lists hb hf f).2 a ha).1 l, hfa]; rfl]
    have : OpenWalk g f a b ↔ b = a := by
      constructor
      · intro h
        induction h with
        | nil => rfl
        | step _ hx _ _ ih => rw [ih, hfa] at hx; cases hx
      · rintro rfl; exact .nil
    rw [this]

theorem OpenWalk.symm (hb : Built k h v g c) (hf : k.Fits h v) {f : NodeIx → Bool} {a b : NodeIx} (ha : (k.grid h v).Node a)
    (h : OpenWalk g f a b) : OpenWalk g f b a := by
  have trans : ∀ {x y z : NodeIx}, OpenWalk g f x y → OpenWalk g f y z → OpenWalk g f x z := by
    intro x y z h1 h2
    induction h2 with
    | nil => exact h1
    | step _ h3 h4 h5 ih => exact .step ih h3 h4 h5
  induction h with
  | nil => exact .nil
  | @step x y h0 hx h1 hy ih =>
    have hxn := h0.node hb hf ha
    have h2 := c46_neighbors_nodes _ hxn ((walk_one hb hf hxn).1 h1)
    exact trans (.step .nil hy ((walk_one hb hf h2.1).2 h2.2) hx) ih

/-- **C106** for the deprecated graph: the regions of a map. -/
theorem c106_legacy_regions (hb : Built k h v g c) (hf : k.Fits h v) (f : NodeIx → Bool) :
    ∃ gs, (∀ gs', Kosaraju (g.nodeFiltered f) gs' ↔ gs' = gs) ∧ gs.flatten.Nodup ∧
      (∀ x, x ∈ gs.flatten ↔ (k.grid h v).Node x ∧ f x = true) ∧
      ∀ a b, (k.grid h v).Node a → f a = true → ((∃ l ∈ gs, a ∈ l ∧ b ∈ l) ↔ OpenWalk g f a b) := by
  obtain ⟨gs, k1, k2, k3, k4, -, k6⟩ := kosaraju_spec (roamsOpen hb hf f)
  have hmem : ∀ {x}, x ∈ (k.grid h v).nodes.filter f ↔ (k.grid h v).Node x ∧ f x = true := fun {x} => by
    rw [List.mem_filter, (c45_nodes_exact _).2.1 x]
  have k3' : ∀ x, x ∈ gs.flatten ↔ (k.grid h v).Node x ∧ f x = true := fun x => by rw [k3, hmem]
  have hopen : ∀ {a b}, (k.grid h v).Node a → f a = true → OpenWalk g f a b → (k.grid h v).Node b ∧ f b = true := fun ha hfa h =>
    ⟨h.node hb hf ha, by cases h <;> assumption⟩
  have hr := k6.2 fun a ha b hab => by
    obtain ⟨h1, h2⟩ := hmem.1 ha
    have hw := (reached_open hb hf h1 h2).1 hab
    obtain ⟨h3, h4⟩ := hopen h1 h2 hw
    exact (reached_open hb hf h3 h4).2 (hw.symm hb hf h1)
  refine ⟨gs, k1, k2, k3', fun a b ha hfa => ⟨fun ⟨l, hl, hal, hbl⟩ => ?_, fun h => ?_⟩⟩
  · have hbn := (k3' b).1 (List.mem_flatten.2 ⟨l, hl, hbl⟩)
    exact (reached_open hb hf ha hfa).1 ((hr a (hmem.2 ⟨ha, hfa⟩) b (hmem.2 hbn)).1 ⟨l, hl, hal, hbl⟩).1
  · obtain ⟨h1, h2⟩ := hopen ha hfa h
    exact (hr a (hmem.2 ⟨ha, hfa⟩) b (hmem.2 ⟨h1, h2⟩)).2 ⟨(reached_open hb hf ha hfa).2 h, (reached_open hb hf h1 h2).2 (h.symm hb hf ha)⟩

/-! ### Paths -/

theorem mapM_sub {cost : Ref E → Nat} (hb : Built k h v g c) (hf : k.Fits h v) {x : NodeIx} (hx : (k.grid h v).Node x) (q : Ref E → Bool) :
    ((outRefs k (k.grid h v) c x).filter q).mapM (fun r => do return (← r.target k, cost r)) =
      (.ok (((outRefs k (k.grid h v) c x).filter q).map fun r => (tg k r, cost r)) : Res _) :=
  mapM_target _ fun _ hr => (outRefs_target hb hf hx (List.mem_filter.1 hr).1).1

theorem openEdges_iff (hb : Built k h v g c) (hf : k.Fits h v) (f : NodeIx → Bool) (cost : Ref E → Nat) {x : NodeIx}
    (hx : (k.grid h v).Node x) {l : List (NodeIx × Nat)} : openEdges g f cost x l ↔
      l = ((outRefs k (k.grid h v) c x).filter fun r => f x && f (tg k r)).map fun r => (tg k r, cost r) := by
  have hy := outRefs_yields hb hf hx
  have hm := mapM_sub (cost := cost) hb hf hx fun r => f x && f (tg k r)
  have hi : ∀ rs, (if f x then Filters (EdgesOf.next g) (fun r => do return f (← r.target k)) (g.edges x) rs else rs = []) ↔
      rs = (outRefs k (k.grid h v) c x).filter fun r => f x && f (tg k r) := fun rs => by
    cases hfx : f x with
    | true =>
      simp only [if_true, Bool.true_and]
      exact filters_iff hy fun r hr => by rw [(outRefs_target hb hf hx hr).1]; rfl
    | false =>
      have : (outRefs k (k.grid h v) c x).filter (fun r => false && f (tg k r)) = [] := List.filter_eq_nil_iff.2 (by simp)
      rw [this]; simp
  unfold openEdges
  rw [hb.stores.cfg]
  constructor
  · rintro ⟨rs, h1, h2⟩
    rw [(hi rs).1 h1, hm] at h2
    cases h2; rfl
  · rintro rfl
    exact ⟨_, (hi _).2 rfl, hm⟩

theorem keptEdges_iff (hb : Built k h v g c) (hf : k.Fits h v) (p : Ref E → Bool) (cost : Ref E → Nat) {x : NodeIx}
    (hx : (k.grid h v).Node x) {l : List (NodeIx × Nat)} : keptEdges g p cost x l ↔
      l = ((outRefs k (k.grid h v) c x).filter p).map fun r => (tg k r, cost r) := by
  have hy := outRefs_yields hb hf hx
  have hm := mapM_sub (cost := cost) hb hf hx p
  unfold keptEdges
  rw [hb.stores.cfg]
  constructor
  · rintro ⟨rs, h1, h2⟩
    rw [(filters_iff hy fun _ _ => rfl).1 h1, hm] at h2
    cases h2; rfl
  · rintro rfl
    exact ⟨_, (filters_iff hy fun _ _ => rfl).2 rfl, hm⟩

theorem outRefs_filter_node (hb : Built k h v g c) (hf : k.Fits h v) (p : Ref E → Bool) (cost : Ref E → Nat) {x : NodeIx}
    (hx : (k.grid h v).Node x) :
    ∀ e ∈ ((outRefs k (k.grid h v) c x).filter p).map fun r => (tg k r, cost r), (k.grid h v).Node e.1 := by
  intro e he
  obtain ⟨r, hr, rfl⟩ := List.mem_map.1 he
  exact tg_node hb hf hx (List.mem_filter.1 hr).1

/-- **C106** for the deprecated graph: `astar` on a map with obstacles. -/
theorem c106_legacy_astar (hb : Built k h v g c) (hf : k.Fits h v) (f : NodeIx → Bool) (cost : Ref E → Nat) {a : NodeIx}
    (ha : (k.grid h v).Node a) (est : NodeIx → Nat) (goal : NodeIx → Bool) : AstarRight (openEdges g f cost)
      (fun u t w => f u = true ∧ f t = true ∧ ∃ r, EdgeTo g u r t ∧ cost r = w) (k.grid h v).Node est goal a := by
  have hex : ∀ x l, (k.grid h v).Node x → (openEdges g f cost x l ↔ _) := fun x l hx => openEdges_iff hb hf f cost hx
  refine astarRight (.of_list hex (fun x hx => outRefs_filter_node hb hf _ cost hx) fun x hx => ((c45_nodes_exact _).2.1 x).2 hx)
    (fun u t w hu => ?_) ha est goal
  rw [leads_of_list hex hu, List.mem_map]
  constructor
  · rintro ⟨r, hr, e⟩
    cases e
    obtain ⟨h1, h2⟩ := List.mem_filter.1 hr
    rw [Bool.and_eq_true] at h2
    exact ⟨h2.1, h2.2, r, (edgeTo_iff hb hf hu).2 ⟨h1, rfl⟩, rfl⟩
  · rintro ⟨h1, h2, r, h3, rfl⟩
    obtain ⟨h4, rfl⟩ := (edgeTo_iff hb hf hu).1 h3
    exact ⟨r, List.mem_filter.2 ⟨h4, by rw [h1, h2]; rfl⟩, rfl⟩

/-- **C106** for the deprecated graph: `astar` on a map some edges of which may not be used. -/
theorem c106_legacy_astar_edges (hb : Built k h v g c) (hf : k.Fits h v) (p : Ref E → Bool) (cost : Ref E → Nat) {a : NodeIx}
    (ha : (k.grid h v).Node a) (est : NodeIx → Nat) (goal : NodeIx → Bool) : AstarRight (keptEdges g p cost)
      (fun u t w => ∃ r, EdgeTo g u r t ∧ p r = true ∧ cost r = w) (k.grid h v).Node est goal a := by
  have hex : ∀ x l, (k.grid h v).Node x → (keptEdges g p cost x l ↔ _) := fun x l hx => keptEdges_iff hb hf p cost hx
  refine astarRight (.of_list hex (fun x hx => outRefs_filter_node hb hf _ cost hx) fun x hx => ((c45_nodes_exact _).2.1 x).2 hx)
    (fun u t w hu => ?_) ha est goal
  rw [leads_of_list hex hu, List.mem_map]
  constructor
  · rintro ⟨r, hr, e⟩
    cases e
    obtain ⟨h1, h2⟩ := List.mem_filter.1 hr
    exact ⟨r, (edgeTo_iff hb hf hu).2 ⟨h1, rfl⟩, h2, rfl⟩
  · rintro ⟨r, h3, h1, rfl⟩
    obtain ⟨h4, rfl⟩ := (edgeTo_iff hb hf hu).1 h3
    exact ⟨r, List.mem_filter.2 ⟨h4, h1⟩, rfl⟩
end

/-- The looped 3 × 2 graph: with one cell blocked, (0,0) has two neighbours left, one of them behind it; with a wall there is still
a way around it, over the border, for `has_path_connecting` and for `astar`; with two walls there is none. -/
example : ∃ (g : G Nat Nat) (c : Contents NodeIx Axis Nat Nat), Built exCfg 3 2 g c ∧
    (∃ l, (g.nodeFiltered fun x => decide (x ≠ ⟨1, 0⟩)).neighbors ⟨0, 0⟩ l ∧ l.length = 2) ∧
    HasPath (g.nodeFiltered fun x => decide (x.horizontal ≠ 1)) ⟨0, 0⟩ ⟨2, 0⟩ true ∧
    HasPath (g.nodeFiltered fun x => decide (x.horizontal = 0)) ⟨0, 0⟩ ⟨2, 0⟩ false ∧
    (∃ gs, Kosaraju (g.nodeFiltered fun x => decide (x.horizontal ≠ 1)) gs ∧ ∃ l ∈ gs, (⟨0, 0⟩ : NodeIx) ∈ l ∧ ⟨2, 0⟩ ∈ l) ∧
    (∃ n p, AstOutcome (openEdges g (fun x => decide (x.horizontal ≠ 1)) fun _ => 1) (fun _ => 0) (fun x => decide (x = ⟨2, 0⟩))
      ⟨0, 0⟩ (some (n, p))) ∧
    AstOutcome (keptEdges g (fun _ => false) fun _ => 1) (fun _ => 0) (fun x => decide (x = ⟨2, 0⟩)) ⟨0, 0⟩ none := by
  obtain ⟨g, c, hb, _⟩ := exGraph exCfg (by decide)
  have hf : exCfg.Fits 3 2 := ⟨by decide, by decide⟩
  have h0 : (exCfg.grid 3 2).Node ⟨0, 0⟩ := ⟨by decide, by decide⟩
  have h2 : (⟨2, 0⟩ : NodeIx) ∈ (exCfg.grid 3 2).nbrs ⟨0, 0⟩ := by decide
  have hw : OpenWalk g (fun x => decide (x.horizontal ≠ 1)) ⟨0, 0⟩ ⟨2, 0⟩ := .step .nil (by decide) ((walk_one hb hf h0).2 h2) (by decide)
  refine ⟨g, c, hb, ⟨_, (((c106_legacy_lists hb hf _).2 _ h0).1 _).2 rfl, by decide⟩, (c106_legacy_has_path hb hf _ h0 _ _).2 (iff_of_true rfl hw),
    (c106_legacy_has_path hb hf _ h0 _ _).2 (iff_of_false (by decide) fun h => ?_), ?_, ?_, ?_⟩
  · cases h with
    | step _ _ _ h => cases h
  · obtain ⟨gs, k1, -, -, k4⟩ := c106_legacy_regions hb hf fun x => decide (x.horizontal ≠ 1)
    exact ⟨gs, (k1 gs).2 rfl, (k4 _ _ h0 (by decide)).2 hw⟩
  · have hr := c106_legacy_astar hb hf (fun x => decide (x.horizontal ≠ 1)) (fun _ => 1) h0 (fun _ => 0) (fun x => decide (x = ⟨2, 0⟩))
    obtain ⟨st, o, k1, k2⟩ := hr.completes _ .nil
    have ho : AstOutcome _ _ _ _ o := ⟨st, k1, k2⟩
    match o, ho with
    | none, ho =>
      obtain ⟨d, hd⟩ : ∃ d, (exCfg.grid 3 2).step ⟨0, 0⟩ d = some ⟨2, 0⟩ := ⟨.backward .horizontal, by decide⟩
      obtain ⟨r, h1, h3⟩ := unit_link hb hf h0 hd
      exact absurd (LinkWalk.cons ⟨by decide, by decide, r, h1, h3⟩ .nil) ((hr.none_iff _ ho).1 rfl ⟨2, 0⟩ (1 + 0) (by decide))
    | some (n, p), ho => exact ⟨n, p, ho⟩
  · have hr := c106_legacy_astar_edges hb hf (fun _ => false) (fun _ => 1) h0 (fun _ => 0) (fun x => decide (x = ⟨2, 0⟩))
    obtain ⟨st, o, k1, k2⟩ := hr.completes _ .nil
    have ho : AstOutcome _ _ _ _ o := ⟨st, k1, k2⟩
    cases (hr.none_iff _ ho).2 fun t n ht hw => by
      cases hw with
      | nil => exact absurd ht (by decide)
      | cons e _ => obtain ⟨_, -, e, -⟩ := e; cases e
    exact ho

end LG.Sq
