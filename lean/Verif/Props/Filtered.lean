import Verif.Props.Astar
import Verif.Props.Scc
import Verif.Lemmas.Filtered
/- C106: maps with obstacles. -/
set_option linter.unusedSectionVars false
namespace LG
section
variable {C A D N E : Type} [DecidableEq C] [DecidableEq A] [DecidableEq D]
variable {s : Shape C A D} {L : Lat C A D} {rep : C → Prop} {g : Graph C A D N E} {k : Contents C A N E}

/-- Walks along `neighbors` that leave and enter open cells only. -/
inductive OpenWalk (g : Graph C A D N E) (f : C → Bool) (a : C) : C → Prop where
  | nil : OpenWalk g f a a
  | step {x y : C} : OpenWalk g f a x → f x = true → InWalk g.s x 1 y → f y = true → OpenWalk g f a y

/-- **C106.** What `NodeFiltered` iterates over: the nodes that are not blocked, in order; around a blocked node nothing, and
otherwise the neighbours that are not blocked, in order, whatever the direction asked for. -/
theorem c106_lists (hs : Searchable s L rep) (hb : Built s L g k) (f : C → Bool) :
    (∀ l, (g.nodeFiltered f).nodeIds l ↔ l = L.nodes.filter f) ∧
    ∀ c, L.Node c → (∀ l, (g.nodeFiltered f).neighbors c l ↔ l = if f c then (L.nbrs c).filter f else []) ∧
      ∀ l, (g.nodeFiltered f).incoming c l ↔ l = if f c then (L.nbrs c).filter f else [] :=
  have hT := hs.roams hb
  ⟨fun _ => filters_iff hT.ids fun _ _ => rfl, fun _ hc => ⟨fun _ => openNeighbors_iff (hT.neighbors (Lat.mem_nodes.2 hc)),
    fun _ => openNeighbors_iff (hT.incoming (Lat.mem_nodes.2 hc))⟩⟩

theorem Searchable.roamsOpen (hs : Searchable s L rep) (hb : Built s L g k) (f : C → Bool) :
    Roams (g.nodeFiltered f) (L.nodes.filter f) (fun c => (L.Node c ∨ rep c) ∧ f c = true) (fun c => (L.nbrs c).filter f)
      (fun m S => VisInv s L m S ∧ ∀ c, S c = true → f c = true) := by
  obtain ⟨h1, h2⟩ := c106_lists hs hb f
  exact (hs.roams hb).opened f rfl rfl rfl rfl (fun hc => ((h2 _ (Lat.mem_nodes.1 hc)).1 _).2 rfl)
    (fun hc => ((h2 _ (Lat.mem_nodes.1 hc)).2 _).2 rfl) (fun h h' => OpenNeighbors.unique h h')
    (fun h h' => OpenNeighbors.unique h h') ((h1 _).2 rfl) (fun h h' => Filters.unique h h')

theorem inWalk_one (hs : Searchable s L rep) (hb : Built s L g k) {a b : C} (ha : L.Node a) :
    InWalk g.s a 1 b ↔ b ∈ within L.nodes L.nbrs a := by
  rw [inWalk_iff hs hb ha, mem_within]
  constructor
  · intro h
    cases h with
    | @step _ x _ d hp hd =>
      cases hp
      obtain ⟨q1, q2⟩ := inner_nbr.1 hd
      exact ⟨List.mem_filterMap.2 ⟨d, hs.base.dir.dirs_mem _, q1⟩, Lat.mem_nodes.2 q2⟩
  · rintro ⟨q1, q2⟩
    obtain ⟨d, -, hd⟩ := List.mem_filterMap.1 q1
    exact .step .nil (inner_nbr.2 ⟨hd, Lat.mem_nodes.1 q2⟩)

theorem OpenWalk.node (hs : Searchable s L rep) (hb : Built s L g k) {f : C → Bool} {a b : C} (ha : L.Node a)
    (h : OpenWalk g f a b) : L.Node b := by
  induction h with
  | nil => exact ha
  | step _ _ h1 _ ih => exact Lat.mem_nodes.1 (mem_within.1 ((inWalk_one hs hb ih).1 h1)).2

theorem reached_open (hs : Searchable s L rep) (hb : Built s L g k) {f : C → Bool} {a b : C} (ha : L.Node a) (hf : f a = true) :
    Reached (within (L.nodes.filter f) fun c => (L.nbrs c).filter f) a b ↔ OpenWalk g f a b := by
  constructor
  · intro h
    have key : OpenWalk g f a b ∧ f b = true := by
      induction h with
      | refl => exact ⟨.nil, hf⟩
      | step _ hy ih =>
        obtain ⟨h1, h2⟩ := mem_within.1 hy
        obtain ⟨h3, h4⟩ := List.mem_filter.1 h1
        exact ⟨.step ih.1 ih.2 ((inWalk_one hs hb (ih.1.node hs hb ha)).2 (mem_within.2 ⟨h3, (List.mem_filter.1 h2).1⟩)) h4, h4⟩
    exact key.1
  · intro h
    induction h with
    | nil => exact .refl
    | step h0 hx h1 hy ih =>
      obtain ⟨h2, h3⟩ := mem_within.1 ((inWalk_one hs hb (h0.node hs hb ha)).1 h1)
      exact ih.step (mem_within.2 ⟨List.mem_filter.2 ⟨h2, hy⟩, List.mem_filter.2 ⟨h3, hy⟩⟩)

/-- **C106.** `has_path_connecting` on the filtered graph ends without a fault and tells whether open cells lead there, for
all shapes. -/
theorem c106_has_path (hs : Searchable s L rep) (hb : Built s L g k) (f : C → Bool) {a : C} (ha : L.Node a) (b : C) (r : Bool) :
    HasPath (g.nodeFiltered f) a b r ↔ (r = true ↔ OpenWalk g f a b) := by
  cases hf : f a with
  | true =>
    rw [hasPath_spec (hs.roamsOpen hb f) (List.mem_filter.2 ⟨Lat.mem_nodes.2 ha, hf⟩), reached_open hs hb ha hf]
  | false =>
    rw [hasPath_alone (T' := g.nodeFiltered f) (hs.roams hb) rfl rfl rfl (Lat.mem_nodes.2 ha) fun {l} => by
      rw [((c106_lists hs hb f).2 a ha).1 l, hf]; rfl]
    have : OpenWalk g f a b ↔ b = a := by
      constructor
      · intro h
        induction h with
        | nil => rfl
        | step _ hx _ _ ih => rw [ih, hf] at hx; cases hx
      · rintro rfl; exact .nil
    rw [this]

theorem OpenWalk.symm (hs : Lawful s L rep) (hb : Built s L g k) {f : C → Bool} {a b : C} (ha : L.Node a)
    (h : OpenWalk g f a b) : OpenWalk g f b a := by
  have hs' := hs.searchable
  have trans : ∀ {x y z : C}, OpenWalk g f x y → OpenWalk g f y z → OpenWalk g f x z := by
    intro x y z h1 h2
    induction h2 with
    | nil => exact h1
    | step _ h3 h4 h5 ih => exact .step ih h3 h4 h5
  induction h with
  | nil => exact .nil
  | @step x y h0 hx h1 hy ih =>
    have hxn := h0.node hs' hb ha
    obtain ⟨h2, h3⟩ := mem_within.1 ((inWalk_one hs' hb hxn).1 h1)
    obtain ⟨d, -, hd⟩ := List.mem_filterMap.1 h2
    have hyn := Lat.mem_nodes.1 h3
    have hback : InWalk g.s y 1 x := (inWalk_one hs' hb hyn).2
      (mem_within.2 ⟨List.mem_filterMap.2 ⟨_, hs.laws.dir.dirs_mem _, hs.laws.nbr_opp hxn hd⟩, Lat.mem_nodes.2 hxn⟩)
    exact trans (.step .nil hy hback hx) ih

/-- **C106.** `kosaraju_scc` on the filtered graph finds the regions of a map: each open node is in exactly one group, and two are in
the same one exactly if open cells lead from one to the other. -/
theorem c106_regions (hs : Lawful s L rep) (hb : Built s L g k) (f : C → Bool) :
    ∃ gs, (∀ gs', Kosaraju (g.nodeFiltered f) gs' ↔ gs' = gs) ∧ gs.flatten.Nodup ∧ (∀ c, c ∈ gs.flatten ↔ L.Node c ∧ f c = true) ∧
      ∀ a b, L.Node a → f a = true → ((∃ l ∈ gs, a ∈ l ∧ b ∈ l) ↔ OpenWalk g f a b) := by
  have hs' := hs.searchable
  obtain ⟨gs, k1, k2, k3, k4, -, k6⟩ := kosaraju_spec (hs'.roamsOpen hb f)
  have k3' : ∀ c, c ∈ gs.flatten ↔ L.Node c ∧ f c = true := fun c => by rw [k3, List.mem_filter, Lat.mem_nodes]
  have hopen : ∀ {a b}, L.Node a → f a = true → OpenWalk g f a b → L.Node b ∧ f b = true := fun ha hf h =>
    ⟨h.node hs' hb ha, by cases h <;> assumption⟩
  have hr := k6.2 fun a ha b hab => by
    obtain ⟨h1, h2⟩ := List.mem_filter.1 ha
    have h1 := Lat.mem_nodes.1 h1
    have hw := (reached_open hs' hb h1 h2).1 hab
    obtain ⟨h3, h4⟩ := hopen h1 h2 hw
    exact (reached_open hs' hb h3 h4).2 (hw.symm hs hb h1)
  have hmem : ∀ {c}, c ∈ L.nodes.filter f ↔ L.Node c ∧ f c = true := fun {c} => by rw [List.mem_filter, Lat.mem_nodes]
  refine ⟨gs, k1, k2, k3', fun a b ha hf => ⟨fun ⟨l, hl, hal, hbl⟩ => ?_, fun h => ?_⟩⟩
  · have hbn := (k3' b).1 (List.mem_flatten.2 ⟨l, hl, hbl⟩)
    exact (reached_open hs' hb ha hf).1 ((hr a (hmem.2 ⟨ha, hf⟩) b (hmem.2 hbn)).1 ⟨l, hl, hal, hbl⟩).1
  · obtain ⟨h1, h2⟩ := hopen ha hf h
    exact (hr a (hmem.2 ⟨ha, hf⟩) b (hmem.2 ⟨h1, h2⟩)).2 ⟨(reached_open hs' hb ha hf).2 h, (reached_open hs' hb h1 h2).2 (h.symm hs hb ha)⟩

/-! ### Paths -/

/-- What `edges` of `NodeFiltered` yields. -/
theorem openEdges_iff (hs : Lawful s L rep) (hb : Built s L g k) (f : C → Bool) (cost : EdgeRef C D E → Nat) {c : C} (hc : L.Node c)
    {l : List (C × Nat)} : openEdges g f cost c l ↔
      l = ((outEdges L k c).filter fun r => f c && f r.target).map fun r => (r.target, cost r) := by
  obtain ⟨it, h1, h2⟩ := c58_edges_partial hs.storable hb hc (hs.readable hc)
  have hi : ∀ rs, (if f c then Filters (edgesNext g) (fun r => .ok (f r.target)) it rs else rs = []) ↔
      rs = (outEdges L k c).filter fun r => f c && f r.target := fun rs => by
    cases hf : f c with
    | true => simp only [if_true, Bool.true_and]; exact filters_iff h2 fun _ _ => rfl
    | false =>
      have : (outEdges L k c).filter (fun r => false && f r.target) = [] := List.filter_eq_nil_iff.2 (by simp)
      rw [this]; simp
  constructor
  · rintro ⟨it', rs, h3, h4, rfl⟩
    rw [h1] at h3; cases h3
    rw [(hi rs).1 h4]
  · rintro rfl
    exact ⟨it, _, h1, (hi _).2 rfl, rfl⟩

/-- What `edges` of `EdgeFiltered` yields. -/
theorem keptEdges_iff (hs : Lawful s L rep) (hb : Built s L g k) (p : EdgeRef C D E → Bool) (cost : EdgeRef C D E → Nat) {c : C}
    (hc : L.Node c) {l : List (C × Nat)} : keptEdges g p cost c l ↔ l = ((outEdges L k c).filter p).map fun r => (r.target, cost r) := by
  obtain ⟨it, h1, h2⟩ := c58_edges_partial hs.storable hb hc (hs.readable hc)
  constructor
  · rintro ⟨it', rs, h3, h4, rfl⟩
    rw [h1] at h3; cases h3
    rw [(filters_iff h2 fun _ _ => rfl).1 h4]
  · rintro rfl
    exact ⟨it, _, h1, (filters_iff h2 fun _ _ => rfl).2 rfl, rfl⟩

theorem outEdges_filter_node (hs : Lawful s L rep) (hb : Built s L g k) (p : EdgeRef C D E → Bool) (cost : EdgeRef C D E → Nat) {c : C}
    (hc : L.Node c) : ∀ e ∈ ((outEdges L k c).filter p).map fun r => (r.target, cost r), L.Node e.1 := by
  intro e he
  obtain ⟨r, hr, rfl⟩ := List.mem_map.1 he
  exact hs.laws.nbr_node hc (c10_edge_exact hs hb hc (List.mem_filter.1 hr).1).2.1

/-- **C106.** `astar` on a map with obstacles: it ends, without a fault; `None` exactly if no goal can be walked to through open
cells; otherwise a path through open cells, of least cost if the estimate never exceeds the cost of a walk to a goal. -/
theorem c106_astar (hs : Lawful s L rep) (hb : Built s L g k) (f : C → Bool) (cost : EdgeRef C D E → Nat) {a : C} (ha : L.Node a)
    (h : C → Nat) (goal : C → Bool) : AstarRight (openEdges g f cost)
      (fun u t w => f u = true ∧ f t = true ∧ ∃ r, EdgeOf g u r ∧ r.target = t ∧ cost r = w) L.Node h goal a := by
  have hex : ∀ c l, L.Node c → (openEdges g f cost c l ↔ _) := fun c l hc => openEdges_iff hs hb f cost hc
  refine astarRight (.of_list hex (fun c hc => outEdges_filter_node hs hb _ cost hc) fun c hc => Lat.mem_nodes.2 hc)
    (fun u t w hu => ?_) ha h goal
  rw [leads_of_list hex hu, List.mem_map]
  constructor
  · rintro ⟨r, hr, e⟩
    cases e
    obtain ⟨h1, h2⟩ := List.mem_filter.1 hr
    rw [Bool.and_eq_true] at h2
    exact ⟨h2.1, h2.2, r, (edgeOf_iff hs hb hu).2 h1, rfl, rfl⟩
  · rintro ⟨h1, h2, r, h3, rfl, rfl⟩
    exact ⟨r, List.mem_filter.2 ⟨(edgeOf_iff hs hb hu).1 h3, by rw [h1, h2]; rfl⟩, rfl⟩

/-- **C106.** `astar` on a map some edges of which may not be used, each direction of an edge being asked about by itself. -/
theorem c106_astar_edges (hs : Lawful s L rep) (hb : Built s L g k) (p : EdgeRef C D E → Bool) (cost : EdgeRef C D E → Nat) {a : C}
    (ha : L.Node a) (h : C → Nat) (goal : C → Bool) : AstarRight (keptEdges g p cost)
      (fun u t w => ∃ r, EdgeOf g u r ∧ p r = true ∧ r.target = t ∧ cost r = w) L.Node h goal a := by
  have hex : ∀ c l, L.Node c → (keptEdges g p cost c l ↔ _) := fun c l hc => keptEdges_iff hs hb p cost hc
  refine astarRight (.of_list hex (fun c hc => outEdges_filter_node hs hb _ cost hc) fun c hc => Lat.mem_nodes.2 hc)
    (fun u t w hu => ?_) ha h goal
  rw [leads_of_list hex hu, List.mem_map]
  constructor
  · rintro ⟨r, hr, e⟩
    cases e
    obtain ⟨h1, h2⟩ := List.mem_filter.1 hr
    exact ⟨r, (edgeOf_iff hs hb hu).2 h1, h2, rfl, rfl⟩
  · rintro ⟨r, h3, h1, rfl, rfl⟩
    exact ⟨r, List.mem_filter.2 ⟨(edgeOf_iff hs hb hu).1 h3, h1⟩, rfl⟩

theorem LinkWalk.costWalk {cost : EdgeRef C D E → Nat} {a t : C} {n : Nat} (h : LinkWalk (Link g cost) a t n) :
    CostWalk g cost a t n := by
  have key : ∀ {b : C} {m : Nat}, CostWalk g cost b a m → CostWalk g cost b t (m + n) := by
    induction h with
    | nil => exact fun h => h
    | cons e _ ih =>
      intro b m h1
      obtain ⟨r, h2, rfl, rfl⟩ := e
      rw [← Nat.add_assoc]
      exact ih (.step h1 h2)
  have := key .nil
  rwa [Nat.zero_add] at this

/-- **C106.** Obstacles do not spoil an estimate: one that is admissible on the map without them (C82) serves on the map with them,
and then the path found is a cheapest one. -/
theorem c106_estimate (hs : Lawful s L rep) (hb : Built s L g k) (f : C → Bool) (cost : EdgeRef C D E → Nat) {a : C} (ha : L.Node a)
    (h : C → Nat) (goal : C → Bool) (hadm : ∀ x t n, L.Node x → goal t = true → CostWalk g cost x t n → h x ≤ n) {n : Nat}
    {p : List C} (ho : AstOutcome (openEdges g f cost) h goal a (some (n, p))) :
    PathOf (fun u t w => f u = true ∧ f t = true ∧ Link g cost u t w) p n ∧
      ∀ t m, goal t = true → LinkWalk (fun u t w => f u = true ∧ f t = true ∧ Link g cost u t w) a t m → n ≤ m :=
  (c106_astar hs hb f cost ha h goal).least
    (fun x t n hx hg hw => hadm x t n hx hg (hw.mono fun _ _ _ h => h.2.2).costWalk) n p ho
end

/-- One blocked cell of the 3 × 2 square graph. -/
def exBlocked (c : Offset) : Bool := decide (c ≠ ⟨1, 0⟩)

/-- A wall across the 3 × 2 square graph. -/
def exWall (c : Offset) : Bool := decide (c.horizontal ≠ 1)

theorem exWall_stays {g : Graph Offset SquareAxis DSquareAxis Nat Nat} (hb : Built (squareShape m64 3 2) (squareLat 3 2) g exK) :
    ∀ c, OpenWalk g exWall ⟨0, 0⟩ c → c.horizontal = 0 := by
  have hs := (Sound.square m64 3 2).lawful
  intro c h
  induction h with
  | nil => rfl
  | @step x y h hx hw hy ih =>
    have hxn := h.node hs.searchable hb ⟨0, 0, by decide, by decide, rfl⟩
    have hall : ∀ x ∈ (squareLat 3 2).nodes, x.horizontal = 0 → ∀ y ∈ within (squareLat 3 2).nodes (squareLat 3 2).nbrs x,
      exWall y = true → y.horizontal = 0 := by decide
    exact hall x (Lat.mem_nodes.2 hxn) ih y ((inWalk_one hs.searchable hb hxn).1 hw) hy

/-- A cell next to the blocked one has one neighbour left, the blocked one none; the wall leaves two regions of two cells each. -/
example : ∃ g : Graph Offset SquareAxis DSquareAxis Nat Nat, Built (squareShape m64 3 2) (squareLat 3 2) g exK ∧
    (g.nodeFiltered exBlocked).neighbors ⟨0, 0⟩ [⟨0, 1⟩] ∧ (g.nodeFiltered exBlocked).neighbors ⟨1, 0⟩ [] ∧
    (g.nodeFiltered exBlocked).nodeIds [⟨0, 0⟩, ⟨0, 1⟩, ⟨1, 1⟩, ⟨2, 0⟩, ⟨2, 1⟩] ∧
    ∀ gs, Kosaraju (g.nodeFiltered exWall) gs → gs.flatten.length = 4 ∧ ∃ l ∈ gs, (⟨0, 0⟩ : Offset) ∈ l ∧ ⟨0, 1⟩ ∈ l ∧ ⟨2, 0⟩ ∉ l := by
  obtain ⟨g, hb⟩ := exSquare
  have hs := (Sound.square m64 3 2).lawful
  obtain ⟨h1, h2⟩ := c106_lists hs.searchable hb exBlocked
  refine ⟨g, hb, ((h2 ⟨0, 0⟩ ⟨0, 0, by decide, by decide, rfl⟩).1 _).2 (by decide), ((h2 ⟨1, 0⟩ ⟨1, 0, by decide, by decide, rfl⟩).1 _).2 (by decide),
    (h1 _).2 (by decide), fun gs hk => ?_⟩
  obtain ⟨gs', k1, k2, k3, k4⟩ := c106_regions hs hb exWall
  obtain rfl := (k1 gs).1 hk
  have h0 : (squareLat 3 2).Node ⟨0, 0⟩ := ⟨0, 0, by decide, by decide, rfl⟩
  have hp : gs.flatten.Perm ((squareLat 3 2).nodes.filter exWall) :=
    (List.perm_ext_iff_of_nodup k2 (by decide)).2 fun c => by rw [k3, List.mem_filter, Lat.mem_nodes]
  have hw : OpenWalk g exWall ⟨0, 0⟩ ⟨0, 1⟩ :=
    .step .nil (by decide) ((inWalk_one hs.searchable hb h0).2 (by decide)) (by decide)
  obtain ⟨l, hl, h3, h4⟩ := (k4 ⟨0, 0⟩ ⟨0, 1⟩ h0 (by decide)).2 hw
  refine ⟨by rw [hp.length_eq]; decide, l, hl, h3, h4, fun h5 => ?_⟩
  have := exWall_stays hb _ ((k4 ⟨0, 0⟩ ⟨2, 0⟩ h0 (by decide)).1 ⟨l, hl, h3, h5⟩)
  cases this

/-- There is a way around the blocked cell, but none through the wall. -/
example : ∃ g : Graph Offset SquareAxis DSquareAxis Nat Nat, Built (squareShape m64 3 2) (squareLat 3 2) g exK ∧
    HasPath (g.nodeFiltered exBlocked) ⟨0, 0⟩ ⟨1, 1⟩ true ∧ HasPath (g.nodeFiltered exWall) ⟨0, 0⟩ ⟨2, 0⟩ false ∧
    HasPath (g.nodeFiltered exBlocked) ⟨1, 0⟩ ⟨1, 1⟩ false := by
  obtain ⟨g, hb⟩ := exSquare
  have hs := (Sound.square m64 3 2).lawful.searchable
  have h0 : (squareLat 3 2).Node ⟨0, 0⟩ := ⟨0, 0, by decide, by decide, rfl⟩
  have h1 : (squareLat 3 2).Node ⟨0, 1⟩ := ⟨0, 1, by decide, by decide, rfl⟩
  refine ⟨g, hb, (c106_has_path hs hb _ h0 _ _).2 (iff_of_true rfl ?_), (c106_has_path hs hb _ h0 _ _).2 (iff_of_false (by decide) ?_),
    (c106_has_path hs hb _ ⟨1, 0, by decide, by decide, rfl⟩ _ _).2 (iff_of_false (by decide) ?_)⟩
  · exact .step (.step .nil (by decide) ((inWalk_one hs hb h0).2 (by decide)) (by decide)) (by decide)
      ((inWalk_one hs hb h1).2 (by decide)) (by decide)
  · intro h; cases exWall_stays hb _ h
  · intro h
    have key : ∀ c, OpenWalk g exBlocked ⟨1, 0⟩ c → c = ⟨1, 0⟩ := by
      intro c h
      induction h with
      | nil => rfl
      | step _ hx _ _ ih => rw [ih] at hx; cases hx
    cases key _ h

/-- `astar` finds a way around the blocked cell with the estimate of the open map (C82), and a way along edges with a horizontal
direction only; it finds none if no edge may be used. -/
example : ∃ g : Graph Offset SquareAxis DSquareAxis Nat Nat, Built (squareShape m64 3 2) (squareLat 3 2) g exK ∧
    (∃ n p, AstOutcome (openEdges g exBlocked EdgeRef.weight) (fun _ => 0) (fun c => decide (c = ⟨1, 1⟩)) ⟨0, 0⟩ (some (n, p)) ∧
      PathOf (fun u t w => exBlocked u = true ∧ exBlocked t = true ∧ Link g EdgeRef.weight u t w) p n) ∧
    (∃ n p, AstOutcome (keptEdges g (fun r => decide (r.direction = .X)) EdgeRef.weight) (fun _ => 0) (fun c => decide (c = ⟨1, 0⟩))
      ⟨0, 0⟩ (some (n, p))) ∧
    AstOutcome (keptEdges g (fun _ => false) EdgeRef.weight) (fun _ => 0) (fun c => decide (c = ⟨2, 0⟩)) ⟨0, 0⟩ none := by
  obtain ⟨g, hb⟩ := exSquare
  have hs := (Sound.square m64 3 2).lawful
  have h0 : (squareLat 3 2).Node ⟨0, 0⟩ := ⟨0, 0, by decide, by decide, rfl⟩
  have h1 : (squareLat 3 2).Node ⟨0, 1⟩ := ⟨0, 1, by decide, by decide, rfl⟩
  refine ⟨g, hb, ?_, ?_, ?_⟩
  · have hr := c106_astar hs hb exBlocked EdgeRef.weight h0 (fun _ => 0) (fun c => decide (c = ⟨1, 1⟩))
    obtain ⟨st, o, k1, k2⟩ := hr.completes _ .nil
    have ho : AstOutcome _ _ _ _ o := ⟨st, k1, k2⟩
    match o, ho with
    | none, ho =>
      refine absurd ?_ ((hr.none_iff _ ho).1 rfl ⟨1, 1⟩ (2000 + (1001 + 0)) (by decide))
      exact .cons (x := ⟨0, 1⟩) ⟨by decide, by decide, ⟨⟨0, 0⟩, ⟨0, 1⟩, 2000, .Y⟩, (edgeOf_iff hs hb h0).2 (by decide), rfl, rfl⟩
        (.cons ⟨by decide, by decide, ⟨⟨0, 1⟩, ⟨1, 1⟩, 1001, .X⟩, (edgeOf_iff hs hb h1).2 (by decide), rfl, rfl⟩ .nil)
    | some (n, p), ho => exact ⟨n, p, ho, (c106_estimate hs hb exBlocked _ h0 _ _ (fun _ _ _ _ _ _ => Nat.zero_le _) ho).1⟩
  · have hr := c106_astar_edges hs hb (fun r => decide (r.direction = .X)) EdgeRef.weight h0 (fun _ => 0) (fun c => decide (c = ⟨1, 0⟩))
    obtain ⟨st, o, k1, k2⟩ := hr.completes _ .nil
    have ho : AstOutcome _ _ _ _ o := ⟨st, k1, k2⟩
    match o, ho with
    | none, ho =>
      refine absurd ?_ ((hr.none_iff _ ho).1 rfl ⟨1, 0⟩ (1000 + 0) (by decide))
      exact .cons ⟨⟨⟨0, 0⟩, ⟨1, 0⟩, 1000, .X⟩, (edgeOf_iff hs hb h0).2 (by decide), by decide, rfl, rfl⟩ .nil
    | some (n, p), ho => exact ⟨n, p, ho⟩
  · have hr := c106_astar_edges hs hb (fun _ => false) EdgeRef.weight h0 (fun _ => 0) (fun c => decide (c = ⟨2, 0⟩))
    obtain ⟨st, o, k1, k2⟩ := hr.completes _ .nil
    have ho : AstOutcome _ _ _ _ o := ⟨st, k1, k2⟩
    cases (hr.none_iff _ ho).2 fun t n ht hw => by
      cases hw with
      | nil => exact absurd ht (by decide)
      | cons e _ => obtain ⟨_, -, e, -⟩ := e; cases e
    exact ho

end LG
