import Verif.Props.Filtered
import Verif.Lemmas.Events
/- C115: `depth_first_search` and `is_cyclic_directed` of petgraph. -/
set_option linter.unusedSectionVars false
namespace LG
section
variable {C A D N E : Type} [DecidableEq C] [DecidableEq A] [DecidableEq D]
variable {g : Graph C A D N E} {s : Shape C A D} {L : Lat C A D} {rep : C → Prop} {k : Contents C A N E}

/-- **C115.** On every storable shape `depth_first_search` from any nodes ends without a fault, and its events are determined. They keep
the rules of such a search (`Legal`), with what `neighbors` yields; the nodes that can be walked to from the starts are discovered and
finished once each, and no others; the times count from 0; and the edges reported from a node are what `neighbors` yields there, in this
order. -/
theorem c115_events (hs : Searchable s L rep) (hb : Built s L g k) {us : List C} (hu : ∀ u ∈ us, L.Node u) :
    ∃ evs nb, (∀ evs', DepthFirst g.rovable us evs' ↔ evs' = evs) ∧ (∀ c, L.Node c → Yields (neighborsNext g.s c) 0 (nb c)) ∧
      Legal L.nodes nb us [] (fun _ => false) 0 evs ∧ (discovered evs).Nodup ∧ (finished evs).Nodup ∧
      (∀ x, x ∈ discovered evs ↔ ∃ u ∈ us, ∃ n, InWalk g.s u n x) ∧ (∀ x, x ∈ finished evs ↔ x ∈ discovered evs) ∧
      stamps evs = List.range (2 * (discovered evs).length) ∧ ∀ x, reported x evs = if x ∈ discovered evs then nb x else [] := by
  obtain ⟨evs, h1, h2, h3, h4, h5, h6⟩ := depthFirst_run (hs.roams hb) (fun u h => .inl (hu u h))
  refine ⟨evs, L.nbrs, h1, fun c hc => (hs.roams hb).neighbors (Lat.mem_nodes.2 hc), h2, h3, h4, fun x => ?_, h6⟩
  rw [h5]
  refine exists_congr fun u => and_congr_right fun h => ?_
  rw [reached_inWalk hs hb (hu u h)]
  exact ⟨fun h => h.2, fun h' => ⟨Lat.mem_nodes.2 (hu u h), h'⟩⟩

/-- **C115.** A tree edge to a node leads to one discovered later; a back edge to the node itself or one discovered earlier. -/
theorem c115_order (hs : Searchable s L rep) (hb : Built s L g k) {us : List C} (hu : ∀ u ∈ us, L.Node u) {evs : List (DfsEvent C)}
    (h : DepthFirst g.rovable us evs) (u v : C) :
    (.treeEdge u v ∈ evs → L.Node v → [u, v].Sublist (discovered evs)) ∧ (.backEdge u v ∈ evs → v = u ∨ [v, u].Sublist (discovered evs)) := by
  obtain ⟨evs', h1, h2, -⟩ := depthFirst_run (hs.roams hb) (fun u h => .inl (hu u h))
  cases (h1 evs).1 h
  have := h2.order (o := []) (List.Sublist.refl _) u v
  rw [List.nil_append] at this
  exact ⟨fun h hn => this.1 h (Lat.mem_nodes.2 hn), this.2⟩

theorem nbrs_back (hs : Lawful s L rep) {u v : C} (hu : L.Node u) (h : v ∈ L.nbrs u) : L.Node v ∧ u ∈ L.nbrs v := by
  obtain ⟨d, hd⟩ := (c07_neighbors_exact hs hu v).1.1 h
  have hv := hs.laws.nbr_node hu hd
  exact ⟨hv, (c07_neighbors_exact hs hv u).1.2 ⟨_, hs.laws.nbr_opp hu hd⟩⟩

/-- **C115.** On the shapes that obey the laws no edge leads across: what is reported as a cross or forward edge leads forward, to a
node discovered later. -/
theorem c115_forward (hs : Lawful s L rep) (hb : Built s L g k) {us : List C} (hu : ∀ u ∈ us, L.Node u) {evs : List (DfsEvent C)}
    (h : DepthFirst g.rovable us evs) {u v : C} (he : .crossForwardEdge u v ∈ evs) : [u, v].Sublist (discovered evs) := by
  obtain ⟨evs', h1, h2, -⟩ := depthFirst_run (hs.searchable.roams hb) (fun u h => .inl (hu u h))
  cases (h1 evs).1 h
  have := h2.forward (fun u hu v _ h => (nbrs_back hs (Lat.mem_nodes.1 hu) h).2) (o := []) .nil (by simp) (by simp) (List.Sublist.refl _)
    (by simp) (by simp) u v he
  rwa [List.nil_append] at this

/-- **C115.** There, from a node that all others can be walked to from, further starts add nothing, and there is one tree edge for every
other node. -/
theorem c115_tree (hs : Lawful s L rep) (hb : Built s L g k) {a : C} (ha : L.Node a) (hconn : ∀ b, L.Node b → ∃ n, InWalk g.s a n b)
    {us : List C} (hu : ∀ u ∈ us, L.Node u) {evs : List (DfsEvent C)} (h : DepthFirst g.rovable (a :: us) evs) :
    DepthFirst g.rovable [a] evs ∧ treeEdges evs + 1 = L.width * L.height := by
  have := depthFirst_tree (hs.searchable.roams hb) (fun c hc y hy => Lat.mem_nodes.2 (nbrs_back hs (Lat.mem_nodes.1 hc) hy).1)
    (Lat.mem_nodes.2 ha) (fun x hx => (reached_inWalk hs.searchable hb ha).2 (hconn x (Lat.mem_nodes.1 hx)))
    (fun u h => .inl (hu u h)) h
  rwa [Lat.nodes_eq, List.length_map, List.length_range] at this

/-- **C115.** `is_cyclic_directed` ends without a fault, and answers whether some walk inside the graph returns to where it began. -/
theorem c115_cyclic (hs : Searchable s L rep) (hb : Built s L g k) (b : Bool) : CyclicDirected g.rovable b ↔ (b = true ↔ WalksBack L g) := by
  have e : (∃ x ∈ L.nodes, ∃ y ∈ within L.nodes L.nbrs x, Reached (within L.nodes L.nbrs) y x) ↔ WalksBack L g := by
    constructor
    · rintro ⟨x, hx, y, hy, hr⟩
      have hxn := Lat.mem_nodes.1 hx
      have h1 := (inWalk_one hs hb hxn).2 hy
      have hyn : L.Node y := Lat.mem_nodes.1 (mem_within.1 hy).2
      obtain ⟨n, h2⟩ := (reached_inWalk hs hb hyn).1 hr
      refine ⟨x, n, hxn, ?_⟩
      rw [inWalk_iff hs hb hxn] at h1 ⊢
      rw [inWalk_iff hs hb hyn] at h2
      rw [Nat.add_comm]
      exact h1.trans h2
    · rintro ⟨a, n, ha, hw⟩
      rw [inWalk_iff hs hb ha] at hw
      cases hw with
      | @step _ x _ d hp hd =>
        have hx : L.Node x := hp.inner_node ha
        refine ⟨x, Lat.mem_nodes.2 hx, a, (inWalk_one hs hb hx).1 ((inWalk_iff hs hb hx).2 (.step .nil hd)),
          (reached_inWalk hs hb ha).2 ⟨_, (inWalk_iff hs hb ha).2 hp⟩⟩
  rw [cyclicDirected_run (hs.roams hb), e]

/-- **C115.** On the shapes that obey the laws it answers whether there is any edge: one edge is half a cycle there. -/
theorem c115_cyclic_lawful (hs : Lawful s L rep) (hb : Built s L g k) (b : Bool) :
    CyclicDirected g.rovable b ↔ (b = true ↔ ∃ a c, L.Node a ∧ InWalk g.s a 1 c) := by
  rw [c115_cyclic hs.searchable hb]
  have : WalksBack L g ↔ ∃ a c, L.Node a ∧ InWalk g.s a 1 c := by
    constructor
    · rintro ⟨a, n, ha, hw⟩
      obtain ⟨c, hc⟩ := hw.one
      exact ⟨a, c, ha, hc⟩
    · rintro ⟨a, b, ha, hw⟩
      refine ⟨a, 1, ha, ?_⟩
      rw [inWalk_iff hs.searchable hb ha] at hw ⊢
      cases hw with
      | @step _ x _ d hp hd =>
        cases hp
        exact .step (.step .nil hd) (inner_nbr.2 ⟨hs.laws.nbr_opp ha (inner_nbr.1 hd).1, ha⟩)
  rw [this]

/-- **C115.** `is_cyclic_directed` and `toposort` agree on whether there is a cycle exactly if the outcome of `toposort` is right. -/
theorem c115_toposort (hs : Searchable s L rep) (hb : Built s L g k) {b : Bool} {o : Except C (List C)} (hcy : CyclicDirected g.rovable b)
    (ho : Toposort g.rovable o) : ((b = true ↔ ∃ c, o = .error c) ↔ RightTopo L g o) := by
  have h1 := (c115_cyclic hs hb b).1 hcy
  obtain ⟨o', k1, k2, k3⟩ := c98_toposort_partial hs hb
  cases (k1 o).1 ho
  rw [c98_exact hs hb ho, h1]
  by_cases hno : ∀ a b, L.Node a → ¬ InWalk g.s a 1 b
  · have hb' : ¬ WalksBack L g := fun ⟨a, n, ha, hw⟩ => by
      obtain ⟨c, hc⟩ := hw.one
      exact hno a c ha hc
    rw [k2 hno]
    exact ⟨fun _ => .inr hno, fun _ => ⟨fun h => absurd h hb', fun ⟨c, e⟩ => nomatch e⟩⟩
  · simp only [Classical.not_forall, Classical.not_not] at hno
    obtain ⟨a, b, ha, hw⟩ := hno
    obtain ⟨c, -, e⟩ := k3 ⟨a, b, ha, hw⟩
    subst e
    exact ⟨fun h => .inl (h.2 ⟨c, rfl⟩), fun h => ⟨fun _ => ⟨c, rfl⟩, fun _ => h.resolve_right fun h => h a b ha hw⟩⟩
end

/-! ### Double coordinates -/

section
variable {N E : Type} {m : Machine} {h v : Nat} {g : Graph DCoord AxisR AxisDR N E} {k : Contents DCoord AxisR N E}

/-- **C115.** On a map of a single column of double coordinates, of two rows or more, `is_cyclic_directed` answers that there is no
cycle, rightly, while `toposort` reports one. -/
theorem c115_double (hb : Built (dblShape m 1 v) (dblLat 1 v) g k) (hv : 2 ≤ v) :
    CyclicDirected g.rovable false ∧ ∃ c, Toposort g.rovable (.error c) := by
  have hs : Searchable (dblShape m 1 v) (dblLat 1 v) _ := .double m 1 v
  obtain ⟨o, h1, h2, h3⟩ := c98_toposort_partial hs hb
  have ho := (h1 o).2 rfl
  have hw : ¬ RightTopo (dblLat 1 v) g o := fun h => (c98_double hb ho).1 h (.inl ⟨rfl, hv⟩)
  rw [c98_exact hs hb ho, not_or] at hw
  refine ⟨(c115_cyclic hs hb false).2 ⟨(nomatch ·), fun h => absurd h hw.1⟩, ?_⟩
  have := hw.2
  simp only [Classical.not_forall, Classical.not_not] at this
  obtain ⟨a, b, ha, hab⟩ := this
  obtain ⟨c, -, e⟩ := h3 ⟨a, b, ha, hab⟩
  exact ⟨c, e ▸ ho⟩
end

/-! ### Examples -/

/-- Two cells side by side: the events of the search, one by one. The edge back to where it came from is a back edge, so the map is
cyclic. -/
example : ∃ g : Graph Offset SquareAxis DSquareAxis Unit Unit,
    DepthFirst g.rovable [⟨0, 0⟩, ⟨1, 0⟩] [.discover ⟨0, 0⟩ 0, .treeEdge ⟨0, 0⟩ ⟨1, 0⟩, .discover ⟨1, 0⟩ 1, .backEdge ⟨1, 0⟩ ⟨0, 0⟩, .finish ⟨1, 0⟩ 2, .finish ⟨0, 0⟩ 3] ∧
    CyclicDirected g.rovable true := by
  have hs := Lawful.square m64 2 1
  obtain ⟨g, hb⟩ := hs.exists_built (by decide) (fun u _ => ((), u)) (fun u _ _ => ((), u)) ()
  have hT := hs.searchable.roams hb
  have n0 : (squareLat 2 1).nbrs ⟨0, 0⟩ = [⟨1, 0⟩] := by decide
  have n1 : (squareLat 2 1).nbrs ⟨1, 0⟩ = [⟨0, 0⟩] := by decide
  have t1 : DfsTrace (squareLat 2 1).nodes (squareLat 2 1).nbrs (.enter ⟨0, 0⟩) (fun _ => false) (fun _ => false) 0 _ _ _ _ :=
    .enter (by decide) rfl (by rw [n0]; exact .tree rfl (.enter (by decide) rfl (by rw [n1]; exact .back rfl rfl .nil) rfl) .nil) rfl
  obtain ⟨d, f, h1, h2, h3⟩ := t1.events hT (.inl ⟨0, 0, by decide, by decide, rfl⟩) hT.new hT.new
  refine ⟨g, .next (e2 := []) h1 (dfsStarts_full hT _ (fun u hu => .inl ?_) h2 (by decide)), (c115_cyclic_lawful hs hb true).2 ⟨fun _ => ?_, fun _ => rfl⟩⟩
  · simp only [List.mem_singleton] at hu
    subst hu; exact ⟨1, 0, by decide, by decide, rfl⟩
  · exact ⟨⟨0, 0⟩, ⟨1, 0⟩, ⟨0, 0, by decide, by decide, rfl⟩, (inWalk_one hs.searchable hb ⟨0, 0, by decide, by decide, rfl⟩).2 (by decide)⟩
/-- A square map: the search from one corner discovers all six cells over five tree edges, each of the fourteen directed edges is
reported, and nothing leads across. -/
example : ∃ g : Graph Offset SquareAxis DSquareAxis Unit Unit, ∃ evs, DepthFirst g.rovable [⟨0, 0⟩, ⟨2, 1⟩] evs ∧ DepthFirst g.rovable [⟨0, 0⟩] evs ∧
    treeEdges evs = 5 ∧ stamps evs = List.range 12 ∧ (reported ⟨1, 0⟩ evs).length = 3 ∧
    (∀ u v, .crossForwardEdge u v ∈ evs → [u, v].Sublist (discovered evs)) ∧
    ∀ u v, .backEdge u v ∈ evs → v = u ∨ [v, u].Sublist (discovered evs) := by
  have hs := Sound.square m64 3 2
  have hl := hs.lawful
  obtain ⟨g, hb⟩ := hl.exists_built (by decide) (fun u _ => ((), u)) (fun u _ _ => ((), u)) ()
  have h0 : (squareLat 3 2).Node ⟨0, 0⟩ := ⟨0, 0, by decide, by decide, rfl⟩
  have h1 : (squareLat 3 2).Node ⟨1, 0⟩ := ⟨1, 0, by decide, by decide, rfl⟩
  have h2 : (squareLat 3 2).Node ⟨2, 1⟩ := ⟨2, 1, by decide, by decide, rfl⟩
  have hu : ∀ u ∈ [⟨2, 1⟩], (squareLat 3 2).Node u := fun u hu => by rw [List.mem_singleton.1 hu]; exact h2
  have hu' : ∀ u ∈ [⟨0, 0⟩, ⟨2, 1⟩], (squareLat 3 2).Node u := fun u h => by
    rcases List.mem_cons.1 h with rfl | h
    · exact h0
    · exact hu u h
  have hconn := fun b (h : (squareLat 3 2).Node b) => (c68_connected (.sound hs) hb h0).1 h
  obtain ⟨evs, nb, k1, k2, k3, k4, k5, k6, k7, k8, k9⟩ := c115_events hl.searchable hb hu'
  have hd := (k1 evs).2 rfl
  have ht := c115_tree hl hb h0 hconn hu hd
  have hm : ∀ x, x ∈ discovered evs ↔ x ∈ (squareLat 3 2).nodes := fun x => by
    rw [k6, Lat.mem_nodes]
    refine ⟨fun ⟨u, h, n, hw⟩ => (c68_connected (.sound hs) hb (hu' u h)).2 ⟨n, hw⟩, fun h => ⟨_, List.mem_cons_self, hconn x h⟩⟩
  have hlen : (discovered evs).length = 6 := ((List.perm_ext_iff_of_nodup k4 (Lat.nodes_nodup hl.searchable.base)).2 hm).length_eq
  refine ⟨g, evs, hd, ht.1, Nat.succ.inj ht.2, ?_, ?_, fun u v h => c115_forward hl hb hu' hd h, fun u v h => (c115_order hl.searchable hb hu' hd u v).2 h⟩
  · rw [k8, hlen]
  · rw [k9, if_pos ((hm _).2 (by decide)), Yields.unique (k2 _ h1) ((hl.searchable.roams hb).neighbors (by decide))]
    decide
/-- A single cell has no cycle, and `toposort` agrees. -/
example : ∃ g : Graph Offset SquareAxis DSquareAxis Unit Unit, CyclicDirected g.rovable false ∧
    ∀ o, Toposort g.rovable o → ¬ ∃ c, o = .error c := by
  have hs := Lawful.square m64 1 1
  obtain ⟨g, hb⟩ := hs.exists_built (by decide) (fun u _ => ((), u)) (fun u _ _ => ((), u)) ()
  have hc : CyclicDirected g.rovable false := (c115_cyclic_lawful hs hb false).2 ⟨(nomatch ·), fun ⟨a, c, ha, hw⟩ => by
    rw [inWalk_one hs.searchable hb ha] at hw
    obtain ⟨x, y, hx, hy, rfl⟩ := ha
    have hx' : x < 1 := hx
    have hy' : y < 1 := hy
    obtain rfl : x = 0 := by omega
    obtain rfl : y = 0 := by omega
    exact absurd hw (by have : within (squareLat 1 1).nodes (squareLat 1 1).nbrs ⟨0, 0⟩ = [] := by decide
                        rw [show (squareLat 1 1).coord 0 0 = ⟨0, 0⟩ from rfl, this]; simp)⟩
  exact ⟨g, hc, fun o ho he => nomatch ((c115_toposort hs.searchable hb hc ho).2 (c98_lawful hs hb ho)).2 he⟩
/-- Double coordinates: three nodes in a column. -/
example : ∃ g : Graph DCoord AxisR AxisDR Nat Nat, CyclicDirected g.rovable false ∧ (¬ WalksBack (dblLat 1 3) g) ∧ ∃ c, Toposort g.rovable (.error c) := by
  obtain ⟨g, h1, h2⟩ := c57_new_with (.double m64 1 3) (by decide) (fun (n : Nat) _ => (n, n + 1)) (fun (n : Nat) _ _ => (n, n + 1)) 0
  obtain ⟨k1, k2⟩ := c115_double h2 (by decide)
  exact ⟨g, k1, (fun h => nomatch ((c115_cyclic (.double m64 1 3) h2 false).1 k1).2 h), k2⟩
end LG
