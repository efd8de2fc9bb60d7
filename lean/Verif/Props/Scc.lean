import Verif.Lemmas.Topo
import Verif.Props.Bipartite
import Verif.Props.DoubleSearch
import Verif.Props.StoredNodes
/- C97 - C99: petgraph's `kosaraju_scc`, `toposort` and `has_path_connecting` on `LatticeGraph`, whose `neighbors_directed` ignores
the direction. -/
set_option linter.unusedSectionVars false
namespace LG
section
variable {C A D N E : Type} [DecidableEq C] [DecidableEq A] [DecidableEq D]
variable {g : Graph C A D N E} {s : Shape C A D} {L : Lat C A D} {rep : C → Prop} {k : Contents C A N E}

theorem Searchable.roams (hs : Searchable s L rep) (hb : Built s L g k) :
    Roams g.rovable L.nodes (fun c => L.Node c ∨ rep c) L.nbrs (VisInv s L) := by
  have hg := hs.toStorable.good hb
  have hi := hs.impl hg.constructible
  have hn := c71_node_identifiers hs.toStorable hb
  refine ⟨hn.2.1, fun h => .inl (Lat.mem_nodes.1 h), fun hv h => Lat.mem_nodes.2 (hv.only _ h), ?_, fun hv => hv.reset,
    fun hv hc => visit_base hi hs.base hv (Lat.mem_nodes.1 hc), fun hv ho hc => ?_, fun hv ho => isVisited_base hi hs.base hv ho,
    fun hc => c57_neighbors hs.toStorable hb (Lat.mem_nodes.1 hc), fun hc => NeighborsIt.yields (c57_neighbors hs.toStorable hb (Lat.mem_nodes.1 hc)),
    fun h h' => Yields.unique h h', fun h h' => Yields.unique h h', fun hc hy => hs.nbrs_ok hg.constructible (Lat.mem_nodes.1 hc) _ hy,
    hn.1, fun h h' => Yields.unique h h'⟩
  · show VisInv s L (VisMap.new g.s) _
    rw [hg.shape]
    exact VisInv.newBase hi
  · have hc' := fun h => hc (Lat.mem_nodes.2 h)
    exact visit_off hi hs.base hv (ho.resolve_left hc') hc'

theorem reached_reach (hd : DirLaws L) {a b : C} : Reached (within L.nodes L.nbrs) a b ↔ Reach L a b := by
  constructor
  · intro h
    induction h with
    | refl => exact .refl
    | step _ hy ih =>
      obtain ⟨h1, h2⟩ := mem_within.1 hy
      obtain ⟨d, -, hd⟩ := List.mem_filterMap.1 h1
      obtain ⟨n, hp⟩ := ih
      exact ⟨n + 1, .step hp (inner_nbr.2 ⟨hd, Lat.mem_nodes.1 h2⟩)⟩
  · rintro ⟨n, hp⟩
    induction hp with
    | nil => exact .refl
    | step _ h ih =>
      obtain ⟨h1, h2⟩ := inner_nbr.1 h
      exact ih.step (mem_within.2 ⟨List.mem_filterMap.2 ⟨_, hd.dirs_mem _, h1⟩, Lat.mem_nodes.2 h2⟩)

theorem reached_inWalk (hs : Searchable s L rep) (hb : Built s L g k) {a b : C} (ha : L.Node a) :
    Reached (within L.nodes L.nbrs) a b ↔ ∃ n, InWalk g.s a n b := by
  simp only [reached_reach hs.base.dir, inWalk_iff hs hb ha]

/-- There is a walk along `neighbors` inside the graph. -/
def Walkable (g : Graph C A D N E) (a b : C) : Prop := ∃ n, InWalk g.s a n b

/-- The groups are the strongly connected components of the graph. -/
def RightSccs (L : Lat C A D) (g : Graph C A D N E) (gs : List (List C)) : Prop :=
  ∀ a b, L.Node a → L.Node b → ((∃ l ∈ gs, a ∈ l ∧ b ∈ l) ↔ Walkable g a b ∧ Walkable g b a)

/-- **C97**, for all shapes: `kosaraju_scc` ends, nothing it does faults, and its one result puts every node in exactly one group;
a group has a first node from which all others in it can be walked to; and nodes that lead to each other are in the same group. The
full claim is that nodes of a group lead to each other (`RightSccs`); see `c97_exact` for when that is so. -/
theorem c97_groups_partial (hs : Searchable s L rep) (hb : Built s L g k) :
    ∃ sccs, (∀ gs, Kosaraju g.rovable gs ↔ gs = sccs) ∧ sccs.flatten.Nodup ∧ (∀ c, c ∈ sccs.flatten ↔ L.Node c) ∧
      (∀ l ∈ sccs, ∃ r ∈ l, ∀ c ∈ l, Walkable g r c) ∧ ∀ a b, L.Node a → Walkable g a b → Walkable g b a → ∃ l ∈ sccs, a ∈ l ∧ b ∈ l := by
  obtain ⟨sccs, k1, k2, k3, -, k5, -⟩ := kosaraju_spec (hs.roams hb)
  have k3' : ∀ c, c ∈ sccs.flatten ↔ L.Node c := fun c => (k3 c).trans Lat.mem_nodes
  refine ⟨sccs, k1, k2, k3', fun l hl => ?_, fun a b ha hab hba => ?_⟩
  · obtain ⟨r, hr, h⟩ := k5.head hl
    have hrl : r ∈ l := List.mem_of_head? hr
    exact ⟨r, hrl, fun c hc => (reached_inWalk hs hb ((k3' r).1 (List.mem_flatten.2 ⟨l, hl, hrl⟩))).1 (h c hc)⟩
  · obtain ⟨l, hl, hal⟩ := List.mem_flatten.1 ((k3' a).2 ha)
    have hr := (reached_inWalk hs hb ha).2 hab
    have hbn : L.Node b := Lat.mem_nodes.1 (hr.inside (Lat.mem_nodes.2 ha))
    exact ⟨l, hl, hal, k5.together (fun _ _ h => nomatch h) hl hal hr ((reached_inWalk hs hb hbn).2 hba)⟩

/-- **C97**, exactly when the result is right: if every walk inside the graph can be walked back. (`kosaraju_scc` searches twice
along the same edges, as `neighbors_directed(_, Incoming)` lists the outgoing ones.) -/
theorem c97_exact (hs : Searchable s L rep) (hb : Built s L g k) {gs : List (List C)} (hk : Kosaraju g.rovable gs) :
    RightSccs L g gs ↔ ∀ a b, L.Node a → Walkable g a b → Walkable g b a := by
  obtain ⟨sccs, k1, -, -, -, -, k6⟩ := kosaraju_spec (hs.roams hb)
  obtain rfl := (k1 gs).1 hk
  have hn : ∀ {a}, a ∈ L.nodes → L.Node a := Lat.mem_nodes.1
  have e1 : AreSccs L.nodes L.nbrs gs ↔ RightSccs L g gs := by
    refine ⟨fun h a b ha hb' => ?_, fun h a ha b hb' => ?_⟩
    · rw [h a (Lat.mem_nodes.2 ha) b (Lat.mem_nodes.2 hb'), reached_inWalk hs hb ha, reached_inWalk hs hb hb']; rfl
    · rw [h a b (hn ha) (hn hb'), reached_inWalk hs hb (hn ha), reached_inWalk hs hb (hn hb')]; rfl
  rw [← e1, k6]
  constructor
  · intro h a b ha hab
    have hr := (reached_inWalk hs hb ha).2 hab
    exact (reached_inWalk hs hb (hn (hr.inside (Lat.mem_nodes.2 ha)))).1 (h a (Lat.mem_nodes.2 ha) b hr)
  · intro h a ha b hr
    have hbn := hn (hr.inside ha)
    exact (reached_inWalk hs hb hbn).2 (h a b (hn ha) ((reached_inWalk hs hb (hn ha)).1 hr))

theorem Lawful.leads_symm (hs : Lawful s L rep) (hb : Built s L g k) {a b : C} (ha : L.Node a) (h : Walkable g a b) : Walkable g b a := by
  obtain ⟨n, hw⟩ := h
  have hp := (inWalk_iff hs.searchable hb ha).1 hw
  have hbn : L.Node b := hp.inner_node ha
  refine (reached_inWalk hs.searchable hb hbn).1 ?_
  have key : ∀ {n b}, Path (inner L) a n b → Reached (within L.nodes L.nbrs) b a := by
    intro n b hp
    induction hp with
    | nil => exact .refl
    | @step n x y d hp hd ih =>
      have hx : L.Node x := hp.inner_node ha
      have h1 := (inner_nbr.1 hd).1
      exact .head (mem_within.2 ⟨List.mem_filterMap.2 ⟨_, hs.laws.dir.dirs_mem _, hs.laws.nbr_opp hx h1⟩, Lat.mem_nodes.2 hx⟩) ih
  exact key hp

/-- **C97.** On every graph whose shape obeys the laws (the built-in square and hexagonal maps, loops included, with equal sides
where the shape demands it) the groups are the strongly connected components. -/
theorem c97_lawful (hs : Lawful s L rep) (hb : Built s L g k) {gs : List (List C)} (hk : Kosaraju g.rovable gs) : RightSccs L g gs :=
  (c97_exact hs.searchable hb hk).2 fun _ _ ha h => hs.leads_symm hb ha h

/-- **C97.** On the flat-topped and the other maps of C57 there is one group with all nodes, which is right. -/
theorem c97_single (hs : Single s L rep) (hb : Built s L g k) {gs : List (List C)} (hk : Kosaraju g.rovable gs) :
    RightSccs L g gs ∧ ∀ a b, L.Node a → L.Node b → ∃ l ∈ gs, a ∈ l ∧ b ∈ l := by
  have hall : ∀ a b, L.Node a → L.Node b → Walkable g a b := fun a b ha hb' => (c68_connected hs hb ha).1 hb'
  have hr : RightSccs L g gs := (c97_exact hs.stored.searchable hb hk).2 fun a b ha h => hall b a ((c68_connected hs hb ha).2 h) ha
  exact ⟨hr, fun a b ha hb' => (hr a b ha hb').2 ⟨hall a b ha hb', hall b a hb' ha⟩⟩

/-! ### Topological order -/

/-- **C98**, for all shapes: `toposort` ends, nothing it does faults, and it has one outcome. That is `Ok` exactly if no node has a
neighbour inside the graph, and then it is all the nodes, the last first; otherwise it is `Err(Cycle(_))` of some node. The full
claim is that it is `Err` only if there is a cycle; see `c98_exact`. -/
theorem c98_toposort_partial (hs : Searchable s L rep) (hb : Built s L g k) :
    ∃ o, (∀ o', Toposort g.rovable o' ↔ o' = o) ∧ ((∀ a b, L.Node a → ¬ InWalk g.s a 1 b) → o = .ok L.nodes.reverse) ∧
      ((∃ a b, L.Node a ∧ InWalk g.s a 1 b) → ∃ c, L.Node c ∧ o = .error c) := by
  obtain ⟨o, h1, h2, h3⟩ := toposort_spec (hs.roams hb)
  have hone : ∀ a b, L.Node a → (InWalk g.s a 1 b ↔ b ∈ within L.nodes L.nbrs a) := by
    intro a b ha
    rw [inWalk_iff hs hb ha, mem_within]
    constructor
    · intro h
      cases h with
      | @step _ x _ d hp hd =>
        cases hp
        obtain ⟨q1, q2⟩ := inner_nbr.1 hd
        exact ⟨List.mem_filterMap.2 ⟨d, hs.base.dir.dirs_mem _, q1⟩, Lat.mem_nodes.2 q2⟩
    · rintro ⟨q1, q2⟩
      obtain ⟨d, -, hd⟩ := List.mem_filterMap.1 q1
      exact .step .nil (inner_nbr.2 ⟨hd, Lat.mem_nodes.1 q2⟩)
  refine ⟨o, h1, fun h => h2 fun c hc => ?_, fun ⟨a, b, ha, h⟩ => ?_⟩
  · rw [List.eq_nil_iff_forall_not_mem]
    exact fun y hy => h c y (Lat.mem_nodes.1 hc) ((hone c y (Lat.mem_nodes.1 hc)).2 hy)
  · obtain ⟨c, hc, e⟩ := h3 ⟨a, Lat.mem_nodes.2 ha, fun e => by
      have := (hone a b ha).1 h
      rw [e] at this; simp at this⟩
    exact ⟨c, Lat.mem_nodes.1 hc, e⟩

/-- There is a closed walk inside the graph. -/
def WalksBack (L : Lat C A D) (g : Graph C A D N E) : Prop := ∃ a n, L.Node a ∧ InWalk g.s a (n + 1) a

/-- The outcome is right: an order of all nodes in which every edge leads onwards if there is no cycle, `Err(Cycle(_))` otherwise. -/
def RightTopo (L : Lat C A D) (g : Graph C A D N E) : Except C (List C) → Prop
  | .ok order => order.Nodup ∧ (∀ c, c ∈ order ↔ L.Node c) ∧
    ∀ l1 l2 a b, order = l1 ++ a :: l2 → InWalk g.s a 1 b → b ∈ l2
  | .error _ => WalksBack L g

/-- A first step of a walk. -/
theorem InWalk.one {s : Shape C A D} {a c : C} {n : Nat} (h : InWalk s a (n + 1) c) : ∃ b, InWalk s a 1 b := by
  induction n generalizing c with
  | zero => exact ⟨c, h⟩
  | succ n ih => cases h with | step h _ _ _ => exact ih h

/-- **C98**, exactly when the outcome is right: if there is a cycle or no edge at all. -/
theorem c98_exact (hs : Searchable s L rep) (hb : Built s L g k) {o : Except C (List C)} (ho : Toposort g.rovable o) :
    RightTopo L g o ↔ (WalksBack L g ∨ ∀ a b, L.Node a → ¬ InWalk g.s a 1 b) := by
  obtain ⟨o', h1, h2, h3⟩ := c98_toposort_partial hs hb
  cases (h1 o).1 ho
  by_cases hno : ∀ a b, L.Node a → ¬ InWalk g.s a 1 b
  · cases h2 hno
    refine ⟨fun _ => .inr hno, fun _ => ⟨List.pairwise_reverse.2 ((Lat.nodes_nodup hs.base).imp fun h => h.symm),
      fun c => by rw [List.mem_reverse]; exact Lat.mem_nodes, fun l1 l2 a b e hw => ?_⟩⟩
    have : a ∈ L.nodes.reverse := by rw [e]; simp
    exact absurd hw (hno a b (Lat.mem_nodes.1 (List.mem_reverse.1 this)))
  · obtain ⟨c, hc, e⟩ := h3 (by
      simp only [Classical.not_forall, Classical.not_not] at hno
      obtain ⟨a, b, ha, hw⟩ := hno
      exact ⟨a, b, ha, hw⟩)
    subst e
    exact ⟨fun h => .inl h, fun h => h.resolve_right hno⟩

/-- **C98.** On every graph whose shape obeys the laws the outcome is right: one edge there is half a cycle. -/
theorem c98_lawful (hs : Lawful s L rep) (hb : Built s L g k) {o : Except C (List C)} (ho : Toposort g.rovable o) : RightTopo L g o := by
  refine (c98_exact hs.searchable hb ho).2 ?_
  by_cases hno : ∀ a b, L.Node a → ¬ InWalk g.s a 1 b
  · exact .inr hno
  · simp only [Classical.not_forall, Classical.not_not] at hno
    obtain ⟨a, b, ha, hw⟩ := hno
    refine .inl ⟨a, 1, ha, ?_⟩
    rw [inWalk_iff hs.searchable hb ha] at hw ⊢
    cases hw with
    | @step _ x _ d hp hd =>
      cases hp
      exact .step (.step .nil hd) (inner_nbr.2 ⟨hs.laws.nbr_opp ha (inner_nbr.1 hd).1, ha⟩)

/-- **C98.** So it is on the maps of C57: each is strongly connected. -/
theorem c98_single (hs : Single s L rep) (hb : Built s L g k) {o : Except C (List C)} (ho : Toposort g.rovable o) : RightTopo L g o := by
  refine (c98_exact hs.stored.searchable hb ho).2 ?_
  by_cases hno : ∀ a b, L.Node a → ¬ InWalk g.s a 1 b
  · exact .inr hno
  · simp only [Classical.not_forall, Classical.not_not] at hno
    obtain ⟨a, b, ha, hw⟩ := hno
    have hbn : L.Node b := (c68_connected hs hb ha).2 ⟨1, hw⟩
    obtain ⟨n, hback⟩ := (c68_connected hs hb hbn).1 ha
    refine .inl ⟨a, n, ha, ?_⟩
    rw [inWalk_iff hs.stored.searchable hb ha] at hw ⊢
    rw [inWalk_iff hs.stored.searchable hb hbn] at hback
    rw [Nat.add_comm]
    exact hw.trans hback

/-! ### Paths -/

/-- **C99.** `has_path_connecting(a, b)` from a node `a` ends without a fault, and answers whether `b` can be walked to from `a`
inside the graph; `b` may be any coordinate. -/
theorem c99_has_path (hs : Searchable s L rep) (hb : Built s L g k) {a : C} (ha : L.Node a) (b : C) (r : Bool) :
    HasPath g.rovable a b r ↔ (r = true ↔ Walkable g a b) := by
  rw [hasPath_spec (hs.roams hb) (Lat.mem_nodes.2 ha), reached_inWalk hs hb ha]; rfl

/-- **C99.** On the maps of C57 it answers whether `b` is a node. -/
theorem c99_single (hs : Single s L rep) (hb : Built s L g k) {a : C} (ha : L.Node a) (b : C) (r : Bool) :
    HasPath g.rovable a b r ↔ (r = true ↔ L.Node b) := by
  rw [c99_has_path hs.stored.searchable hb ha]
  unfold Walkable
  rw [c68_connected hs hb ha]

end

section
variable {N E : Type} {m : Machine} {h v : Nat} {g : Graph DCoord AxisR AxisDR N E} {k : Contents DCoord AxisR N E}

local macro "in_double" : tactic => `(tactic| (refine ⟨?_, ?_, ?_⟩ <;> (try simp only) <;> (try omega)))

/-- **C97** fails on every double-coordinate map with more than one node. -/
theorem c97_double (hb : Built (dblShape m h v) (dblLat h v) g k) (hh : 2 ≤ h ∧ 1 ≤ v ∨ 1 ≤ h ∧ 2 ≤ v) {gs : List (List DCoord)}
    (hk : Kosaraju g.rovable gs) : ¬ RightSccs (dblLat h v) g gs := by
  rw [c97_exact (.double m h v) hb hk]
  intro hsym
  obtain ⟨c, hc, hch, hmiss⟩ := c72_misses hb hh
  have key : ∀ t, InDouble h v t → t.h < h → Walkable g c t → False := fun t ht htw hl =>
    hmiss t ht htw (hsym c t (dblLat_node.2 hc) hl)
  by_cases h2 : 2 ≤ h
  · have ht : InDouble h v ⟨0, 0⟩ := by in_double
    exact key _ ht (by simp only; omega) ((c72_reach hb hc).2 ⟨ht, .inl ⟨h2, by simp only; omega⟩⟩)
  · obtain ⟨x, y⟩ := c
    unfold InDouble at hc
    simp only at hc hch
    have ht : InDouble h v ⟨0, y - 1⟩ := by in_double
    refine key _ ht (by simp only; omega) ((c72_reach hb (by in_double)).2 ⟨ht, .inr ?_⟩)
    unfold WestOf; simp only; omega

/-- **C98** on double coordinates: the outcome is wrong exactly on the maps of one column and of one row of two nodes (which have
edges but no cycle). -/
theorem c98_double (hb : Built (dblShape m h v) (dblLat h v) g k) {o : Except DCoord (List DCoord)} (ho : Toposort g.rovable o) :
    RightTopo (dblLat h v) g o ↔ ¬ (h = 1 ∧ 2 ≤ v ∨ h = 2 ∧ v = 1) := by
  rw [c98_exact (.double m h v) hb ho]
  have hstep : ∀ {a b}, InDouble h v a → (InWalk g.s a 1 b ↔ InDouble h v b ∧ ∃ d, DStep a d b ∧ (b.h < h ∨ d.west = true)) := by
    intro a b ha
    rw [inWalk_iff (.double m h v) hb (dblLat_node.2 ha)]
    constructor
    · intro hw
      cases hw with
      | @step _ x _ d hp hd =>
        cases hp
        obtain ⟨q1, q2⟩ := inner_nbr.1 hd
        obtain ⟨r1, -, r3⟩ := dblNbr_iff.1 q1
        exact ⟨dblLat_node.1 q2, d, r1, r3⟩
    · rintro ⟨q1, d, r1, r3⟩
      exact .step .nil (inner_nbr.2 ⟨dblNbr_iff.2 ⟨r1, q1.1, r3⟩, dblLat_node.2 q1⟩)
  have hcat : ∀ {a b n}, InDouble h v a → InWalk g.s a 1 b → InWalk g.s b n a → WalksBack (dblLat h v) g := by
    intro a b n ha h1 h2
    have hbn : InDouble h v b := ((hstep ha).1 h1).1
    refine ⟨a, n, dblLat_node.2 ha, ?_⟩
    rw [inWalk_iff (.double m h v) hb (dblLat_node.2 ha)] at h1 ⊢
    rw [inWalk_iff (.double m h v) hb (dblLat_node.2 hbn)] at h2
    rw [Nat.add_comm]
    exact h1.trans h2
  constructor
  · intro hr hcase
    have hwest : ∀ {a n b}, InDouble h v a → InWalk g.s a (n + 1) b → b.h < a.h := by
      intro a n b ha hw
      have hw' := (inWalk_iff (.double m h v) hb (dblLat_node.2 ha)).1 hw
      have key : ∀ {n b}, Path (inner (dblLat h v)) a n b → b.h ≤ a.h ∧ (0 < n → b.h < a.h) := by
        intro n b hp
        induction hp with
        | nil => exact ⟨Nat.le_refl _, fun h => absurd h (by omega)⟩
        | @step n x y d hp hd ih =>
          obtain ⟨q1, q2⟩ := inner_nbr.1 hd
          obtain ⟨r1, r2, r3⟩ := dblNbr_iff.1 q1
          have hx : InDouble h v x := dblLat_node.1 (hp.inner_node (dblLat_node.2 ha))
          have hy : InDouble h v y := dblLat_node.1 q2
          have ih1 := ih.1
          unfold InDouble at hx hy
          unfold DStep at r1
          cases d <;> simp only [AxisDR.vec, AxisDR.west, Bool.false_eq_true, or_false, or_true] at r1 r3 <;> omega
      exact (key hw').2 (by omega)
    rcases hr with ⟨a, n, ha, hw⟩ | hno
    · have := hwest (dblLat_node.1 ha) hw
      omega
    · rcases hcase with ⟨rfl, hv⟩ | ⟨rfl, rfl⟩
      · have ha : InDouble 1 v ⟨1, 1⟩ := by in_double
        refine hno ⟨1, 1⟩ ⟨0, 0⟩ (dblLat_node.2 ha) ((hstep ha).2 ⟨by in_double, .SW, ?_, .inr rfl⟩)
        simp only [DStep, AxisDR.vec]; omega
      · have ha : InDouble 2 1 ⟨2, 0⟩ := by in_double
        refine hno ⟨2, 0⟩ ⟨0, 0⟩ (dblLat_node.2 ha) ((hstep ha).2 ⟨by in_double, .W, ?_, .inr rfl⟩)
        simp only [DStep, AxisDR.vec]; omega
  · intro hcase
    by_cases h2 : 2 ≤ h
    · by_cases hv : 2 ≤ v
      · -- (0,0) and (1,1)
        have ha : InDouble h v ⟨0, 0⟩ := by in_double
        have hb' : InDouble h v ⟨1, 1⟩ := by in_double
        refine .inl (hcat (b := ⟨1, 1⟩) (n := 1) ha ((hstep ha).2 ⟨hb', .NE, ?_, .inl (by simp only; omega)⟩)
          ((hstep hb').2 ⟨ha, .SW, ?_, .inr rfl⟩)) <;> simp only [DStep, AxisDR.vec] <;> omega
      · by_cases hv1 : v = 1
        · -- (0,0) and (2,0)
          subst hv1
          have ha : InDouble h 1 ⟨0, 0⟩ := by in_double
          have hb' : InDouble h 1 ⟨2, 0⟩ := by in_double
          refine .inl (hcat (b := ⟨2, 0⟩) (n := 1) ha ((hstep ha).2 ⟨hb', .E, ?_, .inl (by simp only; omega)⟩)
            ((hstep hb').2 ⟨ha, .W, ?_, .inr rfl⟩)) <;> simp only [DStep, AxisDR.vec] <;> omega
        · refine .inr fun a b ha _ => ?_
          have := (dblLat_node.1 ha).1
          omega
    · refine .inr fun a b ha hw => ?_
      have ha := dblLat_node.1 ha
      obtain ⟨hb', d, hd, -⟩ := (hstep ha).1 hw
      unfold InDouble at ha hb'
      unfold DStep at hd
      cases d <;> simp only [AxisDR.vec] at hd <;> omega

/-- **C99** on double coordinates: `true` exactly for the western half (unless there is one column only) and the cone west of the
start. -/
theorem c99_double (hb : Built (dblShape m h v) (dblLat h v) g k) {a : DCoord} (ha : InDouble h v a) (b : DCoord) (r : Bool) :
    HasPath g.rovable a b r ↔ (r = true ↔ InDouble h v b ∧ (2 ≤ h ∧ b.h < h ∨ WestOf a b)) := by
  rw [c99_has_path (.double m h v) hb (dblLat_node.2 ha), ← c72_reach hb ha]; rfl

/-- Example: on a 3 × 3 double-coordinate map the groups are wrong, and (4,2) is reported as out of reach of (0,0), though adjacent
cells lead there. -/
example : ∃ g : Graph DCoord AxisR AxisDR Nat Nat,
    (∃ st, newWith (dblShape m64 3 3) (fun n _ => (n, n + 1)) (fun n _ _ => (n, n + 1)) 0 = .ok (g, st)) ∧
    (∃ gs, Kosaraju g.rovable gs ∧ ¬ RightSccs (dblLat 3 3) g gs) ∧ HasPath g.rovable ⟨0, 0⟩ ⟨4, 2⟩ false ∧
    HasPath g.rovable ⟨4, 2⟩ ⟨0, 0⟩ true := by
  obtain ⟨g, h1, h2⟩ := c57_new_with (.double m64 3 3) (by decide) (fun (n : Nat) _ => (n, n + 1)) (fun (n : Nat) _ _ => (n, n + 1)) 0
  obtain ⟨gs, h3, -⟩ := c97_groups_partial (.double m64 3 3) h2
  have hk := (h3 gs).2 rfl
  refine ⟨g, ⟨_, h1⟩, ⟨gs, hk, c97_double h2 (.inl ⟨by decide, by decide⟩) hk⟩, ?_, ?_⟩
  · refine (c99_double h2 (by decide) _ _).2 ⟨(fun e => nomatch e), fun ⟨_, hw⟩ => ?_⟩
    unfold WestOf at hw
    simp only at hw
    omega
  · exact (c99_double h2 (by decide) _ _).2 ⟨fun _ => ⟨by decide, .inl ⟨by decide, by decide⟩⟩, fun _ => rfl⟩

/-- Example: three nodes in a column, (1,1) leading to (0,0) and to (0,2): a cycle is reported though there is none. -/
example : ∃ g : Graph DCoord AxisR AxisDR Nat Nat,
    (∃ st, newWith (dblShape m64 1 3) (fun n _ => (n, n + 1)) (fun n _ _ => (n, n + 1)) 0 = .ok (g, st)) ∧
    ∃ c, Toposort g.rovable (.error c) ∧ ¬ WalksBack (dblLat 1 3) g := by
  obtain ⟨g, h1, h2⟩ := c57_new_with (.double m64 1 3) (by decide) (fun (n : Nat) _ => (n, n + 1)) (fun (n : Nat) _ _ => (n, n + 1)) 0
  obtain ⟨o, h3, h4, h5⟩ := c98_toposort_partial (.double m64 1 3) h2
  have hwrong : ¬ RightTopo (dblLat 1 3) g o := fun h => (c98_double h2 ((h3 o).2 rfl)).1 h (.inl ⟨rfl, by decide⟩)
  refine ⟨g, ⟨_, h1⟩, ?_⟩
  have hex : ∃ a b, (dblLat 1 3).Node a ∧ InWalk g.s a 1 b := Classical.byContradiction fun hno =>
    hwrong ((c98_exact (.double m64 1 3) h2 ((h3 o).2 rfl)).2 (.inr fun a b ha hw => hno ⟨a, b, ha, hw⟩))
  obtain ⟨c, -, e⟩ := h5 hex
  refine ⟨c, (h3 _).2 e.symm, fun hc => hwrong ?_⟩
  rw [e]
  exact hc

end

/-- Example: on a 3 × 2 square map the groups are right; two opposite corners are in one group. -/
example : ∃ (g : Graph Offset SquareAxis DSquareAxis Nat Nat) (gs : List (List Offset)), Built (squareShape m64 3 2) (squareLat 3 2) g exK ∧
    Kosaraju g.rovable gs ∧ RightSccs (squareLat 3 2) g gs ∧ HasPath g.rovable ⟨0, 0⟩ ⟨1, 0⟩ true := by
  obtain ⟨g, hb⟩ := exSquare
  have hs := Lawful.square m64 3 2
  obtain ⟨gs, h3, -⟩ := c97_groups_partial hs.searchable hb
  have hk := (h3 gs).2 rfl
  have h0 : (squareLat 3 2).Node ⟨0, 0⟩ := ⟨0, 0, by decide, by decide, rfl⟩
  refine ⟨g, gs, hb, hk, c97_lawful hs hb hk, (c99_has_path hs.searchable hb h0 _ _).2 ⟨fun _ => ⟨1, ?_⟩, fun _ => rfl⟩⟩
  exact .step .nil (c07_neighbors hs hb h0) (by decide) ⟨_, (hb.good hs).impl.toOffset_coord (x := 1) (y := 0) (by decide) (by decide)⟩

/-- The looped axial shape, and the square, through the remaining statements. -/
example : ∃ (g : Graph Axial AxisR AxisDR Nat Nat) (gs : List (List Axial)),
    (∃ st, newWith (hexAxRLew m64 (isizeTy m64) oddR 2 3) (fun n _ => (n, n + 1)) (fun n _ _ => (n, n + 1)) 0 = .ok (g, st)) ∧
    Kosaraju g.rovable gs ∧ RightSccs (axLatRLoop oddR.isEven 2 3) g gs ∧ HasPath g.rovable ⟨0, 0⟩ ⟨0, 2⟩ true ∧
    (∀ a b, (axLatRLoop oddR.isEven 2 3).Node a → Walkable g a b → Walkable g b a) ∧
    ∀ o, Toposort g.rovable o → RightTopo (axLatRLoop oddR.isEven 2 3) g o := by
  have hs := Single.hexAxRLew m64 (isizeTy m64) oddR rfl 2 3 (.isize (by decide) (by decide))
  obtain ⟨g, h1, h2⟩ := c57_new_with hs.storable (by decide) (fun (n : Nat) _ => (n, n + 1)) (fun (n : Nat) _ _ => (n, n + 1)) 0
  obtain ⟨gs, h3, -⟩ := c97_groups_partial hs.stored.searchable h2
  have hk := (h3 gs).2 rfl
  have h0 : (axLatRLoop oddR.isEven 2 3).Node ⟨0, 0⟩ := ⟨0, 0, by decide, by decide, rfl⟩
  have hr := (c97_single hs h2 hk).1
  exact ⟨g, gs, ⟨_, h1⟩, hk, hr, (c99_single hs h2 h0 _ _).2 ⟨fun _ => ⟨1, 2, by decide, by decide, by decide⟩, fun _ => rfl⟩,
    (c97_exact hs.stored.searchable h2 hk).1 hr, fun o ho => c98_single hs h2 ho⟩
example : ∃ (g : Graph Offset SquareAxis DSquareAxis Nat Nat) (o : Except Offset (List Offset)), Toposort g.rovable o ∧
    RightTopo (squareLat 3 2) g o := by
  obtain ⟨g, hb⟩ := exSquare
  have hs := Lawful.square m64 3 2
  obtain ⟨o, h3, -⟩ := c98_toposort_partial hs.searchable hb
  exact ⟨g, o, (h3 o).2 rfl, c98_lawful hs hb ((h3 o).2 rfl)⟩

end LG
