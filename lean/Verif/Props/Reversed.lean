import Verif.Model.Reversed
import Verif.Props.Astar
/- C110: the reversed view of a graph. -/
set_option linter.unusedSectionVars false
namespace LG
section
variable {C A D N E : Type} [DecidableEq C] [DecidableEq A] [DecidableEq D]
variable {g : Graph C A D N E} {s : Shape C A D} {L : Lat C A D} {rep : C → Prop} {k : Contents C A N E}
variable {cost : E → Nat} {h : C → Nat} {goal : C → Bool}

/-- The directions of a step the other way round. -/
def stepsTo (L : Lat C A D) (a b : C) : PDir → List D
  | .outgoing => L.dirs.filter fun x => decide (L.nbr b x = some a)
  | .incoming => L.dirs.filter fun x => decide (L.nbr a x = some b)

/-- **C110.** `Reversed(&g).neighbors_directed(a, d)` yields the nodes from which one can step to `a` (`Outgoing`), respectively to
which one can step from `a` (`Incoming`), each as often as there are directions to do it in; `neighbors(a)` is the former. -/
theorem c110_neighbors (hs : Lawful s L rep) (hb : Built s L g k) {a : C} (ha : L.Node a) (d : PDir) :
    g.revNeighbors a = g.revNeighborsDirected a .outgoing ∧
    ∃ l, Yields (NeighborsIt.next g.s) (g.revNeighborsDirected a d) l ∧ (∀ b ∈ l, L.Node b) ∧
      ∀ b, L.Node b → l.count b = (stepsTo L a b d).length := by
  refine ⟨rfl, ?_⟩
  obtain ⟨l, h1, h2, h3⟩ := c08_neighbors_directed hs hb ha d.opposite
  refine ⟨l, h1, h2, fun b hbn => ?_⟩
  rw [h3 b hbn]
  cases d <;> simp only [PDir.opposite, stepsTo, List.countP_eq_length_filter]

theorem revEdges_iff (hs : Lawful s L rep) (hb : Built s L g k) {a : C} (ha : L.Node a)
    (hm : g.isDirected = false ∨ g.s.m.mode = .release) {l : List (EdgeRef C D E)} :
    RevEdges g a l ↔ l = (inEdges L k a).map EdgeRef.rev := by
  obtain ⟨it, h1, h2⟩ := c12_incoming_partial hs hb ha hm
  constructor
  · rintro ⟨it', rs, h3, h4, rfl⟩
    rw [h1] at h3; cases h3
    rw [Yields.unique h4 h2]
  · rintro rfl
    exact ⟨it, _, h1, h2, rfl⟩

theorem inEdges_mem (hd : DirLaws L) {a : C} {r : EdgeRef C D E} :
    r ∈ inEdges L k a ↔ r.target = a ∧ L.nbr a r.direction = some r.source ∧
      k.edge (L.key r.source (L.opp r.direction) a).1 (L.key r.source (L.opp r.direction) a).2 = some r.weight := by
  obtain ⟨src, tgt, w, d⟩ := r
  simp only [inEdges, List.mem_filterMap, hd.dirs_mem, true_and, Option.bind_eq_some_iff, Option.map_eq_some_iff, EdgeRef.mk.injEq]
  constructor
  · rintro ⟨d', t, h1, w', h2, rfl, rfl, rfl, rfl⟩
    exact ⟨rfl, h1, h2⟩
  · rintro ⟨rfl, h1, h2⟩
    exact ⟨d, src, h1, w, h2, rfl, rfl, rfl, rfl⟩

/-- **C110**, edges: undirected graphs in any build and directed graphs in release builds. `Reversed(&g).edges(a)` ends and yields
references from `a`, one per neighbor, and leads to `b` with weight `w` exactly if `g.edges(b)` leads to `a` with weight `w`. The
full claim does not have the last hypothesis; it fails in the remaining case, see `c110_debug_search`. -/
theorem c110_edges_partial (hs : Lawful s L rep) (hb : Built s L g k) {a : C} (ha : L.Node a)
    (hm : g.isDirected = false ∨ g.s.m.mode = .release) :
    ∃ rs, RevEdges g a rs ∧ (∀ l, RevEdges g a l → l = rs) ∧ (∀ r ∈ rs, r.source = a ∧ L.Node r.target) ∧
      (∀ b, L.Node b → (rs.map EdgeRef.target).count b = (stepsTo L a b .outgoing).length) ∧
      ∀ b w, L.Node b → ((∃ r ∈ rs, r.target = b ∧ r.weight = w) ↔ ∃ r, EdgeOf g b r ∧ r.target = a ∧ r.weight = w) := by
  have hl := hs.laws
  refine ⟨_, (revEdges_iff hs hb ha hm).2 rfl, fun l h1 => (revEdges_iff hs hb ha hm).1 h1, ?_, ?_, ?_⟩
  · intro r hr
    obtain ⟨r', h1, rfl⟩ := List.mem_map.1 hr
    obtain ⟨h2, h3, -⟩ := (inEdges_mem hl.dir).1 h1
    exact ⟨h2, hl.nbr_node ha h3⟩
  · intro b hbn
    have e : ((inEdges L k a).map EdgeRef.rev).map EdgeRef.target = L.nbrs a := by
      rw [List.map_map, ← (c12_incoming_exact hs hb ha).1]
      rfl
    obtain ⟨l, h1, -, h2⟩ := c08_neighbors_directed hs hb ha .incoming
    obtain ⟨l', h3, -, h4⟩ := c08_neighbors_directed hs hb ha .outgoing
    have h5 := h2 b hbn
    have h6 := h4 b hbn
    dsimp only at h5 h6
    have h7 : l' = l := Yields.unique h3 h1
    rw [e, stepsTo, ← List.countP_eq_length_filter, ← h5, ← h7, h6]
    unfold Lat.nbrs
    rw [List.count_filterMap]
    congr 1
    funext x
    cases L.nbr a x with
    | none => simp
    | some t => by_cases e : t = b <;> simp [e]
  · intro b w hbn
    constructor
    · rintro ⟨r, hr, rfl, rfl⟩
      obtain ⟨r', h1, rfl⟩ := List.mem_map.1 hr
      obtain ⟨h2, h3, h4⟩ := (inEdges_mem hl.dir).1 h1
      exact ⟨⟨r'.source, a, r'.weight, L.opp r'.direction⟩,
        (edgeOf_iff hs hb hbn).2 ((mem_outEdges hl.dir).2 ⟨rfl, hl.nbr_opp ha h3, h4⟩), rfl, rfl⟩
    · rintro ⟨r, hr, rfl, rfl⟩
      obtain ⟨h2, h3, h4⟩ := (mem_outEdges hl.dir).1 ((edgeOf_iff hs hb hbn).1 hr)
      refine ⟨EdgeRef.rev ⟨b, r.target, r.weight, L.opp r.direction⟩, List.mem_map.2 ⟨⟨b, r.target, r.weight, L.opp r.direction⟩, (inEdges_mem hl.dir).2 ⟨rfl, ?_, ?_⟩, rfl⟩, rfl, rfl⟩
      · exact hl.nbr_opp hbn h3
      · rw [hl.dir.opp_opp]; exact h4

/-- **C110.** `Reversed(&g).edges_directed(a, Outgoing)` is `edges(a)` of the view; with `Incoming` it lists what `g.edges(a)`
lists, in the same order, with the ends exchanged, in all builds. -/
theorem c110_edges_directed (hs : Lawful s L rep) (hb : Built s L g k) {a : C} (ha : L.Node a) :
    (∀ l, RevEdgesDirected g a .outgoing l ↔ RevEdges g a l) ∧
    ∃ it rs, g.edgesOf a = .ok it ∧ Yields (edgesNext g) it rs ∧
      ∀ l, RevEdgesDirected g a .incoming l ↔ l = rs.map fun r => ⟨r.target, a, r.weight, r.direction⟩ := by
  refine ⟨fun l => Iff.rfl, ?_⟩
  obtain ⟨it, h1, h2⟩ := c58_edges_partial hs.storable hb ha (hs.readable ha)
  refine ⟨it, _, h1, h2, fun l => ?_⟩
  have e : (outEdges L k a).map EdgeRef.rev = (outEdges L k a).map fun r => ⟨r.target, a, r.weight, r.direction⟩ :=
    List.map_congr_left fun r hr => by rw [EdgeRef.rev, ((mem_outEdges hs.laws.dir).1 hr).1]
  rw [← e]
  obtain ⟨it', h3, h4⟩ := c12_outgoing hs hb ha
  constructor
  · rintro ⟨it'', rs, h5, h6, rfl⟩
    rw [PDir.opposite, h3] at h5; cases h5
    rw [Yields.unique h6 h4]
  · rintro rfl
    exact ⟨it', _, h3, h4, rfl⟩

theorem revLeads_iff (hs : Lawful s L rep) (hb : Built s L g k) {u t : C} (hu : L.Node u)
    (hm : g.isDirected = false ∨ g.s.m.mode = .release) {n : Nat} :
    Leads (revLatEdges g cost) u t n ↔ L.Node t ∧ Link g (fun r => cost r.weight) t u n := by
  obtain ⟨rs, h1, h2, h3, -, h4⟩ := c110_edges_partial hs hb hu hm
  constructor
  · rintro ⟨_, ⟨rs', h5, rfl⟩, h6⟩
    rw [h2 _ h5] at h6
    obtain ⟨r, h7, h8⟩ := List.mem_map.1 h6
    cases h8
    have hn := (h3 r h7).2
    obtain ⟨r', h8, h9, h10⟩ := (h4 _ _ hn).1 ⟨r, h7, rfl, rfl⟩
    exact ⟨hn, r', h8, h9, congrArg cost h10⟩
  · rintro ⟨hn, r, h5, h6, rfl⟩
    obtain ⟨r', h7, rfl, h8⟩ := (h4 t r.weight hn).2 ⟨r, h5, h6, rfl⟩
    exact ⟨_, ⟨rs, h1, rfl⟩, List.mem_map.2 ⟨r', h7, by rw [h8]⟩⟩

theorem revGraph (hs : Lawful s L rep) (hb : Built s L g k) (hm : g.isDirected = false ∨ g.s.m.mode = .release) (cost : E → Nat) :
    AstGraph (revLatEdges g cost) L.Node L.nodes where
  total := fun _ hc => ⟨_, _, (revEdges_iff hs hb hc hm).2 rfl, rfl⟩
  one := fun _ _ _ hc ⟨_, h1, e1⟩ ⟨_, h2, e2⟩ => by
    rw [e1, e2, (revEdges_iff hs hb hc hm).1 h1, (revEdges_iff hs hb hc hm).1 h2]
  node := fun _ _ _ hc hl => ((revLeads_iff hs hb hc hm).1 hl).1
  mem := fun _ hc => Lat.mem_nodes.2 hc

theorem revWalk_iff (hs : Lawful s L rep) (hb : Built s L g k) {a t : C} (ha : L.Node a)
    (hm : g.isDirected = false ∨ g.s.m.mode = .release) {n : Nat} :
    AWalk (revLatEdges g cost) a t n ↔ L.Node t ∧ CostWalk g (fun r => cost r.weight) t a n := by
  constructor
  · intro hw
    induction hw with
    | nil => exact ⟨ha, .nil⟩
    | @cons u x t w n he _ ih =>
      obtain ⟨h1, r, h2, rfl, rfl⟩ := (revLeads_iff hs hb ha hm).1 he
      obtain ⟨h3, h4⟩ := ih h1
      rw [Nat.add_comm]
      exact ⟨h3, .step h4 h2⟩
  · rintro ⟨ht, hw⟩
    induction hw with
    | nil => exact .nil
    | @step b n r h1 he ih =>
      have hbn := h1.node hs hb ht
      rw [Nat.add_comm]
      exact .cons ((revLeads_iff hs hb ha hm).2 ⟨hbn, r, he, rfl, rfl⟩) (ih hbn)

theorem revPath (hs : Lawful s L rep) (hb : Built s L g k) (hm : g.isDirected = false ∨ g.s.m.mode = .release) {p : List C} {n : Nat}
    (hp : PathOf (Leads (revLatEdges g cost)) p n) : ∀ {a}, p.head? = some a → L.Node a →
      PathOf (Link g fun r => cost r.weight) p.reverse n := by
  induction hp with
  | one => exact fun _ _ => .one
  | cons he _ ih =>
    intro a h1 ha
    cases h1
    obtain ⟨h2, h3⟩ := (revLeads_iff hs hb ha hm).1 he
    rw [List.reverse_cons, Nat.add_comm]
    exact (ih rfl h2).snoc (by simp) h3

/-- **C110.** A search over the reversed view, whatever the costs and the estimate, is finite and can be completed (undirected
graphs in any build, directed graphs in release builds). -/
theorem c110_runs_partial (hs : Lawful s L rep) (hb : Built s L g k) {a : C} (ha : L.Node a)
    (hm : g.isDirected = false ∨ g.s.m.mode = .release) (cost : E → Nat) (h : C → Nat) (goal : C → Bool) :
    (∀ run : Nat → Ast C, run 0 = astNew h a → ¬ ∀ i, AstStep (revLatEdges g cost) h goal (run i) (run (i + 1))) ∧
    ∀ st, AstSteps (revLatEdges g cost) h goal (astNew h a) st →
      ∃ st' o, AstSteps (revLatEdges g cost) h goal st st' ∧ AstReturns goal st' o :=
  ⟨fun run h0 => ast_ends (revGraph hs hb hm cost) ha run h0, fun _ h1 => ast_completes (revGraph hs hb hm cost) ha h1⟩

/-- **C110.** Searching the reversed view from `a` finds the cheapest way *to* `a`: `None` only if no goal node can walk to `a`;
otherwise the list returned, read backwards, is a path of the graph from a goal to `a`, and if the estimate never exceeds the cost
of a walk to `a` the cost returned is that of the path and the least among all walks from a goal to `a`. -/
theorem c110_search_partial (hs : Lawful s L rep) (hb : Built s L g k) {a : C} (ha : L.Node a)
    (hm : g.isDirected = false ∨ g.s.m.mode = .release) (cost : E → Nat) (h : C → Nat) (goal : C → Bool)
    (hadm : ∀ x t n, L.Node x → L.Node t → goal t = true → CostWalk g (fun r => cost r.weight) t x n → h x ≤ n)
    {o : Option (Nat × List C)} (ho : AstOutcome (revLatEdges g cost) h goal a o) :
    (o = none → ∀ t n, L.Node t → goal t = true → ¬ CostWalk g (fun r => cost r.weight) t a n) ∧
    ∀ n p, o = some (n, p) → ∃ t, L.Node t ∧ goal t = true ∧ p.reverse.head? = some t ∧ p.reverse.getLast? = some a ∧
      PathOf (Link g fun r => cost r.weight) p.reverse n ∧ CostWalk g (fun r => cost r.weight) t a n ∧
      ∀ t' m, L.Node t' → goal t' = true → CostWalk g (fun r => cost r.weight) t' a m → n ≤ m := by
  obtain ⟨h1, h2⟩ := ast_result (revGraph hs hb hm cost) ha ho
  refine ⟨fun e t n ht hg hw => h1 e t n hg ((revWalk_iff hs hb ha hm).2 ⟨ht, hw⟩), fun n p e => ?_⟩
  obtain ⟨t, -, h3, h4, h5, h6, -⟩ := h2 n p e
  subst e
  obtain ⟨h7, h8⟩ := ast_least (revGraph hs hb hm cost) ha (fun x t n hx hg hw => by
    obtain ⟨h9, h10⟩ := (revWalk_iff hs hb hx hm).1 hw
    exact hadm x t n hx h9 hg h10) ho
  obtain ⟨h9, h10⟩ := (revWalk_iff hs hb ha hm).1 h4
  exact ⟨t, h9, h3, by rw [List.head?_reverse, h6], by rw [List.getLast?_reverse, h5], revPath hs hb hm h7 h5 ha, h10,
    fun t' m ht' hg hw => h8 t' m hg ((revWalk_iff hs hb ha hm).2 ⟨ht', hw⟩)⟩

/-- **C110.** On an undirected graph every walk can be walked back for the same price, so the reversed view has the same costs. -/
theorem c110_undirected (hs : Lawful s L rep) (hb : Built s L g k) {a t : C} (ha : L.Node a) (ht : L.Node t)
    (hd : g.isDirected = false) (cost : E → Nat) (n : Nat) :
    CostWalk g (fun r => cost r.weight) a t n ↔ CostWalk g (fun r => cost r.weight) t a n := by
  have hl := hs.laws
  have hud : L.directed = false := by rwa [Graph.isDirected, (hb.good hs).impl.axis.directed] at hd
  have back : ∀ {u v : C} {m : Nat}, L.Node u → CostWalk g (fun r => cost r.weight) u v m → CostWalk g (fun r => cost r.weight) v u m := by
    intro u v m hu hw
    have key : AWalk (revLatEdges g cost) u v m := by
      induction hw with
      | nil => exact .nil
      | @step b n r h1 he ih =>
        have hbn := h1.node hs hb hu
        obtain ⟨h2, h3, h4⟩ := (mem_outEdges hl.dir).1 ((edgeOf_iff hs hb hbn).1 he)
        refine ih.snoc ((revLeads_iff hs hb hbn (.inl hd)).2 ⟨hl.nbr_node hbn h3, ⟨r.target, b, r.weight, L.opp r.direction⟩, ?_, rfl, rfl⟩)
        refine (edgeOf_iff hs hb (hl.nbr_node hbn h3)).2 ((mem_outEdges hl.dir).2 ⟨rfl, hl.nbr_opp hbn h3, ?_⟩)
        rw [key_symm hl.dir hud]
        exact h4
    exact ((revWalk_iff hs hb hu (.inl hd)).1 key).2
  exact ⟨back ha, back ht⟩

theorem Pop.single {f f' : Nat} {a c : C} {rest : List (Nat × C)} (hp : Pop [(f, a)] (f', c) rest) : c = a ∧ rest = [] := by
  obtain ⟨⟨h1, h2, e, rfl⟩, -⟩ := hp
  cases h1 with
  | nil => cases e; exact ⟨rfl, rfl⟩
  | cons _ h1 =>
    have := congrArg List.length e
    simp only [List.length_cons, List.length_append, List.length_nil] at this
    omega

/-- **C110.** The remaining case: in a debug build, no search over the reversed view of a directed graph from a node that has a
neighbor and is not a goal returns. -/
theorem c110_debug_search (hs : Lawful s L rep) (hb : Built s L g k) {a : C} (ha : L.Node a) (hd : g.isDirected = true)
    (hm : g.s.m.mode = .debug) (hn : L.nbrs a ≠ []) (cost : E → Nat) (h : C → Nat) (goal : C → Bool) (hg : goal a = false) :
    (¬ ∃ l, RevEdges g a l) ∧ ¬ ∃ o, AstOutcome (revLatEdges g cost) h goal a o := by
  obtain ⟨it, h1, h2⟩ := c12_incoming_debug_panics hs hb ha hd hm hn
  have hno : ¬ ∃ l, RevEdges g a l := by
    rintro ⟨_, it', rs, h3, h4, -⟩
    rw [h1] at h3; cases h3
    cases h4 with
    | done h5 => rw [h2] at h5; cases h5
    | step h5 _ => rw [h2] at h5; cases h5
  refine ⟨hno, ?_⟩
  rintro ⟨o, st, h3, h4⟩
  have key : ∀ {st}, AstSteps (revLatEdges g cost) h goal (astNew h a) st → st = astNew h a := by
    intro st hst
    induction hst with
    | nil => rfl
    | step _ h6 ih =>
      subst ih
      cases h6 with
      | skip h7 h8 h9 => cases h9
      | next h7 h8 h9 h10 h11 =>
        obtain ⟨_, h12, -⟩ := h11
        exact absurd ⟨_, (Pop.single h7).1 ▸ h12⟩ hno
  have e := key h3
  subst e
  cases h4 with
  | none h5 => cases h5
  | some h5 h6 => rw [(Pop.single h5).1, hg] at h6; cases h6
end

/-- the 3 × 2 square graph, and its directed version in a debug and in a release build -/
example : ∃ (g : Graph Offset SquareAxis DSquareAxis Nat Nat) (l : List Offset), Yields (NeighborsIt.next g.s) (g.revNeighbors ⟨0, 0⟩) l ∧
    l.count ⟨1, 0⟩ = 1 ∧ l.count ⟨2, 1⟩ = 0 := by
  obtain ⟨g, hb⟩ := exSquare
  have h0 : (squareLat 3 2).Node ⟨0, 0⟩ := ⟨0, 0, by decide, by decide, rfl⟩
  obtain ⟨h1, l, h2, -, h3⟩ := c110_neighbors (Sound.square m64 3 2).lawful hb h0 .outgoing
  exact ⟨g, l, h1 ▸ h2, (h3 _ ⟨1, 0, by decide, by decide, rfl⟩).trans (by decide),
    (h3 _ ⟨2, 1, by decide, by decide, rfl⟩).trans (by decide)⟩
example : ∃ (g : Graph Offset DSquareAxis DSquareAxis Nat Nat) (rs : List (EdgeRef Offset DSquareAxis Nat)), g.isDirected = true ∧
    RevEdges g ⟨1, 0⟩ rs ∧ ∃ r ∈ rs, r.target = ⟨0, 0⟩ ∧ ∀ r', EdgeOf g ⟨0, 0⟩ r' → r'.target = ⟨1, 0⟩ → r'.weight = r.weight := by
  obtain ⟨g, hb⟩ := exSquareD m64r rfl
  have hs := (Sound.squareDirected m64r 3 2).lawful
  have h0 : (squareLatDirected 3 2).Node ⟨0, 0⟩ := ⟨0, 0, by decide, by decide, rfl⟩
  have h1 : (squareLatDirected 3 2).Node ⟨1, 0⟩ := ⟨1, 0, by decide, by decide, rfl⟩
  obtain ⟨rs, h2, -, -, -, h3⟩ := c110_edges_partial hs hb h1 (.inr (by rw [(hb.good (.squareDirected _ _ _)).shape]; rfl))
  have hall : ∀ r' ∈ outEdges (squareLatDirected 3 2) exKD ⟨0, 0⟩, r'.target = ⟨1, 0⟩ → r' = ⟨⟨0, 0⟩, ⟨1, 0⟩, 1000, .X⟩ := by decide
  obtain ⟨r, h4, h5, h6⟩ := (h3 ⟨0, 0⟩ 1000 h0).2 ⟨⟨⟨0, 0⟩, ⟨1, 0⟩, 1000, .X⟩, (edgeOf_iff hs hb h0).2 (by decide), rfl, rfl⟩
  refine ⟨g, rs, by rw [Graph.isDirected, (hb.good hs).impl.axis.directed]; rfl, h2, r, h4, h5, fun r' h7 h8 => ?_⟩
  rw [hall r' ((edgeOf_iff hs hb h0).1 h7) h8, h6]
example : ∃ (g : Graph Offset DSquareAxis DSquareAxis Nat Nat) (n : Nat) (p : List Offset), g.isDirected = true ∧
    AstOutcome (revLatEdges g id) (fun _ => 0) (fun c => decide (c = ⟨2, 1⟩)) ⟨0, 0⟩ (some (n, p)) ∧
    CostWalk g (fun r => id r.weight) ⟨2, 1⟩ ⟨0, 0⟩ n ∧ p.reverse.head? = some ⟨2, 1⟩ := by
  obtain ⟨g, hb⟩ := exSquareD m64r rfl
  have hs := Sound.squareDirected m64r 3 2
  have hm : g.isDirected = false ∨ g.s.m.mode = .release := .inr (by rw [(hb.good (.squareDirected _ _ _)).shape]; rfl)
  have h0 : (squareLatDirected 3 2).Node ⟨0, 0⟩ := ⟨0, 0, by decide, by decide, rfl⟩
  have h1 : (squareLatDirected 3 2).Node ⟨2, 1⟩ := ⟨2, 1, by decide, by decide, rfl⟩
  obtain ⟨st, o, h2, h3⟩ := (c110_runs_partial hs.lawful hb h0 hm id (fun _ => 0) (fun c => decide (c = ⟨2, 1⟩))).2 _ .nil
  have ho : AstOutcome (revLatEdges g id) (fun _ => 0) (fun c => decide (c = ⟨2, 1⟩)) ⟨0, 0⟩ o := ⟨st, h2, h3⟩
  obtain ⟨h4, h5⟩ := c110_search_partial hs.lawful hb h0 hm id _ _ (fun _ _ _ _ _ _ _ => Nat.zero_le _) ho
  cases o with
  | none =>
    obtain ⟨n, hw⟩ := costWalk_exists (cost := fun r => id r.weight) hs hb h1 h0
    exact absurd hw (h4 rfl _ n h1 (by decide))
  | some r =>
    obtain ⟨t, -, h6, h7, -, -, h8, -⟩ := h5 r.1 r.2 rfl
    have e : t = ⟨2, 1⟩ := of_decide_eq_true h6
    subst e
    exact ⟨g, r.1, r.2, by rw [Graph.isDirected, (hb.good hs.lawful).impl.axis.directed]; rfl, ho, h8, h7⟩
example : ∃ g : Graph Offset SquareAxis DSquareAxis Nat Nat, CostWalk g (fun r => id r.weight) ⟨0, 0⟩ ⟨1, 0⟩ 1000 ∧
    CostWalk g (fun r => id r.weight) ⟨1, 0⟩ ⟨0, 0⟩ 1000 := by
  obtain ⟨g, hb⟩ := exSquare
  have hs := (Sound.square m64 3 2).lawful
  have h0 : (squareLat 3 2).Node ⟨0, 0⟩ := ⟨0, 0, by decide, by decide, rfl⟩
  have hw : CostWalk g (fun r => id r.weight) ⟨0, 0⟩ ⟨1, 0⟩ 1000 :=
    .step (r := ⟨⟨0, 0⟩, ⟨1, 0⟩, 1000, .X⟩) .nil ((edgeOf_iff hs hb h0).2 (by decide))
  exact ⟨g, hw, (c110_undirected hs hb h0 ⟨1, 0, by decide, by decide, rfl⟩
    (by rw [Graph.isDirected, (hb.good hs).impl.axis.directed]; rfl) id 1000).1 hw⟩
example : ∃ g : Graph Offset DSquareAxis DSquareAxis Nat Nat, Built (squareShapeDirected m64 3 2) (squareLatDirected 3 2) g exKD ∧
    ¬ ∃ o, AstOutcome (revLatEdges g id) (fun _ => 0) (fun c => decide (c = ⟨2, 1⟩)) ⟨0, 0⟩ o := by
  obtain ⟨g, hb⟩ := exSquareD m64 rfl
  have hs := (Sound.squareDirected m64 3 2).lawful
  exact ⟨g, hb, (c110_debug_search hs hb ⟨0, 0, by decide, by decide, rfl⟩
    (by rw [Graph.isDirected, (hb.good hs).impl.axis.directed]; rfl) (by rw [(hb.good (.squareDirected _ _ _)).shape]; rfl) (by decide) id _ _ (by decide)).2⟩

example : ∃ (g : Graph Offset DSquareAxis DSquareAxis Nat Nat) (l : List (EdgeRef Offset DSquareAxis Nat)),
    RevEdgesDirected g ⟨0, 0⟩ .incoming l ∧ ∀ r ∈ l, r.target = ⟨0, 0⟩ := by
  obtain ⟨g, hb⟩ := exSquareD m64 rfl
  obtain ⟨-, it, rs, -, -, h1⟩ := c110_edges_directed (.squareDirected _ _ _) hb (⟨0, 0, by decide, by decide, rfl⟩ : (squareLatDirected 3 2).Node ⟨0, 0⟩)
  refine ⟨g, _, (h1 _).2 rfl, fun r hr => ?_⟩
  obtain ⟨_, -, rfl⟩ := List.mem_map.1 hr
  rfl

end LG
