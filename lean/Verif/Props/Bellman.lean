import Verif.Lemmas.Bellman
import Verif.Props.Floyd
/- C108: least costs with negative weights, from `edges`, `node_identifiers` and the node numbers. -/
set_option linter.unusedSectionVars false
namespace LG
section
variable {C A D N E : Type} [DecidableEq C] [DecidableEq A] [DecidableEq D]
variable {g : Graph C A D N E} {s : Shape C A D} {L : Lat C A D} {rep : C → Prop} {k : Contents C A N E} {val : E → Int}

/-- `edges(u)` yields a reference to `t` with a weight of value `w`. -/
def Arc (g : Graph C A D N E) (val : E → Int) (u t : C) (w : Int) : Prop := ∃ r, EdgeOf g u r ∧ r.target = t ∧ val r.weight = w

theorem latArcs_iff (hs : Lawful s L rep) (hb : Built s L g k) {c : C} (hc : L.Node c) {l : List (C × Int)} :
    latArcs g val c l ↔ l = (outEdges L k c).map fun r => (r.target, val r.weight) := by
  obtain ⟨it, h1, h2⟩ := c58_edges_partial hs.storable hb hc (hs.readable hc)
  constructor
  · rintro ⟨it', rs, h3, h4, rfl⟩
    rw [h1] at h3; cases h3
    rw [Yields.unique h4 h2]
  · rintro rfl
    exact ⟨it, _, h1, h2, rfl⟩

theorem Arc.node (hs : Lawful s L rep) (hb : Built s L g k) {u t : C} (hu : L.Node u) {w : Int} (ha : Arc g val u t w) : L.Node t := by
  obtain ⟨r, h1, rfl, -⟩ := ha
  exact hs.laws.nbr_node hu (c10_edge_exact hs hb hu ((edgeOf_iff hs hb hu).1 h1)).2.1

theorem indexed (hs : Lawful s L rep) (hb : Built s L g k) : Indexed L.Node (nodeIdx g) (L.width * L.height) where
  inj := fun hu ht e => nodeIdx_inj hs hb hu ht e
  lt := fun hu => (nodeIdx_spec hs hb hu).2
  onto := fun {i} hi => by
    obtain ⟨c, -, hc, h1⟩ := c04_from_index hs hb hi
    rw [(nodeIdx_spec hs hb hc).1] at h1
    exact ⟨c, hc, Except.ok.inj h1⟩

theorem bellman_right (hs : Lawful s L rep) (hb : Built s L g k) (val : E → Int) {a : C} (ha : L.Node a) :
    ∃ r, g.BellmanFord val a r ∧ (∀ r', g.BellmanFord val a r' → r' = r) ∧
      BfRight L.Node (Arc g val) (nodeIdx g) (L.width * L.height) a r := by
  have hsw : ∀ es, (∃ ids, Yields (nodeIndicesNext g.s) 0 ids ∧ Swept (latArcs g val) ids es) ↔
      es = L.nodes.flatMap fun c => ((outEdges L k c).map fun r => (r.target, val r.weight)).map fun e => (c, e.1, e.2) := by
    intro es
    have := swept_iff L.nodes (fun c hc l => latArcs_iff (val := val) hs hb (Lat.mem_nodes.1 hc) (l := l)) es
    constructor
    · rintro ⟨ids, h1, h2⟩
      rw [Yields.unique h1 (c05_node_identifiers hs hb)] at h2
      exact this.1 h2
    · exact fun h => ⟨_, c05_node_identifiers hs hb, this.2 h⟩
  have hl : ∀ e : C × C × Int, (e ∈ L.nodes.flatMap fun c => ((outEdges L k c).map fun r => (r.target, val r.weight)).map fun e => (c, e.1, e.2)) ↔
      L.Node e.1 ∧ Arc g val e.1 e.2.1 e.2.2 := by
    rintro ⟨u, t, w⟩
    simp only [List.mem_flatMap, List.mem_map]
    constructor
    · rintro ⟨c, h1, -, ⟨r, h2, rfl⟩, h3⟩
      cases h3
      have hc := Lat.mem_nodes.1 h1
      exact ⟨hc, r, (edgeOf_iff hs hb hc).2 h2, rfl, rfl⟩
    · rintro ⟨h1, r, h2, rfl, rfl⟩
      exact ⟨u, Lat.mem_nodes.2 h1, _, ⟨r, (edgeOf_iff hs hb h1).1 h2, rfl⟩, rfl⟩
  obtain ⟨r, h1, h2, h3⟩ := bellman_spec (R := Arc g val) (indexed hs hb) (fun v hv => (nodeIdx_spec hs hb hv).1) hsw hl
    (fun u t w hu h => h.node hs hb hu) (fun v hv => Lat.mem_nodes.2 hv) (by simp [Lat.nodes_eq]) ha
  refine ⟨r, ⟨_, nodeBound_eq hs hb, h1⟩, ?_, h3⟩
  rintro r' ⟨n, h4, h5⟩
  rw [nodeBound_eq hs hb] at h4; cases h4
  exact h2 r' h5

/-- **C108.** `bellman_ford` completes on every graph and from every node, with one result, and reports a negative cycle exactly if, along
`edges`, some node within reach of the source can be left and entered again at a negative total. -/
theorem c108_bellman_ford (hs : Lawful s L rep) (hb : Built s L g k) (val : E → Int) {a : C} (ha : L.Node a) :
    ∃ r, g.BellmanFord val a r ∧ (∀ r', g.BellmanFord val a r' → r' = r) ∧ (r = none ↔ NegCycle (Arc g val) a) := by
  obtain ⟨r, h1, h2, h3⟩ := bellman_right hs hb val ha
  exact ⟨r, h1, h2, h3.neg⟩

/-- **C108.** The distances it returns are the least costs: an entry for each node, a number exactly if it is the least total of a walk, and
infinite exactly if there is no walk. -/
theorem c108_distances (hs : Lawful s L rep) (hb : Built s L g k) {a b : C} (ha : L.Node a) (hb' : L.Node b) {st : Bell C}
    (hr : g.BellmanFord val a (some st)) : ∃ i o, g.toIndex b = .ok i ∧ st.dist[i]? = some o ∧
      (∀ x, o = some x ↔ ZLeast (Arc g val) a b x) ∧ (o = none ↔ ∀ n y, ¬ ZWalk (Arc g val) a b n y) := by
  obtain ⟨r, h1, h2, h3⟩ := bellman_right hs hb val ha
  have := h2 _ hr
  obtain ⟨h4, h5⟩ := nodeIdx_spec hs hb hb'
  have hlt : nodeIdx g b < st.dist.length := by rw [(h3.len st this.symm).1]; exact h5
  obtain ⟨o, ho⟩ : ∃ o, st.dist[nodeIdx g b]? = some o := ⟨_, List.getElem?_eq_getElem hlt⟩
  have hd : st.d (nodeIdx g) b = o := by unfold Bell.d; rw [ho]; rfl
  refine ⟨_, o, h4, ho, fun x => ?_, ?_⟩
  · rw [← hd]; exact h3.dist st this.symm b hb' x
  · rw [← hd]; exact h3.inf st this.symm b hb'

/-- The predecessor that is returned for a node. -/
def predOf (g : Graph C A D N E) (st : Bell C) (c : C) : Option C :=
  match g.toIndex c with
  | .ok i => st.pred[i]?.join
  | .error _ => none

/-- **C108.** Following the predecessors back from any node within reach ends at the source, and is, read forward, a walk of least cost.
(`ZPath` lists the last node first.) -/
theorem c108_predecessors (hs : Lawful s L rep) (hb : Built s L g k) {a b : C} (ha : L.Node a) (hb' : L.Node b) {st : Bell C}
    (hr : g.BellmanFord val a (some st)) {x : Int} (hx : ZLeast (Arc g val) a b x) :
    ∃ p, Rebuilt (predOf g st) b p ∧ p.head? = some a ∧ ZPath (Arc g val) a b p.reverse x := by
  obtain ⟨r, h1, h2, h3⟩ := bellman_right hs hb val ha
  have hr' := (h2 _ hr).symm
  obtain ⟨p, h4, h5, h6⟩ := h3.way hr' hb' ((h3.dist st hr' b hb' x).2 hx)
  refine ⟨p, ?_, h5, h6⟩
  have key : ∀ {v p}, Rebuilt (st.p (nodeIdx g)) v p → L.Node v → Rebuilt (predOf g st) v p := by
    intro v p h
    have hp : ∀ v, L.Node v → predOf g st v = st.p (nodeIdx g) v := by
      intro v hv
      unfold predOf Bell.p
      rw [(nodeIdx_spec hs hb hv).1]
    induction h with
    | root hv => exact fun pv => .root (by rw [hp _ pv]; exact hv)
    | step hv _ ih => exact fun pv => .step (by rw [hp _ pv]; exact hv) (ih ((h3.tree st hr').pred_node pv hv))
  exact key h4 hb'

theorem zwalk_node (hs : Lawful s L rep) (hb : Built s L g k) {a b : C} (ha : L.Node a) {n : Nat} {x : Int} (hw : ZWalk (Arc g val) a b n x) :
    L.Node b := by
  induction hw with
  | nil => exact ha
  | snoc _ he ih => exact he.node hs hb ih

/-- Walks along `edges`, as for `dijkstra`. -/
theorem CostWalk.zwalk {cost : E → Nat} {a b : C} {n : Nat} (hw : CostWalk g (fun r => cost r.weight) a b n) :
    ∃ j, ZWalk (Arc g fun e => (cost e : Int)) a b j n := by
  induction hw with
  | nil => exact ⟨0, .nil⟩
  | step _ he ih =>
    obtain ⟨j, h1⟩ := ih
    refine ⟨j + 1, ?_⟩
    rw [Int.natCast_add]
    exact h1.snoc ⟨_, he, rfl, rfl⟩

theorem ZWalk.costWalk {cost : E → Nat} {a b : C} {j : Nat} {x : Int} (hw : ZWalk (Arc g fun e => (cost e : Int)) a b j x) :
    ∃ n : Nat, x = n ∧ CostWalk g (fun r => cost r.weight) a b n := by
  induction hw with
  | nil => exact ⟨0, rfl, .nil⟩
  | snoc _ he ih =>
    obtain ⟨n, rfl, h1⟩ := ih
    obtain ⟨r, h2, rfl, rfl⟩ := he
    exact ⟨_, (Int.natCast_add _ _).symm, .step h1 h2⟩

/-- **C108.** Without negative weights it never reports a cycle and returns what `dijkstra` does (C65): the least costs. -/
theorem c108_like_dijkstra (hs : Lawful s L rep) (hb : Built s L g k) (cost : E → Nat) {a : C} (ha : L.Node a) :
    ∃ st, g.BellmanFord (fun e => cost e) a (some st) ∧ ∀ b, L.Node b → ∃ i o, g.toIndex b = .ok i ∧ st.dist[i]? = some o ∧
      (∀ n : Nat, o = some (n : Int) ↔ CostWalk g (fun r => cost r.weight) a b n ∧
        ∀ m, CostWalk g (fun r => cost r.weight) a b m → n ≤ m) ∧
      (o = none ↔ ∀ m, ¬ CostWalk g (fun r => cost r.weight) a b m) := by
  obtain ⟨r, h1, -, h3⟩ := c108_bellman_ford hs hb (fun e => (cost e : Int)) ha
  have hneg : ¬ NegCycle (Arc g fun e => (cost e : Int)) a := by
    rintro ⟨b, n, x, j, y, -, hw, hlt⟩
    obtain ⟨m, rfl, -⟩ := hw.costWalk
    omega
  cases r with
  | none => exact absurd (h3.1 rfl) hneg
  | some st =>
    refine ⟨st, h1, fun b hn => ?_⟩
    obtain ⟨i, o, h4, h5, h6, h7⟩ := c108_distances hs hb ha hn h1
    refine ⟨i, o, h4, h5, fun n => (h6 n).trans ⟨?_, ?_⟩, h7.trans ⟨fun h m hm => ?_, fun h n y hw => ?_⟩⟩
    · rintro ⟨⟨j, hj⟩, hmin⟩
      obtain ⟨n', h8, h9⟩ := hj.costWalk
      cases Int.ofNat.inj h8
      refine ⟨h9, fun m hm => ?_⟩
      obtain ⟨j', hj'⟩ := hm.zwalk
      have := hmin j' _ hj'
      omega
    · rintro ⟨h8, hmin⟩
      refine ⟨h8.zwalk, fun j y hw => ?_⟩
      obtain ⟨m, rfl, hm⟩ := hw.costWalk
      have := hmin m hm
      omega
    · obtain ⟨j, hj⟩ := hm.zwalk
      exact h j _ hj
    · obtain ⟨m, -, hm⟩ := hw.costWalk
      exact h m hm

/-- **C108.** On undirected graphs every edge is there both ways with one weight, so `bellman_ford` fails exactly if some edge within reach
has a negative weight. -/
theorem c108_undirected (hs : Lawful s L rep) (hb : Built s L g k) (hd : g.isDirected = false) (val : E → Int) {a : C} (ha : L.Node a) :
    g.BellmanFord val a none ↔ ∃ b n x r, ZWalk (Arc g val) a b n x ∧ EdgeOf g b r ∧ val r.weight < 0 := by
  obtain ⟨r0, h1, h2, h3⟩ := c108_bellman_ford hs hb val ha
  have : g.BellmanFord val a none ↔ r0 = none := ⟨fun h => (h2 _ h).symm, fun h => by rw [← h]; exact h1⟩
  rw [this, h3]
  constructor
  · rintro ⟨b, n, x, j, y, hw, hc, hlt⟩
    refine Classical.byContradiction fun hno => ?_
    have key : ∀ {c j y}, ZWalk (Arc g val) b c j y → 0 ≤ y := by
      intro c j y hw'
      induction hw' with
      | nil => exact Int.le_refl _
      | snoc hp he ih =>
        obtain ⟨r, h4, -, rfl⟩ := he
        have : ¬ val r.weight < 0 := fun h => hno ⟨_, _, _, r, hw.trans hp, h4, h⟩
        omega
    have := key hc
    omega
  · rintro ⟨b, n, x, r, hw, he, hlt⟩
    have hbn := zwalk_node hs hb ha hw
    obtain ⟨h4, h5⟩ := c11_undirected_weight hs hb hd hbn ((edgeOf_iff hs hb hbn).1 he)
    refine ⟨b, n, x, _, _, hw, (ZWalk.nil.snoc ⟨r, he, rfl, rfl⟩).snoc ⟨_, (edgeOf_iff hs hb h4).2 h5, rfl, rfl⟩, ?_⟩
    simp only []
    omega

theorem out_all (hs : Lawful s L rep) (hb : Built s L g k) {u : C} (hu : L.Node u) {r : EdgeRef C D E} (hr : r ∈ outEdges L k u) :
    ∃ r' ∈ allEdges L k, r'.weight = r.weight := by
  have hg := hb.good hs
  obtain ⟨h2, h3, h4⟩ := (mem_outEdges hg.laws.dir).1 hr
  unfold Lat.key at h4
  by_cases e : L.fwd (L.ax r.direction) = r.direction
  · rw [if_pos e] at h4
    exact ⟨r, (mem_allEdges hg.laws.dir).2 ⟨by rw [h2]; exact hu, e, by rw [h2]; exact h3, by rw [h2]; exact h4⟩, rfl⟩
  · rw [if_neg e] at h4
    obtain ⟨h5, h6⟩ := (hg.laws.dir.fwd_ax r.direction).resolve_left e
    have h7 : L.ax (L.opp r.direction) = L.ax r.direction := by rw [← h6, hg.laws.dir.ax_fwd]
    exact ⟨⟨r.target, u, r.weight, L.opp r.direction⟩, (mem_allEdges hg.laws.dir).2 ⟨hg.laws.nbr_node hu h3, by rw [h7]; exact h6,
      hg.laws.nbr_opp hu h3, by rw [h7]; exact h4⟩, rfl⟩

theorem CostWalk.any {cost : EdgeRef C D E → Nat} {a b : C} {n : Nat} (hw : CostWalk g cost a b n) : ∃ j x, ZWalk (Arc g val) a b j x := by
  induction hw with
  | nil => exact ⟨_, _, .nil⟩
  | step _ he ih =>
    obtain ⟨j, x, h1⟩ := ih
    exact ⟨_, _, h1.snoc ⟨_, he, rfl, rfl⟩⟩

/-- **C108.** So on the connected undirected shapes it fails exactly if `edge_references` lists a negative weight, wherever it is. -/
theorem c108_connected (hs : Sound s L rep) (hb : Built s L g k) (hd : g.isDirected = false) (val : E → Int) {a : C} (ha : L.Node a) :
    g.BellmanFord val a none ↔ ∃ rs, Yields (edgeRefsNext g) edgeRefsInit rs ∧ ∃ r ∈ rs, val r.weight < 0 := by
  rw [c108_undirected hs.lawful hb hd val ha]
  constructor
  · rintro ⟨b, n, x, r, hw, he, hlt⟩
    have hbn := zwalk_node hs.lawful hb ha hw
    obtain ⟨r', h1, h2⟩ := out_all hs.lawful hb hbn ((edgeOf_iff hs.lawful hb hbn).1 he)
    exact ⟨_, c13_edge_references hs.lawful hb, r', h1, by rw [h2]; exact hlt⟩
  · rintro ⟨rs, h1, r, h2, hlt⟩
    rw [Yields.unique h1 (c13_edge_references hs.lawful hb)] at h2
    have hn := (allEdges_nodes hs.lawful h2).1
    obtain ⟨n, hw⟩ := costWalk_exists (cost := fun _ => 0) hs hb ha hn
    obtain ⟨j, x, hz⟩ := hw.any (val := val)
    exact ⟨_, j, x, r, hz, (edgeOf_iff hs.lawful hb hn).2 (allEdges_out hs.lawful h2), hlt⟩

/-- **C108.** On directed graphs, where the two directions have weights of their own, negative weights alone do no harm. It succeeds exactly
if there is a height for every node such that no edge is cheaper than the difference in height: for instance if going up costs more and
going down less by as much. -/
theorem c108_potential (hs : Sound s L rep) (hb : Built s L g k) (val : E → Int) {a : C} (ha : L.Node a) :
    (∃ st, g.BellmanFord val a (some st)) ↔ ∃ h : C → Int, ∀ b, L.Node b → ∀ t w, Arc g val b t w → h t ≤ h b + w := by
  obtain ⟨r, h1, h2, h3⟩ := bellman_right hs.lawful hb val ha
  constructor
  · rintro ⟨st, hst⟩
    have hr := (h2 _ hst).symm
    refine ⟨fun c => (st.d (nodeIdx g) c).getD 0, fun b hn t w harc => ?_⟩
    have hfin : ∀ c, L.Node c → ∃ x, st.d (nodeIdx g) c = some x := by
      intro c hc
      obtain ⟨n, hw⟩ := costWalk_exists (cost := fun _ => 0) hs hb ha hc
      obtain ⟨j, x, hz⟩ := hw.any (val := val)
      cases hx : st.d (nodeIdx g) c with
      | none => exact absurd hz ((h3.inf st hr c hc).1 hx j x)
      | some y => exact ⟨y, rfl⟩
    have htn := harc.node hs.lawful hb hn
    obtain ⟨x, hx⟩ := hfin b hn
    obtain ⟨y, hy⟩ := hfin t htn
    obtain ⟨⟨j, hj⟩, -⟩ := (h3.dist st hr b hn x).1 hx
    have := ((h3.dist st hr t htn y).1 hy).2 _ _ (hj.snoc harc)
    simp only [hx, hy, Option.getD_some]
    exact this
  · rintro ⟨h, hh⟩
    have hneg : ¬ NegCycle (Arc g val) a := by
      rintro ⟨b, n, x, j, y, hw, hc, hlt⟩
      have hbn := zwalk_node hs.lawful hb ha hw
      have key : ∀ {c j y}, ZWalk (Arc g val) b c j y → h c ≤ h b + y := by
        intro c j y hw'
        induction hw' with
        | nil => omega
        | snoc hp he ih =>
          have := hh _ (zwalk_node hs.lawful hb hbn hp) _ _ he
          omega
      have := key hc
      omega
    cases r with
    | none => exact absurd (h3.neg.1 rfl) hneg
    | some st => exact ⟨st, h1⟩
end

/-- On the directed 3 × 2 square graph: a step to the right gains 5, one to the left costs 7, one up or down costs 1. -/
def exVal (e : Nat) : Int := if e < 2000 then -5 else if 3000 ≤ e ∧ e < 4000 then 7 else 1

/-- Two columns to the right are reached at -10, by two steps, although the weights are negative. -/
example : ∃ (g : Graph Offset DSquareAxis DSquareAxis Nat Nat) (st : Bell Offset) (i : Nat) (p : List Offset),
    g.BellmanFord exVal ⟨0, 0⟩ (some st) ∧ g.toIndex ⟨2, 0⟩ = .ok i ∧ st.dist[i]? = some (some (-10)) ∧
    Rebuilt (predOf g st) ⟨2, 0⟩ p ∧ p.head? = some ⟨0, 0⟩ := by
  obtain ⟨g, hb⟩ := exSquareD m64 rfl
  have hs := Sound.squareDirected m64 3 2
  have h0 : (squareLatDirected 3 2).Node ⟨0, 0⟩ := ⟨0, 0, by decide, by decide, rfl⟩
  have h1 : (squareLatDirected 3 2).Node ⟨1, 0⟩ := ⟨1, 0, by decide, by decide, rfl⟩
  have h2 : (squareLatDirected 3 2).Node ⟨2, 0⟩ := ⟨2, 0, by decide, by decide, rfl⟩
  have hpot : ∀ b, (squareLatDirected 3 2).Node b → ∀ t w, Arc g exVal b t w → (-5 * (t.horizontal : Int)) ≤ -5 * (b.horizontal : Int) + w := by
    rintro b hn t w ⟨r, hr, rfl, rfl⟩
    have hall : ∀ c ∈ (squareLatDirected 3 2).nodes, ∀ r ∈ outEdges (squareLatDirected 3 2) exKD c,
        (-5 * (r.target.horizontal : Int)) ≤ -5 * (c.horizontal : Int) + exVal r.weight := by decide
    exact hall b (Lat.mem_nodes.2 hn) r ((edgeOf_iff hs.lawful hb hn).1 hr)
  obtain ⟨st, hst⟩ := (c108_potential hs hb exVal h0).2 ⟨fun c => -5 * (c.horizontal : Int), hpot⟩
  have hleast : ZLeast (Arc g exVal) ⟨0, 0⟩ ⟨2, 0⟩ (-10) := by
    refine ⟨⟨2, ?_⟩, fun n y hw => ?_⟩
    · have e1 : Arc g exVal ⟨0, 0⟩ ⟨1, 0⟩ (-5) := ⟨⟨⟨0, 0⟩, ⟨1, 0⟩, 1000, .X⟩, (edgeOf_iff hs.lawful hb h0).2 (by decide), rfl, by decide⟩
      have e2 : Arc g exVal ⟨1, 0⟩ ⟨2, 0⟩ (-5) := ⟨⟨⟨1, 0⟩, ⟨2, 0⟩, 1010, .X⟩, (edgeOf_iff hs.lawful hb h1).2 (by decide), rfl, by decide⟩
      exact (ZWalk.nil.snoc e1).snoc e2
    · have key : ∀ {c : Offset} {n : Nat} {y : Int}, ZWalk (Arc g exVal) ⟨0, 0⟩ c n y → (-5 * (c.horizontal : Int)) ≤ y := by
        intro c n y hw'
        induction hw' with
        | nil => exact Int.le_refl _
        | snoc hp he ih =>
          have := hpot _ (zwalk_node hs.lawful hb h0 hp) _ _ he
          omega
      exact key hw
  obtain ⟨i, o, g1, g2, g3, -⟩ := c108_distances hs.lawful hb h0 h2 hst
  obtain ⟨p, g4, g5, -⟩ := c108_predecessors hs.lawful hb h0 h2 hst hleast
  refine ⟨g, st, i, p, hst, g1, ?_, g4, g5⟩
  rw [g2, (g3 (-10)).2 hleast]

/-- One edge of weight -1 in the undirected graph, and there is no result from any node; with the weights as they are, there is. -/
example : ∃ g : Graph Offset SquareAxis DSquareAxis Nat Nat, g.BellmanFord (fun e => (e : Int) - 1001) ⟨2, 1⟩ none ∧
    (∃ r, g.BellmanFord (fun e => (e : Int) - 1001) ⟨0, 1⟩ r ∧ r = none) ∧ ∃ st, g.BellmanFord (fun e => (e : Int)) ⟨2, 1⟩ (some st) := by
  obtain ⟨g, hb⟩ := exSquare
  have hs := Sound.square m64 3 2
  have h2 : (squareLat 3 2).Node ⟨2, 1⟩ := ⟨2, 1, by decide, by decide, rfl⟩
  have h1 : (squareLat 3 2).Node ⟨0, 1⟩ := ⟨0, 1, by decide, by decide, rfl⟩
  have hd : g.isDirected = false := (hb.good hs.lawful).impl.axis.directed
  have hneg : ∃ rs, Yields (edgeRefsNext g) edgeRefsInit rs ∧ ∃ r ∈ rs, ((r.weight : Int) - 1001) < 0 :=
    ⟨_, c13_edge_references hs.lawful hb, ⟨⟨0, 0⟩, ⟨1, 0⟩, 1000, .X⟩, by decide, by decide⟩
  refine ⟨g, (c108_connected hs hb hd _ h2).2 hneg, ?_, ?_⟩
  · obtain ⟨r, h3, h4, -⟩ := c108_bellman_ford hs.lawful hb (fun e => (e : Int) - 1001) h1
    exact ⟨r, h3, (h4 _ ((c108_connected hs hb hd _ h1).2 hneg)).symm⟩
  · obtain ⟨st, h3, -⟩ := c108_like_dijkstra hs.lawful hb id h2
    exact ⟨st, h3⟩

example : ∃ g : Graph Offset SquareAxis DSquareAxis Nat Nat, ∃ b n x r,
    ZWalk (Arc g fun e => (e : Int) - 1001) ⟨2, 1⟩ b n x ∧ EdgeOf g b r ∧ (r.weight : Int) - 1001 < 0 := by
  obtain ⟨g, hb⟩ := exSquare
  have hs := Sound.square m64 3 2
  have h2 : (squareLat 3 2).Node ⟨2, 1⟩ := ⟨2, 1, by decide, by decide, rfl⟩
  have hd : g.isDirected = false := (hb.good hs.lawful).impl.axis.directed
  have := (c108_connected hs hb hd (fun e => (e : Int) - 1001) h2).2
    ⟨_, c13_edge_references hs.lawful hb, ⟨⟨0, 0⟩, ⟨1, 0⟩, 1000, .X⟩, by decide, by decide⟩
  obtain ⟨b, n, x, r, h3⟩ := (c108_undirected hs.lawful hb hd _ h2).1 this
  exact ⟨g, b, n, x, r, h3⟩

end LG
