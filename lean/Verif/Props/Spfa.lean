import Verif.Lemmas.Spfa
import Verif.Props.Bellman
/- C118: least costs with negative weights by the queue of `spfa`, from `edges` and the node numbers. -/
set_option linter.unusedSectionVars false
namespace LG
section
variable {C A D N E : Type} [DecidableEq C] [DecidableEq A] [DecidableEq D]
variable {g : Graph C A D N E} {s : Shape C A D} {L : Lat C A D} {rep : C → Prop} {k : Contents C A N E} {val : E → Int}

theorem spfa_right (hs : Lawful s L rep) (hb : Built s L g k) (val : E → Int) {a : C} (ha : L.Node a) :
    ∃ r, g.Spfa val a r ∧ (∀ r', g.Spfa val a r' → r' = r) ∧ BfRight L.Node (Arc g val) (nodeIdx g) (L.width * L.height) a r := by
  have hout : ∀ v, L.Node v → ∀ e : C × Int, (e ∈ (outEdges L k v).map fun r => (r.target, val r.weight)) ↔ Arc g val v e.1 e.2 := by
    rintro u hu ⟨t, w⟩
    simp only [List.mem_map, Prod.mk.injEq]
    constructor
    · rintro ⟨r, h2, rfl, rfl⟩
      exact ⟨r, (edgeOf_iff hs hb hu).2 h2, rfl, rfl⟩
    · rintro ⟨r, h2, rfl, rfl⟩
      exact ⟨r, (edgeOf_iff hs hb hu).1 h2, rfl, rfl⟩
  obtain ⟨r, h1, h2, h3⟩ := spfa_spec (R := Arc g val) (indexed hs hb) (fun v hv => (nodeIdx_spec hs hb hv).1)
    (fun v hv l => latArcs_iff (val := val) hs hb hv (l := l)) hout (fun u t w hu h => h.node hs hb hu) (fun v hv => Lat.mem_nodes.2 hv)
    (by simp [Lat.nodes_eq]) ha
  refine ⟨r, ⟨_, nodeBound_eq hs hb, h1⟩, ?_, h3⟩
  rintro r' ⟨n, h4, h5⟩
  rw [nodeBound_eq hs hb] at h4; cases h4
  exact h2 r' h5

/-- **C118.** `spfa` ends on every graph and from every node, with one result, and reports a negative cycle exactly if, along `edges`, some
node within reach of the source can be left and entered again at a negative total. -/
theorem c118_spfa (hs : Lawful s L rep) (hb : Built s L g k) (val : E → Int) {a : C} (ha : L.Node a) :
    ∃ r, g.Spfa val a r ∧ (∀ r', g.Spfa val a r' → r' = r) ∧ (r = none ↔ NegCycle (Arc g val) a) := by
  obtain ⟨r, h1, h2, h3⟩ := spfa_right hs hb val ha
  exact ⟨r, h1, h2, h3.neg⟩

/-- **C118.** It returns the distances `bellman_ford` does (C108), and fails exactly when that fails. -/
theorem c118_like_bellman_ford (hs : Lawful s L rep) (hb : Built s L g k) {a : C} (ha : L.Node a) {r r' : Option (Bell C)}
    (h : g.Spfa val a r) (h' : g.BellmanFord val a r') : r.map (·.dist) = r'.map (·.dist) := by
  obtain ⟨r0, -, h2, h3⟩ := spfa_right hs hb val ha
  obtain ⟨r1, -, h5, h6⟩ := bellman_right hs hb val ha
  rw [h2 r h, h5 r' h']
  exact h3.dist_eq (indexed hs hb) h6

/-- **C118.** The distances are the least costs: an entry for each node, a number exactly if it is the least total of a walk, and infinite
exactly if there is no walk. -/
theorem c118_distances (hs : Lawful s L rep) (hb : Built s L g k) {a b : C} (ha : L.Node a) (hb' : L.Node b) {st : Bell C}
    (hr : g.Spfa val a (some st)) : ∃ i o, g.toIndex b = .ok i ∧ st.dist[i]? = some o ∧
      (∀ x, o = some x ↔ ZLeast (Arc g val) a b x) ∧ (o = none ↔ ∀ n y, ¬ ZWalk (Arc g val) a b n y) := by
  obtain ⟨r', h1, -⟩ := c108_bellman_ford hs hb val ha
  have he := c118_like_bellman_ford hs hb ha hr h1
  cases r' with
  | none => cases he
  | some st' =>
    simp only [Option.map_some, Option.some.injEq] at he
    rw [he]
    exact c108_distances hs hb ha hb' h1

/-- **C118.** Following the predecessors back from any node within reach ends at the source, and is, read forward, a walk of least cost.
(`ZPath` lists the last node first.) -/
theorem c118_predecessors (hs : Lawful s L rep) (hb : Built s L g k) {a b : C} (ha : L.Node a) (hb' : L.Node b) {st : Bell C}
    (hr : g.Spfa val a (some st)) {x : Int} (hx : ZLeast (Arc g val) a b x) :
    ∃ p, Rebuilt (predOf g st) b p ∧ p.head? = some a ∧ ZPath (Arc g val) a b p.reverse x := by
  obtain ⟨r, h1, h2, h3⟩ := spfa_right hs hb val ha
  have hr' := (h2 _ hr).symm
  obtain ⟨p, h4, h5, h6⟩ := h3.way hr' hb' ((h3.dist st hr' b hb' x).2 hx)
  refine ⟨p, ?_, h5, h6⟩
  have hp : ∀ v, L.Node v → predOf g st v = st.p (nodeIdx g) v := by
    intro v hv
    unfold predOf Bell.p
    rw [(nodeIdx_spec hs hb hv).1]
  have key : ∀ {v p}, Rebuilt (st.p (nodeIdx g)) v p → L.Node v → Rebuilt (predOf g st) v p := by
    intro v p h
    induction h with
    | root hv => exact fun pv => .root (by rw [hp _ pv]; exact hv)
    | step hv _ ih => exact fun pv => .step (by rw [hp _ pv]; exact hv) (ih ((h3.tree st hr').pred_node pv hv))
  exact key h4 hb'

/-- **C118.** On the connected undirected shapes it fails exactly if `edge_references` lists a negative weight, wherever it is. -/
theorem c118_connected (hs : Sound s L rep) (hb : Built s L g k) (hd : g.isDirected = false) (val : E → Int) {a : C} (ha : L.Node a) :
    g.Spfa val a none ↔ ∃ rs, Yields (edgeRefsNext g) edgeRefsInit rs ∧ ∃ r ∈ rs, val r.weight < 0 := by
  rw [← c108_connected hs hb hd val ha]
  obtain ⟨r, h1, h2, h3⟩ := c118_spfa hs.lawful hb val ha
  obtain ⟨r', g1, g2, g3⟩ := c108_bellman_ford hs.lawful hb val ha
  constructor
  · intro h
    cases h2 _ h
    rw [← g3.2 (h3.1 rfl)]; exact g1
  · intro h
    cases g2 _ h
    rw [← h3.2 (g3.1 rfl)]; exact h1

/-- **C118.** In general it succeeds exactly if there is a height for every node such that no edge is cheaper than the difference in height. -/
theorem c118_potential (hs : Sound s L rep) (hb : Built s L g k) (val : E → Int) {a : C} (ha : L.Node a) :
    (∃ st, g.Spfa val a (some st)) ↔ ∃ h : C → Int, ∀ b, L.Node b → ∀ t w, Arc g val b t w → h t ≤ h b + w := by
  rw [← c108_potential hs hb val ha]
  obtain ⟨r, h1, h2, h3⟩ := c118_spfa hs.lawful hb val ha
  obtain ⟨r', g1, g2, g3⟩ := c108_bellman_ford hs.lawful hb val ha
  have : r = none ↔ r' = none := h3.trans g3.symm
  constructor
  · rintro ⟨st, h⟩
    cases h2 _ h
    cases r' with
    | none => cases this.2 rfl
    | some st' => exact ⟨st', g1⟩
  · rintro ⟨st, h⟩
    cases g2 _ h
    cases r with
    | none => cases this.1 rfl
    | some st' => exact ⟨st', h1⟩
end

/-- On the directed 3 × 2 square graph (a step to the right gains 5): two columns to the right are reached at -10. -/
example : ∃ (g : Graph Offset DSquareAxis DSquareAxis Nat Nat) (st st' : Bell Offset) (i : Nat) (p : List Offset),
    g.Spfa exVal ⟨0, 0⟩ (some st) ∧ g.BellmanFord exVal ⟨0, 0⟩ (some st') ∧ st.dist = st'.dist ∧ g.toIndex ⟨2, 0⟩ = .ok i ∧
    st.dist[i]? = some (some (-10)) ∧ Rebuilt (predOf g st) ⟨2, 0⟩ p ∧ p.head? = some ⟨0, 0⟩ := by
  obtain ⟨g, hb⟩ := exSquareD m64 rfl
  have hs := Sound.squareDirected m64 3 2
  have h0 : (squareLatDirected 3 2).Node ⟨0, 0⟩ := ⟨0, 0, by decide, by decide, rfl⟩
  have h1 : (squareLatDirected 3 2).Node ⟨1, 0⟩ := ⟨1, 0, by decide, by decide, rfl⟩
  have h2 : (squareLatDirected 3 2).Node ⟨2, 0⟩ := ⟨2, 0, by decide, by decide, rfl⟩
  have hpot : ∀ b, (squareLatDirected 3 2).Node b → ∀ t w, Arc g exVal b t w → (-5 * (t.horizontal : Int)) ≤ -5 * (b.horizontal : Int) + w := by
    rintro b hn t w ⟨r, hr, rfl, rfl⟩
    have hall : ∀ c ∈ (squareLatDirected 3 2).nodes, ∀ r ∈ outEdges (squareLatDirected 3 2) exKD c,
        (-5 * (r.target.horizontal : Int)) ≤ -5 * (c.horizontal : Int) + exVal r.weight := by decide
    exact hall b (Lat.mem_nodes.2 hn) r ((edgeOf_iff hs.lawful hb hn).1 hr)
  obtain ⟨st, hst⟩ := (c118_potential hs hb exVal h0).2 ⟨fun c => -5 * (c.horizontal : Int), hpot⟩
  obtain ⟨st', hst'⟩ := (c108_potential hs hb exVal h0).2 ⟨fun c => -5 * (c.horizontal : Int), hpot⟩
  have hleast : ZLeast (Arc g exVal) ⟨0, 0⟩ ⟨2, 0⟩ (-10) := by
    refine ⟨⟨2, ?_⟩, fun n y hw => ?_⟩
    · have e1 : Arc g exVal ⟨0, 0⟩ ⟨1, 0⟩ (-5) := ⟨⟨⟨0, 0⟩, ⟨1, 0⟩, 1000, .X⟩, (edgeOf_iff hs.lawful hb h0).2 (by decide), rfl, by decide⟩
      have e2 : Arc g exVal ⟨1, 0⟩ ⟨2, 0⟩ (-5) := ⟨⟨⟨1, 0⟩, ⟨2, 0⟩, 1010, .X⟩, (edgeOf_iff hs.lawful hb h1).2 (by decide), rfl, by decide⟩
      exact (ZWalk.nil.snoc e1).snoc e2
    · have key : ∀ {c : Offset} {n : Nat} {y : Int}, ZWalk (Arc g exVal) ⟨0, 0⟩ c n y → (-5 * (c.horizontal : Int)) ≤ y := by
        intro c n y hw'
        induction hw' with
        | nil => exact Int.le_refl _
        | snoc hp he ih =>
          have := hpot _ (zwalk_node hs.lawful hb h0 hp) _ _ he
          omega
      exact key hw
  obtain ⟨i, o, g1, g2, g3, -⟩ := c118_distances hs.lawful hb h0 h2 hst
  obtain ⟨p, g4, g5, -⟩ := c118_predecessors hs.lawful hb h0 h2 hst hleast
  refine ⟨g, st, st', i, p, hst, hst', Option.some.inj (c118_like_bellman_ford hs.lawful hb h0 hst hst'), g1, ?_, g4, g5⟩
  rw [g2, (g3 (-10)).2 hleast]

/-- One edge of weight -1 in the undirected graph, and there is no result from any node. -/
example : ∃ g : Graph Offset SquareAxis DSquareAxis Nat Nat, g.Spfa (fun e => (e : Int) - 1001) ⟨2, 1⟩ none ∧
    ∃ r, g.Spfa (fun e => (e : Int) - 1001) ⟨0, 1⟩ r ∧ r = none := by
  obtain ⟨g, hb⟩ := exSquare
  have hs := Sound.square m64 3 2
  have h2 : (squareLat 3 2).Node ⟨2, 1⟩ := ⟨2, 1, by decide, by decide, rfl⟩
  have h1 : (squareLat 3 2).Node ⟨0, 1⟩ := ⟨0, 1, by decide, by decide, rfl⟩
  have hd : g.isDirected = false := (hb.good hs.lawful).impl.axis.directed
  have hneg : ∃ rs, Yields (edgeRefsNext g) edgeRefsInit rs ∧ ∃ r ∈ rs, ((r.weight : Int) - 1001) < 0 :=
    ⟨_, c13_edge_references hs.lawful hb, ⟨⟨0, 0⟩, ⟨1, 0⟩, 1000, .X⟩, by decide, by decide⟩
  refine ⟨g, (c118_connected hs hb hd _ h2).2 hneg, ?_⟩
  obtain ⟨r, h3, h4, -⟩ := c118_spfa hs.lawful hb (fun e => (e : Int) - 1001) h1
  exact ⟨r, h3, (h4 _ ((c118_connected hs hb hd _ h1).2 hneg)).symm⟩
end LG
