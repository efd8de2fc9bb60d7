import Verif.Props.Search
import Verif.Props.Stored
import Verif.Props.Hints
/- C65: shortest paths over the crate's weighted edges. -/
set_option linter.unusedSectionVars false
namespace LG
section
variable {C A D N E : Type} [DecidableEq C] [DecidableEq A] [DecidableEq D]
variable {g : Graph C A D N E} {s : Shape C A D} {L : Lat C A D} {rep : C → Prop} {k : Contents C A N E}
variable {cost : EdgeRef C D E → Nat}

/-- `r` is one of the references `edges(c)` yields. -/
def EdgeOf (g : Graph C A D N E) (c : C) (r : EdgeRef C D E) : Prop :=
  ∃ it, g.edgesOf c = .ok it ∧ Item (edgesNext g) it r

theorem edgeOf_base (hs : Storable s L rep) (hb : Built s L g k) {c : C} (hc : L.Node c) (hr : L.Readable c)
    {r : EdgeRef C D E} : EdgeOf g c r ↔ r ∈ outEdges L k c := by
  obtain ⟨it, h1, h2⟩ := c58_edges_partial hs hb hc hr
  constructor
  · rintro ⟨it', h3, h4⟩
    rw [h1] at h3; cases h3
    exact h4.mem h2
  · exact fun h => ⟨it, h1, .of_mem h2 h⟩

theorem edgeOf_iff (hs : Lawful s L rep) (hb : Built s L g k) {c : C} (hc : L.Node c) {r : EdgeRef C D E} :
    EdgeOf g c r ↔ r ∈ outEdges L k c := edgeOf_base hs.storable hb hc (hs.readable hc)

/-- Walks along edges, with their total cost. -/
inductive CostWalk (g : Graph C A D N E) (cost : EdgeRef C D E → Nat) (a : C) : C → Nat → Prop where
  | nil : CostWalk g cost a a 0
  | step {b : C} {n : Nat} {r : EdgeRef C D E} :
    CostWalk g cost a b n → EdgeOf g b r → CostWalk g cost a r.target (n + cost r)

theorem CostWalk.node (hs : Lawful s L rep) (hb : Built s L g k) {a b : C} {n : Nat} (ha : L.Node a)
    (h : CostWalk g cost a b n) : L.Node b := by
  induction h with
  | nil => exact ha
  | step _ he ih =>
    exact hs.laws.nbr_node ih (c10_edge_exact hs hb ih ((edgeOf_iff hs hb ih).1 he)).2.1

/-- Every node is at the end of some walk. -/
theorem costWalk_exists (hs : Sound s L rep) (hb : Built s L g k) {a b : C} (ha : L.Node a) (hn : L.Node b) :
    ∃ n, CostWalk g cost a b n := by
  have hl := hs.lawful
  obtain ⟨j, -, hw⟩ := c40_connected hs hb ha hn
  have hp := hw.path hl hb ha
  clear hw hn
  induction hp with
  | nil => exact ⟨0, .nil⟩
  | @step j b c d hp hd ih =>
    obtain ⟨n, hn⟩ := ih
    have hbn := hp.node hl.laws ha
    have hm : c ∈ (outEdges L k b).map EdgeRef.target := by
      rw [(c10_targets hl hb hbn).1]
      exact List.mem_filterMap.2 ⟨d, hl.laws.dir.dirs_mem d, hd⟩
    obtain ⟨r, hr, rfl⟩ := List.mem_map.1 hm
    exact ⟨_, .step hn ((edgeOf_iff hl hb hbn).2 hr)⟩

/-- What the loop over the edges does to scores and heap, `S` being the visited nodes. -/
theorem relax_base (hi : ImplBase s L rep) (hb : LatBase L) {S : C → Bool} {n : Nat} : ∀ (l : List (EdgeRef C D E))
    {st : Dij C A D}, VisInv s L st.visited S → (∀ r ∈ l, L.Node r.target ∨ rep r.target) →
    ∃ st1, relax cost n l st = .ok st1 ∧ st1.visited = st.visited ∧ st1.heap.length ≤ st.heap.length + l.length ∧
      (∀ v j, st.scores v = some j → ∃ i, st1.scores v = some i ∧ i ≤ j) ∧
      (∀ v, S v = true → st1.scores v = st.scores v) ∧
      (∀ r ∈ l, S r.target = false → ∃ i, st1.scores r.target = some i ∧ i ≤ n + cost r) ∧
      (∀ v i, st1.scores v = some i → st.scores v = some i ∨ ∃ r ∈ l, r.target = v ∧ i = n + cost r) ∧
      (∀ v i, st1.scores v = some i → st.scores v = some i ∨ (i, v) ∈ st1.heap) ∧
      (∀ e ∈ st.heap, e ∈ st1.heap) ∧
      (∀ e ∈ st1.heap, e ∈ st.heap ∨ ∃ r ∈ l, S r.target = false ∧ e = (n + cost r, r.target))
  | [], st, hv, _ => ⟨st, rfl, rfl, by simp, fun v j h => ⟨j, h, Nat.le_refl _⟩, fun _ _ => rfl, by simp,
      fun v i h => .inl h, fun v i h => .inl h, fun e h => h, fun e h => .inl h⟩
  | r :: l, st, hv, hl => by
    have hl' : ∀ r ∈ l, L.Node r.target ∨ rep r.target := fun r h => hl r (List.mem_cons_of_mem _ h)
    have h1 := isVisited_base hi hb hv (hl r (by simp))
    -- the target is left alone
    have keep : (S r.target = true ∨ ∃ i, st.scores r.target = some i ∧ i ≤ n + cost r) →
        relax cost n (r :: l) st = relax cost n l st → ∃ st1, relax cost n (r :: l) st = .ok st1 ∧
      st1.visited = st.visited ∧ st1.heap.length ≤ st.heap.length + (r :: l).length ∧
      (∀ v j, st.scores v = some j → ∃ i, st1.scores v = some i ∧ i ≤ j) ∧
      (∀ v, S v = true → st1.scores v = st.scores v) ∧
      (∀ r' ∈ r :: l, S r'.target = false → ∃ i, st1.scores r'.target = some i ∧ i ≤ n + cost r') ∧
      (∀ v i, st1.scores v = some i → st.scores v = some i ∨ ∃ r' ∈ r :: l, r'.target = v ∧ i = n + cost r') ∧
      (∀ v i, st1.scores v = some i → st.scores v = some i ∨ (i, v) ∈ st1.heap) ∧
      (∀ e ∈ st.heap, e ∈ st1.heap) ∧
      (∀ e ∈ st1.heap, e ∈ st.heap ∨ ∃ r' ∈ r :: l, S r'.target = false ∧ e = (n + cost r', r'.target)) := by
      intro hr heq
      obtain ⟨st1, e1, e2, e3, e4, e5, e6, e7, e8, e9, e10⟩ := relax_base hi hb l hv hl'
      refine ⟨st1, by rw [heq, e1], e2, by simp only [List.length_cons]; omega, e4, e5, ?_, ?_, e8, e9, ?_⟩
      · intro r' hr' hS
        rcases List.mem_cons.1 hr' with rfl | hr'
        · rcases hr with h | ⟨i, h, hi⟩
          · rw [h] at hS; cases hS
          · obtain ⟨i', h', hi'⟩ := e4 _ _ h
            exact ⟨i', h', by omega⟩
        · exact e6 r' hr' hS
      · intro v i h
        exact (e7 v i h).imp id fun ⟨r', h1, h2⟩ => ⟨r', List.mem_cons_of_mem _ h1, h2⟩
      · intro e h
        exact (e10 e h).imp id fun ⟨r', h1, h2⟩ => ⟨r', List.mem_cons_of_mem _ h1, h2⟩
    -- the target gets a better score
    have better : S r.target = false → (∀ j, st.scores r.target = some j → n + cost r ≤ j) →
        relax cost n (r :: l) st = relax cost n l (st.improve r.target (n + cost r)) →
        ∃ st1, relax cost n (r :: l) st = .ok st1 ∧
      st1.visited = st.visited ∧ st1.heap.length ≤ st.heap.length + (r :: l).length ∧
      (∀ v j, st.scores v = some j → ∃ i, st1.scores v = some i ∧ i ≤ j) ∧
      (∀ v, S v = true → st1.scores v = st.scores v) ∧
      (∀ r' ∈ r :: l, S r'.target = false → ∃ i, st1.scores r'.target = some i ∧ i ≤ n + cost r') ∧
      (∀ v i, st1.scores v = some i → st.scores v = some i ∨ ∃ r' ∈ r :: l, r'.target = v ∧ i = n + cost r') ∧
      (∀ v i, st1.scores v = some i → st.scores v = some i ∨ (i, v) ∈ st1.heap) ∧
      (∀ e ∈ st.heap, e ∈ st1.heap) ∧
      (∀ e ∈ st1.heap, e ∈ st.heap ∨ ∃ r' ∈ r :: l, S r'.target = false ∧ e = (n + cost r', r'.target)) := by
      intro hS hold heq
      obtain ⟨st1, e1, e2, e3, e4, e5, e6, e7, e8, e9, e10⟩ :=
        relax_base hi hb (st := st.improve r.target (n + cost r)) l hv hl'
      have hsc : ∀ v, v ≠ r.target → (st.improve r.target (n + cost r)).scores v = st.scores v := fun v hv => by
        simp [Dij.improve, hv]
      have hsr : (st.improve r.target (n + cost r)).scores r.target = some (n + cost r) := by simp [Dij.improve]
      refine ⟨st1, by rw [heq, e1], e2, ?_, ?_, ?_, ?_, ?_, ?_, ?_, ?_⟩
      · simp only [Dij.improve, List.length_cons] at e3 ⊢; omega
      · intro v j hj
        by_cases hv : v = r.target
        · subst hv
          obtain ⟨i, h1, h2⟩ := e4 _ _ hsr
          exact ⟨i, h1, Nat.le_trans h2 (hold j hj)⟩
        · exact e4 v j (by rw [hsc v hv, hj])
      · intro v hv
        have hne : v ≠ r.target := fun h => by rw [h, hS] at hv; cases hv
        rw [e5 v hv, hsc v hne]
      · intro r' hr' hS'
        rcases List.mem_cons.1 hr' with rfl | hr'
        · exact e4 _ _ hsr
        · exact e6 r' hr' hS'
      · intro v i h
        rcases e7 v i h with h | ⟨r', h1, h2⟩
        · by_cases hv : v = r.target
          · subst hv
            rw [hsr] at h
            exact .inr ⟨r, by simp, rfl, (Option.some.inj h).symm⟩
          · exact .inl (by rw [← hsc v hv, h])
        · exact .inr ⟨r', List.mem_cons_of_mem _ h1, h2⟩
      · intro v i h
        rcases e8 v i h with h | h
        · by_cases hv : v = r.target
          · subst hv
            rw [hsr] at h
            cases h
            exact .inr (e9 _ (by simp [Dij.improve]))
          · exact .inl (by rw [← hsc v hv, h])
        · exact .inr h
      · intro e he
        exact e9 e (by simp [Dij.improve, he])
      · intro e he
        rcases e10 e he with h | ⟨r', h1, h2⟩
        · rcases List.mem_cons.1 h with h | h
          · exact .inr ⟨r, by simp, hS, h⟩
          · exact .inl h
        · exact .inr ⟨r', List.mem_cons_of_mem _ h1, h2⟩
    cases hS : S r.target with
    | true =>
      exact keep (.inl hS) (by simp only [relax, h1, hS, bind, Except.bind, if_true])
    | false =>
      cases hsc : st.scores r.target with
      | none =>
        refine better hS (by simp [hsc]) ?_
        simp only [relax, h1, hS, bind, Except.bind, Bool.false_eq_true, if_false, hsc]
      | some old =>
        by_cases hlt : n + cost r < old
        · refine better hS (fun j hj => by rw [hsc] at hj; cases hj; omega) ?_
          simp only [relax, h1, hS, bind, Except.bind, Bool.false_eq_true, if_false, hsc, hlt, if_true]
        · refine keep (.inr ⟨old, hsc, by omega⟩) ?_
          simp only [relax, h1, hS, bind, Except.bind, Bool.false_eq_true, if_false, hsc, hlt]

/-- The loop invariant. -/
structure DijInv (s : Shape C A D) (L : Lat C A D) (g : Graph C A D N E) (cost : EdgeRef C D E → Nat) (a : C)
    (st : Dij C A D) (S : C → Bool) : Prop where
  vis : VisInv s L st.visited S
  start : ∃ i, st.scores a = some i ∧ i ≤ 0
  upper : ∀ v n, st.scores v = some n → CostWalk g cost a v n
  exact : ∀ v, S v = true → ∃ n, st.scores v = some n ∧ ∀ c, CostWalk g cost a v c → n ≤ c
  edge : ∀ u r n, S u = true → EdgeOf g u r → st.scores u = some n → ∃ i, st.scores r.target = some i ∧ i ≤ n + cost r
  front : ∀ v n, S v = false → st.scores v = some n → (n, v) ∈ st.heap
  entry : ∀ n v, (n, v) ∈ st.heap → ∃ i, st.scores v = some i ∧ i ≤ n

/-- Any walk ends at a settled node, or costs at least as much as some unsettled node's score. -/
theorem DijInv.frontier {a : C} {st : Dij C A D} {S : C → Bool} (hv : DijInv s L g cost a st S) {v : C} {c : Nat}
    (h : CostWalk g cost a v c) :
    (S v = true ∧ ∃ n, st.scores v = some n ∧ n ≤ c) ∨ ∃ x j, S x = false ∧ st.scores x = some j ∧ j ≤ c := by
  have settle : ∀ v c, (∃ i, st.scores v = some i ∧ i ≤ c) →
      (S v = true ∧ ∃ n, st.scores v = some n ∧ n ≤ c) ∨ ∃ x j, S x = false ∧ st.scores x = some j ∧ j ≤ c := by
    rintro v c ⟨i, h1, h2⟩
    cases hS : S v with
    | true => exact .inl ⟨rfl, i, h1, h2⟩
    | false => exact .inr ⟨v, i, hS, h1, h2⟩
  induction h with
  | nil => exact settle _ _ hv.start
  | @step b n r _ he ih =>
    rcases ih with ⟨hS, i, h1, h2⟩ | ⟨x, j, h1, h2, h3⟩
    · obtain ⟨i', h3, h4⟩ := hv.edge b r i hS he h1
      exact settle _ _ ⟨i', h3, by omega⟩
    · exact .inr ⟨x, j, h1, h2, by omega⟩

/-- Furthermore, the heap holds targets of moves from visited nodes only, and only nodes whose edges could be read are visited. -/
structure DijInvBase (s : Shape C A D) (L : Lat C A D) (g : Graph C A D N E) (cost : EdgeRef C D E → Nat) (a : C)
    (st : Dij C A D) (S : C → Bool) : Prop extends DijInv s L g cost a st S where
  known : ∀ n v, (n, v) ∈ st.heap → v = a ∨ ∃ u d, S u = true ∧ L.nbr u d = some v
  clean : ∀ v, S v = true → L.Node v ∧ L.Readable v
  reach : ∀ v, S v = true → ∃ j, Path (inner L) a j v

theorem DijInvBase.new (hs : Storable s L rep) (hb : Built s L g k) {a : C} :
    DijInvBase s L g cost a (dijNew g a) (fun _ => false) := by
  have hg := hs.good hb
  refine ⟨⟨?_, ⟨0, by simp [dijNew], Nat.le_refl _⟩, ?_, by simp, by simp, ?_, ?_⟩, ?_, by simp, by simp⟩
  · rw [dijNew, hg.shape]; exact VisInv.newBase (hs.impl hg.constructible)
  · intro v n h
    simp only [dijNew] at h
    split at h
    · rename_i hv; subst hv; cases h; exact .nil
    · cases h
  · intro v n _ h
    simp only [dijNew] at h ⊢
    split at h
    · rename_i hv; subst hv; cases h; simp
    · cases h
  · intro n v h
    simp [dijNew] at h ⊢
    exact ⟨0, ⟨h.2, rfl⟩, by omega⟩
  · intro n v h
    simp [dijNew] at h
    exact .inl h.2

theorem Pop.mem {h rest : List (Nat × C)} {e e' : Nat × C} (hp : Pop h e rest) : e' ∈ h ↔ e' = e ∨ e' ∈ rest := by
  obtain ⟨⟨h1, h2, rfl, rfl⟩, -⟩ := hp
  simp only [List.mem_append, List.mem_cons]
  constructor
  · rintro (h | h | h)
    · exact .inr (.inl h)
    · exact .inl h
    · exact .inr (.inr h)
  · rintro (h | h | h)
    · exact .inr (.inl h)
    · exact .inl h
    · exact .inr (.inr h)

theorem Pop.length {h rest : List (Nat × C)} {e : Nat × C} (hp : Pop h e rest) : h.length = rest.length + 1 := by
  obtain ⟨⟨h1, h2, rfl, rfl⟩, -⟩ := hp
  simp only [List.length_append, List.length_cons]
  omega

/-- Popping an unsettled node: its score is the least cost of a walk to it. -/
theorem DijInv.pop {a : C} {st : Dij C A D} {S : C → Bool} (hv : DijInv s L g cost a st S) {n : Nat} {c : C}
    {rest : List (Nat × C)} (hp : Pop st.heap (n, c) rest) (hS : S c = false) :
    st.scores c = some n ∧ ∀ j, CostWalk g cost a c j → n ≤ j := by
  obtain ⟨i, h1, h2⟩ := hv.entry n c (hp.mem.2 (.inl rfl))
  have h3 := hp.2 _ (hv.front c i hS h1)
  have : i = n := by simp only at h3; omega
  subst this
  refine ⟨h1, fun j hj => ?_⟩
  rcases hv.frontier hj with ⟨h, -⟩ | ⟨x, l, h4, h5, h6⟩
  · rw [hS] at h; cases h
  · have := hp.2 _ (hv.front x l h4 h5)
    simp only at this
    omega

/-- Number of nodes not yet visited. -/
def unvisited (L : Lat C A D) (S : C → Bool) : Nat := (L.nodes.filter fun c => !S c).length

theorem filter_visit_le (S : C → Bool) (c : C) : ∀ l : List C,
    (l.filter fun x => !(if x = c then true else S x)).length ≤ (l.filter fun x => !S x).length
  | [] => by simp
  | x :: l => by
    have ih := filter_visit_le S c l
    simp only [List.filter_cons]
    by_cases h : x = c
    · simp only [h, if_true, Bool.not_true, Bool.false_eq_true, if_false]
      split
      · rw [List.length_cons]; omega
      · exact ih
    · simp only [h, if_false]
      split
      · rw [List.length_cons, List.length_cons]; omega
      · exact ih

theorem filter_visit_lt {S : C → Bool} {c : C} (hS : S c = false) : ∀ {l : List C}, c ∈ l →
    (l.filter fun x => !(if x = c then true else S x)).length < (l.filter fun x => !S x).length
  | x :: l, hm => by
    simp only [List.filter_cons]
    by_cases h : x = c
    · have := filter_visit_le S c l
      simp only [h, if_true, Bool.not_true, Bool.false_eq_true, if_false, hS, Bool.not_false, List.length_cons]
      omega
    · have ih := filter_visit_lt hS ((List.mem_cons.1 hm).resolve_left (Ne.symm h))
      simp only [h, if_false]
      split
      · rw [List.length_cons, List.length_cons]; omega
      · exact ih

/-- One turn: it can be made for every choice of a least entry whose edges can be read, keeps the invariant, and uses up some of
the potential. -/
theorem DijInvBase.turn (hs : Storable s L rep) (hb : Built s L g k) {a : C} {st : Dij C A D} {S : C → Bool}
    (hk : ∀ {c d t}, L.Node c → L.nbr c d = some t → L.Node t ∨ rep t)
    (hv : DijInvBase s L g cost a st S) {e : Nat × C} {rest : List (Nat × C)} (hp : Pop st.heap e rest)
    (hgood : S e.2 = false → L.Node e.2 ∧ L.Readable e.2) :
    ∃ st' S', DijStep g cost st e rest st' ∧ DijInvBase s L g cost a st' S' ∧
      9 * unvisited L S' + st'.heap.length + 1 ≤ 9 * unvisited L S + st.heap.length := by
  have hg := hs.good hb
  have hi := (hs.impl hg.constructible)
  obtain ⟨n, c⟩ := e
  simp only at hgood
  cases hS : S c with
  | true =>
    have hvis := isVisited_base hi hs.base hv.vis (.inl (hv.clean c hS).1)
    rw [hS] at hvis
    refine ⟨{ st with heap := rest }, S, .skip hp hvis, ⟨?_, ?_, hv.clean, hv.reach⟩, ?_⟩
    · refine ⟨hv.vis, hv.start, hv.upper, hv.exact, hv.edge, fun v j hSv hj => ?_,
        fun j v hm => hv.entry j v (hp.mem.2 (.inr hm))⟩
      rcases hp.mem.1 (hv.front v j hSv hj) with h | h
      · cases h; rw [hS] at hSv; cases hSv
      · exact h
    · exact fun j v hm => hv.known j v (hp.mem.2 (.inr hm))
    · have := hp.length
      simp only
      omega
  | false =>
    obtain ⟨hcn, hrd⟩ := hgood hS
    have hvis := isVisited_base hi hs.base hv.vis (.inl hcn)
    rw [hS] at hvis
    obtain ⟨hscore, hleast⟩ := hv.pop hp hS
    obtain ⟨it, hit, hl⟩ := c58_edges_partial hs hb hcn hrd
    have hnb : ∀ r ∈ outEdges L k c, L.nbr c r.direction = some r.target := fun r hr =>
      ((mem_outEdges hs.base.dir).1 hr).2.1
    have hedge : ∀ r, EdgeOf g c r ↔ r ∈ outEdges L k c := fun r => edgeOf_base hs hb hcn hrd
    obtain ⟨st1, e1, e2, e3, e4, e5, e6, e7, e8, e9, e10⟩ :=
      relax_base (cost := cost) (n := n) hi hs.base (st := { st with heap := rest })
        (outEdges L k c) hv.vis fun r h => hk hcn (hnb r h)
    simp only at e2 e3 e4 e5 e7 e8 e9 e10
    obtain ⟨vm, h1, h2⟩ := visit_base hi hs.base (e2 ▸ hv.vis) hcn
    have hwalk : CostWalk g cost a c n := hv.upper _ _ hscore
    have hupper : ∀ v j, st1.scores v = some j → CostWalk g cost a v j := fun v j hj => by
      rcases e7 v j hj with h | ⟨r, h1, rfl, rfl⟩
      · exact hv.upper v j h
      · exact .step hwalk ((hedge r).2 h1)
    have hcs : st1.scores c = some n := by
      obtain ⟨i, h3, h4⟩ := e4 c n hscore
      have := hleast i (hupper c i h3)
      rw [h3]
      congr 1
      omega
    refine ⟨{ st1 with visited := vm }, _, .next hp hvis hit hl e1 h1, ⟨⟨h2, ?_, hupper, ?_, ?_, ?_, ?_⟩, ?_, ?_, ?_⟩, ?_⟩
    · obtain ⟨i, h3, h4⟩ := hv.start
      obtain ⟨i', h5, h6⟩ := e4 a i h3
      exact ⟨i', h5, by omega⟩
    · intro v hSv
      by_cases he : v = c
      · subst he; exact ⟨n, hcs, hleast⟩
      · simp only [he, if_false] at hSv
        obtain ⟨i, h3, h4⟩ := hv.exact v hSv
        exact ⟨i, by rw [← h3]; exact e5 v hSv, h4⟩
    · intro u r j hSu hr hj
      simp only at hj ⊢
      by_cases he : u = c
      · subst he
        rw [hcs] at hj
        cases hj
        cases hSr : S r.target with
        | true =>
          obtain ⟨i, h3, h4⟩ := hv.exact _ hSr
          exact ⟨i, by rw [e5 _ hSr, h3], h4 _ (.step hwalk hr)⟩
        | false => exact e6 r ((hedge r).1 hr) hSr
      · simp only [he, if_false] at hSu
        rw [e5 u hSu] at hj
        obtain ⟨i, h3, h4⟩ := hv.edge u r j hSu hr hj
        obtain ⟨i', h5, h6⟩ := e4 _ _ h3
        exact ⟨i', h5, by omega⟩
    · intro v j hSv hj
      simp only at hj ⊢
      by_cases he : v = c
      · simp [he] at hSv
      · simp only [he, if_false] at hSv
        rcases e8 v j hj with h | h
        · rcases hp.mem.1 (hv.front v j hSv h) with h | h
          · cases h; exact absurd rfl he
          · exact e9 _ h
        · exact h
    · intro j v hm
      simp only at hm ⊢
      rcases e10 _ hm with h | ⟨r, h3, h4, h5⟩
      · obtain ⟨i, h6, h7⟩ := hv.entry j v (hp.mem.2 (.inr h))
        obtain ⟨i', h8, h9⟩ := e4 _ _ h6
        exact ⟨i', h8, by omega⟩
      · cases h5
        exact e6 r h3 h4
    · intro j v hm
      simp only at hm
      rcases e10 _ hm with h | ⟨r, h3, h4, h5⟩
      · rcases hv.known j v (hp.mem.2 (.inr h)) with h | ⟨u, d, h3, h4⟩
        · exact .inl h
        · exact .inr ⟨u, d, by simp only [h3, ite_self], h4⟩
      · cases h5
        exact .inr ⟨c, r.direction, by simp, hnb r h3⟩
    · intro v hSv
      by_cases he : v = c
      · subst he; exact ⟨hcn, hrd⟩
      · simp only [he, if_false] at hSv
        exact hv.clean v hSv
    · intro v hSv
      by_cases he : v = c
      · subst he
        rcases hv.known n v (hp.mem.2 (.inl rfl)) with h | ⟨u, d, h3, h4⟩
        · exact ⟨0, h ▸ .nil⟩
        · obtain ⟨j, hj⟩ := hv.reach u h3
          exact ⟨j + 1, .step hj (inner_nbr.2 ⟨h4, hcn⟩)⟩
      · simp only [he, if_false] at hSv
        exact hv.reach v hSv
    · have hlt : unvisited L (fun c' => if c' = c then true else S c') < unvisited L S :=
        filter_visit_lt hS (Lat.mem_nodes.2 hcn)
      have hlen : (outEdges L k c).length ≤ 8 :=
        Nat.le_trans (List.length_filterMap_le ..) hg.impl.axis.count_le
      have := hp.length
      simp only at e3 ⊢
      omega

theorem DijStep.pop {st st' : Dij C A D} {e : Nat × C} {rest : List (Nat × C)} (h : DijStep g cost st e rest st') :
    Pop st.heap e rest := by
  cases h with
  | skip h => exact h
  | next h => exact h

theorem DijStep.det {st st' st'' : Dij C A D} {e : Nat × C} {rest : List (Nat × C)} (h : DijStep g cost st e rest st')
    (h' : DijStep g cost st e rest st'') : st' = st'' := by
  cases h with
  | skip _ h1 =>
    cases h' with
    | skip => rfl
    | next _ h1' => rw [h1] at h1'; cases h1'
  | next _ h1 h2 h3 h4 h5 =>
    cases h' with
    | skip _ h1' => rw [h1] at h1'; cases h1'
    | next _ h1' h2' h3' h4' h5' =>
      rw [h2] at h2'; cases h2'
      have := h3.unique h3'; subst this
      rw [h4] at h4'; cases h4'
      rw [h5] at h5'; cases h5'
      rfl

/-- A turn that visits a node has read its edges. -/
theorem DijInvBase.good (hs : Storable s L rep) (hb : Built s L g k)
    (hk : ∀ {c d t}, L.Node c → L.nbr c d = some t → L.Node t ∨ rep t)
    (hkn : ∀ {c d t}, L.Node c → L.nbr c d = some t → L.Node (L.key c d t).1) {a : C} (ha : L.Node a) {st st' : Dij C A D}
    {S : C → Bool} (hv : DijInvBase s L g cost a st S) {e : Nat × C} {rest : List (Nat × C)} (h : DijStep g cost st e rest st')
    (hS : S e.2 = false) : L.Node e.2 ∧ L.Readable e.2 := by
  have hi := (hs.impl (hs.good hb).constructible)
  have hknown : L.Node e.2 ∨ rep e.2 := by
    rcases hv.known e.1 e.2 (h.pop.mem.2 (.inl rfl)) with h | ⟨u, d, h1, h2⟩
    · exact .inl (h ▸ ha)
    · exact hk (hv.clean u h1).1 h2
  have hvis := isVisited_base hi hs.base hv.vis hknown
  cases h with
  | skip _ h1 => simp only at hvis hS; rw [h1, hS] at hvis; cases hvis
  | @next _ n c _ it l _ _ _ h1 h2 h3 _ =>
    simp only at hknown ⊢
    have hn : L.Node c := Classical.byContradiction fun hn => by
      rw [(c20_off_graph_faults hs hb (hknown.resolve_left hn) hn .outgoing).1] at h2
      cases h2
    refine ⟨hn, Classical.byContradiction fun hrd => ?_⟩
    obtain ⟨it', h4, h5⟩ := c58_edges_ub hs hb hn (fun d t => hkn hn) hrd
    rw [h2] at h4
    cases h4
    exact h5.not_yields ⟨l, h3⟩

theorem DijSteps.invBase (hs : Storable s L rep) (hb : Built s L g k)
    (hk : ∀ {c d t}, L.Node c → L.nbr c d = some t → L.Node t ∨ rep t)
    (hkn : ∀ {c d t}, L.Node c → L.nbr c d = some t → L.Node (L.key c d t).1) {a : C} (ha : L.Node a) {st : Dij C A D}
    {j : Nat} (h : DijSteps g cost (dijNew g a) j st) :
    ∃ S, DijInvBase s L g cost a st S ∧ j + 9 * unvisited L S + st.heap.length ≤ 9 * L.nodes.length + 1 := by
  generalize hst : dijNew g a = st0 at h
  induction h with
  | nil =>
    subst hst
    refine ⟨_, DijInvBase.new hs hb, ?_⟩
    have : unvisited L (fun _ => false) ≤ L.nodes.length := List.length_filter_le ..
    simp only [dijNew, List.length_singleton]
    omega
  | step _ h2 ih =>
    obtain ⟨S, h3, h4⟩ := ih
    obtain ⟨st', S', h5, h6, h7⟩ := h3.turn hs hb hk h2.pop fun hS => h3.good hs hb hk hkn ha h2 hS
    rw [h5.det h2] at h6 h7
    exact ⟨S', h6, by omega⟩

theorem DijSteps.inv (hs : Lawful s L rep) (hb : Built s L g k) {a : C} (ha : L.Node a) {st : Dij C A D} {j : Nat}
    (h : DijSteps g cost (dijNew g a) j st) :
    ∃ S, DijInvBase s L g cost a st S ∧ j + 9 * unvisited L S + st.heap.length ≤ 9 * L.nodes.length + 1 :=
  h.invBase hs.storable hb (fun hc h => .inl (hs.laws.nbr_node hc h)) (fun hc h => (hs.readable hc _ _ h).1) ha

/-- **C65**, progress. Whatever entries of least score have been popped so far, any of least score can be popped next, and the
turn does not fault. -/
theorem c65_progress (hs : Lawful s L rep) (hb : Built s L g k) {a : C} (ha : L.Node a) (cost : EdgeRef C D E → Nat) {j : Nat}
    {st : Dij C A D} (h : DijSteps g cost (dijNew g a) j st) {e : Nat × C} {rest : List (Nat × C)}
    (hp : Pop st.heap e rest) : ∃ st', DijStep g cost st e rest st' := by
  obtain ⟨S, h1, -⟩ := h.inv hs hb ha
  have hn : L.Node e.2 := by
    rcases h1.known e.1 e.2 (hp.mem.2 (.inl rfl)) with h | ⟨u, d, h2, h3⟩
    · exact h ▸ ha
    · exact hs.laws.nbr_node (h1.clean u h2).1 h3
  obtain ⟨st', _, h2, -⟩ := h1.turn hs.storable hb (fun hc h => .inl (hs.laws.nbr_node hc h)) hp fun _ => ⟨hn, hs.readable hn⟩
  exact ⟨st', h2⟩

/-- **C65**, termination. No run makes more than `9 · nodes + 1` turns. -/
theorem c65_terminates (hs : Lawful s L rep) (hb : Built s L g k) {a : C} (ha : L.Node a) (cost : EdgeRef C D E → Nat)
    {j : Nat} {st : Dij C A D} (h : DijSteps g cost (dijNew g a) j st) : j ≤ 9 * (L.width * L.height) + 1 := by
  obtain ⟨S, -, h1⟩ := h.inv hs hb ha
  have : L.nodes.length = L.width * L.height := by simp [Lat.nodes_eq]
  rw [this] at h1
  omega

/-- **C65**, result. When the heap is empty, every node has a score, and it is the least cost of a walk along the edges. Other
coordinates have none. -/
theorem c65_dijkstra (hs : Sound s L rep) (hb : Built s L g k) {a : C} (ha : L.Node a) (cost : EdgeRef C D E → Nat)
    {j : Nat} {st : Dij C A D} (h : DijSteps g cost (dijNew g a) j st) (hempty : st.heap = []) (c : C) :
    (∀ n, st.scores c = some n ↔ CostWalk g cost a c n ∧ ∀ n', CostWalk g cost a c n' → n ≤ n') ∧
    (L.Node c ↔ ∃ n, st.scores c = some n) := by
  have hl := hs.lawful
  obtain ⟨S, h1, -⟩ := h.inv hl hb ha
  have settled : ∀ {c n}, CostWalk g cost a c n → ∃ i, st.scores c = some i ∧ ∀ n', CostWalk g cost a c n' → i ≤ n' :=
    fun {c n} hw => by
      rcases h1.frontier hw with ⟨hS, _⟩ | ⟨x, i, h2, h3, _⟩
      · exact h1.exact c hS
      · have := h1.front x i h2 h3
        rw [hempty] at this
        cases this
  refine ⟨fun n => ⟨fun hn => ?_, fun ⟨hw, hle⟩ => ?_⟩, fun hc => ?_, fun ⟨n, hn⟩ => (h1.upper c n hn).node hl hb ha⟩
  · have hw := h1.upper c n hn
    obtain ⟨i, h2, h3⟩ := settled hw
    rw [hn] at h2
    cases h2
    exact ⟨hw, h3⟩
  · obtain ⟨i, h2, h3⟩ := settled hw
    have e1 := h3 n hw
    have e2 := hle i (h1.upper c i h2)
    rw [h2]
    congr 1
    omega
  · obtain ⟨n, hw⟩ := costWalk_exists hs hb ha hc
    obtain ⟨i, h2, _⟩ := settled hw
    exact ⟨i, h2⟩

theorem pop_exists : ∀ (h : List (Nat × C)), h ≠ [] → ∃ e rest, Pop h e rest
  | [], hne => absurd rfl hne
  | [e], _ => ⟨e, [], ⟨[], [], rfl, rfl⟩, by simp⟩
  | e :: e' :: h, _ => by
    obtain ⟨f, rest, ⟨h1, h2, h3, h4⟩, h5⟩ := pop_exists (e' :: h) (by simp)
    rcases Nat.le_total e.1 f.1 with hle | hle
    · refine ⟨e, e' :: h, ⟨[], _, rfl, rfl⟩, fun x hx => ?_⟩
      rcases List.mem_cons.1 hx with rfl | hx
      · exact Nat.le_refl _
      · exact Nat.le_trans hle (h5 x hx)
    · refine ⟨f, e :: rest, ⟨e :: h1, h2, by rw [h3]; rfl, by rw [h4]; rfl⟩, fun x hx => ?_⟩
      rcases List.mem_cons.1 hx with rfl | hx
      · exact hle
      · exact h5 x hx

/-- **C65.** So every run can be completed (in particular there is one), and ends with the least costs. -/
theorem c65_completes (hs : Lawful s L rep) (hb : Built s L g k) {a : C} (ha : L.Node a) (cost : EdgeRef C D E → Nat) {j : Nat}
    {st : Dij C A D} (h : DijSteps g cost (dijNew g a) j st) :
    ∃ j' st', DijSteps g cost (dijNew g a) j' st' ∧ j ≤ j' ∧ st'.heap = [] := by
  have : ∀ n j st, DijSteps g cost (dijNew g a) j st → 9 * (L.width * L.height) + 1 ≤ j + n →
      ∃ j' st', DijSteps g cost (dijNew g a) j' st' ∧ j ≤ j' ∧ st'.heap = [] := by
    intro n
    induction n with
    | zero =>
      intro j st h hn
      obtain ⟨S, -, h1⟩ := h.inv hs hb ha
      have : L.nodes.length = L.width * L.height := by simp [Lat.nodes_eq]
      rw [this] at h1
      exact ⟨j, st, h, Nat.le_refl _, List.length_eq_zero_iff.1 (by omega)⟩
    | succ n ih =>
      intro j st h hn
      by_cases he : st.heap = []
      · exact ⟨j, st, h, Nat.le_refl _, he⟩
      · obtain ⟨e, rest, hp⟩ := pop_exists st.heap he
        obtain ⟨st', h1⟩ := c65_progress hs hb ha cost h hp
        obtain ⟨j', st'', h2, h3, h4⟩ := ih (j + 1) st' (.step h h1) (by omega)
        exact ⟨j', st'', h2, by omega, h4⟩
  exact this _ j st h (Nat.le_add_left _ _)

end

/-- Example: on the 3 × 2 square graph with its edge weights as costs there is a complete run from (0,0), and the score of
(1,0) is 1000, the weight of the edge between them. -/
example : ∃ (g : Graph Offset SquareAxis DSquareAxis Nat Nat) (j : Nat) (st : Dij Offset SquareAxis DSquareAxis),
    DijSteps g EdgeRef.weight (dijNew g ⟨0, 0⟩) j st ∧ st.heap = [] ∧ st.scores ⟨1, 0⟩ = some 1000 := by
  obtain ⟨g, hb⟩ := exSquare
  have hs := Sound.square m64 3 2
  have h0 : (squareLat 3 2).Node ⟨0, 0⟩ := ⟨0, 0, by decide, by decide, rfl⟩
  obtain ⟨j, st, h1, -, h2⟩ := c65_completes hs.lawful hb h0 EdgeRef.weight .nil
  refine ⟨g, j, st, h1, h2, ((c65_dijkstra hs hb h0 EdgeRef.weight h1 h2 ⟨1, 0⟩).1 1000).2 ⟨?_, ?_⟩⟩
  · exact .step (r := ⟨⟨0, 0⟩, ⟨1, 0⟩, 1000, .X⟩) .nil ((edgeOf_iff hs.lawful hb h0).2 (by decide))
  · intro n hw
    have key : ∀ c n, CostWalk g EdgeRef.weight ⟨0, 0⟩ c n → c = ⟨0, 0⟩ ∨ 1000 ≤ n := by
      intro c n hw
      induction hw with
      | nil => exact .inl rfl
      | @step b n r hw he ih =>
        have hn := hw.node hs.lawful hb h0
        have hm := (edgeOf_iff hs.lawful hb hn).1 he
        have : 1000 ≤ r.weight := by
          have hall : ∀ c ∈ (squareLat 3 2).nodes, ∀ r ∈ outEdges (squareLat 3 2) exK c, 1000 ≤ r.weight := by decide
          exact hall b (Lat.mem_nodes.2 hn) r hm
        exact .inr (by omega)
    rcases key _ _ hw with h | h
    · cases h
    · exact h

example : ∃ (g : Graph Offset SquareAxis DSquareAxis Nat Nat), Built (squareShape m64 3 2) (squareLat 3 2) g exK ∧
    (∃ st, DijStep g EdgeRef.weight (dijNew g ⟨0, 0⟩) (0, ⟨0, 0⟩) [] st) ∧
    ∀ j st, DijSteps g EdgeRef.weight (dijNew g ⟨0, 0⟩) j st → j ≤ 55 := by
  obtain ⟨g, hb⟩ := exSquare
  have hs := Sound.square m64 3 2
  have h0 : (squareLat 3 2).Node ⟨0, 0⟩ := ⟨0, 0, by decide, by decide, rfl⟩
  exact ⟨g, hb, c65_progress hs.lawful hb h0 EdgeRef.weight .nil ⟨⟨[], [], rfl, rfl⟩, by simp [dijNew]⟩,
    fun j st h => c65_terminates hs.lawful hb h0 EdgeRef.weight h⟩

end LG
