import Verif.Props.LegacyRing
/- C83 with all edges costing one: exactly on which `SquareGraph`s `astar` with `distance` as the estimate finds a path of fewest
edges between all cells. -/
set_option linter.unusedSectionVars false
namespace LG.Sq
section

section Generic
variable {V : Type} [DecidableEq V] {ex : V → List (V × Nat) → Prop} {P : V → Prop} {nodes : List V} {est : V → Nat}
  {goal : V → Bool} {a : V}

/-- What the loop over the edges leaves: the estimates, no greater scores, and in the heap only new entries of targets whose score
became less. -/
theorem astRelax_frame {x : V} {n : Nat} : ∀ (l : List (V × Nat)) (st : Ast V),
    (astRelax est x n l st).est = st.est ∧ Below st.scores (astRelax est x n l st).scores ∧
    ∀ f y, (f, y) ∈ (astRelax est x n l st).heap → (f, y) ∈ st.heap ∨
      ∃ w, (y, w) ∈ l ∧ f = n + w + est y ∧ ∀ old, st.scores y = some old → n + w < old := by
  intro l
  induction l with
  | nil => exact fun st => ⟨rfl, .refl _, fun f y hm => .inl hm⟩
  | cons e l ih =>
    obtain ⟨t, w⟩ := e
    intro st
    have keep : (astRelax est x n l st).est = st.est ∧ Below st.scores (astRelax est x n l st).scores ∧
        ∀ f y, (f, y) ∈ (astRelax est x n l st).heap → (f, y) ∈ st.heap ∨
          ∃ w', (y, w') ∈ (t, w) :: l ∧ f = n + w' + est y ∧ ∀ old, st.scores y = some old → n + w' < old := by
      obtain ⟨h1, h2, h3⟩ := ih st
      refine ⟨h1, h2, fun f y hm => ?_⟩
      rcases h3 f y hm with h4 | ⟨w', h4, h5⟩
      · exact .inl h4
      · exact .inr ⟨w', List.mem_cons_of_mem _ h4, h5⟩
    have change : (∀ old, st.scores t = some old → n + w < old) →
        (astRelax est x n l (st.improve est x t (n + w))).est = st.est ∧
        Below st.scores (astRelax est x n l (st.improve est x t (n + w))).scores ∧
        ∀ f y, (f, y) ∈ (astRelax est x n l (st.improve est x t (n + w))).heap → (f, y) ∈ st.heap ∨
          ∃ w', (y, w') ∈ (t, w) :: l ∧ f = n + w' + est y ∧ ∀ old, st.scores y = some old → n + w' < old := by
      intro hlt
      obtain ⟨h1, h2, h3⟩ := ih (st.improve est x t (n + w))
      have hlow : Below st.scores (st.improve est x t (n + w)).scores := fun y i hi => by
        by_cases e : y = t
        · subst e
          exact ⟨n + w, if_pos rfl, Nat.le_of_lt (hlt i hi)⟩
        · exact ⟨i, (if_neg e).trans hi, Nat.le_refl _⟩
      refine ⟨h1, hlow.trans h2, fun f y hm => ?_⟩
      rcases h3 f y hm with h4 | ⟨w', h4, h5, h6⟩
      · rcases List.mem_cons.1 h4 with h4 | h4
        · cases h4
          exact .inr ⟨w, List.mem_cons_self, rfl, hlt⟩
        · exact .inl h4
      · refine .inr ⟨w', List.mem_cons_of_mem _ h4, h5, fun old ho => ?_⟩
        obtain ⟨j, h7, h8⟩ := hlow y old ho
        have := h6 j h7
        omega
    unfold astRelax
    cases ho : st.scores t with
    | none => exact change (fun old e => by rw [ho] at e; cases e)
    | some old =>
      by_cases hle : old ≤ n + w
      · simp only [if_pos hle]; exact keep
      · simp only [if_neg hle]; exact change (fun old' e => by rw [ho] at e; cases e; omega)

/-- The states of a run: at first; when only the start has been expanded; later. The start is never in the heap again. -/
theorem ast_phases (G : AstGraph ex P nodes) (ha : P a) {st : Ast V}
    (hs : AstSteps ex est goal (astNew est a) st) :
    st = astNew est a ∨
    ((∀ f, (f, a) ∉ st.heap) ∧
      ((∀ f y, (f, y) ∈ st.heap → y ≠ a ∧ ∃ w, Leads ex a y w ∧ f = w + est y) ∧ (∀ y, y ≠ a → st.est y = none) ∨
       ∃ st1 st2, AstSteps ex est goal (astNew est a) st1 ∧
        ((∀ f y, (f, y) ∈ st1.heap → y ≠ a ∧ ∃ w, Leads ex a y w ∧ f = w + est y) ∧ (∀ y, y ≠ a → st1.est y = none) ∧
          (∀ f, (f, a) ∉ st1.heap)) ∧
        AstStep ex est goal st1 st2 ∧ Below st2.scores st.scores)) := by
  induction hs with
  | nil => exact .inl rfl
  | @step st1 st2 hs h1 ih =>
    right
    have hv := (AInv.new (ex := ex) (h := est) (goal := goal) ha).steps G hs
    have below : Below st1.scores st2.scores := by
      cases h1 with
      | skip => exact .refl _
      | @next f n c rest l =>
        exact (astRelax_frame (est := est) (x := c) (n := n) l { st1 with heap := rest, est := fun x => if x = c then some f else st1.est x }).2.1
    have gone : (∀ f, (f, a) ∉ st1.heap) → ∀ f, (f, a) ∉ st2.heap := fun hno f hm => by
      cases h1 with
      | skip hp => exact hno f (hp.of_rest hm)
      | next hp =>
        rcases (astRelax_frame _ _).2.2 f a hm with h2 | ⟨w, -, -, h2⟩
        · exact hno f (hp.of_rest h2)
        · exact absurd (h2 0 hv.start) (by omega)
    rcases ih with rfl | ⟨hno, h2⟩
    · have hpop : ∀ {f c rest}, Pop (astNew est a).heap (f, c) rest → c = a ∧ rest = [] := fun {f c rest} hp => by
        obtain ⟨⟨l1, l2, h3, h4⟩, -⟩ := hp
        change [(est a, a)] = _ at h3
        match l1, h3 with
        | [], h3 => cases h3; exact ⟨rfl, h4⟩
        | _ :: l1, h3 =>
          injection h3 with _ h3
          exact absurd h3 (by cases l1 <;> simp)
      cases h1 with
      | skip hp _ he => cases he
      | @next f n c rest l hp hg hest hn hex =>
        obtain ⟨rfl, rfl⟩ := hpop hp
        have e : n = 0 := by
          change (if c = c then some 0 else none) = some n at hn
          rw [if_pos rfl] at hn; cases hn; rfl
        subst e
        have key : ∀ f' y, (f', y) ∈ (astRelax est c 0 l { astNew est c with heap := [], est := fun x => if x = c then some f else none }).heap →
            y ≠ c ∧ ∃ w, Leads ex c y w ∧ f' = w + est y := fun f' y hm => by
          rcases (astRelax_frame _ _).2.2 f' y hm with h3 | ⟨w, h3, h4, h5⟩
          · cases h3
          · refine ⟨fun e => ?_, w, ⟨l, hex, h3⟩, by omega⟩
            subst e
            exact absurd (h5 0 (if_pos rfl)) (by omega)
        refine ⟨fun f' hm => (key f' c hm).1 rfl, .inl ⟨fun f' y hm => key f' y hm, fun y hy => ?_⟩⟩
        · rw [(astRelax_frame _ _).1]
          exact if_neg hy
    · refine ⟨gone hno, .inr ?_⟩
      rcases h2 with ⟨h2, h3⟩ | ⟨st3, st4, h3, h4, h5, h6⟩
      · exact ⟨st1, st2, hs, ⟨h2, h3, hno⟩, h1, .refl _⟩
      · exact ⟨st3, st4, h3, h4, h5, h6.trans below⟩

/-- On a route all of whose nodes are known there is one in the heap. -/
theorem ast_route {st : Ast V} (hv : AInv ex P est goal a (fun _ => True) st) {R : V → Nat → Prop}
    (hR : ∀ y j, R y j → goal y = true ∨ ∃ x w j', Leads ex y x w ∧ 0 < w ∧ j = w + j' ∧ R x j') :
    ∀ (m : Nat) {x : V} {s : Nat}, R x m → st.scores x = some s →
      ∃ y i j, (i + est y, y) ∈ st.heap ∧ st.scores y = some i ∧ R y j ∧ i + j ≤ s + m := by
  intro m
  induction m using Nat.strongRecOn with
  | _ m ih =>
    intro x s hx hs
    rcases hv.opened x s trivial hs with h1 | h1
    · exact ⟨x, s, m, h1, hs, hx, Nat.le_refl _⟩
    · rcases hR x m hx with h2 | ⟨y, w, j', h2, h3, rfl, h4⟩
      · exact absurd (h2.symm.trans h1.1) (by decide)
      · obtain ⟨i, h5, h6⟩ := h1.2 y w h2
        obtain ⟨z, i', j, h7, h8, h9, h10⟩ := ih j' (by omega) h4 h5
        exact ⟨z, i', j, h7, h8, h9, by omega⟩
end Generic

variable {N E : Type}
variable {g : G N E} {k : Cfg} {h v : Nat} {c : Contents NodeIx Axis N E}

theorem ring_le_taxi {a t : NodeIx} : ringDist k h v a t ≤ taxi a t := by
  unfold ringDist around taxi
  split <;> split <;> omega

/-- Where the way round is shorter on a side of at most four cells, the two coordinates are its ends. -/
theorem around_ends {loop : Bool} {n i j : Nat} (hi : i < n) (hj : j < n) (hl : loop = true → n ≤ 4)
    (hne : around loop n i j ≠ ((i : Int) - j).natAbs) :
    loop = true ∧ around loop n i j = 1 ∧ 2 ≤ ((i : Int) - j).natAbs ∧ (i = 0 ∧ j = n - 1 ∨ i + 1 = n ∧ j = 0) := by
  unfold around at *
  cases loop
  · simp at hne
  · simp only [if_true, true_and] at *
    have := hl trivial
    omega

/-- The step across the border. -/
theorem step_across {ax : Axis} {a t : NodeIx} (ha : (k.grid h v).Node a) (hl : loopOf ax k = true)
    (he : alongOf ax a = 0 ∧ alongOf ax t = sideOf ax h v - 1 ∨ alongOf ax a + 1 = sideOf ax h v ∧ alongOf ax t = 0) :
    ∃ d, (k.grid h v).step a d = some (cellAt ax (alongOf ax t) (acrossOf ax a)) := by
  have h1 : alongOf ax a < sideOf ax h v := by cases ax; exact ha.1; exact ha.2
  have h2 : acrossOf ax a < acrossOf ax ⟨h, v⟩ := by cases ax; exact ha.2; exact ha.1
  rcases he with ⟨h3, h4⟩ | ⟨h3, h4⟩
  · refine ⟨.backward ax, ?_⟩
    have := step_back (k := k) h1 h2
    rw [cellAt_self, if_neg (by omega), if_pos hl] at this
    rw [this, h4]
  · refine ⟨.foward ax, ?_⟩
    have := step_forth (k := k) h1 h2
    rw [cellAt_self, if_neg (by omega), if_pos hl] at this
    rw [this, h4]

/-- The steps that keep `distance` exact. -/
theorem exact_toward {y t : NodeIx} (hy : (k.grid h v).Node y) (ht : (k.grid h v).Node t) (he : taxi y t = ringDist k h v y t)
    (hne : y ≠ t) : ∃ d x, (k.grid h v).step y d = some x ∧ taxi x t = ringDist k h v x t ∧
      ringDist k h v y t = 1 + ringDist k h v x t := by
  have h0 : taxi y t ≠ 0 := fun e => hne ((ring_zero hy ht).1 (he.symm.trans e))
  obtain ⟨d, x, -, h1, h2⟩ := step_toward hy ht h0
  have h3 := ring_step hy ht h1
  have h4 := ring_le_taxi (k := k) (h := h) (v := v) (a := x) (t := t)
  exact ⟨d, x, h1, by omega, by omega⟩

/-- What a run returns costs at most as much as a route of which the heap always holds a node that `distance` estimates exactly. -/
theorem route_bound {t : NodeIx} {d : NodeIx → Nat} {ex : NodeIx → List (NodeIx × Nat) → Prop} {P : NodeIx → Prop} {a : NodeIx}
    {st : Ast NodeIx} (hv : AInv ex P d (fun x => decide (x = t)) a (fun _ => True) st) {f n : Nat} {rest : List (Nat × NodeIx)}
    (hp : Pop st.heap (f, t) rest) (hn : st.scores t = some n) {R : NodeIx → Nat → Prop}
    (hR : ∀ y j, R y j → y = t ∨ ∃ x w j', Leads ex y x w ∧ 0 < w ∧ j = w + j' ∧ R x j')
    (hest : ∀ y i j, R y j → (i + d y, y) ∈ st.heap → d y ≤ j) {m : Nat} (ha : R a m) : n ≤ m := by
  obtain ⟨y, i, j, h1, h2, h3, h4⟩ := ast_route hv (R := R) (fun y j hy => by
    rcases hR y j hy with h1 | h1
    · exact .inl (decide_eq_true h1)
    · exact .inr h1) m ha hv.start
  have h5 := hest y i j h3 h1
  obtain ⟨i', h6, h7⟩ := hv.entry f t hp.self
  have h8 : f ≤ i + d y := hp.2 _ h1
  rw [hn] at h6
  cases h6
  omega

theorem unit_bound (hb : Built k h v g c) (hf : k.Fits h v) (hl : k.loopH = true → h ≤ 4) (hv : k.loopV = true → v ≤ 4)
    {a t : NodeIx} (ha : (k.grid h v).Node a) (ht : (k.grid h v).Node t) {d : NodeIx → Nat}
    (hd : ∀ x, (k.grid h v).Node x → d x = taxi x t) {st : Ast NodeIx}
    (hs : AstSteps (sqEdges g fun _ => 1) d (fun x => decide (x = t)) (astNew d a) st) {f n : Nat} {rest : List (Nat × NodeIx)}
    (hp : Pop st.heap (f, t) rest) (hn : st.scores t = some n) : n ≤ ringDist k h v a t := by
  have G := sqGraph hb hf (fun _ => 1)
  have hinv := (AInv.new (ex := sqEdges g fun _ => 1) (h := d) (goal := fun x => decide (x = t)) ha).steps G hs
  have lead : ∀ {y x dir}, (k.grid h v).Node y → (k.grid h v).step y dir = some x → Leads (sqEdges g fun _ => 1) y x 1 :=
    fun hy hst => (leads_iff hb hf hy).2 (unit_link hb hf hy hst)
  by_cases hat : a = t
  · subst hat
    rw [hinv.start] at hn
    cases hn
    omega
  have notNew : st ≠ astNew d a := fun e => by
    subst e
    have := hp.self
    change (f, t) ∈ [(d a, a)] at this
    simp only [List.mem_singleton, Prod.mk.injEq] at this
    exact hat this.2.symm
  have ph := (ast_phases G ha hs).resolve_left notNew
  have key : ∀ x dir, (k.grid h v).step a dir = some x → taxi x t = ringDist k h v x t →
      ringDist k h v a t = 1 + ringDist k h v x t → n ≤ ringDist k h v a t := fun x dir h1 h2 h3 => by
    refine route_bound hinv hp hn (R := fun y j => (k.grid h v).Node y ∧ j = ringDist k h v y t ∧
      (y = a ∨ taxi y t = ringDist k h v y t)) (fun y j hy => ?_) (fun y i j hy hm => ?_) ⟨ha, rfl, .inl rfl⟩
    · obtain ⟨hy, rfl, h4⟩ := hy
      by_cases e : y = t
      · exact .inl e
      · right
        by_cases e' : y = a
        · subst e'
          exact ⟨x, 1, _, lead ha h1, by omega, h3, Grid.step_node ha h1, rfl, .inr h2⟩
        · obtain ⟨dir, z, h5, h6, h7⟩ := exact_toward hy ht (h4.resolve_left e') e
          exact ⟨z, 1, _, lead hy h5, by omega, h7, Grid.step_node hy h5, rfl, .inr h6⟩
    · obtain ⟨hy, rfl, h4⟩ := hy
      rw [hd y hy]
      rcases h4 with rfl | h4
      · exact absurd hm (ph.1 _)
      · omega
  have a1 : a.horizontal < h := ha.1
  have a2 : a.vertical < v := ha.2
  have t1 : t.horizontal < h := ht.1
  have t2 : t.vertical < v := ht.2
  by_cases e1 : around k.loopH h a.horizontal t.horizontal = ((a.horizontal : Int) - t.horizontal).natAbs
  · by_cases e2 : around k.loopV v a.vertical t.vertical = ((a.vertical : Int) - t.vertical).natAbs
    · obtain ⟨dir, x, h1, h2, h3⟩ := exact_toward ha ht (by unfold taxi ringDist; omega) hat
      exact key x dir h1 h2 h3
    · obtain ⟨b1, b2, b3, b4⟩ := around_ends a2 t2 hv e2
      obtain ⟨dir, h1⟩ := step_across (ax := .vertical) (t := t) ha b1 b4
      have z := (around_zero (loop := k.loopV) t2 t2).2 rfl
      refine key _ dir h1 ?_ ?_ <;> unfold ringDist <;> simp only [cellAt, alongOf, acrossOf, taxi, z, e1, b2] <;> omega
  · obtain ⟨b1, b2, b3, b4⟩ := around_ends a1 t1 hl e1
    obtain ⟨dir, h1⟩ := step_across (ax := .horizontal) (t := t) ha b1 b4
    have z := (around_zero (loop := k.loopH) t1 t1).2 rfl
    by_cases e2 : around k.loopV v a.vertical t.vertical = ((a.vertical : Int) - t.vertical).natAbs
    · refine key _ dir h1 ?_ ?_ <;> unfold ringDist <;> simp only [cellAt, alongOf, acrossOf, taxi, z, e2, b2] <;> omega
    · obtain ⟨c1, c2, c3, c4⟩ := around_ends a2 t2 hv e2
      have two : ringDist k h v a t = 2 := by unfold ringDist; omega
      rw [two]
      have last : ∀ {sc : NodeIx → Option Nat} {x : NodeIx} {s : Nat}, (k.grid h v).Node x → ringDist k h v x t = 1 → s ≤ 1 →
          Closed (sqEdges g fun _ => 1) (fun x => decide (x = t)) sc x s → Below sc st.scores → n ≤ 2 :=
        fun {sc x s} hx h2 h3 h4 h5 => by
          obtain ⟨dir, y, -, h6, h7⟩ := ring_toward hx ht (by omega)
          have e : y = t := (ring_zero (Grid.step_node hx h6) ht).1 (by omega)
          subst e
          obtain ⟨i, h8, h9⟩ := h4.2 y 1 (lead hx h6)
          obtain ⟨j, h10, h11⟩ := h5 y i h8
          rw [hn] at h10
          cases h10
          omega
      rcases ph.2 with ⟨h2, -⟩ | ⟨st1, st2, h2, ⟨h3, h4, h5⟩, h6, h7⟩
      · obtain ⟨-, w, h3, h4⟩ := h2 f t hp.self
        obtain ⟨i, h5, h6⟩ := hinv.entry f t hp.self
        rw [hn] at h5
        cases h5
        obtain ⟨r, -, h7⟩ := (leads_iff hb hf ha).1 h3
        simp only at h7
        omega
      · have hinv1 := (AInv.new (ex := sqEdges g fun _ => 1) (h := d) (goal := fun x => decide (x = t)) ha).steps G h2
        have hinv2 := hinv1.step G h6
        have below : Below st1.scores st2.scores := by
          cases h6 with
          | skip => exact .refl _
          | @next f n c rest l =>
            exact (astRelax_frame (est := d) (x := c) (n := n) l
              { st1 with heap := rest, est := fun x => if x = c then some f else st1.est x }).2.1
        have hx := Grid.step_node ha h1
        have hx1 : ringDist k h v (cellAt .horizontal (alongOf .horizontal t) (acrossOf .horizontal a)) t = 1 := by
          unfold ringDist
          simp only [cellAt, alongOf, acrossOf, z, c2]
        rcases hinv1.opened a 0 trivial hinv1.start with h8 | h8
        · exact absurd h8 (h5 _)
        obtain ⟨i, h9, h10⟩ := h8.2 _ 1 (lead ha h1)
        rcases hinv1.opened _ i trivial h9 with h11 | h11
        · cases h6 with
          | skip hp1 _ he =>
            rw [h4 _ (h3 _ _ hp1.self).1] at he
            cases he
          | @next f1 n1 c1 rest1 l1 hp1 hg1 he1 hn1 hex1 =>
            obtain ⟨-, w, h12, h13⟩ := h3 _ _ hp1.self
            have h14 : f1 ≤ i + d _ := hp1.2 _ h11
            have h15 := (leads_iff hb hf ha).1 h12
            obtain ⟨d1, h16⟩ := (link_step hb hf ha).1 ⟨w, h15⟩
            obtain ⟨r, -, h17⟩ := h15
            simp only at h17
            have hc := Grid.step_node ha h16
            rw [hd _ hx] at h14
            rw [hd _ hc] at h13
            have h18 : ringDist k h v c1 t = 1 := by
              have s1 := step_along (ax := .horizontal) ha h16
              have s2 := step_along (ax := .vertical) ha h16
              have h22 : taxi c1 t ≤ taxi (cellAt .horizontal (alongOf .horizontal t) (acrossOf .horizontal a)) t := by omega
              have zv := (around_zero (loop := k.loopV) t2 t2).2 rfl
              clear h14 h13
              unfold taxi at h22
              unfold ringDist
              simp only [cellAt, alongOf, acrossOf, sideOf] at h22 s1 s2 b4 c4
              rcases s1 with ⟨s1, -⟩ | ⟨s1, s3⟩
              · rcases s2 with ⟨s2, -⟩ | ⟨-, s4⟩
                · omega
                · rw [s1, b2]
                  have e : c1.vertical = t.vertical := by
                    rcases s4 with s4 | s4 | s4 | s4 <;> omega
                  rw [e, zv]
              · rw [s1, c2]
                have e : c1.horizontal = t.horizontal := by
                  rcases s3 with s4 | s4 | s4 | s4 <;> omega
                rw [e, z]
            have h19 : (astRelax d c1 n1 l1 { st1 with heap := rest1, est := fun x => if x = c1 then some f1 else st1.est x }).est c1 = some f1 := by
              rw [(astRelax_frame _ _).1]
              exact if_pos rfl
            obtain ⟨s, h20, h21⟩ := hinv2.est c1 f1 trivial h19
            rw [hd _ hc] at h20
            exact last hc h18 (by omega) h21 h7
        · exact last hx hx1 (by omega) h11 (below.trans h7)

/-- **C83**, all edges costing one: `astar` with `distance` to the goal as the estimate returns a way of fewest edges, whatever the
start and the goal, exactly on the graphs whose loops have at most four cells; then the cost is the distance of C103. -/
theorem c83_unit_iff (hb : Built k h v g c) (hf : k.Fits h v) (h0 : 0 < h) (v0 : 0 < v) :
    (∀ (a t : NodeIx) (d : NodeIx → Nat), (k.grid h v).Node a → (k.grid h v).Node t →
      (∀ x, (k.grid h v).Node x → x.distance k t.horizontal t.vertical = .ok (d x)) →
      ∀ o, AstOutcome (sqEdges g fun _ => 1) d (fun x => decide (x = t)) a o →
        ∃ n p, o = some (n, p) ∧ ∀ m, CostWalk g (fun _ => 1) a t m → n ≤ m) ↔
    (k.loopH = true → h ≤ 4) ∧ (k.loopV = true → v ≤ 4) := by
  constructor
  · intro hall
    have key : ∀ ax, loopOf ax k = true → 0 < acrossOf ax ⟨h, v⟩ → sideOf ax h v ≤ 4 := fun ax hl hw => by
      apply Nat.le_of_not_lt
      intro h5
      have ht : (k.grid h v).Node (cellAt ax (sideOf ax h v - 1) 0) := cellAt_node (by omega) hw
      have ha : (k.grid h v).Node (cellAt ax 1 0) := cellAt_node (by omega) hw
      have hd : ∀ x, (k.grid h v).Node x → x.distance k (cellAt ax (sideOf ax h v - 1) 0).horizontal
          (cellAt ax (sideOf ax h v - 1) 0).vertical = .ok (taxi x (cellAt ax (sideOf ax h v - 1) 0)) :=
        fun x hx => c50_nodes hb hf hx ht
      obtain ⟨h1, h2, h3⟩ := c83_looped_wrong hb hf hl h5 hw _ hd
      obtain ⟨st, o, h6, h7⟩ := (c83_astar hb hf ha (fun _ => 1) (fun x => taxi x (cellAt ax (sideOf ax h v - 1) 0))
        (fun x => decide (x = cellAt ax (sideOf ax h v - 1) 0))).2.1 _ .nil
      obtain ⟨n, p, rfl, h8⟩ := hall _ _ _ ha ht hd o ⟨st, h6, h7⟩
      obtain ⟨p', h9⟩ := h3 _ ⟨st, h6, h7⟩
      have := h8 2 h1
      injection h9 with h9
      injection h9 with h9
      omega
    exact ⟨fun hl => key .horizontal hl v0, fun hl => key .vertical hl h0⟩
  · rintro ⟨hl, hv⟩ a t d ha ht hd o ho
    have hd' : ∀ x, (k.grid h v).Node x → d x = taxi x t := fun x hx => by
      have h1 := hd x hx
      rw [c50_nodes hb hf hx ht] at h1
      injection h1 with h1
      exact h1.symm
    obtain ⟨h1, -⟩ := (c83_astar hb hf ha (fun _ => 1) _ _).2.2 o ho
    obtain ⟨st, h2, h3⟩ := ho
    cases h3 with
    | none =>
      have := h1.1 rfl t ht
      simp at this
    | @some f n c rest p hp hg hn hr =>
      have e : c = t := of_decide_eq_true hg
      subst e
      refine ⟨n, p, rfl, fun m hm => ?_⟩
      have h4 := unit_bound hb hf hl hv ha ht hd' h2 hp hn
      have h5 := ring_cost hb hf (q := 1) (fun _ _ _ _ _ => Nat.le_refl 1) ha hm ht
      rw [(ring_zero ht ht).2 rfl] at h5
      omega
end

/-- Example: in the 4 × 4 graph that wraps both ways `astar` goes from one corner to the opposite one in two steps although
`distance` says six; in the 5 × 1 graph that wraps horizontally not all its ways are shortest. -/
example : ∃ (k : Cfg) (g : G Nat Nat) (d : NodeIx → Nat) (n : Nat) (p : List NodeIx), k.loopH = true ∧ k.loopV = true ∧
    (∀ x, (k.grid 4 4).Node x → x.distance k 3 3 = .ok (d x)) ∧ d ⟨0, 0⟩ = 6 ∧
    AstOutcome (sqEdges g fun _ => 1) d (fun x => decide (x = ⟨3, 3⟩)) ⟨0, 0⟩ (some (n, p)) ∧ n ≤ 2 := by
  let k : Cfg := ⟨m64, 256, true, true, by decide, by decide⟩
  obtain ⟨g, h1, _⟩ := c43_new_with (N := Nat) (E := Nat) k (h := 4) (v := 4) (by decide) (by decide) (by decide)
    (fun u _ _ => (0, u)) (fun u _ _ _ => (0, u)) ()
  have hb := Built.new (k := k) (h := 4) (v := 4) h1 (by decide)
  have hf : k.Fits 4 4 := ⟨by decide, by decide⟩
  have ha : (k.grid 4 4).Node ⟨0, 0⟩ := ⟨by decide, by decide⟩
  have hx : (k.grid 4 4).Node ⟨3, 0⟩ := ⟨by decide, by decide⟩
  have ht : (k.grid 4 4).Node ⟨3, 3⟩ := ⟨by decide, by decide⟩
  have hd : ∀ x, (k.grid 4 4).Node x → x.distance k 3 3 = .ok (taxi x ⟨3, 3⟩) := fun x hx => c50_nodes hb hf hx ht
  obtain ⟨st, o, h4, h5⟩ := (c83_astar hb hf ha (fun _ => 1) (fun x => taxi x ⟨3, 3⟩) (fun x => decide (x = ⟨3, 3⟩))).2.1 _ .nil
  obtain ⟨n, p, rfl, h6⟩ := (c83_unit_iff hb hf (by decide) (by decide)).2 ⟨fun _ => by decide, fun _ => by decide⟩ ⟨0, 0⟩ ⟨3, 3⟩ _
    ha ht hd o ⟨st, h4, h5⟩
  refine ⟨k, g, _, n, p, rfl, rfl, hd, by decide, ⟨st, h4, h5⟩, h6 2 ((aWalk_iff hb hf ha).1 ?_)⟩
  exact .cons ((leads_iff hb hf ha).2 (unit_link hb hf ha (d := .backward .horizontal) (t := ⟨3, 0⟩) (by decide)))
    (.cons ((leads_iff hb hf hx).2 (unit_link hb hf hx (d := .backward .vertical) (t := ⟨3, 3⟩) (by decide))) .nil)

example : ∃ (g : G Nat Nat) (c : Contents NodeIx Axis Nat Nat), Built exCfg 5 1 g c ∧
    ¬ (∀ (a t : NodeIx) (d : NodeIx → Nat), (exCfg.grid 5 1).Node a → (exCfg.grid 5 1).Node t →
      (∀ x, (exCfg.grid 5 1).Node x → x.distance exCfg t.horizontal t.vertical = .ok (d x)) →
      ∀ o, AstOutcome (sqEdges g fun _ => 1) d (fun x => decide (x = t)) a o →
        ∃ n p, o = some (n, p) ∧ ∀ m, CostWalk g (fun _ => 1) a t m → n ≤ m) := by
  obtain ⟨g, h1, _⟩ := c43_new_with (N := Nat) (E := Nat) exCfg (h := 5) (v := 1) (by decide) (by decide) (by decide)
    (fun u _ _ => (0, u)) (fun u _ _ _ => (0, u)) ()
  have hb := Built.new (k := exCfg) (h := 5) (v := 1) h1 (by decide)
  exact ⟨g, _, hb, fun h => absurd (((c83_unit_iff hb ⟨by decide, by decide⟩ (by decide) (by decide)).1 h).1 rfl) (by decide)⟩
end LG.Sq
