import Verif.Model.Prim
import Verif.Lemmas.Spanning
import Verif.Lemmas.KShortest
/- Prim's algorithm over the numbers below `n`. -/
namespace LG

section
variable {E : Type} {cost : E → Nat} {at_ : Nat → List (Nat × Nat × E) → Prop} {adj : Nat → List (Nat × Nat × E)} {n r : Nat}

/-- What the loop needs of the graph: `edges` of each node can be listed in one way, and leads from it to nodes. -/
structure PrimGraph (at_ : Nat → List (Nat × Nat × E) → Prop) (adj : Nat → List (Nat × Nat × E)) (n : Nat) : Prop where
  lists : ∀ i, i < n → ∀ l, at_ i l ↔ l = adj i
  ends : ∀ i, i < n → ∀ e ∈ adj i, e.1 = i ∧ e.2.1 < n

/-- The ends of the edges. -/
def heads (l : List (Nat × Nat × E)) : List Nat := l.map fun e => e.2.1

theorem heads_snoc (l : List (Nat × Nat × E)) (e : Nat × Nat × E) : heads (l ++ [e]) = heads l ++ [e.2.1] := by
  simp [heads]

/-- Each edge leads out of what the edges before it reach from `r`, and no edge leading out of that costs less. -/
def PrimGood (cost : E → Nat) (adj : Nat → List (Nat × Nat × E)) (r : Nat) (out : List (Nat × Nat × E)) : Prop :=
  ∀ l1 e l2, out = l1 ++ e :: l2 → e.1 ∈ r :: heads l1 ∧ e.2.1 ∉ r :: heads l1 ∧ e ∈ adj e.1 ∧
    ∀ i ∈ r :: heads l1, ∀ f ∈ adj i, f.2.1 ∉ r :: heads l1 → cost e.2.2 ≤ cost f.2.2

/-- The invariant of the loop. -/
structure PrimInv (cost : E → Nat) (adj : Nat → List (Nat × Nat × E)) (n r : Nat) (st : PrimSt E) : Prop where
  taken : st.taken = (r :: heads st.out).reverse
  nodup : st.taken.Nodup
  lt : ∀ i ∈ st.taken, i < n
  heap : ∀ e ∈ st.heap, e.1 ∈ st.taken ∧ e ∈ adj e.1
  cover : ∀ i ∈ st.taken, ∀ e ∈ adj i, e ∈ st.heap ∨ e.2.1 ∈ st.taken
  good : PrimGood cost adj r st.out

theorem PrimPop.mem {h rest : List (Nat × Nat × E)} {e : Nat × Nat × E} (hp : PrimPop cost h e rest) :
    e ∈ h ∧ (∀ x, x ∈ h → x = e ∨ x ∈ rest) ∧ (∀ x, x ∈ rest → x ∈ h) ∧ rest.length < h.length := by
  obtain ⟨⟨h1, h2, rfl, rfl⟩, -⟩ := hp
  refine ⟨by simp, fun x hx => ?_, fun x hx => ?_, by simp⟩
  · simp only [List.mem_append, List.mem_cons] at hx ⊢
    rcases hx with hx | hx | hx
    · exact .inr (.inl hx)
    · exact .inl hx
    · exact .inr (.inr hx)
  · simp only [List.mem_append, List.mem_cons] at hx ⊢
    rcases hx with hx | hx
    · exact .inl hx
    · exact .inr (.inr hx)

theorem primPop_exists : ∀ {h : List (Nat × Nat × E)}, h ≠ [] → ∃ e rest, PrimPop cost h e rest
  | [], h => absurd rfl h
  | [e], _ => ⟨e, [], ⟨[], [], rfl, rfl⟩, fun e' h => by rw [List.mem_singleton.1 h]; exact Nat.le_refl _⟩
  | e :: x :: h, _ => by
    obtain ⟨f, rest, ⟨h1, h2, h3, h4⟩, h5⟩ := primPop_exists (h := x :: h) (by simp)
    by_cases hc : cost e.2.2 ≤ cost f.2.2
    · refine ⟨e, x :: h, ⟨[], x :: h, rfl, rfl⟩, fun e' he => ?_⟩
      rcases List.mem_cons.1 he with rfl | he
      · exact Nat.le_refl _
      · exact Nat.le_trans hc (h5 e' he)
    · refine ⟨f, e :: rest, ⟨e :: h1, h2, by rw [h3]; rfl, by rw [h4]; rfl⟩, fun e' he => ?_⟩
      rcases List.mem_cons.1 he with rfl | he
      · omega
      · exact h5 e' he

/-- The state after the start. -/
theorem PrimInv.start (hg : PrimGraph at_ adj n) (hr : r < n) : PrimInv cost adj n r ⟨[r], adj r, []⟩ where
  taken := rfl
  nodup := by simp
  lt := fun i hi => by rw [List.mem_singleton.1 hi]; exact hr
  heap := fun e he => by rw [(hg.ends r hr e he).1]; exact ⟨List.mem_singleton.2 rfl, he⟩
  cover := fun i hi e he => .inl (by rw [List.mem_singleton.1 hi] at he; exact he)
  good := fun l1 e l2 h => by cases l1 <;> cases h

theorem PrimStep.inv (hg : PrimGraph at_ adj n) {st st' : PrimSt E} (hv : PrimInv cost adj n r st) (hs : PrimStep cost at_ st st') :
    PrimInv cost adj n r st' := by
  cases hs with
  | drop hp ht =>
    obtain ⟨h1, h2, h3, -⟩ := hp.mem
    refine ⟨hv.taken, hv.nodup, hv.lt, fun e he => hv.heap e (h3 e he), fun i hi f hf => ?_, hv.good⟩
    rcases hv.cover i hi f hf with h | h
    · rcases h2 f h with rfl | h
      · exact .inr ht
      · exact .inl h
    · exact .inr h
  | @take e rest l hp ht hl =>
    obtain ⟨h1, h2, h3, -⟩ := hp.mem
    obtain ⟨h4, h5⟩ := hv.heap e h1
    have h6 : e.2.1 < n := (hg.ends e.1 (hv.lt _ h4) e h5).2
    have hl' : l = adj e.2.1 := (hg.lists _ h6 l).1 hl
    subst hl'
    refine ⟨?_, List.nodup_cons.2 ⟨ht, hv.nodup⟩, fun i hi => ?_, fun f hf => ?_, fun i hi f hf => ?_, ?_⟩
    · show e.2.1 :: st.taken = (r :: heads (st.out ++ [e])).reverse
      rw [heads_snoc, hv.taken]; simp
    · rcases List.mem_cons.1 hi with rfl | hi
      · exact h6
      · exact hv.lt i hi
    · rcases List.mem_append.1 hf with hf | hf
      · have := (hg.ends _ h6 f hf).1
        rw [this]
        exact ⟨List.mem_cons_self, hf⟩
      · exact ⟨List.mem_cons_of_mem _ (hv.heap f (h3 f hf)).1, (hv.heap f (h3 f hf)).2⟩
    · rcases List.mem_cons.1 hi with rfl | hi
      · exact .inl (List.mem_append_left _ hf)
      · rcases hv.cover i hi f hf with h | h
        · rcases h2 f h with rfl | h
          · exact .inr List.mem_cons_self
          · exact .inl (List.mem_append_right _ h)
        · exact .inr (List.mem_cons_of_mem _ h)
    · intro l1 f l2 hout
      have hmem : ∀ i, i ∈ st.taken ↔ i ∈ r :: heads st.out := fun i => by rw [hv.taken, List.mem_reverse]
      rcases List.eq_nil_or_concat l2 with rfl | ⟨l3, x, rfl⟩
      · obtain ⟨h7, h8⟩ := List.append_inj' hout rfl
        subst h7
        cases h8
        refine ⟨(hmem _).1 h4, fun h => ht ((hmem _).2 h), h5, fun i hi q hq hq' => hp.2 q ?_⟩
        rcases hv.cover i ((hmem i).2 hi) q hq with h | h
        · exact h
        · exact absurd ((hmem _).1 h) hq'
      · rw [List.concat_eq_append, ← List.cons_append, ← List.append_assoc] at hout
        obtain ⟨h7, -⟩ := List.append_inj' hout rfl
        exact hv.good l1 f l3 h7

theorem PrimSteps.inv (hg : PrimGraph at_ adj n) {st st' : PrimSt E} (hv : PrimInv cost adj n r st) (hs : PrimSteps cost at_ st st') :
    PrimInv cost adj n r st' := by
  induction hs with
  | refl => exact hv
  | step _ h ih => exact h.inv hg ih

theorem PrimInv.count {st : PrimSt E} (hv : PrimInv cost adj n r st) : st.taken.length ≤ n := by
  have := hv.nodup.length_le_of_subset (l₂ := List.range n) fun i hi => List.mem_range.2 (hv.lt i hi)
  rwa [List.length_range] at this

theorem PrimStep.less (hg : PrimGraph at_ adj n) {st st' : PrimSt E} (hv : PrimInv cost adj n r st) (hs : PrimStep cost at_ st st') :
    kLess (n - st'.taken.length, st'.heap.length) (n - st.taken.length, st.heap.length) := by
  have hc := (hs.inv hg hv).count
  cases hs with
  | drop hp _ => exact Prod.Lex.right _ hp.mem.2.2.2
  | take hp _ _ =>
    refine Prod.Lex.left _ _ ?_
    simp only [List.length_cons] at hc ⊢
    omega

/-- No run is infinite. -/
theorem prim_ends (hg : PrimGraph at_ adj n) (run : Nat → PrimSt E) (h0 : PrimInv cost adj n r (run 0)) :
    ¬ ∀ i, PrimStep cost at_ (run i) (run (i + 1)) := by
  intro hrun
  have hv : ∀ i, PrimInv cost adj n r (run i) := fun i => by
    induction i with
    | zero => exact h0
    | succ i ih => exact (hrun i).inv hg ih
  have key : ∀ m, ∀ i, (n - (run i).taken.length, (run i).heap.length) = m → False := fun m => by
    induction m using kLess_wf.induction with
    | _ m ih =>
      intro i hi
      exact ih _ (hi ▸ (hrun i).less hg (hv i)) (i + 1) rfl
  exact key _ 0 rfl

theorem PrimSteps.trans {st st' st'' : PrimSt E} (h1 : PrimSteps cost at_ st st') (h2 : PrimSteps cost at_ st' st'') :
    PrimSteps cost at_ st st'' := by
  induction h2 with
  | refl => exact h1
  | step _ h4 ih => exact .step ih h4

/-- Every run can be completed. -/
theorem prim_completes (hg : PrimGraph at_ adj n) {st : PrimSt E} (hv : PrimInv cost adj n r st) :
    ∃ st', PrimSteps cost at_ st st' ∧ st'.heap = [] := by
  have key : ∀ m, ∀ st, PrimInv cost adj n r st → (n - st.taken.length, st.heap.length) = m →
      ∃ st', PrimSteps cost at_ st st' ∧ st'.heap = [] := fun m => by
    induction m using kLess_wf.induction with
    | _ m ih =>
      intro st hv hm
      by_cases hne : st.heap = []
      · exact ⟨st, .refl, hne⟩
      · obtain ⟨e, rest, hp⟩ := primPop_exists (cost := cost) hne
        have go : ∀ {st1}, PrimStep cost at_ st st1 → ∃ st', PrimSteps cost at_ st st' ∧ st'.heap = [] := fun {st1} h1 => by
          obtain ⟨st', h2, h3⟩ := ih _ (hm ▸ h1.less hg hv) st1 (h1.inv hg hv) rfl
          exact ⟨st', (PrimSteps.step .refl h1).trans h2, h3⟩
        by_cases ht : e.2.1 ∈ st.taken
        · exact go (.drop hp ht)
        · obtain ⟨h4, h5⟩ := hv.heap e hp.mem.1
          exact go (.take hp ht ((hg.lists _ (hg.ends e.1 (hv.lt _ h4) e h5).2 _).2 rfl))
  exact key _ st hv rfl

/-- What the edges before an edge join stays within what they reach. -/
theorem joined_within {es : List (Nat × Nat)} {S : List Nat} (hs : ∀ x y, (x, y) ∈ es → (x ∈ S ↔ y ∈ S)) {x y : Nat}
    (hj : Joined (EdgeIn es) x y) : x ∈ S ↔ y ∈ S := by
  induction hj with
  | refl => exact Iff.rfl
  | edge e => exact hs _ _ e
  | symm _ ih => exact ih.symm
  | trans _ _ ih1 ih2 => exact ih1.trans ih2

/-- The edges lie within what they reach. -/
theorem PrimGood.within {l1 l2 : List (Nat × Nat × E)} (hg : PrimGood cost adj r (l1 ++ l2)) {x y : Nat} (h : (x, y) ∈ ends l1) :
    x ∈ r :: heads l1 ∧ y ∈ r :: heads l1 := by
  obtain ⟨w, h⟩ := mem_ends.1 h
  obtain ⟨m1, m2, rfl⟩ := List.append_of_mem h
  obtain ⟨h1, -⟩ := hg m1 (x, y, w) (m2 ++ l2) (by rw [List.append_assoc]; rfl)
  refine ⟨?_, List.mem_cons_of_mem _ ?_⟩
  · rcases List.mem_cons.1 h1 with h1 | h1
    · exact List.mem_cons.2 (.inl h1)
    · exact List.mem_cons_of_mem _ (by unfold heads at h1 ⊢; rw [List.map_append]; exact List.mem_append_left _ h1)
  · unfold heads
    rw [List.map_append, List.map_cons]
    exact List.mem_append_right _ List.mem_cons_self

/-- No edge joins what the edges before it join. -/
theorem PrimGood.forest {out : List (Nat × Nat × E)} (hg : PrimGood cost adj r out) {l1 l2 : List (Nat × Nat × E)} {e : Nat × Nat × E}
    (h : out = l1 ++ e :: l2) : ¬ Joined (EdgeIn (ends l1)) e.1 e.2.1 := by
  intro hj
  obtain ⟨h1, h2, -⟩ := hg l1 e l2 h
  subst h
  exact h2 ((joined_within (fun x y h => by
    obtain ⟨h3, h4⟩ := hg.within h
    exact ⟨fun _ => h4, fun _ => h3⟩) hj).1 h1)

/-- What has been reached is joined to the start. -/
theorem PrimGood.joins : ∀ {l1 l2 : List (Nat × Nat × E)}, PrimGood cost adj r (l1 ++ l2) → ∀ i ∈ r :: heads l1,
    Joined (EdgeIn (ends (l1 ++ l2))) r i := by
  intro l1
  induction hl : l1.length generalizing l1 with
  | zero =>
    intro l2 _ i hi
    have := List.eq_nil_of_length_eq_zero hl
    subst this
    rcases List.mem_cons.1 hi with rfl | hi
    · exact .refl
    · cases hi
  | succ m ih =>
    intro l2 hg i hi
    rcases List.eq_nil_or_concat l1 with rfl | ⟨l3, e, rfl⟩
    · simp at hl
    · rw [List.concat_eq_append] at hl hg hi ⊢
      rw [List.append_assoc] at hg ⊢
      have hl3 : l3.length = m := by simpa using hl
      obtain ⟨h1, -⟩ := hg l3 e l2 rfl
      rw [heads_snoc, ← List.cons_append] at hi
      rcases List.mem_append.1 hi with hi | hi
      · exact ih hl3 hg i hi
      · rw [List.mem_singleton.1 hi]
        refine (ih hl3 hg _ h1).trans (.edge (mem_ends.2 ⟨e.2.2, ?_⟩))
        exact List.mem_append_right _ List.mem_cons_self

theorem totalCost_perm {a b : List (Nat × Nat × E)} (h : a.Perm b) : totalCost cost a = totalCost cost b := by
  unfold totalCost
  exact (h.map _).sum_nat

/-- The exchange: with `e` added, one of the edges leading across can be left out. -/
theorem exchange {x y : Nat} {S : List Nat} {D : List (Nat × Nat)} {T : List (Nat × Nat × E)} {c : Nat}
    (hD : ∀ a b, (a, b) ∈ D → (a ∈ S ↔ b ∈ S)) (hx : x ∈ S) (hy : y ∉ S)
    (hT : ∀ f ∈ T, ¬ (f.1 ∈ S ↔ f.2.1 ∈ S) → c ≤ cost f.2.2)
    (hj : Joined (EdgeIn (D ++ ends T)) x y) :
    ∃ T', (∀ f ∈ T', f ∈ T) ∧ c + totalCost cost T' ≤ totalCost cost T ∧
      ∀ a b, Joined (EdgeIn (D ++ ends T)) a b → Joined (EdgeIn (D ++ [(x, y)] ++ ends T')) a b := by
  let p : Nat × Nat × E → Bool := fun f => decide (f.1 ∈ S ↔ f.2.1 ∈ S)
  have hperm : (T.filter p ++ T.filter fun f => !p f).Perm T := List.filter_append_perm p T
  have hmem : ∀ f, f ∈ T.filter p ++ (T.filter fun f => !p f) ↔ f ∈ T := fun f => hperm.mem_iff
  have hin : ∀ a b, (a, b) ∈ D ++ ends (T.filter p) → (a ∈ S ↔ b ∈ S) := fun a b h => by
    rcases List.mem_append.1 h with h | h
    · exact hD a b h
    · obtain ⟨w, h⟩ := mem_ends.1 h
      exact of_decide_eq_true (List.mem_filter.1 h).2
  have same : ∀ a b, Joined (EdgeIn (D ++ ends T)) a b → Joined (EdgeIn (D ++ ends (T.filter p) ++ ends (T.filter fun f => !p f))) a b :=
    fun a b => Joined.mono fun u v h => by
      have h : _ ∈ _ := h
      show _ ∈ _
      rw [List.append_assoc, ← ends_append]
      rcases List.mem_append.1 h with h | h
      · exact List.mem_append_left _ h
      · obtain ⟨w, h⟩ := mem_ends.1 h
        exact List.mem_append_right _ (mem_ends.2 ⟨w, (hmem _).2 h⟩)
  obtain ⟨T1, f, T2, h1, h2, h3⟩ := first_join (T.filter fun f => !p f) (D ++ ends (T.filter p))
    (fun h => hy ((joined_within hin h).1 hx)) (same _ _ hj)
  have hf : f ∈ T.filter fun f => !p f := by rw [h1]; simp
  have hfc : c ≤ cost f.2.2 := hT f (List.mem_filter.1 hf).1 fun h => by
    have h4 := (List.mem_filter.1 hf).2
    have h5 : p f = true := decide_eq_true h
    rw [h5] at h4
    cases h4
  refine ⟨T.filter p ++ (T1 ++ T2), fun q hq => (hmem q).1 ?_, ?_, fun a b h => (same a b h).bind fun u v h => ?_⟩
  · rw [h1]
    simp only [List.mem_append, List.mem_cons] at hq ⊢
    rcases hq with hq | hq | hq
    · exact .inl hq
    · exact .inr (.inl hq)
    · exact .inr (.inr (.inr hq))
  · rw [← totalCost_perm (cost := cost) hperm, h1, ← List.append_assoc, ← List.append_assoc, totalCost_mid]
    omega
  · have up : ∀ {a b}, Joined (EdgeIn (D ++ ends (T.filter p) ++ ends T1)) a b →
        Joined (EdgeIn (D ++ [(x, y)] ++ ends (T.filter p ++ (T1 ++ T2)))) a b := Joined.mono fun u v h => by
      have h : _ ∈ _ := h
      show _ ∈ _
      rw [ends_append, ends_append]
      simp only [List.mem_append] at h ⊢
      rcases h with (h | h) | h
      · exact .inl (.inl h)
      · exact .inr (.inl h)
      · exact .inr (.inr (.inl h))
    have hxy : Joined (EdgeIn (D ++ [(x, y)] ++ ends (T.filter p ++ (T1 ++ T2)))) x y :=
      .edge (List.mem_append_left _ (List.mem_append_right _ (List.mem_singleton.2 rfl)))
    have hff : Joined (EdgeIn (D ++ [(x, y)] ++ ends (T.filter p ++ (T1 ++ T2)))) f.1 f.2.1 := by
      rcases (joined_add (es := D ++ ends (T.filter p) ++ ends T1) (u := f.1) (v := f.2.1)
        fun e => by rw [List.mem_append (t := [(f.1, f.2.1)]), List.mem_singleton]).1 h3 with h | ⟨h8, h9⟩ | ⟨h8, h9⟩
      · exact absurd h h2
      · exact ((up h8).symm.trans hxy).trans (up h9).symm
      · exact (up h9).trans (hxy.symm.trans (up h8))
    have h : _ ∈ _ := h
    rw [h1] at h
    have h6 : ends (T1 ++ f :: T2) = ends T1 ++ (f.1, f.2.1) :: ends T2 := by simp [ends]
    rw [h6] at h
    simp only [List.mem_append, List.mem_cons] at h
    have go : (u, v) ∈ D ++ [(x, y)] ++ ends (T.filter p ++ (T1 ++ T2)) → Joined (EdgeIn (D ++ [(x, y)] ++ ends (T.filter p ++ (T1 ++ T2)))) u v :=
      fun h => .edge h
    rcases h with (h | h) | h | h | h
    · exact go (List.mem_append_left _ (List.mem_append_left _ h))
    · exact go (List.mem_append_right _ (by rw [ends_append]; exact List.mem_append_left _ h))
    · exact go (List.mem_append_right _ (by rw [ends_append, ends_append]; exact List.mem_append_right _ (List.mem_append_left _ h)))
    · cases h; exact hff
    · exact go (List.mem_append_right _ (by rw [ends_append, ends_append]; exact List.mem_append_right _ (List.mem_append_right _ h)))

/-- No choice of edges that joins what these edges join costs less, if the costs of the edges chosen are those of edges leading either way. -/
theorem PrimGood.least {out : List (Nat × Nat × E)} (hg : PrimGood cost adj r out) {T : List (Nat × Nat × E)}
    (hT : ∀ f ∈ T, (∃ f' ∈ adj f.1, f'.2.1 = f.2.1 ∧ cost f'.2.2 = cost f.2.2) ∧
      ∃ f' ∈ adj f.2.1, f'.2.1 = f.1 ∧ cost f'.2.2 = cost f.2.2)
    (hj : ∀ e ∈ out, Joined (EdgeIn (ends T)) e.1 e.2.1) : totalCost cost out ≤ totalCost cost T := by
  have key : ∀ (l2 l1 T : List (Nat × Nat × E)), PrimGood cost adj r (l1 ++ l2) →
      (∀ f ∈ T, (∃ f' ∈ adj f.1, f'.2.1 = f.2.1 ∧ cost f'.2.2 = cost f.2.2) ∧
        ∃ f' ∈ adj f.2.1, f'.2.1 = f.1 ∧ cost f'.2.2 = cost f.2.2) →
      (∀ e ∈ l2, Joined (EdgeIn (ends l1 ++ ends T)) e.1 e.2.1) → totalCost cost l2 ≤ totalCost cost T := by
    intro l2
    induction l2 with
    | nil => exact fun _ _ _ _ _ => Nat.zero_le _
    | cons e l2 ih =>
      intro l1 T hg hT hj
      obtain ⟨h1, h2, h3, h4⟩ := hg l1 e l2 rfl
      obtain ⟨T', h5, h6, h7⟩ := exchange (cost := cost) (c := cost e.2.2) (D := ends l1) (T := T) (fun a b h => by
        obtain ⟨h8, h9⟩ := hg.within h
        exact ⟨fun _ => h9, fun _ => h8⟩) h1 h2 (fun f hf hc => by
          obtain ⟨⟨f1, a1, a2, a3⟩, f2, b1, b2, b3⟩ := hT f hf
          by_cases hs : f.1 ∈ r :: heads l1
          · have : f.2.1 ∉ r :: heads l1 := fun h => hc ⟨fun _ => h, fun _ => hs⟩
            rw [← a3]
            exact h4 f.1 hs f1 a1 (by rw [a2]; exact this)
          · have : f.2.1 ∈ r :: heads l1 := Classical.byContradiction fun h => hc ⟨fun h' => absurd h' hs, fun h' => absurd h' h⟩
            rw [← b3]
            exact h4 f.2.1 this f2 b1 (by rw [b2]; exact hs)) (hj e List.mem_cons_self)
      have h8 : ends (l1 ++ [e]) = ends l1 ++ [(e.1, e.2.1)] := by simp [ends]
      have := ih (l1 ++ [e]) T' (by rw [List.append_assoc]; exact hg) (fun f hf => hT f (h5 f hf)) fun f hf => by
        rw [h8]
        exact h7 _ _ (hj f (List.mem_cons_of_mem _ hf))
      have h9 : totalCost cost (e :: l2) = cost e.2.2 + totalCost cost l2 := rfl
      rw [h9]
      omega
  exact key out [] T hg hT (by simpa [ends] using hj)

/-- At the end what has been reached is closed. -/
theorem PrimInv.closed {st : PrimSt E} (hv : PrimInv cost adj n r st) (he : st.heap = []) :
    ∀ i ∈ r :: heads st.out, ∀ e ∈ adj i, e.2.1 ∈ r :: heads st.out := by
  intro i hi e h
  have hmem : ∀ i, i ∈ st.taken ↔ i ∈ r :: heads st.out := fun i => by rw [hv.taken, List.mem_reverse]
  rcases hv.cover i ((hmem i).2 hi) e h with h | h
  · rw [he] at h; cases h
  · exact (hmem _).1 h

/-- What holds of `r` and is handed on along edges holds of all that is reached. -/
theorem PrimGood.all {Q : Nat → Prop} (h0 : Q r) (hstep : ∀ i, Q i → ∀ e ∈ adj i, Q e.2.1) :
    ∀ {out : List (Nat × Nat × E)}, PrimGood cost adj r out → ∀ i ∈ r :: heads out, Q i := by
  intro out
  induction hl : out.length generalizing out with
  | zero =>
    intro _ i hi
    rw [List.eq_nil_of_length_eq_zero hl] at hi
    cases List.mem_singleton.1 hi
    exact h0
  | succ m ih =>
    intro hg i hi
    rcases List.eq_nil_or_concat out with rfl | ⟨l, e, rfl⟩
    · cases hl
    · rw [List.concat_eq_append] at hg hl hi
      have hl' : l.length = m := by rw [List.length_append] at hl; exact Nat.succ.inj hl
      have hg' : PrimGood cost adj r l := fun l1 e' l2 h => by
        obtain ⟨h1, h2⟩ := hg l1 e' (l2 ++ [e]) (by rw [h]; simp)
        exact ⟨h1, h2⟩
      rw [heads_snoc] at hi
      rcases List.mem_cons.1 hi with rfl | hi
      · exact h0
      · rcases List.mem_append.1 hi with hi | hi
        · exact ih hl' hg' i (List.mem_cons_of_mem _ hi)
        · cases List.mem_singleton.1 hi
          obtain ⟨h1, -, h3, -⟩ := hg l e [] rfl
          exact hstep _ (ih hl' hg' _ h1) e h3

/-- The two ways to start. -/
theorem primStart_iff (hg : PrimGraph at_ adj n) {st : PrimSt E} :
    PrimStart at_ (List.range' 0 n) st ↔ (n = 0 ∧ st = ⟨[], [], []⟩) ∨ (0 < n ∧ st = ⟨[0], adj 0, []⟩) := by
  cases n with
  | zero =>
    constructor
    · intro h; cases h; exact .inl ⟨rfl, rfl⟩
    · rintro (⟨-, rfl⟩ | ⟨h, -⟩)
      · exact .none
      · cases h
  | succ m =>
    rw [List.range'_succ]
    constructor
    · intro h
      cases h with
      | some h => rw [(hg.lists 0 (by omega) _).1 h]; exact .inr ⟨by omega, rfl⟩
    · rintro (⟨h, -⟩ | ⟨-, rfl⟩)
      · cases h
      · exact .some ((hg.lists 0 (by omega) _).2 rfl)

theorem primStep_empty {taken : List Nat} {out : List (Nat × Nat × E)} {st : PrimSt E} :
    ¬ PrimStep cost at_ ⟨taken, [], out⟩ st := by
  intro h
  cases h with
  | drop hp _ => exact absurd hp.mem.1 (by simp)
  | take hp _ _ => exact absurd hp.mem.1 (by simp)

theorem primSteps_empty {st st' : PrimSt E} (h : PrimSteps cost at_ st st') : st = ⟨[], [], []⟩ → st' = ⟨[], [], []⟩ := by
  induction h with
  | refl => exact id
  | step _ h ih => intro e; rw [ih e] at h; exact absurd h primStep_empty

/-- All runs: they can be completed and come to an end. -/
theorem prim_runs (hg : PrimGraph at_ adj n) {st : PrimSt E} (hst : PrimStart at_ (List.range' 0 n) st) :
    (∀ st', PrimSteps cost at_ st st' → ∃ st'', PrimSteps cost at_ st' st'' ∧ st''.heap = []) ∧
    ∀ run : Nat → PrimSt E, run 0 = st → ¬ ∀ i, PrimStep cost at_ (run i) (run (i + 1)) := by
  rcases (primStart_iff hg).1 hst with ⟨-, rfl⟩ | ⟨h, rfl⟩
  · refine ⟨fun st' h => ⟨st', .refl, by rw [primSteps_empty h rfl]⟩, fun run h0 hr => ?_⟩
    have := hr 0
    rw [h0] at this
    exact primStep_empty this
  · exact ⟨fun st' hs => prim_completes hg (hs.inv hg (PrimInv.start hg h)),
      fun run h0 => prim_ends hg run (by rw [h0]; exact PrimInv.start hg h)⟩

/-- What a completed run returns. -/
theorem prim_result (hg : PrimGraph at_ adj n) {st st' : PrimSt E} (hst : PrimStart at_ (List.range' 0 n) st)
    (hs : PrimSteps cost at_ st st') (he : st'.heap = []) :
    (n = 0 ∧ st'.out = []) ∨ (0 < n ∧ PrimGood cost adj 0 st'.out ∧ (∀ i ∈ 0 :: heads st'.out, i < n) ∧
      ∀ i ∈ 0 :: heads st'.out, ∀ e ∈ adj i, e.2.1 ∈ 0 :: heads st'.out) := by
  rcases (primStart_iff hg).1 hst with ⟨h, rfl⟩ | ⟨h, rfl⟩
  · exact .inl ⟨h, by rw [primSteps_empty hs rfl]⟩
  · have hv := hs.inv hg (PrimInv.start (cost := cost) hg h)
    refine .inr ⟨h, hv.good, fun i hi => hv.lt i ?_, hv.closed he⟩
    rw [hv.taken, List.mem_reverse]; exact hi

end

/-! ### In terms of the edges themselves -/

theorem pair_choice {α β : Type} {Q : α → β → Prop} : ∀ {l : List α}, (∀ a ∈ l, ∃ b, Q a b) →
    ∃ ps : List (α × β), ps.map Prod.fst = l ∧ ∀ p ∈ ps, Q p.1 p.2
  | [], _ => ⟨[], rfl, fun _ h => nomatch h⟩
  | a :: l, h => by
    obtain ⟨ps, h1, h2⟩ := pair_choice (l := l) fun b hb => h b (List.mem_cons_of_mem _ hb)
    obtain ⟨b, hb⟩ := h a List.mem_cons_self
    refine ⟨(a, b) :: ps, by rw [List.map_cons, h1], fun p hp => ?_⟩
    rcases List.mem_cons.1 hp with rfl | hp
    · exact hb
    · exact h2 p hp

theorem nodup_of_prefix {α : Type} {l : List α} (h : ∀ l1 a l2, l = l1 ++ a :: l2 → a ∉ l1) : l.Nodup := by
  induction hl : l.length generalizing l with
  | zero => rw [List.eq_nil_of_length_eq_zero hl]; exact List.nodup_nil
  | succ m ih =>
    rcases List.eq_nil_or_concat l with rfl | ⟨l', a, rfl⟩
    · exact List.nodup_nil
    · rw [List.concat_eq_append] at h hl ⊢
      rw [List.nodup_append]
      refine ⟨ih (fun l1 b l2 e => h l1 b (l2 ++ [a]) (by rw [e, List.append_assoc]; rfl)) (by simpa using hl), by simp, ?_⟩
      rintro x hx y hy rfl
      rw [List.mem_singleton.1 hy] at hx
      exact h l' a [] rfl hx

theorem perm_of_subset {α : Type} {a l : List α} (ha : a.Nodup) (hl : l.Nodup) (hs : ∀ x ∈ a, x ∈ l) : ∃ rest, (a ++ rest).Perm l := by
  have : DecidableEq α := fun _ _ => Classical.propDecidable _
  refine ⟨l.filter fun x => decide (x ∉ a), (List.perm_ext_iff_of_nodup ?_ hl).2 fun x => ?_⟩
  · refine List.nodup_append.2 ⟨ha, hl.filter _, ?_⟩
    rintro x hx y hy rfl
    exact of_decide_eq_true (List.mem_filter.1 hy).2 hx
  · rw [List.mem_append, List.mem_filter]
    constructor
    · rintro (h | h)
      · exact hs x h
      · exact h.1
    · intro h
      by_cases hx : x ∈ a
      · exact .inl hx
      · exact .inr ⟨h, decide_eq_true hx⟩

section
variable {V R E : Type} {P : V → Prop} {idx : V → Nat} {n r : Nat} {src tgt : R → V} {wt : R → E} {cost : E → Nat}
  {adj : Nat → List (Nat × Nat × E)}

/-- If no edge joins what the edges before it join, none joins what all the others join. -/
theorem forest_of_prefix (hi : Indexed P idx n) {l : List R} (hl : ∀ r ∈ l, P (src r) ∧ P (tgt r)) (wt : R → E)
    (h : ∀ l1 r l2, l = l1 ++ r :: l2 → ¬ Joined (Among src tgt l1) (src r) (tgt r)) :
    ∀ l1 r l2, l = l1 ++ r :: l2 → ¬ Joined (Among src tgt (l1 ++ l2)) (src r) (tgt r) := by
  intro l1 r l2 e hj
  subst e
  have hm : ∀ r' ∈ l1 ++ l2, P (src r') ∧ P (tgt r') := fun r' h => hl r' (by
    simp only [List.mem_append, List.mem_cons] at h ⊢
    rcases h with h | h
    · exact .inl h
    · exact .inr (.inr h))
  have hr := hl r (by simp)
  have hc : HasCycle (ends ((l1 ++ r :: l2).map fun r => (idx (src r), idx (tgt r), wt r))) := by
    refine ⟨ends (l1.map fun r => (idx (src r), idx (tgt r), wt r)), idx (src r), idx (tgt r),
      ends (l2.map fun r => (idx (src r), idx (tgt r), wt r)), ?_, ?_⟩
    · simp [ends]
    · rw [← ends_append, ← List.map_append]
      exact (hi.among hm hr.1 hr.2).2 hj
  obtain ⟨m1, x, y, m2, e, hj'⟩ := (hasCycle_iff _).1 hc
  unfold ends at e
  rw [List.map_map] at e
  obtain ⟨k1, k2, e1, rfl, e2⟩ := List.map_eq_append_iff.1 e
  obtain ⟨q, k3, rfl, e3, rfl⟩ := List.map_eq_cons_iff.1 e2
  cases e3
  have hk : ∀ r' ∈ k1, P (src r') ∧ P (tgt r') := fun r' h => hl r' (by rw [e1]; exact List.mem_append_left _ h)
  have hq := hl q (by rw [e1]; simp)
  refine h k1 q k3 e1 ((hi.among (wt := wt) hk hq.1 hq.2).1 ?_)
  unfold ends
  rw [List.map_map]
  exact hj'

/-- The edge returned is this edge, seen from one of its ends. -/
def Drawn (idx : V → Nat) (src tgt : R → V) (wt : R → E) (e : Nat × Nat × E) (q : R) : Prop :=
  e.2.2 = wt q ∧ ((e.1 = idx (src q) ∧ e.2.1 = idx (tgt q)) ∨ (e.1 = idx (tgt q) ∧ e.2.1 = idx (src q)))

/-- On a connected graph the edges returned are a minimum spanning tree, if every edge costs the same both ways. -/
theorem prim_minSpanning (hi : Indexed P idx n) {rs : List R} (hrs : ∀ q ∈ rs, P (src q) ∧ P (tgt q)) (hnd : rs.Nodup)
    (hadj : ∀ i, i < n → ∀ e ∈ adj i, ∃ q ∈ rs, Drawn idx src tgt wt e q)
    (hsym : ∀ q ∈ rs, (∃ f ∈ adj (idx (src q)), f.2.1 = idx (tgt q) ∧ cost f.2.2 = cost (wt q)) ∧
      ∃ f ∈ adj (idx (tgt q)), f.2.1 = idx (src q) ∧ cost f.2.2 = cost (wt q))
    (hconn : ∀ a b, P a → P b → Joined (Among src tgt rs) a b)
    (hr : r < n) {out : List (Nat × Nat × E)} (hgood : PrimGood cost adj r out)
    (hlt : ∀ i ∈ r :: heads out, i < n) (hclosed : ∀ i ∈ r :: heads out, ∀ e ∈ adj i, e.2.1 ∈ r :: heads out) :
    (∀ i, i < n → i ∈ r :: heads out) ∧
    ∃ ps : List ((Nat × Nat × E) × R), ps.map Prod.fst = out ∧ (∀ p ∈ ps, Drawn idx src tgt wt p.1 p.2) ∧
      MinSpanning src tgt (fun q => cost (wt q)) rs (ps.map Prod.snd) := by
  obtain ⟨a0, ha0, rfl⟩ := hi.onto hr
  -- all nodes are reached
  have hmemS : ∀ {a b : V}, Joined (Among src tgt rs) a b → (idx a ∈ idx a0 :: heads out ↔ idx b ∈ idx a0 :: heads out) := by
    intro a b h
    induction h with
    | refl => exact Iff.rfl
    | edge e =>
      obtain ⟨q, hq, rfl, rfl⟩ := e
      obtain ⟨⟨f, h1, h2, -⟩, f', h3, h4, -⟩ := hsym q hq
      exact ⟨fun h => h2 ▸ hclosed _ h f h1, fun h => h4 ▸ hclosed _ h f' h3⟩
    | symm _ ih => exact ih.symm
    | trans _ _ ih1 ih2 => exact ih1.trans ih2
  have hall : ∀ i, i < n → i ∈ idx a0 :: heads out := fun i h => by
    obtain ⟨b, hb, rfl⟩ := hi.onto h
    exact (hmemS (hconn a0 b ha0 hb)).1 List.mem_cons_self
  refine ⟨hall, ?_⟩
  obtain ⟨ps, h1, h2⟩ := pair_choice (Q := fun e q => q ∈ rs ∧ Drawn idx src tgt wt e q) (l := out) fun e he => by
    obtain ⟨l1, l2, e1⟩ := List.append_of_mem he
    obtain ⟨g1, -, g3, -⟩ := hgood l1 e l2 e1
    have g4 : e.1 < n := hlt _ (by
      rcases List.mem_cons.1 g1 with g1 | g1
      · rw [g1]; exact List.mem_cons_self
      · rw [e1]
        refine List.mem_cons_of_mem _ ?_
        unfold heads at g1 ⊢
        rw [List.map_append]
        exact List.mem_append_left _ g1)
    exact hadj _ g4 e g3
  -- where the ends of the edges lie
  have hin : ∀ l1 p l2, ps = l1 ++ p :: l2 → ∀ q ∈ l1.map Prod.snd,
      idx (src q) ∈ idx a0 :: heads (l1.map Prod.fst) ∧ idx (tgt q) ∈ idx a0 :: heads (l1.map Prod.fst) := by
    intro l1 p l2 e q hq
    obtain ⟨p', hp', rfl⟩ := List.mem_map.1 hq
    have hw := hgood
    rw [← h1, e, List.map_append] at hw
    have h3 := hw.within (x := p'.1.1) (y := p'.1.2.1) (mem_ends.2 ⟨p'.1.2.2, List.mem_map.2 ⟨p', hp', rfl⟩⟩)
    obtain ⟨-, -, ⟨h4, h5⟩ | ⟨h4, h5⟩⟩ := h2 p' (by rw [e]; exact List.mem_append_left _ hp')
    · rw [← h4, ← h5]; exact h3
    · rw [← h4, ← h5]; exact h3.symm
  have hcross : ∀ l1 p l2, ps = l1 ++ p :: l2 →
      ¬ (idx (src p.2) ∈ idx a0 :: heads (l1.map Prod.fst) ↔ idx (tgt p.2) ∈ idx a0 :: heads (l1.map Prod.fst)) := by
    intro l1 p l2 e
    obtain ⟨g1, g2, -⟩ := hgood (l1.map Prod.fst) p.1 (l2.map Prod.fst) (by rw [← h1, e, List.map_append]; rfl)
    obtain ⟨-, -, ⟨h4, h5⟩ | ⟨h4, h5⟩⟩ := h2 p (by rw [e]; simp)
    · rw [← h4, ← h5]; exact fun h => g2 (h.1 g1)
    · rw [← h4, ← h5]; exact fun h => g2 (h.2 g1)
  have hpk : ∀ q ∈ ps.map Prod.snd, q ∈ rs := fun q hq => by
    obtain ⟨p, hp, rfl⟩ := List.mem_map.1 hq
    exact (h2 p hp).1
  have hP : ∀ q ∈ ps.map Prod.snd, P (src q) ∧ P (tgt q) := fun q hq => hrs q (hpk q hq)
  have hpn : (ps.map Prod.snd).Nodup := nodup_of_prefix fun l1 q l2 e hq => by
    obtain ⟨m1, m2, rfl, rfl, e2⟩ := List.map_eq_append_iff.1 e
    obtain ⟨p, m3, rfl, rfl, -⟩ := List.map_eq_cons_iff.1 e2
    have := hin m1 p m3 rfl _ hq
    exact hcross m1 p m3 rfl ⟨fun _ => this.2, fun _ => this.1⟩
  -- every edge returned joins what its reference joins
  have hpj : ∀ e ∈ out, ∀ (l : List R), (∀ q ∈ l, P (src q) ∧ P (tgt q)) →
      (∀ q ∈ ps.map Prod.snd, Joined (Among src tgt l) (src q) (tgt q)) →
      Joined (EdgeIn (ends (l.map fun q => (idx (src q), idx (tgt q), wt q)))) e.1 e.2.1 := fun e he l hl h => by
    rw [← h1] at he
    obtain ⟨p, hp, rfl⟩ := List.mem_map.1 he
    have hq : p.2 ∈ ps.map Prod.snd := List.mem_map.2 ⟨p, hp, rfl⟩
    have h3 := (hi.among (wt := wt) hl (hP _ hq).1 (hP _ hq).2).2 (h _ hq)
    obtain ⟨-, -, ⟨h4, h5⟩ | ⟨h4, h5⟩⟩ := h2 p hp
    · rw [h4, h5]; exact h3
    · rw [h4, h5]; exact h3.symm
  refine ⟨ps, h1, fun p hp => (h2 p hp).2, perm_of_subset hpn hnd hpk, fun a b => ⟨fun h => ?_, fun h => ?_⟩, ?_, ?_⟩
  · rcases h.ends_in (P := P) (by rintro u t ⟨q, hq, rfl, rfl⟩; exact hrs q hq) with rfl | ⟨ha, hb⟩
    · exact .refl
    · have key : ∀ c, P c → Joined (Among src tgt (ps.map Prod.snd)) a0 c := fun c hc => by
        have h3 := PrimGood.joins (l1 := out) (l2 := []) (by rw [List.append_nil]; exact hgood) (idx c) (hall _ (hi.lt hc))
        rw [List.append_nil] at h3
        refine (hi.among (wt := wt) hP ha0 hc).1 (h3.bind fun x y h => ?_)
        obtain ⟨w, h⟩ := mem_ends.1 (h : _ ∈ _)
        exact hpj _ h _ hP fun q hq => .edge ⟨q, hq, rfl, rfl⟩
      exact (key a ha).symm.trans (key b hb)
  · exact h.mono fun u t ⟨q, hq, h⟩ => ⟨q, hpk q hq, h⟩
  · refine forest_of_prefix hi hP wt fun l1 q l2 e hj => ?_
    obtain ⟨m1, m2, rfl, rfl, e2⟩ := List.map_eq_append_iff.1 e
    obtain ⟨p, m3, rfl, rfl, -⟩ := List.map_eq_cons_iff.1 e2
    have hm : ∀ q ∈ m1.map Prod.snd, P (src q) ∧ P (tgt q) := fun q hq => hP q (by rw [List.map_append]; exact List.mem_append_left _ hq)
    have hp2 := hP p.2 (by simp)
    refine hcross m1 p m3 rfl (joined_within ?_ ((hi.among (wt := wt) hm hp2.1 hp2.2).2 hj))
    intro x y h
    obtain ⟨w, h⟩ := mem_ends.1 h
    obtain ⟨q, hq, e⟩ := List.mem_map.1 h
    cases e
    have := hin m1 p m3 rfl q hq
    exact ⟨fun _ => this.2, fun _ => this.1⟩
  · intro other rest ho hs
    have hot : ∀ q ∈ other, q ∈ rs := fun q hq => ho.mem_iff.1 (List.mem_append_left _ hq)
    have h3 := hgood.least (T := other.map fun q => (idx (src q), idx (tgt q), wt q)) (fun f hf => by
      obtain ⟨q, hq, rfl⟩ := List.mem_map.1 hf
      exact hsym q (hot q hq)) fun e he => hpj e he other (fun q hq => hrs q (hot q hq)) fun q hq => hs _ _ (.edge ⟨q, hpk q hq, rfl, rfl⟩)
    have h4 : totalCost cost (other.map fun q => (idx (src q), idx (tgt q), wt q)) = (other.map fun q => cost (wt q)).sum := by
      unfold totalCost
      rw [List.map_map]; rfl
    have h5 : totalCost cost out = ((ps.map Prod.snd).map fun q => cost (wt q)).sum := by
      unfold totalCost
      rw [← h1, List.map_map, List.map_map]
      refine congrArg List.sum (List.map_congr_left fun p hp => ?_)
      show cost p.1.2.2 = cost (wt p.2)
      rw [(h2 p hp).2.1]
    rw [h4, h5] at h3
    exact h3
end
end LG
