import Verif.Model.Dsatur
import Verif.Lemmas.Articulation
import Verif.Lemmas.Count
/- `dsatur_coloring` over the numbers below `n`. -/
namespace LG
section
variable {nb : Nat → List Nat} {n : Nat} {at_ : Nat → List Nat → Prop} {deg : Nat → Nat}

theorem mem_insertColor {cs : List Nat} {c x : Nat} : x ∈ insertColor cs c ↔ x = c ∨ x ∈ cs := by
  unfold insertColor
  split
  · exact ⟨.inr, fun h => h.elim (fun e => e ▸ by assumption) id⟩
  · exact List.mem_cons

theorem insertColor_nodup {cs : List Nat} {c : Nat} (h : cs.Nodup) : (insertColor cs c).Nodup := by
  unfold insertColor
  split
  · exact h
  · exact List.nodup_cons.2 ⟨by assumption, h⟩

theorem insertColor_length (cs : List Nat) (c : Nat) : cs.length ≤ (insertColor cs c).length := by
  unfold insertColor
  split
  · exact Nat.le_refl _
  · exact Nat.le_succ _

theorem insertColor_twice (cs : List Nat) (c : Nat) : insertColor (insertColor cs c) c = insertColor cs c := by
  have : c ∈ insertColor cs c := mem_insertColor.2 (.inl rfl)
  unfold insertColor at this ⊢
  rw [if_pos this]

/-- What the loop over the neighbors does. -/
structure DsTold (deg : Nat → Nat) (c : Nat) (l : List Nat) (st st' : DsSt) : Prop where
  seen : st'.seen = st.seen
  colored : st'.colored = st.colored
  top : st'.top = st.top
  adj : ∀ i, st'.adj i = if i ∈ l then insertColor (st.adj i) c else st.adj i
  keep : ∀ e ∈ st.heap, e ∈ st'.heap
  new : ∀ e ∈ st'.heap, e ∈ st.heap ∨ (e.2 ∈ l ∧ e.1.1 = (insertColor (st.adj e.2) c).length ∧ e.1.2 = deg e.2)
  push : ∀ j ∈ l, (((insertColor (st.adj j) c).length, deg j), j) ∈ st'.heap

theorem dsTell_told (c : Nat) : ∀ (l : List Nat) (st : DsSt), (∀ j ∈ l, j < n) → DsTold deg c l st (dsTell n deg c l st)
  | [], st, _ => ⟨rfl, rfl, rfl, fun i => (if_neg (fun h => nomatch h)).symm, fun _ h => h, fun _ h => .inl h, fun _ h => nomatch h⟩
  | j :: l, st, h => by
    have ih := dsTell_told c l { st with
      adj := tset st.adj j (insertColor (st.adj j) c), heap := (((insertColor (st.adj j) c).length, deg j), j) :: st.heap }
      fun i hi => h i (List.mem_cons_of_mem _ hi)
    unfold dsTell
    rw [if_pos (h j List.mem_cons_self)]
    have hadj : ∀ i, insertColor (tset st.adj j (insertColor (st.adj j) c) i) c = insertColor (st.adj i) c := fun i => by
      by_cases e : i = j
      · rw [e, tset_same, insertColor_twice]
      · rw [tset_ne _ _ e]
    refine ⟨ih.seen, ih.colored, ih.top, fun i => ?_, fun e he => ih.keep e (List.mem_cons_of_mem _ he), fun e he => ?_, fun i hi => ?_⟩
    · rw [ih.adj i]
      show (if i ∈ l then insertColor (tset st.adj j (insertColor (st.adj j) c) i) c else tset st.adj j (insertColor (st.adj j) c) i) = _
      rw [hadj i]
      by_cases h1 : i ∈ l
      · rw [if_pos h1, if_pos (List.mem_cons_of_mem _ h1)]
      · rw [if_neg h1]
        by_cases e : i = j
        · rw [e, tset_same, if_pos List.mem_cons_self]
        · rw [tset_ne _ _ e, if_neg fun h => (List.mem_cons.1 h).elim e h1]
    · rcases ih.new e he with h1 | ⟨h1, h2, h3⟩
      · rcases List.mem_cons.1 h1 with rfl | h1
        · exact .inr ⟨List.mem_cons_self, rfl, rfl⟩
        · exact .inl h1
      · exact .inr ⟨List.mem_cons_of_mem _ h1, by rw [h2]; exact congrArg List.length (hadj _), h3⟩
    · by_cases h1 : i ∈ l
      · have := ih.push i h1
        have e : insertColor (({ st with
          adj := tset st.adj j (insertColor (st.adj j) c), heap := (((insertColor (st.adj j) c).length, deg j), j) :: st.heap } : DsSt).adj i) c =
            insertColor (st.adj i) c := hadj i
        rw [e] at this
        exact this
      · have e := (List.mem_cons.1 hi).resolve_right h1
        subst e
        exact ih.keep _ List.mem_cons_self

/-- What holds between the turns. -/
structure DsInv (nb : Nat → List Nat) (n : Nat) (deg : Nat → Nat) (st : DsSt) : Prop where
  heap_lt : ∀ e ∈ st.heap, e.2 < n
  score : ∀ e ∈ st.heap, e.1.1 ≤ (st.adj e.2).length ∧ e.1.2 = deg e.2
  queued : ∀ i, i < n → i ∉ st.seen → (((st.adj i).length, deg i), i) ∈ st.heap
  seen : st.colored.map Prod.fst = st.seen
  nodup : st.seen.Nodup
  lt : ∀ i ∈ st.seen, i < n
  adj : ∀ i, i < n → ∀ c, c ∈ st.adj i ↔ ∃ j, (j, c) ∈ st.colored ∧ i ∈ nb j
  adj_nodup : ∀ i, (st.adj i).Nodup
  proper : ∀ i c j c', (i, c) ∈ st.colored → (j, c') ∈ st.colored → j ∈ nb i → i ≠ j → c ≠ c'
  least : ∀ i c, (i, c) ∈ st.colored → ∀ c', c' < c → ∃ j, (j, c') ∈ st.colored ∧ i ∈ nb j
  top : ∀ p ∈ st.colored, p.2 ≤ st.top
  used : (st.colored = [] ∧ st.top = 0) ∨ ∃ i, (i, st.top) ∈ st.colored

theorem DsPop.mem {h rest : List ((Nat × Nat) × Nat)} {e : (Nat × Nat) × Nat} (hp : DsPop h e rest) : e ∈ h ∧ (∀ e' ∈ rest, e' ∈ h) ∧
    (∀ e' ∈ h, e' ≠ e → e' ∈ rest) ∧ rest.length < h.length := by
  obtain ⟨⟨h1, h2, rfl, rfl⟩, -⟩ := hp
  refine ⟨by simp, fun e' he => ?_, fun e' he hne => ?_, by simp⟩
  · rcases List.mem_append.1 he with h | h
    · exact List.mem_append_left _ h
    · exact List.mem_append_right _ (List.mem_cons_of_mem _ h)
  · rcases List.mem_append.1 he with h | h
    · exact List.mem_append_left _ h
    · exact List.mem_append_right _ ((List.mem_cons.1 h).resolve_left hne)

theorem dsPop_exists : ∀ {h : List ((Nat × Nat) × Nat)}, h ≠ [] → ∃ e rest, DsPop h e rest := by
  intro h
  have key : ∀ {h : List ((Nat × Nat) × Nat)}, h ≠ [] → ∃ e ∈ h, ∀ e' ∈ h, e'.1.1 < e.1.1 ∨ (e'.1.1 = e.1.1 ∧ e'.1.2 ≤ e.1.2) := by
    intro h
    induction h with
    | nil => exact fun h => absurd rfl h
    | cons a l ih =>
      intro _
      by_cases hl : l = []
      · subst hl
        exact ⟨a, List.mem_cons_self, fun e' he => by rw [List.mem_singleton.1 he]; exact .inr ⟨rfl, Nat.le_refl _⟩⟩
      · obtain ⟨e, he, hm⟩ := ih hl
        by_cases hc : a.1.1 < e.1.1 ∨ (a.1.1 = e.1.1 ∧ a.1.2 ≤ e.1.2)
        · refine ⟨e, List.mem_cons_of_mem _ he, fun e' he' => ?_⟩
          rcases List.mem_cons.1 he' with rfl | he'
          · exact hc
          · exact hm e' he'
        · refine ⟨a, List.mem_cons_self, fun e' he' => ?_⟩
          rcases List.mem_cons.1 he' with rfl | he'
          · exact .inr ⟨rfl, Nat.le_refl _⟩
          · have := hm e' he'
            omega
  intro hne
  obtain ⟨e, he, hm⟩ := key hne
  obtain ⟨h1, h2, rfl⟩ := List.append_of_mem he
  exact ⟨e, h1 ++ h2, ⟨h1, h2, rfl, rfl⟩, hm⟩

theorem DsInv.start {st : DsSt} (h : DsStart at_ (List.range' 0 n) deg st) : DsInv nb n deg st := by
  obtain ⟨-, rfl⟩ := h
  have hr : ∀ i, i ∈ List.range' 0 n ↔ i < n := fun i => by rw [List.mem_range'_1]; omega
  refine ⟨fun e he => ?_, fun e he => ?_, fun i hi _ => List.mem_map.2 ⟨i, (hr i).2 hi, rfl⟩, rfl, List.nodup_nil, fun _ h => (nomatch h),
    fun i _ c => ⟨fun h => (nomatch h), fun ⟨_, h, _⟩ => (nomatch h)⟩, fun _ => List.nodup_nil, fun _ _ _ _ h => (nomatch h),
    fun _ _ h => (nomatch h), fun _ h => (nomatch h), .inl ⟨rfl, rfl⟩⟩
  · obtain ⟨i, hi, rfl⟩ := List.mem_map.1 he
    exact (hr i).1 hi
  · obtain ⟨i, hi, rfl⟩ := List.mem_map.1 he
    exact ⟨Nat.le_refl _, rfl⟩

/-- The node taken up is surrounded by as many colours as any. -/
theorem DsInv.most {st : DsSt} (hv : DsInv nb n deg st) {e : (Nat × Nat) × Nat} {rest : List ((Nat × Nat) × Nat)} (hp : DsPop st.heap e rest)
    {i : Nat} (hi : i < n) (hs : i ∉ st.seen) : (st.adj i).length < (st.adj e.2).length ∨
      ((st.adj i).length = (st.adj e.2).length ∧ deg i ≤ deg e.2) := by
  have h1 := hp.2 _ (hv.queued i hi hs)
  obtain ⟨h2, h3⟩ := hv.score e hp.mem.1
  have h1 : (st.adj i).length < e.1.1 ∨ ((st.adj i).length = e.1.1 ∧ deg i ≤ e.1.2) := h1
  omega

theorem DsInv.step (hg : ApGraph at_ nb n) {st st' : DsSt} (hv : DsInv nb n deg st) (h : DsStep at_ n deg st st') : DsInv nb n deg st' := by
  cases h with
  | @skip e rest hp hs =>
    obtain ⟨h1, h2, h3, -⟩ := hp.mem
    exact ⟨fun e' he => hv.heap_lt e' (h2 e' he), fun e' he => hv.score e' (h2 e' he),
      fun i hi hn => h3 _ (hv.queued i hi hn) (fun e' => hn (by rw [← e'] at hs; exact hs)),
      hv.seen, hv.nodup, hv.lt, hv.adj, hv.adj_nodup, hv.proper, hv.least, hv.top, hv.used⟩
  | @color e rest c l hp hs hc hc' hl =>
    obtain ⟨h1, h2, h3, -⟩ := hp.mem
    have hen := hv.heap_lt e h1
    have el := (hg.lists _ hen l).1 hl
    have hlt : ∀ j ∈ l, j < n := fun j hj => hg.lt _ hen j (el ▸ hj)
    have ht := dsTell_told (n := n) (deg := deg) c l ⟨rest, e.2 :: st.seen, (e.2, c) :: st.colored, st.adj, max st.top c⟩ hlt
    generalize hst' : dsTell n deg c l ⟨rest, e.2 :: st.seen, (e.2, c) :: st.colored, st.adj, max st.top c⟩ = st' at ht
    have hcol : st'.colored = (e.2, c) :: st.colored := ht.colored
    have hseen : st'.seen = e.2 :: st.seen := ht.seen
    have htop : st'.top = max st.top c := ht.top
    have hadj : ∀ i, st'.adj i = if i ∈ l then insertColor (st.adj i) c else st.adj i := ht.adj
    have hlen : ∀ i, (st.adj i).length ≤ (st'.adj i).length := fun i => by
      rw [hadj i]
      split
      · exact insertColor_length _ _
      · exact Nat.le_refl _
    have hnot : ∀ c', (e.2, c') ∉ st.colored := fun c' h => hs (by rw [← hv.seen]; exact List.mem_map.2 ⟨_, h, rfl⟩)
    have hcolt : ∀ {j c'}, (j, c') ∈ st.colored → j < n := fun h => hv.lt _ (by rw [← hv.seen]; exact List.mem_map.2 ⟨_, h, rfl⟩)
    refine ⟨fun e' he => ?_, fun e' he => ?_, fun i hi hn => ?_, ?_, ?_, ?_, fun i hi c' => ?_, fun i => ?_, ?_, ?_, ?_, ?_⟩
    · rcases ht.new e' he with h | h
      · exact hv.heap_lt e' (h2 e' h)
      · exact hlt _ h.1
    · rcases ht.new e' he with h | ⟨h4, h5, h6⟩
      · have := hv.score e' (h2 e' h)
        exact ⟨Nat.le_trans this.1 (hlen _), this.2⟩
      · refine ⟨?_, h6⟩
        rw [h5, hadj, if_pos h4]
        exact Nat.le_refl _
    · rw [hseen] at hn
      rw [hadj i]
      split
      · rename_i h
        exact ht.push i h
      · refine ht.keep _ (h3 _ (hv.queued i hi fun h => hn (List.mem_cons_of_mem _ h)) fun h => hn ?_)
        rw [← h]; exact List.mem_cons_self
    · rw [hcol, hseen, List.map_cons, hv.seen]
    · rw [hseen]; exact List.nodup_cons.2 ⟨hs, hv.nodup⟩
    · intro i hi
      rw [hseen] at hi
      rcases List.mem_cons.1 hi with rfl | hi
      · exact hen
      · exact hv.lt i hi
    · have hmem : c' ∈ st'.adj i ↔ (c' = c ∧ i ∈ l) ∨ c' ∈ st.adj i := by
        rw [hadj i]
        split
        · rename_i h
          rw [mem_insertColor]
          exact or_congr ⟨fun e => ⟨e, h⟩, fun e => e.1⟩ Iff.rfl
        · rename_i h
          exact ⟨.inr, fun h' => h'.resolve_left fun h' => h h'.2⟩
      rw [hmem, hv.adj i hi c', hcol]
      constructor
      · rintro (⟨rfl, h⟩ | ⟨j, h4, h5⟩)
        · exact ⟨e.2, List.mem_cons_self, el ▸ h⟩
        · exact ⟨j, List.mem_cons_of_mem _ h4, h5⟩
      · rintro ⟨j, h4, h5⟩
        rcases List.mem_cons.1 h4 with h4 | h4
        · cases h4
          exact .inl ⟨rfl, el ▸ h5⟩
        · exact .inr ⟨j, h4, h5⟩
    · rw [hadj i]
      split
      · exact insertColor_nodup (hv.adj_nodup i)
      · exact hv.adj_nodup i
    · intro i c1 j c2 hi hj hij hne
      rw [hcol] at hi hj
      rcases List.mem_cons.1 hi with hi1 | hi1
      · rcases List.mem_cons.1 hj with hj1 | hj1
        · cases hi1; cases hj1; exact absurd rfl hne
        · cases hi1
          rintro rfl
          exact hc ((hv.adj _ hen _).2 ⟨j, hj1, hg.symm _ hen _ hij⟩)
      · rcases List.mem_cons.1 hj with hj1 | hj1
        · cases hj1
          rintro rfl
          exact hc ((hv.adj _ hen _).2 ⟨i, hi1, hij⟩)
        · exact hv.proper i c1 j c2 hi1 hj1 hij hne
    · intro i c1 hi c2 hlt2
      rw [hcol] at hi ⊢
      rcases List.mem_cons.1 hi with hi | hi
      · cases hi
        obtain ⟨j, h4, h5⟩ := (hv.adj _ hen _).1 (hc' c2 hlt2)
        exact ⟨j, List.mem_cons_of_mem _ h4, h5⟩
      · obtain ⟨j, h4, h5⟩ := hv.least i c1 hi c2 hlt2
        exact ⟨j, List.mem_cons_of_mem _ h4, h5⟩
    · intro p hp'
      rw [hcol] at hp'
      rw [htop]
      rcases List.mem_cons.1 hp' with rfl | hp'
      · exact Nat.le_max_right _ _
      · exact Nat.le_trans (hv.top p hp') (Nat.le_max_left _ _)
    · refine .inr ?_
      rw [hcol, htop]
      by_cases hle : st.top ≤ c
      · exact ⟨e.2, by rw [Nat.max_eq_right hle]; exact List.mem_cons_self⟩
      · rcases hv.used with ⟨-, h⟩ | ⟨i, hi⟩
        · omega
        · exact ⟨i, by rw [Nat.max_eq_left (by omega)]; exact List.mem_cons_of_mem _ hi⟩

theorem DsSteps.inv (hg : ApGraph at_ nb n) {st st' : DsSt} (h : DsSteps at_ n deg st st') (hv : DsInv nb n deg st) : DsInv nb n deg st' := by
  induction h with
  | refl => exact hv
  | step _ h ih => exact ih.step hg h

/-- While the queue is not empty there is a turn. -/
theorem ds_progress (hg : ApGraph at_ nb n) {st : DsSt} (hv : DsInv nb n deg st) (h : st.heap ≠ []) : ∃ st', DsStep at_ n deg st st' := by
  obtain ⟨e, rest, hp⟩ := dsPop_exists h
  have hen := hv.heap_lt e hp.mem.1
  by_cases hs : e.2 ∈ st.seen
  · exact ⟨_, .skip hp hs⟩
  · -- the first colour that is free
    have free : ∀ k, (∃ c, c ∉ st.adj e.2 ∧ ∀ c', c' < c → c' ∈ st.adj e.2) ∨ ∀ c', c' < k → c' ∈ st.adj e.2 := by
      intro k
      induction k with
      | zero => exact .inr fun _ h => absurd h (Nat.not_lt_zero _)
      | succ k ih =>
        rcases ih with ih | ih
        · exact .inl ih
        · by_cases hk : k ∈ st.adj e.2
          · refine .inr fun c' hc' => ?_
            by_cases e' : c' = k
            · exact e' ▸ hk
            · exact ih c' (by omega)
          · exact .inl ⟨k, hk, ih⟩
    rcases free ((st.adj e.2).length + 1) with ⟨c, h1, h2⟩ | h
    · exact ⟨_, .color hp hs h1 h2 ((hg.lists _ hen _).2 rfl)⟩
    · have := (List.nodup_range (n := (st.adj e.2).length + 1)).length_le_of_subset fun c' hc' => h c' (List.mem_range.1 hc')
      rw [List.length_range] at this
      omega

/-- No run goes on forever. -/
theorem ds_acc (hg : ApGraph at_ nb n) : ∀ (k : Nat) {st : DsSt}, n - st.seen.length ≤ k → DsInv nb n deg st →
    Acc (fun b a => DsStep at_ n deg a b) st := by
  intro k
  induction k with
  | zero =>
    intro st
    induction hl : st.heap.length using Nat.strongRecOn generalizing st with
    | _ m ih =>
      intro hk hv
      refine ⟨_, fun st' h => ?_⟩
      cases h with
      | skip hp hs => exact ih _ (by rw [← hl]; exact hp.mem.2.2.2) rfl hk (hv.step hg (.skip hp hs))
      | @color e rest c l hp hs hc hc' hl' =>
        have h1 : (e.2 :: st.seen).length ≤ (List.range n).length :=
          (List.nodup_cons.2 ⟨hs, hv.nodup⟩).length_le_of_subset fun u hu => by
            rcases List.mem_cons.1 hu with rfl | hu
            · exact List.mem_range.2 (hv.heap_lt e hp.mem.1)
            · exact List.mem_range.2 (hv.lt u hu)
        rw [List.length_cons, List.length_range] at h1
        omega
  | succ k ihk =>
    intro st
    induction hl : st.heap.length using Nat.strongRecOn generalizing st with
    | _ m ih =>
      intro hk hv
      refine ⟨_, fun st' h => ?_⟩
      cases h with
      | skip hp hs => exact ih _ (by rw [← hl]; exact hp.mem.2.2.2) rfl hk (hv.step hg (.skip hp hs))
      | @color e rest c l hp hs hc hc' hl' =>
        have hen := hv.heap_lt e hp.mem.1
        refine ihk ?_ (hv.step hg (.color hp hs hc hc' hl'))
        have el := (hg.lists _ hen l).1 hl'
        rw [(dsTell_told (n := n) (deg := deg) c l _ fun j hj => hg.lt _ hen j (el ▸ hj)).seen, List.length_cons]
        omega

theorem DsSteps.trans {st st' st'' : DsSt} (h1 : DsSteps at_ n deg st st') (h2 : DsSteps at_ n deg st' st'') : DsSteps at_ n deg st st'' := by
  induction h2 with
  | refl => exact h1
  | step _ h ih => exact ih.step h

/-- Every run can be completed. -/
theorem ds_completes (hg : ApGraph at_ nb n) {st : DsSt} (hv : DsInv nb n deg st) : ∃ st', DsSteps at_ n deg st st' ∧ st'.heap = [] := by
  have ha := ds_acc hg _ (Nat.le_refl _) hv
  induction ha with
  | intro st _ ih =>
    by_cases h : st.heap = []
    · exact ⟨st, .refl, h⟩
    · obtain ⟨st1, h1⟩ := ds_progress hg hv h
      obtain ⟨st2, h2, h3⟩ := ih st1 h1 (hv.step hg h1)
      exact ⟨st2, DsSteps.trans (.step .refl h1) h2, h3⟩

theorem ds_ends (hg : ApGraph at_ nb n) {st : DsSt} (hv : DsInv nb n deg st) (run : Nat → DsSt) (h0 : run 0 = st) :
    ¬ ∀ i, DsStep at_ n deg (run i) (run (i + 1)) := by
  have ha := ds_acc hg _ (Nat.le_refl _) hv
  clear hv
  intro hr
  have key : ∀ st, Acc (fun b a => DsStep at_ n deg a b) st → ∀ i, run i = st → False := by
    intro st ha
    induction ha with
    | intro st _ ih => exact fun i e => ih (run (i + 1)) (e ▸ hr i) (i + 1) rfl
  exact key st ha 0 h0

/-- When the queue is empty all nodes have a colour. -/
theorem DsInv.all {st : DsSt} (hv : DsInv nb n deg st) (he : st.heap = []) {i : Nat} (hi : i < n) : i ∈ st.seen :=
  Classical.byContradiction fun h => by
    have := hv.queued i hi h
    rw [he] at this
    cases this

/-- Two colours so far, which follow `f` as far as nodes are joined. -/
def DsTwo (nb : Nat → List Nat) (n : Nat) (f : Nat → Bool) (col : List (Nat × Nat)) : Prop :=
  (∀ p ∈ col, p.2 ≤ 1) ∧ ∀ i c j c', (i, c) ∈ col → (j, c') ∈ col → Joined (Nb nb n) i j → (c = c' ↔ f i = f j)

theorem DsTwo.step (hg : ApGraph at_ nb n) {f : Nat → Bool} (hf : ∀ i, i < n → ∀ j ∈ nb i, i ≠ j → f i ≠ f j) {st st' : DsSt}
    (hv : DsInv nb n deg st) (h2 : DsTwo nb n f st.colored) (h : DsStep at_ n deg st st') : DsTwo nb n f st'.colored := by
  cases h with
  | skip => exact h2
  | @color e rest c l hp hs hc hc' hl =>
    have hen := hv.heap_lt e hp.mem.1
    have el := (hg.lists _ hen l).1 hl
    rw [(dsTell_told (n := n) (deg := deg) c l _ fun j hj => hg.lt _ hen j (el ▸ hj)).colored]
    have hlt : ∀ {j c'}, (j, c') ∈ st.colored → j < n ∧ j ∈ st.seen := fun {j c'} h => by
      have : j ∈ st.seen := by rw [← hv.seen]; exact List.mem_map.2 ⟨_, h, rfl⟩
      exact ⟨hv.lt _ this, this⟩
    have edge : ∀ {i j}, i < n → j ∈ nb i → Joined (Nb nb n) i j := fun hi hj => .edge ⟨hi, hj⟩
    by_cases hempty : st.adj e.2 = []
    · -- the nodes with a colour are apart from the others
      have hclosed : ∀ i ∈ st.seen, ∀ j ∈ nb i, j ∈ st.seen := fun i hi j hj => Classical.byContradiction fun hn => by
        have hjn := hg.lt i (hv.lt i hi) j hj
        have h1 := hv.most hp hjn hn
        rw [← hv.seen] at hi
        obtain ⟨⟨i', c1⟩, h3, rfl⟩ := List.mem_map.1 hi
        have h4 := (hv.adj j hjn c1).2 ⟨i', h3, hj⟩
        rw [hempty] at h1
        have h5 : 0 < (st.adj j).length := List.length_pos_of_mem h4
        have h6 : ([] : List Nat).length = 0 := rfl
        omega
      have hapart : ∀ {j c1}, (j, c1) ∈ st.colored → ¬ Joined (Nb nb n) j e.2 := fun h3 hj => hs
        ((joined_iff_of (P := (· ∈ st.seen)) (fun x y hxy => ⟨fun h => hclosed x h y hxy.2, fun h => hclosed y h x (hg.symm _ hxy.1 _ hxy.2)⟩) hj).1
          (hlt h3).2)
      have hc0 : c = 0 := Classical.byContradiction fun h => by
        have := hc' 0 (by omega)
        rw [hempty] at this
        cases this
      refine ⟨fun p hp' => ?_, fun i c1 j c2 hi hj hj' => ?_⟩
      · rcases List.mem_cons.1 hp' with rfl | hp'
        · exact hc0 ▸ Nat.zero_le _
        · exact h2.1 p hp'
      · rcases List.mem_cons.1 hi with hi | hi
        · cases hi
          rcases List.mem_cons.1 hj with hj | hj
          · cases hj; exact ⟨fun _ => rfl, fun _ => rfl⟩
          · exact absurd hj'.symm (hapart hj)
        · rcases List.mem_cons.1 hj with hj | hj
          · cases hj; exact absurd hj' (hapart hi)
          · exact h2.2 i c1 j c2 hi hj hj'
    · -- the neighbors with a colour have the same one
      obtain ⟨c0, hc0⟩ := List.exists_mem_of_ne_nil _ hempty
      obtain ⟨j0, h3, h4⟩ := (hv.adj _ hen c0).1 hc0
      have hj0 := (hlt h3).1
      have hne0 : j0 ≠ e.2 := fun e' => hs (e' ▸ (hlt h3).2)
      have hfe : f j0 ≠ f e.2 := hf j0 hj0 _ h4 hne0
      have h01 : c0 ≤ 1 := h2.1 _ h3
      have hall : ∀ c1 ∈ st.adj e.2, c1 = c0 := fun c1 h1 => by
        obtain ⟨j1, h5, h6⟩ := (hv.adj _ hen c1).1 h1
        have hne1 : j1 ≠ e.2 := fun e' => hs (e' ▸ (hlt h5).2)
        have hf1 := hf j1 (hlt h5).1 _ h6 hne1
        refine (h2.2 j1 c1 j0 c0 h5 h3 ((edge (hlt h5).1 h6).trans (edge hj0 h4).symm)).2 ?_
        revert hf1 hfe
        cases f j1 <;> cases f j0 <;> cases f e.2 <;> simp
      have hcne : c ≠ c0 := fun e' => hc (e' ▸ hc0)
      have hc1 : c ≤ 1 := Classical.byContradiction fun h => by
        have a := hall _ (hc' 0 (by omega))
        have b := hall _ (hc' 1 (by omega))
        omega
      have hjv : ∀ {i c1}, (i, c1) ∈ st.colored → Joined (Nb nb n) i e.2 → (c1 = c ↔ f i = f e.2) := fun {i c1} h5 h6 => by
        have h7 := h2.2 i c1 j0 c0 h5 h3 (h6.trans (edge hj0 h4).symm)
        have h8 : c1 ≤ 1 := h2.1 _ h5
        have h9 : c1 = c ↔ ¬ c1 = c0 := by omega
        rw [h9, h7]
        revert hfe
        cases f i <;> cases f j0 <;> cases f e.2 <;> simp
      refine ⟨fun p hp' => ?_, fun i c1 j c2 hi hj hj' => ?_⟩
      · rcases List.mem_cons.1 hp' with rfl | hp'
        · exact hc1
        · exact h2.1 p hp'
      · rcases List.mem_cons.1 hi with hi | hi
        · cases hi
          rcases List.mem_cons.1 hj with hj | hj
          · cases hj; exact ⟨fun _ => rfl, fun _ => rfl⟩
          · have := hjv hj hj'.symm
            exact ⟨fun e' => (this.1 e'.symm).symm, fun e' => (this.2 e'.symm).symm⟩
        · rcases List.mem_cons.1 hj with hj | hj
          · cases hj; exact hjv hi hj'
          · exact h2.2 i c1 j c2 hi hj hj'

/-- If the nodes can be given two colours, two are enough. -/
theorem ds_two (hg : ApGraph at_ nb n) {f : Nat → Bool} (hf : ∀ i, i < n → ∀ j ∈ nb i, i ≠ j → f i ≠ f j) {st st' : DsSt}
    (hst : DsStart at_ (List.range' 0 n) deg st) (h : DsSteps at_ n deg st st') : st'.top ≤ 1 := by
  have hv := DsInv.start (nb := nb) hst
  have key : DsTwo nb n f st'.colored ∧ DsInv nb n deg st' := by
    induction h with
    | refl =>
      obtain ⟨-, rfl⟩ := hst
      exact ⟨⟨fun _ h => (nomatch h), fun _ _ _ _ h => (nomatch h)⟩, hv⟩
    | step h1 h2 ih => exact ⟨ih.1.step hg hf ih.2 h2, ih.2.step hg h2⟩
  rcases key.2.used with ⟨-, h⟩ | ⟨i, hi⟩
  · omega
  · exact key.1.1 _ hi
end

section
variable {nb : Nat → List Nat} {n : Nat} {at_ : Nat → List Nat → Prop} {deg : Nat → Nat}

/-- `l` is a list of the colours next to `i`, without repetitions. -/
def Saturation (nb : Nat → List Nat) (colored : List (Nat × Nat)) (i : Nat) (l : List Nat) : Prop :=
  l.Nodup ∧ ∀ c, c ∈ l ↔ ∃ j, (j, c) ∈ colored ∧ j ∈ nb i

/-- The node that is given a colour has the greatest saturation of those without one, and among them the greatest degree. -/
theorem ds_order (hg : ApGraph at_ nb n) {st st' : DsSt} (hv : DsInv nb n deg st) (h : DsStep at_ n deg st st') {i c : Nat}
    (hc : st'.colored = (i, c) :: st.colored) : i < n ∧ i ∉ st.colored.map Prod.fst ∧
      ∀ j, j < n → j ∉ st.colored.map Prod.fst → ∀ li lj, Saturation nb st.colored i li → Saturation nb st.colored j lj →
        lj.length < li.length ∨ (lj.length = li.length ∧ deg j ≤ deg i) := by
  cases h with
  | skip hp _ =>
    have := congrArg List.length hc
    simp at this
  | @color e rest c' l hp hns _ _ hl =>
    have hen := hv.heap_lt e hp.mem.1
    have hl' := (hg.lists _ hen l).1 hl
    rw [(dsTell_told (deg := deg) (n := n) c' l _ fun j hj => by rw [hl'] at hj; exact hg.lt _ hen j hj).colored] at hc
    have hei : e.2 = i := congrArg Prod.fst (List.cons.inj hc).1
    subst hei
    rw [hv.seen]
    refine ⟨hen, hns, fun j hj hjs li lj hli hlj => ?_⟩
    have len : ∀ i, i < n → ∀ l, Saturation nb st.colored i l → (st.adj i).length = l.length := fun i hi l hl => by
      have hsub : ∀ x, x ∈ st.adj i ↔ x ∈ l := fun x => by
        rw [hv.adj i hi, hl.2 x]
        have hlt : ∀ {j}, (j, x) ∈ st.colored → j < n := fun {j} h => hv.lt j (by rw [← hv.seen]; exact List.mem_map.2 ⟨_, h, rfl⟩)
        exact exists_congr fun j => and_congr_right fun hm => ⟨fun h => hg.symm j (hlt hm) i h, fun h => hg.symm i hi j h⟩
      exact Nat.le_antisymm ((hv.adj_nodup i).length_le_of_subset fun x => (hsub x).1) (hl.1.length_le_of_subset fun x => (hsub x).2)
    rw [← len _ hj lj hlj, ← len _ hen li hli]
    exact hv.most hp hj hjs
end

/-! ### In terms of the nodes -/

/-- `out` gives each node one colour, adjacent nodes different ones, and no node could do with a smaller one; `num` is the number of
colours, or one if there are no nodes. -/
structure Colouring {V : Type} (R : V → V → Prop) (P : V → Prop) (out : List (V × Nat)) (num : Nat) : Prop where
  once : (out.map Prod.fst).Nodup
  all : ∀ u, u ∈ out.map Prod.fst ↔ P u
  proper : ∀ u x t y, (u, x) ∈ out → (t, y) ∈ out → R u t → u ≠ t → x ≠ y
  least : ∀ u x, (u, x) ∈ out → ∀ y, y < x → ∃ t, (t, y) ∈ out ∧ R u t
  below : ∀ p ∈ out, p.2 < num
  top : (out = [] ∧ num = 1) ∨ ∃ u, (u, num - 1) ∈ out ∧ 0 < num

section
variable {V : Type} {R : V → V → Prop} {P : V → Prop} {out : List (V × Nat)} {num : Nat}

theorem Colouring.unique (h : Colouring R P out num) {u : V} {x y : Nat} (h1 : (u, x) ∈ out) (h2 : (u, y) ∈ out) : x = y := by
  have hn := h.once
  clear h
  induction out with
  | nil => cases h1
  | cons p l ih =>
    rw [List.map_cons, List.nodup_cons] at hn
    rcases List.mem_cons.1 h1 with e1 | h1
    · rcases List.mem_cons.1 h2 with e2 | h2
      · rw [← e1] at e2; cases e2; rfl
      · exact absurd (List.mem_map.2 ⟨_, h2, rfl⟩) (by rw [← e1] at hn; exact hn.1)
    · rcases List.mem_cons.1 h2 with e2 | h2
      · exact absurd (List.mem_map.2 ⟨_, h1, rfl⟩) (by rw [← e2] at hn; exact hn.1)
      · exact ih h1 h2 hn.2

theorem Colouring.has (h : Colouring R P out num) {u : V} (hu : P u) : ∃ x, (u, x) ∈ out := by
  obtain ⟨⟨u', x⟩, h1, rfl⟩ := List.mem_map.1 ((h.all u).2 hu)
  exact ⟨x, h1⟩

theorem Colouring.pos (h : Colouring R P out num) : 0 < num := by
  rcases h.top with h | ⟨_, -, h⟩
  · omega
  · exact h

/-- One colour is enough exactly if no two nodes are adjacent. -/
theorem Colouring.one_iff (h : Colouring R P out num) (hP : ∀ u t, P u → R u t → P t) : num = 1 ↔ ∀ u t, P u → R u t → u = t := by
  constructor
  · intro e u t hu hr
    refine Classical.byContradiction fun hne => ?_
    obtain ⟨x, hx⟩ := h.has hu
    obtain ⟨y, hy⟩ := h.has (hP u t hu hr)
    have h1 : x < num := h.below _ hx
    have h2 : y < num := h.below _ hy
    exact h.proper u x t y hx hy hr hne (by omega)
  · intro hno
    refine Classical.byContradiction fun hne => ?_
    rcases h.top with ⟨-, e⟩ | ⟨u, hu, h0⟩
    · exact hne e
    · obtain ⟨t, h1, h2⟩ := h.least u _ hu 0 (by omega)
      have hPu := (h.all u).1 (List.mem_map.2 ⟨_, hu, rfl⟩)
      have := hno u t hPu h2
      subst this
      have := h.unique hu h1
      omega

/-- With two colours the nodes fall into two classes. -/
theorem Colouring.classes (h : Colouring R P out num) (hP : ∀ u t, P u → R u t → P t) (h2 : num ≤ 2) :
    ∃ f : V → Bool, ∀ u t, P u → R u t → u ≠ t → f u ≠ f t := by
  classical
  refine ⟨fun u => decide ((u, 0) ∈ out), fun u t hu hr hne => ?_⟩
  obtain ⟨x, hx⟩ := h.has hu
  obtain ⟨y, hy⟩ := h.has (hP u t hu hr)
  have h1 : x < num := h.below _ hx
  have h3 : y < num := h.below _ hy
  have h4 := h.proper u x t y hx hy hr hne
  have iff0 : ∀ {w z}, (w, z) ∈ out → ((w, 0) ∈ out ↔ z = 0) := fun hz => ⟨fun h0 => h.unique hz h0, fun e => e ▸ hz⟩
  intro e
  have e' : (u, 0) ∈ out ↔ (t, 0) ∈ out := by
    rw [← decide_eq_true_iff (p := (u, 0) ∈ out), ← decide_eq_true_iff (p := (t, 0) ∈ out)]
    exact Iff.of_eq (congrArg (· = true) e)
  rw [iff0 hx, iff0 hy] at e'
  omega

/-- Some node has a neighbor of each other colour. -/
theorem Colouring.degree (h : Colouring R P out num) (hne : ∃ u, P u) :
    ∃ (u : V) (l : List V), P u ∧ l.Nodup ∧ l.length + 1 = num ∧ ∀ t ∈ l, R u t ∧ t ≠ u := by
  rcases h.top with ⟨e, -⟩ | ⟨u, hu, h0⟩
  · obtain ⟨u, hu⟩ := hne
    have := (h.all u).2 hu
    rw [e] at this; cases this
  · have key : ∀ m, m ≤ num - 1 → ∃ l : List V, l.Nodup ∧ l.length = m ∧ ∀ t ∈ l, R u t ∧ t ≠ u ∧ ∃ y, y < m ∧ (t, y) ∈ out := by
      intro m
      induction m with
      | zero => exact fun _ => ⟨[], List.nodup_nil, rfl, fun _ h => nomatch h⟩
      | succ m ih =>
        intro hm
        obtain ⟨l, h1, h2, h3⟩ := ih (by omega)
        obtain ⟨t, h4, h5⟩ := h.least u _ hu m (by omega)
        refine ⟨t :: l, List.nodup_cons.2 ⟨fun ht => ?_, h1⟩, by rw [List.length_cons, h2], fun t' ht' => ?_⟩
        · obtain ⟨-, -, y, h6, h7⟩ := h3 t ht
          have := h.unique h4 h7
          omega
        · rcases List.mem_cons.1 ht' with rfl | ht'
          · refine ⟨h5, fun e => ?_, m, Nat.lt_succ_self _, h4⟩
            subst e
            have := h.unique h4 hu
            omega
          · obtain ⟨h6, h7, y, h8, h9⟩ := h3 t' ht'
            exact ⟨h6, h7, y, by omega, h9⟩
    obtain ⟨l, h1, h2, h3⟩ := key _ (Nat.le_refl _)
    exact ⟨u, l, (h.all u).1 (List.mem_map.2 ⟨_, hu, rfl⟩), h1, by omega, fun t ht => ⟨(h3 t ht).1, (h3 t ht).2.1⟩⟩
end

/-- From numbers back to nodes. -/
theorem DsInv.colouring {at_ : Nat → List Nat → Prop} {nb : Nat → List Nat} {n : Nat} {deg : Nat → Nat} (hg : ApGraph at_ nb n) {V : Type}
    {P : V → Prop} {idx : V → Nat} (hi : Indexed P idx n) {R : V → V → Prop} (hP : ∀ u t, P u → R u t → P t)
    (hnb : ∀ u, P u → ∀ j, j ∈ nb (idx u) ↔ ∃ t, R u t ∧ idx t = j) {back : Nat → V} (hback : ∀ i, i < n → P (back i) ∧ idx (back i) = i)
    {st : DsSt} (hv : DsInv nb n deg st) (he : st.heap = []) :
    Colouring R P (st.colored.map fun p => (back p.1, p.2)) (st.top + 1) := by
  have hlt : ∀ {i c}, (i, c) ∈ st.colored → i < n := fun {i c} h => hv.lt i (by rw [← hv.seen]; exact List.mem_map.2 ⟨_, h, rfl⟩)
  have hmem : ∀ u x, (u, x) ∈ st.colored.map (fun p => (back p.1, p.2)) ↔ P u ∧ (idx u, x) ∈ st.colored := fun u x => by
    rw [List.mem_map]
    constructor
    · rintro ⟨⟨i, c⟩, h1, h2⟩
      have e1 := congrArg Prod.fst h2
      have e2 := congrArg Prod.snd h2
      have e1 : back i = u := e1
      have e2 : c = x := e2
      subst e1; subst e2
      obtain ⟨h3, h4⟩ := hback i (hlt h1)
      exact ⟨h3, by rw [h4]; exact h1⟩
    · rintro ⟨h1, h2⟩
      refine ⟨_, h2, ?_⟩
      obtain ⟨h3, h4⟩ := hback _ (hi.lt h1)
      show (back (idx u), x) = (u, x)
      rw [hi.inj h3 h1 h4]
  have hfst : (st.colored.map fun p => (back p.1, p.2)).map Prod.fst = st.seen.map back := by
    rw [← hv.seen, List.map_map, List.map_map]; rfl
  have hRnb : ∀ {u t}, P u → P t → (R u t ↔ idx t ∈ nb (idx u)) := fun {u t} hu ht => by
    rw [hnb u hu]
    constructor
    · exact fun h => ⟨t, h, rfl⟩
    · rintro ⟨t', h1, h2⟩
      rw [← hi.inj (hP u t' hu h1) ht h2]; exact h1
  refine ⟨?_, fun u => ?_, ?_, ?_, ?_, ?_⟩
  · rw [hfst]
    refine nodup_map_of_inj hv.nodup fun i hi' j hj e => ?_
    rw [← (hback i (hv.lt i hi')).2, ← (hback j (hv.lt j hj)).2, e]
  · rw [hfst, List.mem_map]
    constructor
    · rintro ⟨i, h1, rfl⟩
      exact (hback i (hv.lt i h1)).1
    · intro hu
      exact ⟨idx u, hv.all he (hi.lt hu), hi.inj (hback _ (hi.lt hu)).1 hu (hback _ (hi.lt hu)).2⟩
  · intro u x t y h1 h2 hr hne
    obtain ⟨hu, h1⟩ := (hmem u x).1 h1
    obtain ⟨ht, h2⟩ := (hmem t y).1 h2
    exact hv.proper _ _ _ _ h1 h2 ((hRnb hu ht).1 hr) fun e => hne (hi.inj hu ht e)
  · intro u x h1 y hy
    obtain ⟨hu, h1⟩ := (hmem u x).1 h1
    obtain ⟨j, h2, h3⟩ := hv.least _ _ h1 y hy
    obtain ⟨ht, e⟩ := hback j (hlt h2)
    refine ⟨back j, (hmem _ _).2 ⟨ht, by rw [e]; exact h2⟩, (hRnb hu ht).2 ?_⟩
    rw [e]
    exact hg.symm _ (hlt h2) _ h3
  · intro p hp
    obtain ⟨q, h1, rfl⟩ := List.mem_map.1 hp
    exact Nat.lt_succ_of_le (hv.top q h1)
  · rcases hv.used with ⟨e, h⟩ | ⟨i, h⟩
    · exact .inl ⟨by rw [e]; rfl, by rw [h]⟩
    · exact .inr ⟨back i, List.mem_map.2 ⟨_, h, rfl⟩, Nat.succ_pos _⟩
end LG
