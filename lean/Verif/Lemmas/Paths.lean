import Verif.Model.Paths
/- `all_simple_paths` lists the simple paths of any graph. -/
namespace LG
section
variable {C It : Type} [DecidableEq C] {next : It → Res (Option C × It)} {start : C → It} {to : C} {minL maxL : Nat}

/-- What is listed below a node whose neighbors are `l`, `d` levels being left. -/
def spList (nb : C → List C) (to : C) (minL : Nat) : Nat → List C → List C → List (List C)
  | 0, vis, l => l.flatMap fun c => if c = to ∧ minL ≤ vis.length then [vis ++ [to]] else []
  | d + 1, vis, l => l.flatMap fun c =>
    if c = to then if minL ≤ vis.length then [vis ++ [to]] else []
    else if c ∈ vis then [] else spList nb to minL d (vis ++ [c]) (nb c)

theorem anyIs_of {it : It} {l : List C} (hy : Yields next it l) :
    (to ∈ l → ∃ l1 l2 it2, l = l1 ++ to :: l2 ∧ to ∉ l1 ∧ AnyIs next to it true it2 ∧ Yields next it2 l2) ∧
    (to ∉ l → ∃ it2, AnyIs next to it false it2) := by
  induction hy with
  | done h => exact ⟨(fun h => nomatch h), fun _ => ⟨_, .none h⟩⟩
  | @step s s' a l h hy ih =>
    by_cases e : a = to
    · subst e
      exact ⟨fun _ => ⟨[], l, s', rfl, by simp, .hit h, hy⟩, fun hn => absurd (by simp) hn⟩
    · refine ⟨fun hm => ?_, fun hn => ?_⟩
      · obtain ⟨l1, l2, it2, rfl, h1, h2, h3⟩ := ih.1 ((List.mem_cons.1 hm).resolve_left fun h => e h.symm)
        exact ⟨a :: l1, l2, it2, rfl, by simpa [h1] using fun h => e h.symm, .miss h e h2, h3⟩
      · obtain ⟨it2, h2⟩ := ih.2 fun hm => hn (by simp [hm])
        exact ⟨it2, .miss h e h2⟩

theorem flatMap_none {α β : Type} {l : List α} {f : α → List β} (h : ∀ a ∈ l, f a = []) : l.flatMap f = [] := by
  simpa using h

theorem spRun_exists {nb : C → List C} {Q : C → Prop} (hnb : ∀ c, Q c → Yields next (start c) (nb c)) (hQ : ∀ c, Q c → ∀ b ∈ nb c, Q b) :
    ∀ (d : Nat) (vis l : List C) (it : It) (st : List It) (out : List (List C)), maxL - vis.length = d → Yields next it l →
      (∀ c ∈ l, Q c) → SpRun next start to minL maxL vis.dropLast st out →
      SpRun next start to minL maxL vis (it :: st) (spList nb to minL d vis l ++ out) := by
  intro d
  induction d with
  | zero =>
    intro vis l it st out hd hy hl hr
    have hlen : ¬ vis.length < maxL := by omega
    by_cases hmin : minL ≤ vis.length
    · have : ∀ n l it, l.length ≤ n → Yields next it l →
          SpRun next start to minL maxL vis (it :: st) (spList nb to minL 0 vis l ++ out) := by
        intro n
        induction n with
        | zero =>
          intro l it hn hy
          have : l = [] := List.eq_nil_of_length_eq_zero (by omega)
          subst this
          cases hy with
          | done h => exact .empty h hr
        | succ n ih =>
          intro l it hn hy
          cases hy with
          | done h => exact .empty h hr
          | @step _ s' c l h hy =>
            by_cases e : c = to
            · subst e
              have e1 : spList nb c minL 0 vis (c :: l) = (vis ++ [c]) :: spList nb c minL 0 vis l := by simp [spList, hmin]
              rw [e1]
              exact .last h hlen (.inl ⟨rfl, rfl, rfl⟩) hmin (ih l s' (by simp at hn; omega) hy)
            · have ha := anyIs_of (to := to) hy
              by_cases hm : to ∈ l
              · obtain ⟨l1, l2, it2, rfl, h1, h2, h3⟩ := ha.1 hm
                have hs1 : (l1.flatMap fun c => if c = to ∧ minL ≤ vis.length then [vis ++ [to]] else []) = [] :=
                  flatMap_none fun a hal => if_neg fun h' : a = to ∧ _ => h1 (h'.1 ▸ hal)
                have e1 : spList nb to minL 0 vis (c :: (l1 ++ to :: l2)) = (vis ++ [to]) :: spList nb to minL 0 vis l2 := by
                  simp only [spList, List.flatMap_cons, List.flatMap_append, e, false_and, if_false, hmin, and_self, if_true]
                  simp only [hmin, and_true] at hs1
                  simp [hs1]
                rw [e1]
                exact .last h hlen (.inr ⟨e, h2⟩) hmin (ih l2 it2 (by simp at hn; omega) h3)
              · obtain ⟨it2, h2⟩ := ha.2 hm
                have e1 : spList nb to minL 0 vis (c :: l) = [] := flatMap_none fun a hal => if_neg fun h' : a = to ∧ _ => by
                  rcases List.mem_cons.1 hal with rfl | hal
                  · exact e h'.1
                  · exact hm (h'.1 ▸ hal)
                rw [e1]
                exact .back h hlen (.inr ⟨e, h2⟩) (fun h => nomatch h.1) hr
      exact this _ l it (Nat.le_refl _) hy
    · have e1 : spList nb to minL 0 vis l = [] := flatMap_none fun a _ => if_neg fun h => hmin h.2
      rw [e1]
      cases hy with
      | done h => exact .empty h hr
      | @step _ s' c l h hy =>
        by_cases e : c = to
        · exact .back h hlen (.inl ⟨e, rfl, rfl⟩) (fun h => hmin h.2) hr
        · have ha := anyIs_of (to := to) hy
          by_cases hm : to ∈ l
          · obtain ⟨_, _, it2, _, _, h2, _⟩ := ha.1 hm
            exact .back h hlen (.inr ⟨e, h2⟩) (fun h => hmin h.2) hr
          · obtain ⟨it2, h2⟩ := ha.2 hm
            exact .back h hlen (.inr ⟨e, h2⟩) (fun h => hmin h.2) hr
  | succ d ih =>
    intro vis l it st out hd hy hl hr
    have hlen : vis.length < maxL := by omega
    induction hy with
    | done h => exact .empty h hr
    | @step s s' c l h hy ih' =>
      have ih' := ih' fun c hc => hl c (by simp [hc])
      by_cases e : c = to
      · subst e
        by_cases hmin : minL ≤ vis.length
        · have e1 : spList nb c minL (d + 1) vis (c :: l) = (vis ++ [c]) :: spList nb c minL (d + 1) vis l := by simp [spList, hmin]
          rw [e1]
          exact .found h hlen hmin ih'
        · have e1 : spList nb c minL (d + 1) vis (c :: l) = spList nb c minL (d + 1) vis l := by simp [spList, hmin]
          rw [e1]
          exact .short h hlen hmin ih'
      · by_cases hm : c ∈ vis
        · have e1 : spList nb to minL (d + 1) vis (c :: l) = spList nb to minL (d + 1) vis l := by simp [spList, hm, e]
          rw [e1]
          exact .seen h hlen e hm ih'
        · have e1 : spList nb to minL (d + 1) vis (c :: l) = spList nb to minL d (vis ++ [c]) (nb c) ++ spList nb to minL (d + 1) vis l := by
            simp [spList, hm, e]
          rw [e1, List.append_assoc]
          have hc := hl c (by simp)
          refine .enter h hlen e hm (ih _ _ _ _ _ (by simp; omega) (hnb c hc) (hQ c hc) ?_)
          rw [List.dropLast_concat]
          exact ih'

omit [DecidableEq C] in
theorem AnyIs.unique {it it1 it2 : It} {b1 b2 : Bool} (h1 : AnyIs next to it b1 it1) (h2 : AnyIs next to it b2 it2) : b1 = b2 ∧ it1 = it2 := by
  induction h1 with
  | none h =>
    cases h2 with
    | none h' => rw [h] at h'; cases h'; exact ⟨rfl, rfl⟩
    | hit h' => rw [h] at h'; cases h'
    | miss h' => rw [h] at h'; cases h'
  | hit h =>
    cases h2 with
    | none h' => rw [h] at h'; cases h'
    | hit h' => rw [h] at h'; cases h'; exact ⟨rfl, rfl⟩
    | miss h' hne => rw [h] at h'; cases h'; exact absurd rfl hne
  | miss h hne _ ih =>
    cases h2 with
    | none h' => rw [h] at h'; cases h'
    | hit h' => rw [h] at h'; cases h'; exact absurd rfl hne
    | miss h' _ h3 => rw [h] at h'; cases h'; exact ih h3

omit [DecidableEq C] in
theorem ChildIs.unique {c : C} {it it1 it2 : It} {b1 b2 : Bool} (h1 : ChildIs next to c it b1 it1) (h2 : ChildIs next to c it b2 it2) :
    b1 = b2 ∧ it1 = it2 := by
  rcases h1 with ⟨e, rfl, rfl⟩ | ⟨e, h1⟩ <;> rcases h2 with ⟨e', rfl, rfl⟩ | ⟨e', h2⟩
  · exact ⟨rfl, rfl⟩
  · exact absurd e e'
  · exact absurd e' e
  · exact h1.unique h2

omit [DecidableEq C] in
theorem SpRun.unique {vis : List C} {st : List It} {out out' : List (List C)} (h : SpRun next start to minL maxL vis st out)
    (h' : SpRun next start to minL maxL vis st out') : out = out' := by
  induction h generalizing out' with
  | done => cases h'; rfl
  | empty h1 _ ih =>
    cases h' with
    | empty _ h3 => exact ih h3
    | found h2 => rw [h1] at h2; cases h2
    | short h2 => rw [h1] at h2; cases h2
    | seen h2 => rw [h1] at h2; cases h2
    | enter h2 => rw [h1] at h2; cases h2
    | last h2 => rw [h1] at h2; cases h2
    | back h2 => rw [h1] at h2; cases h2
  | found h1 hl hm _ ih =>
    cases h' with
    | empty h2 => rw [h1] at h2; cases h2
    | found h2 _ _ h3 => rw [h1] at h2; cases h2; rw [ih h3]
    | short h2 _ hm' => exact absurd hm hm'
    | seen h2 _ hne => rw [h1] at h2; cases h2; exact absurd rfl hne
    | enter h2 _ hne => rw [h1] at h2; cases h2; exact absurd rfl hne
    | last _ hl' => exact absurd hl hl'
    | back _ hl' => exact absurd hl hl'
  | short h1 hl hm _ ih =>
    cases h' with
    | empty h2 => rw [h1] at h2; cases h2
    | found h2 _ hm' => exact absurd hm' hm
    | short h2 _ _ h3 => rw [h1] at h2; cases h2; exact ih h3
    | seen h2 _ hne => rw [h1] at h2; cases h2; exact absurd rfl hne
    | enter h2 _ hne => rw [h1] at h2; cases h2; exact absurd rfl hne
    | last _ hl' => exact absurd hl hl'
    | back _ hl' => exact absurd hl hl'
  | seen h1 hl hne hv _ ih =>
    cases h' with
    | empty h2 => rw [h1] at h2; cases h2
    | found h2 => rw [h1] at h2; cases h2; exact absurd rfl hne
    | short h2 => rw [h1] at h2; cases h2; exact absurd rfl hne
    | seen h2 _ _ _ h3 => rw [h1] at h2; cases h2; exact ih h3
    | enter h2 _ _ hv' => rw [h1] at h2; cases h2; exact absurd hv hv'
    | last _ hl' => exact absurd hl hl'
    | back _ hl' => exact absurd hl hl'
  | enter h1 hl hne hv _ ih =>
    cases h' with
    | empty h2 => rw [h1] at h2; cases h2
    | found h2 => rw [h1] at h2; cases h2; exact absurd rfl hne
    | short h2 => rw [h1] at h2; cases h2; exact absurd rfl hne
    | seen h2 _ _ hv' => rw [h1] at h2; cases h2; exact absurd hv' hv
    | enter h2 _ _ _ h3 => rw [h1] at h2; cases h2; exact ih h3
    | last _ hl' => exact absurd hl hl'
    | back _ hl' => exact absurd hl hl'
  | last h1 hl hc hm _ ih =>
    cases h' with
    | empty h2 => rw [h1] at h2; cases h2
    | found _ hl' => exact absurd hl' hl
    | short _ hl' => exact absurd hl' hl
    | seen _ hl' => exact absurd hl' hl
    | enter _ hl' => exact absurd hl' hl
    | last h2 _ hc' _ h3 =>
      rw [h1] at h2; cases h2
      obtain ⟨-, rfl⟩ := hc.unique hc'
      rw [ih h3]
    | back h2 _ hc' hn =>
      rw [h1] at h2; cases h2
      obtain ⟨rfl, -⟩ := hc.unique hc'
      exact absurd ⟨rfl, hm⟩ hn
  | back h1 hl hc hn _ ih =>
    cases h' with
    | empty h2 => rw [h1] at h2; cases h2
    | found _ hl' => exact absurd hl' hl
    | short _ hl' => exact absurd hl' hl
    | seen _ hl' => exact absurd hl' hl
    | enter _ hl' => exact absurd hl' hl
    | last h2 _ hc' hm _ =>
      rw [h1] at h2; cases h2
      obtain ⟨rfl, -⟩ := hc.unique hc'
      exact absurd ⟨rfl, hm⟩ hn
    | back _ _ _ _ h3 => exact ih h3

/-- From `c` through `mid` to `to`, each from the neighbors of the one before. -/
def Thru (nb : C → List C) : C → List C → C → Prop
  | c, [], t => t ∈ nb c
  | c, m :: mid, t => m ∈ nb c ∧ Thru nb m mid t

theorem mem_spList {nb : C → List C} : ∀ (d : Nat) (vis : List C) (c : C) (K : List C), vis ≠ [] →
    (K ∈ spList nb to minL d vis (nb c) ↔ ∃ mid, K = vis ++ mid ++ [to] ∧ Thru nb c mid to ∧ (∀ m ∈ mid, m ∉ vis) ∧ mid.Nodup ∧ to ∉ mid ∧
      minL ≤ vis.length + mid.length ∧ mid.length ≤ d) := by
  intro d
  induction d with
  | zero =>
    intro vis c K _
    simp only [spList, List.mem_flatMap]
    constructor
    · rintro ⟨a, ha, hK⟩
      split at hK
      · rename_i h
        obtain ⟨rfl, hmin⟩ := h
        rw [List.mem_singleton] at hK
        exact ⟨[], by simp [hK], ha, (fun _ h => nomatch h), .nil, by simp, by simpa using hmin, Nat.le_refl _⟩
      · cases hK
    · rintro ⟨mid, rfl, hv, -, -, -, hmin, hd⟩
      have : mid = [] := List.eq_nil_of_length_eq_zero (by omega)
      subst this
      exact ⟨to, hv, by simp at hmin; simp [hmin]⟩
  | succ d ih =>
    intro vis c K _
    simp only [spList, List.mem_flatMap]
    constructor
    · rintro ⟨a, ha, hK⟩
      split at hK
      · rename_i h
        subst h
        split at hK
        · rename_i hmin
          rw [List.mem_singleton] at hK
          exact ⟨[], by simp [hK], ha, (fun _ h => nomatch h), .nil, by simp, by simpa using hmin, Nat.zero_le _⟩
        · cases hK
      · rename_i hne
        split at hK
        · cases hK
        · rename_i hv
          obtain ⟨mid, rfl, h1, h2, h3, h4, h5, h6⟩ := (ih (vis ++ [a]) a K (by simp)).1 hK
          refine ⟨a :: mid, by simp, ⟨ha, h1⟩, fun m hm => ?_, List.nodup_cons.2 ⟨fun hm => h2 a hm (by simp), h3⟩, ?_, ?_, ?_⟩
          · rcases List.mem_cons.1 hm with rfl | hm
            · exact hv
            · exact fun h => h2 m hm (by simp [h])
          · simpa [h4] using fun h => hne h.symm
          · simp at h5 ⊢; omega
          · simp; omega
    · rintro ⟨mid, rfl, hv, h1, h2, h3, h4, h5⟩
      cases mid with
      | nil => exact ⟨to, hv, by simp at h4; simp [h4]⟩
      | cons m mid =>
        refine ⟨m, hv.1, ?_⟩
        have hne : m ≠ to := fun e => h3 (by simp [e])
        rw [if_neg hne, if_neg (h1 m (by simp))]
        refine (ih (vis ++ [m]) m _ (by simp)).2 ⟨mid, by simp, hv.2, fun a ha hav => ?_, (List.nodup_cons.1 h2).2, fun h => h3 (by simp [h]), ?_, ?_⟩
        · rcases List.mem_append.1 hav with h | h
          · exact h1 a (by simp [ha]) h
          · rw [List.mem_singleton] at h
            exact (List.nodup_cons.1 h2).1 (h ▸ ha)
        · simp at h4 ⊢; omega
        · simp at h5; omega

/-- The node after `vis` tells the branches apart. -/
theorem spList_branch {nb : C → List C} {d : Nat} {vis : List C} {a : C} {K : List C} (hK : K ∈ (if a = to then if minL ≤ vis.length then [vis ++ [to]] else []
    else if a ∈ vis then [] else spList nb to minL d (vis ++ [a]) (nb a))) : K[vis.length]? = some a := by
  split at hK
  · rename_i e
    subst e
    split at hK
    · rw [List.mem_singleton] at hK; simp [hK]
    · cases hK
  · split at hK
    · cases hK
    · obtain ⟨mid, rfl, -⟩ := (mem_spList d (vis ++ [a]) a K (by simp)).1 hK
      simp

/-- In how many ways the neighbor lists lead from `c` along `l`. -/
def waysAlong (nb : C → List C) : C → List C → Nat
  | _, [] => 1
  | c, m :: l => (nb c).count m * waysAlong nb m l

theorem count_flatMap_one {β : Type} [BEq β] {f : C → List β} {K : β} {m : C} {v : Nat} :
    ∀ {l : List C}, (∀ a, (f a).count K = if a = m then v else 0) → (l.flatMap f).count K = l.count m * v
  | [], _ => by simp
  | a :: l, h => by
    rw [List.flatMap_cons, List.count_append, h, count_flatMap_one h, List.count_cons]
    by_cases e : a = m
    · simp only [e, if_true, beq_self_eq_true, Nat.add_mul, Nat.one_mul]; omega
    · simp [e]

theorem count_spList {nb : C → List C} : ∀ (d : Nat) (vis : List C) (c : C) (mid : List C), (∀ m ∈ mid, m ∉ vis) → mid.Nodup → to ∉ mid →
    minL ≤ vis.length + mid.length → mid.length ≤ d →
    (spList nb to minL d vis (nb c)).count (vis ++ mid ++ [to]) = waysAlong nb c (mid ++ [to]) := by
  intro d
  induction d with
  | zero =>
    intro vis c mid h1 h2 h3 h4 h5
    have : mid = [] := List.eq_nil_of_length_eq_zero (by omega)
    subst this
    simp only [spList, waysAlong, List.nil_append, List.append_nil]
    refine count_flatMap_one fun a => ?_
    simp at h4
    by_cases e : a = to <;> simp [e, h4]
  | succ d ih =>
    intro vis c mid h1 h2 h3 h4 h5
    simp only [spList]
    cases mid with
    | nil =>
      simp only [waysAlong, List.nil_append, List.append_nil]
      refine count_flatMap_one fun a => ?_
      simp at h4
      by_cases e : a = to
      · simp [e, h4]
      · rw [if_neg e, if_neg e]
        refine List.count_eq_zero.2 fun hK => e ?_
        have := spList_branch (to := to) (minL := minL) (nb := nb) (d := d) (a := a) (vis := vis) (K := vis ++ [to]) (by rw [if_neg e]; exact hK)
        simpa using this.symm
    | cons m mid =>
      simp only [waysAlong, List.cons_append]
      refine count_flatMap_one fun a => ?_
      by_cases e : a = m
      · subst e
        have hne : a ≠ to := fun e => h3 (by simp [e])
        rw [if_neg hne, if_neg (h1 a (by simp)), if_pos rfl, ← ih (vis ++ [a]) a mid ?_ (List.nodup_cons.1 h2).2 (fun h => h3 (by simp [h])) ?_ ?_]
        · simp
        · intro b hb hv
          rcases List.mem_append.1 hv with h | h
          · exact h1 b (by simp [hb]) h
          · rw [List.mem_singleton] at h
            exact (List.nodup_cons.1 h2).1 (h ▸ hb)
        · simp at h4 ⊢; omega
        · simp at h5; omega
      · rw [if_neg e]
        refine List.count_eq_zero.2 fun hK => e ?_
        have := spList_branch hK
        simpa using this.symm

theorem nodup_spList {nb : C → List C} {Q : C → Prop} (hQ : ∀ c, Q c → ∀ b ∈ nb c, Q b) (hn : ∀ c, Q c → (nb c).Nodup) :
    ∀ (d : Nat) (vis : List C) (c : C), Q c → vis ≠ [] → (spList nb to minL d vis (nb c)).Nodup := by
  intro d
  induction d with
  | zero =>
    intro vis c hc _
    simp only [spList]
    unfold List.Nodup
    rw [List.pairwise_flatMap]
    refine ⟨fun a _ => by split <;> simp, (hn c hc).imp fun hne p hp q hq => ?_⟩
    split at hp
    · split at hq
      · rename_i h1 h2
        exact absurd (h1.1.trans h2.1.symm) hne
      · cases hq
    · cases hp
  | succ d ih =>
    intro vis c hc hvis
    simp only [spList]
    unfold List.Nodup
    rw [List.pairwise_flatMap]
    refine ⟨fun a ha => ?_, ?_⟩
    · split
      · split <;> simp
      · split
        · exact .nil
        · exact ih _ a (hQ c hc a ha) (by simp)
    · refine List.Pairwise.imp_of_mem (fun ha hb hne p hp q hq e => ?_) (hn c hc)
      have h1 := spList_branch hp
      have h2 := spList_branch hq
      rw [e, h2] at h1
      exact hne (Option.some.inj h1).symm

omit [DecidableEq C] in
theorem thru_far {nb : C → List C} {Q : C → Prop} (hQ : ∀ c, Q c → ∀ b ∈ nb c, Q b) {δ : C → Nat} (h0 : δ to = 0)
    (h1 : ∀ c, Q c → ∀ m ∈ nb c, δ c ≤ δ m + 1) : ∀ (mid : List C) (c : C), Q c → Thru nb c mid to → δ c ≤ mid.length + 1
  | [], c, hc, h => by have := h1 c hc to h; simp; omega
  | m :: mid, c, hc, h => by
    have h2 := h1 c hc m h.1
    have h3 := thru_far hQ h0 h1 mid m (hQ c hc m h.1) h.2
    simp; omega

omit [DecidableEq C] in
theorem length_flatMap_eq {β : Type} {f : C → List β} {v : C → Nat} : ∀ {l : List C}, (∀ a ∈ l, (f a).length = v a) → (l.flatMap f).length = (l.map v).sum
  | [], _ => rfl
  | a :: l, h => by
    rw [List.flatMap_cons, List.length_append, h a (by simp), length_flatMap_eq fun b hb => h b (by simp [hb])]
    rfl

/-- How many shortest paths there are, if `f` counts them by the distance `δ` to the end. -/
theorem length_shortest {nb : C → List C} {Q : C → Prop} (hQ : ∀ c, Q c → ∀ b ∈ nb c, Q b) {δ f : C → Nat} (h0 : ∀ c, δ c = 0 ↔ c = to)
    (h1 : ∀ c, Q c → ∀ m ∈ nb c, δ c = δ m + 1 ∨ δ m = δ c + 1) (hf : f to = 1)
    (hr : ∀ c, Q c → c ≠ to → f c = ((nb c).map fun m => if δ m < δ c then f m else 0).sum) :
    ∀ (d : Nat) (vis : List C) (c : C), Q c → δ c = d + 1 → (∀ v ∈ vis, d + 1 ≤ δ v) → minL ≤ vis.length → vis ≠ [] →
      (spList nb to minL d vis (nb c)).length = f c := by
  have hto : ∀ c, c = to → δ c = 0 := fun c => (h0 c).2
  intro d
  induction d with
  | zero =>
    intro vis c hc hd hvis hmin hne
    have hct : c ≠ to := fun e => by have := hto c e; omega
    rw [hr c hc hct]
    simp only [spList]
    refine length_flatMap_eq fun m hm => ?_
    by_cases e : m = to
    · have := hto m e
      rw [if_pos ⟨e, hmin⟩, if_pos (by omega), e, hf]
      rfl
    · have : δ m ≠ 0 := fun h => e ((h0 m).1 h)
      rw [if_neg fun h => e h.1, if_neg (by omega)]
      rfl
  | succ d ih =>
    intro vis c hc hd hvis hmin hne
    have hct : c ≠ to := fun e => by have := hto c e; omega
    rw [hr c hc hct]
    simp only [spList]
    refine length_flatMap_eq fun m hm => ?_
    have hstep := h1 c hc m hm
    have hmt : m ≠ to := fun e => by have := hto m e; omega
    rw [if_neg hmt]
    by_cases hv : m ∈ vis
    · have := hvis m hv
      rw [if_pos hv, if_neg (by omega)]
      rfl
    · rw [if_neg hv]
      by_cases hlt : δ m < δ c
      · rw [if_pos hlt]
        refine ih (vis ++ [m]) m (hQ c hc m hm) (by omega) (fun v hv' => ?_) (by simp; omega) (by simp)
        rcases List.mem_append.1 hv' with h | h
        · have := hvis v h; omega
        · rw [List.mem_singleton] at h
          rw [h]; omega
      · rw [if_neg hlt, List.length_eq_zero_iff, List.eq_nil_iff_forall_not_mem]
        intro K hK
        obtain ⟨mid, -, hth, -, -, -, -, hlen⟩ := (mem_spList d (vis ++ [m]) m K (by simp)).1 hK
        have := thru_far hQ (hto to rfl) (fun c hc m hm => by have := h1 c hc m hm; omega) mid m (hQ c hc m hm) hth
        omega

theorem shortest_length {nb : C → List C} {Q : C → Prop} (hQ : ∀ c, Q c → ∀ b ∈ nb c, Q b) {δ : C → Nat} (h0 : δ to = 0)
    (h1 : ∀ c, Q c → ∀ m ∈ nb c, δ c ≤ δ m + 1) {c : C} (hc : Q c) {d : Nat} (hd : δ c = d + 1) {K : List C}
    (hK : K ∈ spList nb to minL d [c] (nb c)) : K.length = δ c + 1 := by
  obtain ⟨mid, rfl, hth, -, -, -, -, hlen⟩ := (mem_spList d [c] c K (by simp)).1 hK
  have := thru_far hQ h0 h1 mid c hc hth
  simp; omega
end

/-- In how many orders `x` steps of one kind and `y` of another can be taken. -/
def interleavings : Nat → Nat → Nat
  | 0, _ => 1
  | _ + 1, 0 => 1
  | x + 1, y + 1 => interleavings x (y + 1) + interleavings (x + 1) y

/-- `n!` -/
def fact : Nat → Nat
  | 0 => 1
  | n + 1 => (n + 1) * fact n

theorem interleavings_fact : ∀ x y : Nat, interleavings x y * (fact x * fact y) = fact (x + y)
  | 0, y => by simp [interleavings, fact]
  | x + 1, 0 => by simp [interleavings, fact]
  | x + 1, y + 1 => by
    have h1 := interleavings_fact x (y + 1)
    have h2 := interleavings_fact (x + 1) y
    rw [show x + (y + 1) = x + y + 1 from rfl] at h1
    rw [show x + 1 + y = x + y + 1 by omega] at h2
    rw [show x + 1 + (y + 1) = (x + y + 1) + 1 by omega]
    rw [interleavings, Nat.add_mul]
    have e1 : interleavings x (y + 1) * (fact (x + 1) * fact (y + 1)) = (x + 1) * fact (x + y + 1) := by
      rw [← h1, show fact (x + 1) = (x + 1) * fact x from rfl]; ac_rfl
    have e2 : interleavings (x + 1) y * (fact (x + 1) * fact (y + 1)) = (y + 1) * fact (x + y + 1) := by
      rw [← h2, show fact (y + 1) = (y + 1) * fact y from rfl]; ac_rfl
    rw [e1, e2, ← Nat.add_mul, show fact (x + y + 1 + 1) = (x + y + 1 + 1) * fact (x + y + 1) from rfl]
    congr 1
    omega
end LG
