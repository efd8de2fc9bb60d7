import Verif.Lemmas.Whole
/- `connected_components` and `is_cyclic_undirected` over the numbers below `n`. -/
namespace LG

/-- Joined by edges, whichever way they point. -/
inductive Joined {V : Type} (R : V → V → Prop) : V → V → Prop where
  | refl {x : V} : Joined R x x
  | edge {x y : V} : R x y → Joined R x y
  | symm {x y : V} : Joined R x y → Joined R y x
  | trans {x y z : V} : Joined R x y → Joined R y z → Joined R x z

theorem Joined.mono {V : Type} {R R' : V → V → Prop} (h : ∀ x y, R x y → R' x y) {x y : V} (hj : Joined R x y) : Joined R' x y := by
  induction hj with
  | refl => exact .refl
  | edge e => exact .edge (h _ _ e)
  | symm _ ih => exact ih.symm
  | trans _ _ ih1 ih2 => exact ih1.trans ih2

/-- The list has this edge. -/
def EdgeIn (es : List (Nat × Nat)) (x y : Nat) : Prop := (x, y) ∈ es

/-- With one edge more. -/
theorem joined_add {es es' : List (Nat × Nat)} {u v : Nat} (he : ∀ e, e ∈ es' ↔ e ∈ es ∨ e = (u, v)) {x y : Nat} :
    Joined (EdgeIn es') x y ↔ Joined (EdgeIn es) x y ∨ (Joined (EdgeIn es) x u ∧ Joined (EdgeIn es) v y) ∨
      (Joined (EdgeIn es) x v ∧ Joined (EdgeIn es) u y) := by
  constructor
  · intro h
    induction h with
    | refl => exact .inl .refl
    | edge e =>
      rcases (he _).1 e with h | h
      · exact .inl (.edge h)
      · cases h; exact .inr (.inl ⟨.refl, .refl⟩)
    | symm _ ih =>
      rcases ih with h | ⟨h1, h2⟩ | ⟨h1, h2⟩
      · exact .inl h.symm
      · exact .inr (.inr ⟨h2.symm, h1.symm⟩)
      · exact .inr (.inl ⟨h2.symm, h1.symm⟩)
    | trans _ _ ih1 ih2 =>
      rcases ih1 with h | ⟨h1, h2⟩ | ⟨h1, h2⟩ <;> rcases ih2 with g | ⟨g1, g2⟩ | ⟨g1, g2⟩
      · exact .inl (h.trans g)
      · exact .inr (.inl ⟨h.trans g1, g2⟩)
      · exact .inr (.inr ⟨h.trans g1, g2⟩)
      · exact .inr (.inl ⟨h1, h2.trans g⟩)
      · exact .inr (.inl ⟨h1, g2⟩)
      · exact .inl (h1.trans g2)
      · exact .inr (.inr ⟨h1, h2.trans g⟩)
      · exact .inl (h1.trans g2)
      · exact .inr (.inr ⟨h1, g2⟩)
  · have up : ∀ {a b}, Joined (EdgeIn es) a b → Joined (EdgeIn es') a b := Joined.mono fun _ _ h => (he _).2 (.inl h)
    have huv : Joined (EdgeIn es') u v := .edge ((he _).2 (.inr rfl))
    rintro (h | ⟨h1, h2⟩ | ⟨h1, h2⟩)
    · exact up h
    · exact ((up h1).trans huv).trans (up h2)
    · exact ((up h1).trans huv.symm).trans (up h2)

/-- The labels stand for the components of the edges so far; each label is in its class. -/
structure LabInv (n : Nat) (es : List (Nat × Nat)) (lab : Nat → Nat) : Prop where
  eq : ∀ x y, lab x = lab y ↔ Joined (EdgeIn es) x y
  root : ∀ x, lab (lab x) = lab x
  lt : ∀ x, x < n → lab x < n

theorem LabInv.init (n : Nat) : LabInv n [] id where
  eq := fun x y => ⟨fun h => by cases (h : x = y); exact .refl, fun h => by
    induction h with
    | refl => rfl
    | edge e => cases e
    | symm _ ih => exact ih.symm
    | trans _ _ ih1 ih2 => exact ih1.trans ih2⟩
  root := fun _ => rfl
  lt := fun _ h => h

/-- How many classes: the labels that stand for themselves. -/
def rootCount (n : Nat) (lab : Nat → Nat) : Nat := ((List.range n).filter fun i => lab i == i).length

theorem filter_drop_one {a : Nat} {p q : Nat → Bool} (hp : p a = true) (hq : q a = false) (h : ∀ i, i ≠ a → p i = q i) :
    ∀ (l : List Nat), l.Nodup → a ∈ l → (l.filter p).length = (l.filter q).length + 1
  | [], _, hm => nomatch hm
  | b :: l, hn, hm => by
    obtain ⟨h1, h2⟩ := List.nodup_cons.1 hn
    by_cases e : b = a
    · subst e
      have : l.filter p = l.filter q := List.filter_congr fun i hi => h i fun e => h1 (e ▸ hi)
      rw [List.filter_cons_of_pos hp, List.filter_cons_of_neg (by rw [hq]; decide), this, List.length_cons]
    · have ih := filter_drop_one hp hq h l h2 ((List.mem_cons.1 hm).resolve_left fun h => e h.symm)
      rw [List.filter_cons, List.filter_cons, h b e]
      split
      · rw [List.length_cons, List.length_cons, ih]
      · exact ih

/-- A union of two that were apart. -/
theorem LabInv.union {n : Nat} {es es' : List (Nat × Nat)} {lab : Nat → Nat} (hv : LabInv n es lab) {x y : Nat} (hx : x < n) (hy : y < n)
    (he : ∀ e, e ∈ es' ↔ e ∈ es ∨ e = (x, y)) (hne : lab x ≠ lab y) :
    LabInv n es' (fun i => if lab i = lab x then lab y else lab i) ∧
    rootCount n lab = rootCount n (fun i => if lab i = lab x then lab y else lab i) + 1 := by
  refine ⟨⟨fun i j => ?_, fun i => ?_, fun i hi => ?_⟩, ?_⟩
  · rw [joined_add he, ← hv.eq, ← hv.eq, ← hv.eq, ← hv.eq, ← hv.eq]
    split <;> split <;> omega
  · by_cases h : lab i = lab x
    · rw [if_pos h, hv.root]; split <;> rfl
    · rw [if_neg h, hv.root, if_neg h]
  · split
    · exact hv.lt y hy
    · exact hv.lt i hi
  · refine filter_drop_one (a := lab x) ?_ ?_ ?_ _ List.nodup_range (List.mem_range.2 (hv.lt x hx))
    · simp only [hv.root, beq_self_eq_true]
    · simp only [hv.root, if_true]
      simpa using fun h => hne h.symm
    · intro i hi
      show (lab i == i) = ((if lab i = lab x then lab y else lab i) == i)
      by_cases h : lab i = lab x
      · rw [if_pos h]
        have h1 : lab i ≠ i := fun e => hi (by rw [← h, e])
        have h2 : lab y ≠ i := fun e => by
          have := hv.root y
          rw [e] at this
          omega
        rw [beq_eq_false_iff_ne.2 h1, beq_eq_false_iff_ne.2 h2]
      · rw [if_neg h]

/-- A union of two that were together. -/
theorem LabInv.keep {n : Nat} {es es' : List (Nat × Nat)} {lab : Nat → Nat} (hv : LabInv n es lab) {x y : Nat}
    (he : ∀ e, e ∈ es' ↔ e ∈ es ∨ e = (x, y)) (heq : lab x = lab y) : LabInv n es' lab where
  eq := fun i j => by
    rw [joined_add he, ← hv.eq, ← hv.eq, ← hv.eq, ← hv.eq, ← hv.eq]
    omega
  root := hv.root
  lt := hv.lt

/-- Some edge joins what the others already join: there is a cycle. A second edge between the same two, and an edge from a node to
itself, count. -/
def HasCycle (es : List (Nat × Nat)) : Prop := ∃ l1 x y l2, es = l1 ++ (x, y) :: l2 ∧ Joined (EdgeIn (l1 ++ l2)) x y

/-- It is enough to look at the edges before. -/
theorem hasCycle_iff (es : List (Nat × Nat)) :
    HasCycle es ↔ ∃ l1 x y l2, es = l1 ++ (x, y) :: l2 ∧ Joined (EdgeIn l1) x y := by
  constructor
  · rintro ⟨l1, x, y, l2, rfl, h⟩
    have key : ∀ (l2 : List (Nat × Nat)), Joined (EdgeIn (l1 ++ l2.reverse)) x y →
        ∃ m1 u v m2, l1 ++ (x, y) :: l2.reverse = m1 ++ (u, v) :: m2 ∧ Joined (EdgeIn m1) u v := by
      intro l2
      induction l2 with
      | nil => exact fun h => ⟨l1, x, y, [], rfl, by simpa using h⟩
      | cons e l2 ih =>
        obtain ⟨u, v⟩ := e
        intro h
        have he : ∀ e, e ∈ l1 ++ ((u, v) :: l2).reverse ↔ e ∈ l1 ++ l2.reverse ∨ e = (u, v) := fun e => by
          simp only [List.reverse_cons, List.mem_append, List.mem_singleton, or_assoc]
        have up : ∀ {a b}, Joined (EdgeIn (l1 ++ l2.reverse)) a b → Joined (EdgeIn (l1 ++ (x, y) :: l2.reverse)) a b :=
          Joined.mono fun a b h => by
            show _ ∈ _
            have h' : _ ∈ _ := h
            simp only [List.mem_append, List.mem_cons] at h' ⊢
            rcases h' with h | h
            · exact .inl h
            · exact .inr (.inr h)
        have hxy : Joined (EdgeIn (l1 ++ (x, y) :: l2.reverse)) x y := .edge (List.mem_append_right _ List.mem_cons_self)
        have done : Joined (EdgeIn (l1 ++ (x, y) :: l2.reverse)) u v →
            ∃ m1 u' v' m2, l1 ++ (x, y) :: ((u, v) :: l2).reverse = m1 ++ (u', v') :: m2 ∧ Joined (EdgeIn m1) u' v' := fun h =>
          ⟨l1 ++ (x, y) :: l2.reverse, u, v, [], by simp, h⟩
        rcases (joined_add he).1 h with h | ⟨h1, h2⟩ | ⟨h1, h2⟩
        · obtain ⟨m1, u', v', m2, h3, h4⟩ := ih h
          exact ⟨m1, u', v', m2 ++ [(u, v)], by rw [List.reverse_cons, ← List.cons_append, ← List.append_assoc, h3]; simp, h4⟩
        · exact done (((up h1).symm.trans hxy).trans (up h2).symm)
        · exact done (((up h2).trans hxy.symm).trans (up h1))
    have := key l2.reverse (by rw [List.reverse_reverse]; exact h)
    rwa [List.reverse_reverse] at this
  · rintro ⟨l1, x, y, l2, rfl, h⟩
    exact ⟨l1, x, y, l2, rfl, h.mono fun _ _ h => List.mem_append_left _ h⟩

theorem ccLoop_spec {n : Nat} : ∀ (l es : List (Nat × Nat)) (lab : Nat → Nat), (∀ e ∈ l, e.1 < n ∧ e.2 < n) → LabInv n es lab →
    ∃ lab', ccLoop n l lab = .ok lab' ∧ LabInv n (es ++ l) lab' ∧ rootCount n lab ≤ rootCount n lab' + l.length ∧
      ∃ b, cycLoop n l lab = .ok b ∧ (b = false ↔ rootCount n lab = rootCount n lab' + l.length) ∧
        (b = true ↔ ∃ l1 x y l2, l = l1 ++ (x, y) :: l2 ∧ Joined (EdgeIn (es ++ l1)) x y) := by
  intro l
  induction l with
  | nil =>
    exact fun es lab _ hv => ⟨lab, rfl, by rwa [List.append_nil], Nat.le_refl _, false, rfl, ⟨fun _ => rfl, fun _ => rfl⟩,
      (nomatch ·), by rintro ⟨l1, x, y, l2, h, -⟩; cases l1 <;> cases h⟩
  | cons e l ih =>
    obtain ⟨x, y⟩ := e
    intro es lab hl hv
    have hxy : x < n ∧ y < n := hl (x, y) List.mem_cons_self
    have hl' : ∀ e ∈ l, e.1 < n ∧ e.2 < n := fun e he => hl e (List.mem_cons_of_mem _ he)
    have he : ∀ e, e ∈ es ++ [(x, y)] ↔ e ∈ es ∨ e = (x, y) := fun e => by simp
    have hsplit : ∀ b : Prop, (b ∨ ∃ l1 u v l2, l = l1 ++ (u, v) :: l2 ∧ Joined (EdgeIn (es ++ [(x, y)] ++ l1)) u v) →
        (b → Joined (EdgeIn es) x y) → ∃ l1 u v l2, (x, y) :: l = l1 ++ (u, v) :: l2 ∧ Joined (EdgeIn (es ++ l1)) u v := by
      rintro b (h | ⟨l1, u, v, l2, rfl, h⟩) hb
      · exact ⟨[], x, y, l, rfl, by rw [List.append_nil]; exact hb h⟩
      · exact ⟨(x, y) :: l1, u, v, l2, rfl, by rw [List.append_assoc] at h; exact h⟩
    by_cases heq : lab x = lab y
    · obtain ⟨lab', h1, h2, h3, b, h4, h5, h6⟩ := ih (es ++ [(x, y)]) lab hl' (hv.keep he heq)
      refine ⟨lab', ?_, by rw [List.append_assoc] at h2; exact h2, by rw [List.length_cons]; omega, true, ?_, ⟨(nomatch ·), fun h => ?_⟩,
        fun _ => ?_, fun _ => rfl⟩
      · unfold ccLoop ufUnion
        rw [if_pos hxy, if_pos heq]; exact h1
      · unfold cycLoop ufUnion
        rw [if_pos hxy, if_pos heq]; rfl
      · rw [List.length_cons] at h; omega
      · exact ⟨[], x, y, l, rfl, by rw [List.append_nil]; exact (hv.eq x y).1 heq⟩
    · obtain ⟨hv', hc⟩ := hv.union hxy.1 hxy.2 he heq
      obtain ⟨lab', h1, h2, h3, b, h4, h5, h6⟩ := ih (es ++ [(x, y)]) _ hl' hv'
      refine ⟨lab', ?_, by rw [List.append_assoc] at h2; exact h2, by rw [List.length_cons]; omega, b, ?_, ?_, ?_, ?_⟩
      · unfold ccLoop ufUnion
        rw [if_pos hxy, if_neg heq]; exact h1
      · unfold cycLoop ufUnion
        rw [if_pos hxy, if_neg heq]; exact h4
      · rw [h5, List.length_cons]; omega
      · exact fun h => hsplit False (.inr (h6.1 h)) False.elim
      · rintro ⟨l1, u, v, l2, h, hj⟩
        cases l1 with
        | nil =>
          cases h
          rw [List.append_nil] at hj
          exact absurd ((hv.eq _ _).2 hj) heq
        | cons e l1 =>
          cases h
          exact h6.2 ⟨l1, u, v, l2, rfl, by rw [List.append_assoc]; exact hj⟩

theorem nodup_eraseDups : ∀ (k : Nat) (l : List Nat), l.length ≤ k → l.eraseDups.Nodup
  | _, [], _ => List.nodup_nil
  | k + 1, a :: l, h => by
    rw [List.eraseDups_cons]
    refine List.nodup_cons.2 ⟨fun hm => ?_, nodup_eraseDups k _ ?_⟩
    · have := (List.mem_filter.1 (List.mem_eraseDups.1 hm)).2
      simp at this
    · have := List.length_filter_le (fun b => !b == a) l
      rw [List.length_cons] at h
      omega

/-- `r` components: as many nodes, no two of them joined, and each node joined to one of them. -/
def ComponentCount {V : Type} (P : V → Prop) (R : V → V → Prop) (r : Nat) : Prop :=
  ∃ l : List V, l.length = r ∧ (∀ x ∈ l, P x) ∧ l.Pairwise (fun x y => ¬ Joined R x y) ∧ ∀ x, P x → ∃ y ∈ l, Joined R x y

theorem ccRun_spec {n : Nat} {es : List (Nat × Nat)} (hes : ∀ e ∈ es, e.1 < n ∧ e.2 < n) :
    ∃ r b, ccRun n es = .ok r ∧ ComponentCount (· < n) (EdgeIn es) r ∧ cycLoop n es id = .ok b ∧ (b = true ↔ HasCycle es) ∧
      n ≤ es.length + r ∧ (b = false ↔ es.length + r = n) := by
  obtain ⟨lab, h1, hv, h3, b, h4, h5, h6⟩ := ccLoop_spec es [] id hes (.init n)
  rw [List.nil_append] at hv
  have hn : rootCount n id = n := by
    unfold rootCount
    rw [List.filter_eq_self.2 (fun i _ => by simp), List.length_range]
  have hlen : ((List.range n).map lab).eraseDups.length = rootCount n lab := by
    have hm : ∀ i, i ∈ ((List.range n).map lab).eraseDups ↔ i ∈ (List.range n).filter fun i => lab i == i := by
      intro i
      rw [List.mem_eraseDups, List.mem_map, List.mem_filter]
      constructor
      · rintro ⟨j, hj, rfl⟩
        exact ⟨List.mem_range.2 (hv.lt j (List.mem_range.1 hj)), by simpa using hv.root j⟩
      · rintro ⟨h7, h8⟩
        exact ⟨i, h7, by simpa using h8⟩
    exact Nat.le_antisymm
      ((nodup_eraseDups _ _ (Nat.le_refl _)).length_le_of_subset fun i hi => (hm i).1 hi)
      (List.Nodup.length_le_of_subset (List.nodup_range.filter _) fun i hi => (hm i).2 hi)
  refine ⟨rootCount n lab, b, ?_, ⟨(List.range n).filter fun i => lab i == i, rfl, ?_, ?_, ?_⟩, h4, ?_, by omega, ?_⟩
  · unfold ccRun
    rw [h1, ← hlen]; rfl
  · exact fun i hi => List.mem_range.1 (List.mem_filter.1 hi).1
  · have hd : ((List.range n).filter fun i => lab i == i).Pairwise (· ≠ ·) := List.nodup_range.filter _
    refine hd.imp_of_mem fun {x y} hx hy hne hj => ?_
    have h7 : lab x = x := by simpa using (List.mem_filter.1 hx).2
    have h8 : lab y = y := by simpa using (List.mem_filter.1 hy).2
    have := (hv.eq x y).2 hj
    omega
  · intro x hx
    refine ⟨lab x, List.mem_filter.2 ⟨List.mem_range.2 (hv.lt x hx), by simpa using hv.root x⟩, (hv.eq _ _).1 (hv.root x).symm⟩
  · rw [h6, hasCycle_iff]
    simp only [List.nil_append]
  · rw [h5, hn]; omega
end LG
