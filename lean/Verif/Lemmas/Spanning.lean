import Verif.Model.Spanning
import Verif.Lemmas.Indexed
/- Kruskal's algorithm over the numbers below `n`. -/
namespace LG

theorem Joined.bind {V : Type} {R R' : V → V → Prop} (h : ∀ x y, R x y → Joined R' x y) {x y : V} (hj : Joined R x y) : Joined R' x y := by
  induction hj with
  | refl => exact .refl
  | edge e => exact h _ _ e
  | symm _ ih => exact ih.symm
  | trans _ _ ih1 ih2 => exact ih1.trans ih2

section
variable {E : Type}

/-- The ends of the edges. -/
def ends (l : List (Nat × Nat × E)) : List (Nat × Nat) := l.map fun e => (e.1, e.2.1)

/-- The total cost. -/
def totalCost (cost : E → Nat) (l : List (Nat × Nat × E)) : Nat := (l.map fun e => cost e.2.2).sum

theorem ends_append (a b : List (Nat × Nat × E)) : ends (a ++ b) = ends a ++ ends b := List.map_append

theorem mem_ends {l : List (Nat × Nat × E)} {x y : Nat} : (x, y) ∈ ends l ↔ ∃ w, (x, y, w) ∈ l := by
  unfold ends
  constructor
  · intro h
    obtain ⟨⟨a, b, w⟩, h1, h2⟩ := List.mem_map.1 h
    cases h2
    exact ⟨w, h1⟩
  · rintro ⟨w, h⟩
    exact List.mem_map.2 ⟨_, h, rfl⟩

theorem totalCost_mid {cost : E → Nat} (a b : List (Nat × Nat × E)) (e : Nat × Nat × E) :
    totalCost cost (a ++ e :: b) = cost e.2.2 + totalCost cost (a ++ b) := by
  unfold totalCost
  simp only [List.map_append, List.map_cons, List.sum_append_nat, List.sum_cons]
  omega

/-- The first edge of the list that brings the two together. -/
theorem first_join {x y : Nat} : ∀ (T : List (Nat × Nat × E)) (done : List (Nat × Nat)), ¬ Joined (EdgeIn done) x y →
    Joined (EdgeIn (done ++ ends T)) x y → ∃ T1 f T2, T = T1 ++ f :: T2 ∧ ¬ Joined (EdgeIn (done ++ ends T1)) x y ∧
      Joined (EdgeIn (done ++ ends T1 ++ [(f.1, f.2.1)])) x y
  | [], done, h1, h2 => by
    simp only [ends, List.map_nil, List.append_nil] at h2
    exact absurd h2 h1
  | f :: T, done, h1, h2 => by
    by_cases hj : Joined (EdgeIn (done ++ [(f.1, f.2.1)])) x y
    · exact ⟨[], f, T, rfl, by simpa [ends] using h1, by simpa [ends] using hj⟩
    · obtain ⟨T1, f', T2, h3, h4, h5⟩ := first_join T (done ++ [(f.1, f.2.1)]) hj (by simpa [ends] using h2)
      refine ⟨f :: T1, f', T2, by rw [h3]; rfl, ?_, ?_⟩
      · simpa [ends] using h4
      · simpa [ends] using h5

theorem perm_drop {α : Type} {a b rest l : List α} {e : α} (h : ((a ++ e :: b) ++ rest).Perm (e :: l)) : ((a ++ b) ++ rest).Perm l := by
  have h1 : ((a ++ e :: b) ++ rest).Perm (e :: ((a ++ b) ++ rest)) := by
    rw [List.append_assoc, List.append_assoc, List.cons_append]
    exact List.perm_middle
  exact (h1.symm.trans h).cons_inv

theorem mstLoop_spec {cost : E → Nat} {n : Nat} {order : Nat → Option Nat} (ho : ∀ i, i < n → order i = some i) :
    ∀ (l : List (Nat × Nat × E)) (done : List (Nat × Nat)) (lab : Nat → Nat), (∀ e ∈ l, e.1 < n ∧ e.2.1 < n) → LabInv n done lab →
    l.Pairwise (fun a b => cost a.2.2 ≤ cost b.2.2) →
    ∃ out, mstLoop n order l lab = .ok out ∧ out.Sublist l ∧
      (∀ x y, Joined (EdgeIn (done ++ ends l)) x y → Joined (EdgeIn (done ++ ends out)) x y) ∧
      (∀ l1 e l2, out = l1 ++ e :: l2 → ¬ Joined (EdgeIn (done ++ ends l1)) e.1 e.2.1) ∧
      (∀ T rest, (T ++ rest).Perm l → (∀ x y, Joined (EdgeIn (done ++ ends l)) x y → Joined (EdgeIn (done ++ ends T)) x y) →
        totalCost cost out ≤ totalCost cost T) := by
  intro l
  induction l with
  | nil =>
    refine fun done lab _ _ _ => ⟨[], rfl, .slnil, fun _ _ h => h, fun l1 e l2 h => ?_, fun T rest _ _ => Nat.zero_le _⟩
    cases l1 <;> cases h
  | cons e l ih =>
    obtain ⟨x, y, w⟩ := e
    intro done lab hl hv hp
    have hxy : x < n ∧ y < n := hl (x, y, w) List.mem_cons_self
    have hl' : ∀ e ∈ l, e.1 < n ∧ e.2.1 < n := fun e he => hl e (List.mem_cons_of_mem _ he)
    obtain ⟨hp1, hp2⟩ := List.pairwise_cons.1 hp
    have he : ∀ e, e ∈ done ++ [(x, y)] ↔ e ∈ done ∨ e = (x, y) := fun e => by simp
    -- the edges of the whole list against those of the rest
    have grow : ∀ {m : List (Nat × Nat × E)} {a b}, Joined (EdgeIn (done ++ ends m)) a b → Joined (EdgeIn (done ++ ends ((x, y, w) :: m))) a b :=
      fun {m a b} h => h.mono fun u v h => by
        show _ ∈ _
        have h : _ ∈ _ := h
        simp only [ends, List.map_cons, List.mem_append, List.mem_cons] at h ⊢
        rcases h with h | h
        · exact .inl h
        · exact .inr (.inr h)
    by_cases heq : lab x = lab y
    · have hjd : Joined (EdgeIn done) x y := (hv.eq x y).1 heq
      have shrink : ∀ {m m' : List (Nat × Nat × E)} {a b}, (∀ e, e ∈ m → e = (x, y, w) ∨ e ∈ m') →
          Joined (EdgeIn (done ++ ends m)) a b → Joined (EdgeIn (done ++ ends m')) a b := fun {m m' a b} hm h =>
        h.bind fun u v h => by
          rcases List.mem_append.1 (h : _ ∈ _) with h | h
          · exact .edge (List.mem_append_left _ h)
          · obtain ⟨w', h⟩ := mem_ends.1 h
            rcases hm _ h with h | h
            · cases h
              exact hjd.mono fun _ _ h => List.mem_append_left _ h
            · exact .edge (List.mem_append_right _ (mem_ends.2 ⟨w', h⟩))
      obtain ⟨out, h1, h2, h3, h4, h5⟩ := ih done lab hl' hv hp2
      refine ⟨out, ?_, .cons _ h2, fun a b h => h3 a b (shrink (fun e he => List.mem_cons.1 he) h), h4, fun T rest hT hs => ?_⟩
      · unfold mstLoop ufUnion
        rw [if_pos hxy, if_pos heq]; exact h1
      · have hm : (x, y, w) ∈ T ++ rest := hT.mem_iff.2 List.mem_cons_self
        rcases List.mem_append.1 hm with hm | hm
        · obtain ⟨T1, T2, rfl⟩ := List.append_of_mem hm
          have := h5 (T1 ++ T2) rest (perm_drop hT) fun a b h => shrink (m := T1 ++ (x, y, w) :: T2) (fun e he => by
            simp only [List.mem_append, List.mem_cons] at he ⊢
            rcases he with h | h | h
            · exact .inr (.inl h)
            · exact .inl h
            · exact .inr (.inr h)) (hs a b (grow h))
          rw [totalCost_mid]
          omega
        · obtain ⟨R1, R2, rfl⟩ := List.append_of_mem hm
          refine h5 T (R1 ++ R2) ?_ fun a b h => hs a b (grow h)
          rw [← List.append_assoc] at hT
          have := perm_drop (rest := []) (by rw [List.append_nil]; exact hT)
          rwa [List.append_nil, List.append_assoc] at this
    · obtain ⟨hv', -⟩ := hv.union hxy.1 hxy.2 he heq
      obtain ⟨out, h1, h2, h3, h4, h5⟩ := ih (done ++ [(x, y)]) _ hl' hv' hp2
      have shift : ∀ {m : List (Nat × Nat × E)}, done ++ [(x, y)] ++ ends m = done ++ ends ((x, y, w) :: m) := fun {m} => by
        simp [ends]
      simp only [shift] at h3 h4 h5
      refine ⟨(x, y, w) :: out, ?_, .cons_cons _ h2, h3, fun l1 e l2 h => ?_, fun T rest hT hs => ?_⟩
      · unfold mstLoop ufUnion
        rw [if_pos hxy, if_neg heq]
        simp only [bind, Except.bind, if_true, ho x hxy.1, ho y hxy.2]
        rw [h1]
      · cases l1 with
        | nil =>
          cases h
          simp only [ends, List.map_nil, List.append_nil]
          exact fun h => heq ((hv.eq _ _).2 h)
        | cons e' l1 =>
          cases h
          exact h4 l1 e l2 rfl
      · have hout : totalCost cost ((x, y, w) :: out) = cost w + totalCost cost out := rfl
        rw [hout]
        have hm : (x, y, w) ∈ T ++ rest := hT.mem_iff.2 List.mem_cons_self
        rcases List.mem_append.1 hm with hm2 | hm2
        · obtain ⟨T1, T2, rfl⟩ := List.append_of_mem hm2
          have := h5 (T1 ++ T2) rest (perm_drop hT) fun a b h => (hs a b h).mono fun u v h => by
            have h : _ ∈ _ := h
            show _ ∈ _
            simp only [ends, List.map_cons, List.map_append, List.mem_append, List.mem_cons] at h ⊢
            rcases h with h | h | h | h
            · exact .inl h
            · exact .inr (.inr (.inl h))
            · exact .inr (.inl h)
            · exact .inr (.inr (.inr h))
          rw [totalCost_mid]
          exact Nat.add_le_add_left this _
        · have hjT : Joined (EdgeIn (done ++ ends T)) x y :=
            hs x y (.edge (List.mem_append_right _ (mem_ends.2 ⟨w, List.mem_cons_self⟩)))
          obtain ⟨T1, f, T2, rfl, h6, h7⟩ := first_join T done (fun h => heq ((hv.eq _ _).2 h)) hjT
          obtain ⟨R1, R2, rfl⟩ := List.append_of_mem hm2
          have hl2 : ((T1 ++ T2) ++ (f :: (R1 ++ R2))).Perm l := by
            rw [← List.append_assoc] at hT
            have h8 := perm_drop (rest := []) (by rw [List.append_nil]; exact hT)
            rw [List.append_nil, List.append_assoc, List.append_assoc, List.cons_append] at h8
            refine List.Perm.trans ?_ h8
            rw [List.append_assoc]
            exact (List.perm_middle (l₁ := T2)).append_left T1
          have hfl : f ∈ l := hl2.mem_iff.1 (List.mem_append_right _ List.mem_cons_self)
          have hwf := hp1 f hfl
          -- the edge dropped is joined by the new edge and those before it
          have hf : Joined (EdgeIn (done ++ ends ((x, y, w) :: (T1 ++ T2)))) f.1 f.2.1 := by
            have up : ∀ {a b}, Joined (EdgeIn (done ++ ends T1)) a b → Joined (EdgeIn (done ++ ends ((x, y, w) :: (T1 ++ T2)))) a b :=
              Joined.mono fun u v h => by
                have h : _ ∈ _ := h
                show _ ∈ _
                simp only [ends, List.map_cons, List.map_append, List.mem_append, List.mem_cons] at h ⊢
                rcases h with h | h
                · exact .inl h
                · exact .inr (.inr (.inl h))
            have hxy' : Joined (EdgeIn (done ++ ends ((x, y, w) :: (T1 ++ T2)))) x y :=
              .edge (List.mem_append_right _ (mem_ends.2 ⟨w, List.mem_cons_self⟩))
            rcases (joined_add (es := done ++ ends T1) (u := f.1) (v := f.2.1) fun e => by rw [List.mem_append, List.mem_singleton]).1 h7 with h | ⟨h8, h9⟩ | ⟨h8, h9⟩
            · exact absurd h h6
            · exact ((up h8).symm.trans hxy').trans (up h9).symm
            · exact (up h9).trans (hxy'.symm.trans (up h8))
          have := h5 (T1 ++ T2) _ hl2 fun a b h => (hs a b h).bind fun u v h => by
            rcases List.mem_append.1 (h : _ ∈ _) with h | h
            · exact .edge (List.mem_append_left _ h)
            · obtain ⟨w', h⟩ := mem_ends.1 h
              have hmem : (u, v, w') = f ∨ (u, v, w') ∈ T1 ++ T2 := by
                simp only [List.mem_append, List.mem_cons] at h ⊢
                rcases h with h | h | h
                · exact .inr (.inl h)
                · exact .inl h
                · exact .inr (.inr h)
              rcases hmem with h | h
              · rw [← h] at hf; exact hf
              · exact .edge (List.mem_append_right _ (mem_ends.2 ⟨w', List.mem_cons_of_mem _ h⟩))
          rw [totalCost_mid]
          exact Nat.add_le_add hwf this

/-- The nodes come in index order, so each keeps its index. -/
theorem mstOrder_range (n : Nat) : ∀ (m k : Nat) (f : Nat → Option Nat), k + m = n → (∀ i, i < k → f i = some i) →
    ∀ i, i < n → mstOrder (List.range' k m) k f i = some i
  | 0, k, f, h, hf, i, hi => hf i (by omega)
  | m + 1, k, f, h, hf, i, hi => by
    rw [List.range'_succ]
    refine mstOrder_range n m (k + 1) _ (by omega) (fun j hj => ?_) i hi
    by_cases e : j = k
    · rw [if_pos e, e]
    · rw [if_neg e]
      exact hf j (by omega)
end

/-! ### In terms of the edges themselves -/

/-- One of these edges leads from `u` to `t`. -/
def Among {V R : Type} (src tgt : R → V) (l : List R) (u t : V) : Prop := ∃ r ∈ l, src r = u ∧ tgt r = t

/-- `picked` is a cheapest choice among the edges `rs` that joins all they join; no edge of it is superfluous. -/
structure MinSpanning {V R : Type} (src tgt : R → V) (cost : R → Nat) (rs picked : List R) : Prop where
  part : ∃ rest, (picked ++ rest).Perm rs
  spans : ∀ a b, Joined (Among src tgt rs) a b ↔ Joined (Among src tgt picked) a b
  forest : ∀ l1 r l2, picked = l1 ++ r :: l2 → ¬ Joined (Among src tgt (l1 ++ l2)) (src r) (tgt r)
  least : ∀ other rest, (other ++ rest).Perm rs → (∀ a b, Joined (Among src tgt rs) a b → Joined (Among src tgt other) a b) →
    (picked.map cost).sum ≤ (other.map cost).sum

theorem perm_of_map {α β : Type} {f : α → β} {l m : List β} (h : l.Perm m) : ∀ {rs : List α}, m = rs.map f →
    ∃ rs' : List α, rs'.Perm rs ∧ rs'.map f = l := by
  induction h with
  | nil => intro rs h; exact ⟨rs, .refl _, h.symm⟩
  | cons x _ ih =>
    intro rs h
    obtain ⟨a, as, rfl, rfl, h2⟩ := List.map_eq_cons_iff.1 h.symm
    obtain ⟨rs', h3, h4⟩ := ih h2.symm
    exact ⟨a :: rs', h3.cons a, by rw [List.map_cons, h4]⟩
  | swap x y l =>
    intro rs h
    obtain ⟨a, as, rfl, rfl, h2⟩ := List.map_eq_cons_iff.1 h.symm
    obtain ⟨b, bs, rfl, rfl, h3⟩ := List.map_eq_cons_iff.1 h2
    exact ⟨b :: a :: bs, .swap _ _ _, by rw [List.map_cons, List.map_cons, h3]⟩
  | trans _ _ ih1 ih2 =>
    intro rs h
    obtain ⟨rs', h1, h2⟩ := ih2 h
    obtain ⟨rs'', h3, h4⟩ := ih1 h2.symm
    exact ⟨rs'', h3.trans h1, h4⟩

theorem perm_of_sublist {α : Type} {a l : List α} (h : a.Sublist l) : ∃ rest, (a ++ rest).Perm l := by
  induction h with
  | slnil => exact ⟨[], .refl _⟩
  | cons x _ ih =>
    obtain ⟨rest, h⟩ := ih
    exact ⟨x :: rest, List.perm_middle.trans (h.cons x)⟩
  | cons_cons x _ ih =>
    obtain ⟨rest, h⟩ := ih
    exact ⟨rest, h.cons x⟩

section
variable {V R E : Type} {P : V → Prop} {idx : V → Nat} {n : Nat} {src tgt : R → V} {wt : R → E}

theorem Indexed.among (hi : Indexed P idx n) {l : List R} (hl : ∀ r ∈ l, P (src r) ∧ P (tgt r)) {a b : V} (ha : P a) (hb : P b) :
    Joined (EdgeIn (ends (l.map fun r => (idx (src r), idx (tgt r), wt r)))) (idx a) (idx b) ↔ Joined (Among src tgt l) a b := by
  refine hi.joined ?_ ?_ ha hb
  · rintro u t ⟨r, hr, rfl, rfl⟩
    exact hl r hr
  · intro i j
    unfold EdgeIn ends Among
    simp only [List.mem_map, Prod.mk.injEq]
    constructor
    · rintro ⟨_, ⟨r, hr, rfl⟩, h1, h2⟩
      exact ⟨_, _, h1, h2, r, hr, rfl, rfl⟩
    · rintro ⟨u, t, h1, h2, r, hr, rfl, rfl⟩
      exact ⟨_, ⟨r, hr, rfl⟩, h1, h2⟩

/-- Joined by edges between nodes: the same, or both nodes. -/
theorem Joined.ends_in {R' : V → V → Prop} (hR : ∀ u t, R' u t → P u ∧ P t) {a b : V} (h : Joined R' a b) : a = b ∨ (P a ∧ P b) := by
  induction h with
  | refl => exact .inl rfl
  | edge e => exact .inr (hR _ _ e)
  | symm _ ih => rcases ih with h | ⟨h1, h2⟩ <;> simp_all
  | trans _ _ ih1 ih2 =>
    rcases ih1 with rfl | ⟨h1, h2⟩
    · exact ih2
    · rcases ih2 with rfl | ⟨g1, g2⟩
      · exact .inr ⟨h1, h2⟩
      · exact .inr ⟨h1, g2⟩

/-- From joined by index to joined, for two lists of edges between nodes. -/
theorem Indexed.among_sub (hi : Indexed P idx n) {l m : List R} (hl : ∀ r ∈ l, P (src r) ∧ P (tgt r)) (hm : ∀ r ∈ m, P (src r) ∧ P (tgt r)) :
    (∀ x y, Joined (EdgeIn (ends (l.map fun r => (idx (src r), idx (tgt r), wt r)))) x y →
      Joined (EdgeIn (ends (m.map fun r => (idx (src r), idx (tgt r), wt r)))) x y) ↔
    ∀ a b, Joined (Among src tgt l) a b → Joined (Among src tgt m) a b := by
  constructor
  · intro h a b hj
    rcases hj.ends_in (P := P) (by rintro u t ⟨r, hr, rfl, rfl⟩; exact hl r hr) with rfl | ⟨ha, hb⟩
    · exact .refl
    · exact (hi.among hm ha hb).1 (h _ _ ((hi.among hl ha hb).2 hj))
  · intro h x y hj
    refine hj.bind fun u v he => ?_
    obtain ⟨w, he⟩ := mem_ends.1 (he : _ ∈ _)
    obtain ⟨r, hr, e⟩ := List.mem_map.1 he
    cases e
    exact (hi.among hm (hl r hr).1 (hl r hr).2).2 (h _ _ (.edge ⟨r, hr, rfl, rfl⟩))

theorem kruskal (hi : Indexed P idx n) {rs : List R} (hrs : ∀ r ∈ rs, P (src r) ∧ P (tgt r)) {cost : E → Nat} {order : Nat → Option Nat}
    (ho : ∀ i, i < n → order i = some i) {popped : List (Nat × Nat × E)}
    (hp : HeapRun cost (rs.map fun r => (idx (src r), idx (tgt r), wt r)) popped) :
    ∃ picked, MinSpanning src tgt (fun r => cost (wt r)) rs picked ∧
      mstLoop n order popped id = .ok (picked.map fun r => (idx (src r), idx (tgt r), wt r)) := by
  obtain ⟨h1, h2⟩ := hp
  obtain ⟨rs', h3, rfl⟩ := perm_of_map h1 rfl
  have hrs' : ∀ r ∈ rs', P (src r) ∧ P (tgt r) := fun r hr => hrs r (h3.mem_iff.1 hr)
  obtain ⟨out, h4, h5, h6, h7, h8⟩ := mstLoop_spec (cost := cost) ho _ [] id (fun e he => by
    obtain ⟨r, hr, rfl⟩ := List.mem_map.1 he
    exact ⟨hi.lt (hrs' r hr).1, hi.lt (hrs' r hr).2⟩) (.init n) h2
  simp only [List.nil_append] at h6 h7 h8
  obtain ⟨picked, h9, rfl⟩ := List.sublist_map_iff.1 h5
  have hpk : ∀ r ∈ picked, P (src r) ∧ P (tgt r) := fun r hr => hrs' r (h9.subset hr)
  have hcost : ∀ l : List R, totalCost cost (l.map fun r => (idx (src r), idx (tgt r), wt r)) = (l.map fun r => cost (wt r)).sum := fun l => by
    unfold totalCost
    rw [List.map_map]; rfl
  have hrp : ∀ a b, Joined (Among src tgt rs) a b ↔ Joined (Among src tgt rs') a b := fun a b =>
    ⟨Joined.mono fun u t ⟨r, hr, h⟩ => ⟨r, h3.mem_iff.2 hr, h⟩, Joined.mono fun u t ⟨r, hr, h⟩ => ⟨r, h3.mem_iff.1 hr, h⟩⟩
  refine ⟨picked, ⟨?_, fun a b => ⟨fun h => ?_, fun h => ?_⟩, fun l1 r l2 e => ?_, fun other rest ho' hs => ?_⟩, h4⟩
  · obtain ⟨rest, h⟩ := perm_of_sublist h9
    exact ⟨rest, h.trans h3⟩
  · exact (hi.among_sub hrs' hpk).1 h6 a b ((hrp a b).1 h)
  · exact h.mono fun u t ⟨r, hr, h⟩ => ⟨r, h3.mem_iff.1 (h9.subset hr), h⟩
  · intro hj
    subst e
    have hm : ∀ r' ∈ l1 ++ l2, P (src r') ∧ P (tgt r') := fun r' h => hpk r' (by
      simp only [List.mem_append, List.mem_cons] at h ⊢
      rcases h with h | h
      · exact .inl h
      · exact .inr (.inr h))
    have hr := hpk r (by simp)
    have hc : HasCycle (ends ((l1 ++ r :: l2).map fun r => (idx (src r), idx (tgt r), wt r))) := by
      refine ⟨ends (l1.map fun r => (idx (src r), idx (tgt r), wt r)), idx (src r), idx (tgt r),
        ends (l2.map fun r => (idx (src r), idx (tgt r), wt r)), ?_, ?_⟩
      · simp [ends]
      · rw [← ends_append, ← List.map_append]
        exact (hi.among hm hr.1 hr.2).2 hj
    obtain ⟨m1, x, y, m2, e, hj'⟩ := (hasCycle_iff _).1 hc
    unfold ends at e
    obtain ⟨k1, k2, e1, rfl, e2⟩ := List.map_eq_append_iff.1 e
    obtain ⟨e', k3, rfl, e3, -⟩ := List.map_eq_cons_iff.1 e2
    cases e3
    exact h7 k1 e' k3 e1 hj'
  · have ho2 : (other ++ rest).Perm rs' := ho'.trans h3.symm
    have hot : ∀ r ∈ other, P (src r) ∧ P (tgt r) := fun r hr => hrs r (ho'.mem_iff.1 (List.mem_append_left _ hr))
    have := h8 (other.map fun r => (idx (src r), idx (tgt r), wt r)) (rest.map fun r => (idx (src r), idx (tgt r), wt r))
      (by rw [← List.map_append]; exact ho2.map _) ((hi.among_sub hrs' hot).2 fun a b h => hs a b ((hrp a b).2 h))
    rwa [hcost, hcost] at this

/-- Components are counted without ambiguity. -/
theorem ComponentCount.le {R1 R2 : V → V → Prop} (h : ∀ a b, Joined R2 a b → Joined R1 a b) {r1 r2 : Nat}
    (h1 : ComponentCount P R1 r1) (h2 : ComponentCount P R2 r2) : r1 ≤ r2 := by
  obtain ⟨l1, rfl, h3, h4, h5⟩ := h1
  obtain ⟨l2, rfl, g3, g4, g5⟩ := h2
  have key : ∀ (l : List V), (∀ x ∈ l, P x) → l.Pairwise (fun x y => ¬ Joined R1 x y) →
      ∃ m : List V, m.length = l.length ∧ m.Nodup ∧ (∀ y ∈ m, y ∈ l2) ∧ ∀ y ∈ m, ∃ x ∈ l, Joined R2 x y := by
    intro l
    induction l with
    | nil => exact fun _ _ => ⟨[], rfl, List.nodup_nil, (fun _ h => nomatch h), (fun _ h => nomatch h)⟩
    | cons x l ih =>
      intro hp hd
      obtain ⟨hd1, hd2⟩ := List.pairwise_cons.1 hd
      obtain ⟨m, k1, k2, k3, k4⟩ := ih (fun y hy => hp y (List.mem_cons_of_mem _ hy)) hd2
      obtain ⟨y, hy, hj⟩ := g5 x (hp x List.mem_cons_self)
      refine ⟨y :: m, by rw [List.length_cons, List.length_cons, k1], List.nodup_cons.2 ⟨fun hm => ?_, k2⟩, fun z hz => ?_, fun z hz => ?_⟩
      · obtain ⟨x', hx', hj'⟩ := k4 y hm
        exact hd1 x' hx' (h _ _ (hj.trans hj'.symm))
      · rcases List.mem_cons.1 hz with rfl | hz
        · exact hy
        · exact k3 z hz
      · rcases List.mem_cons.1 hz with rfl | hz
        · exact ⟨x, List.mem_cons_self, hj⟩
        · obtain ⟨x', hx', hj'⟩ := k4 z hz
          exact ⟨x', List.mem_cons_of_mem _ hx', hj'⟩
  obtain ⟨m, k1, k2, k3, -⟩ := key l1 h3 h4
  rw [← k1]
  have : DecidableEq V := fun _ _ => Classical.propDecidable _
  exact k2.length_le_of_subset k3

/-- A forest has as many edges as there are nodes less the components. -/
theorem forest_count (hi : Indexed P idx n) {l : List R} (hl : ∀ r ∈ l, P (src r) ∧ P (tgt r)) (wt : R → E)
    (hf : ∀ l1 r l2, l = l1 ++ r :: l2 → ¬ Joined (Among src tgt (l1 ++ l2)) (src r) (tgt r)) {r : Nat}
    (hc : ComponentCount P (Among src tgt l) r) : l.length + r = n := by
  obtain ⟨r', b, -, h2, -, h4, -, h5⟩ := ccRun_spec (n := n) (es := ends (l.map fun r => (idx (src r), idx (tgt r), wt r))) (fun e he => by
    obtain ⟨x, hx, rfl⟩ := List.mem_map.1 he
    obtain ⟨r, hr, rfl⟩ := List.mem_map.1 hx
    exact ⟨hi.lt (hl r hr).1, hi.lt (hl r hr).2⟩)
  have h6 : ComponentCount P (Among src tgt l) r' := hi.components (fun ha hb => hi.among hl ha hb) h2
  have hr : r = r' := Nat.le_antisymm (hc.le (fun _ _ h => h) h6) (h6.le (fun _ _ h => h) hc)
  subst hr
  have hb : b = false := by
    cases b with
    | false => rfl
    | true =>
      obtain ⟨m1, x, y, m2, e, hj⟩ := h4.1 rfl
      unfold ends at e
      rw [List.map_map] at e
      obtain ⟨k1, k2, e1, rfl, e2⟩ := List.map_eq_append_iff.1 e
      obtain ⟨q, k3, rfl, e3, rfl⟩ := List.map_eq_cons_iff.1 e2
      cases e3
      have hm : ∀ r' ∈ k1 ++ k3, P (src r') ∧ P (tgt r') := fun r' h => hl r' (by
        rw [e1]
        simp only [List.mem_append, List.mem_cons] at h ⊢
        rcases h with h | h
        · exact .inl h
        · exact .inr (.inr h))
      have hq := hl q (by rw [e1]; simp)
      refine absurd ((hi.among (wt := wt) hm hq.1 hq.2).1 ?_) (hf k1 q k3 e1)
      unfold ends
      rw [List.map_map, List.map_append]
      exact hj
  have := h5.1 hb
  simpa [ends] using this
end
end LG
