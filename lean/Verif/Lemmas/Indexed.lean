import Verif.Lemmas.Components
/- From index numbers back to nodes. -/
namespace LG

/-- `idx` numbers the nodes `P` from zero to `n`. -/
structure Indexed {V : Type} (P : V → Prop) (idx : V → Nat) (n : Nat) : Prop where
  inj : ∀ {u t}, P u → P t → idx u = idx t → u = t
  lt : ∀ {u}, P u → idx u < n
  onto : ∀ {i}, i < n → ∃ u, P u ∧ idx u = i

section
variable {V : Type} {P : V → Prop} {idx : V → Nat} {n : Nat}

theorem Indexed.gwalk (hi : Indexed P idx n) {Ei : Nat → Nat → Nat → Prop} {R : V → V → Nat → Prop} (hR : ∀ u t w, P u → R u t w → P t)
    (he : ∀ i j w, Ei i j w ↔ ∃ u t, P u ∧ idx u = i ∧ idx t = j ∧ R u t w) {a b : V} (ha : P a) (hb : P b) {x : Nat} :
    GWalk Ei (idx a) (idx b) x ↔ GWalk R a b x := by
  constructor
  · intro h
    have key : ∀ {i j x}, GWalk Ei i j x → ∀ a, P a → idx a = i → idx b = j → GWalk R a b x := by
      intro i j x h
      induction h with
      | nil =>
        intro a ha e1 e2
        rw [hi.inj ha hb (e1.trans e2.symm)]; exact .nil
      | cons e _ ih =>
        intro a ha e1 e2
        obtain ⟨u, t, hu, h1, h2, h3⟩ := (he _ _ _).1 e
        have := hi.inj ha hu (e1.trans h1.symm)
        subst this
        exact .cons h3 (ih t (hR _ _ _ ha h3) h2 e2)
    exact key h a ha rfl rfl
  · intro h
    induction h with
    | nil => exact .nil
    | cons e _ ih => exact .cons ((he _ _ _).2 ⟨_, _, ha, rfl, rfl, e⟩) (ih (hR _ _ _ ha e) hb)

theorem Indexed.joined (hi : Indexed P idx n) {Ei : Nat → Nat → Prop} {R : V → V → Prop} (hR : ∀ u t, R u t → P u ∧ P t)
    (he : ∀ i j, Ei i j ↔ ∃ u t, idx u = i ∧ idx t = j ∧ R u t) {a b : V} (ha : P a) (hb : P b) :
    Joined Ei (idx a) (idx b) ↔ Joined R a b := by
  constructor
  · intro h
    have key : ∀ {i j}, Joined Ei i j → i = j ∨ ∃ a b, P a ∧ P b ∧ idx a = i ∧ idx b = j ∧ Joined R a b := by
      intro i j h
      induction h with
      | refl => exact .inl rfl
      | edge e =>
        obtain ⟨u, t, h1, h2, h3⟩ := (he _ _).1 e
        exact .inr ⟨u, t, (hR _ _ h3).1, (hR _ _ h3).2, h1, h2, .edge h3⟩
      | symm _ ih =>
        rcases ih with rfl | ⟨a, b, h1, h2, h3, h4, h5⟩
        · exact .inl rfl
        · exact .inr ⟨b, a, h2, h1, h4, h3, h5.symm⟩
      | trans _ _ ih1 ih2 =>
        rcases ih1 with rfl | ⟨a, b, h1, h2, h3, h4, h5⟩
        · exact ih2
        · rcases ih2 with rfl | ⟨a', b', g1, g2, g3, g4, g5⟩
          · exact .inr ⟨a, b, h1, h2, h3, h4, h5⟩
          · have := hi.inj h2 g1 (h4.trans g3.symm)
            subst this
            exact .inr ⟨a, b', h1, g2, h3, g4, h5.trans g5⟩
    rcases key h with h | ⟨a', b', h1, h2, h3, h4, h5⟩
    · rw [hi.inj ha hb h]; exact .refl
    · rw [← hi.inj h1 ha h3, ← hi.inj h2 hb h4]; exact h5
  · intro h
    clear ha hb
    induction h with
    | refl => exact .refl
    | edge e => exact .edge ((he _ _).2 ⟨_, _, rfl, rfl, e⟩)
    | symm _ ih => exact ih.symm
    | trans _ _ ih1 ih2 => exact ih1.trans ih2

theorem Indexed.components (hi : Indexed P idx n) {Ei : Nat → Nat → Prop} {R : V → V → Prop}
    (hj : ∀ {a b}, P a → P b → (Joined Ei (idx a) (idx b) ↔ Joined R a b)) {r : Nat} (hc : ComponentCount (· < n) Ei r) :
    ComponentCount P R r := by
  obtain ⟨l, h2, h3, h4, h5⟩ := hc
  have hlist : ∀ l : List Nat, (∀ i ∈ l, i < n) → ∃ cs : List V, (∀ c ∈ cs, P c) ∧ cs.map idx = l := by
    intro l
    induction l with
    | nil => exact fun _ => ⟨[], (fun _ h => nomatch h), rfl⟩
    | cons i l ih =>
      intro h
      obtain ⟨c, hc, rfl⟩ := hi.onto (h i List.mem_cons_self)
      obtain ⟨cs, h6, h7⟩ := ih fun j hj => h j (List.mem_cons_of_mem _ hj)
      refine ⟨c :: cs, fun x hx => ?_, by rw [List.map_cons, h7]⟩
      rcases List.mem_cons.1 hx with rfl | hx
      · exact hc
      · exact h6 x hx
  obtain ⟨cs, h6, rfl⟩ := hlist l h3
  refine ⟨cs, by rw [← h2, List.length_map], h6, ?_, fun x hx => ?_⟩
  · exact (List.pairwise_map.1 h4).imp_of_mem fun {x y} hx hy h hjn => h ((hj (h6 x hx) (h6 y hy)).2 hjn)
  · obtain ⟨j, hjm, h7⟩ := h5 _ (hi.lt hx)
    obtain ⟨y, hy, rfl⟩ := List.mem_map.1 hjm
    exact ⟨y, hy, (hj hx (h6 y hy)).1 h7⟩
end
end LG
