import Verif.Model.Matching
import Verif.Lemmas.Bipartite
import Verif.Lemmas.Articulation
import Verif.Lemmas.Indexed
import Verif.Lemmas.Count
/- `greedy_matching` on a graph whose neighbors are mutual. -/
namespace LG

/-- `mt` pairs adjacent nodes, `num` pairs in all, and no two adjacent nodes are left without a mate. -/
structure IsMatching {V : Type} (R : V → V → Prop) (P : V → Prop) (mt : V → Option V) (num : Nat) : Prop where
  pair : ∀ a b, P a → mt a = some b → P b ∧ R a b ∧ a ≠ b ∧ mt b = some a
  maximal : ∀ a b, P a → R a b → a ≠ b → mt a = none → mt b ≠ none
  count : ∃ l : List V, l.Nodup ∧ (∀ a, a ∈ l ↔ P a ∧ mt a ≠ none) ∧ l.length = 2 * num

section
variable {V : Type} {R : V → V → Prop} {P : V → Prop} {mt : V → Option V} {num : Nat}

theorem IsMatching.congr (h : IsMatching R P mt num) {R' : V → V → Prop} (hR : ∀ a b, P a → (R a b ↔ R' a b)) : IsMatching R' P mt num :=
  ⟨fun a b ha hm => ⟨(h.pair a b ha hm).1, (hR a b ha).1 (h.pair a b ha hm).2.1, (h.pair a b ha hm).2.2⟩,
    fun a b ha hr => h.maximal a b ha ((hR a b ha).2 hr), h.count⟩

/-- There is no pair exactly if no two nodes are adjacent. -/
theorem IsMatching.zero (h : IsMatching R P mt num) (hP : ∀ a b, P a → R a b → P b) : num = 0 ↔ ∀ a b, P a → R a b → a = b := by
  obtain ⟨l, h1, h2, h3⟩ := h.count
  constructor
  · intro e a b ha hr
    have hl : l = [] := List.eq_nil_of_length_eq_zero (by omega)
    have hno : ∀ x, P x → mt x = none := fun x hx => Classical.byContradiction fun h0 => by
      have := (h2 x).2 ⟨hx, h0⟩
      rw [hl] at this; cases this
    exact Classical.byContradiction fun hne => h.maximal a b ha hr hne (hno a ha) (hno b (hP a b ha hr))
  · intro hno
    have hl : l = [] := List.eq_nil_iff_forall_not_mem.2 fun a ha => by
      obtain ⟨g1, g2⟩ := (h2 a).1 ha
      obtain ⟨b, hb⟩ := Option.ne_none_iff_exists'.1 g2
      obtain ⟨-, g3, g4, -⟩ := h.pair a b g1 hb
      exact g4 (hno a b g1 g3)
    rw [hl, List.length_nil] at h3
    omega

/-- No way to pair adjacent nodes has more than twice as many pairs. -/
theorem IsMatching.half (h : IsMatching R P mt num) {es : List (V × V)} (hd : (es.map Prod.fst ++ es.map Prod.snd).Nodup)
    (he : ∀ e ∈ es, P e.1 ∧ P e.2 ∧ R e.1 e.2) : es.length ≤ 2 * num := by
  classical
  obtain ⟨l, h1, h2, h3⟩ := h.count
  rw [← h3]
  obtain ⟨d1, d2, d3⟩ := List.nodup_append.1 hd
  have hne : ∀ e ∈ es, e.1 ≠ e.2 := fun e hm => d3 _ (List.mem_map.2 ⟨e, hm, rfl⟩) _ (List.mem_map.2 ⟨e, hm, rfl⟩)
  let f : V × V → V := fun e => if mt e.1 = none then e.2 else e.1
  have hf : ∀ e, f e = e.1 ∨ f e = e.2 := fun e => by
    by_cases hm : mt e.1 = none
    · exact .inr (if_pos hm)
    · exact .inl (if_neg hm)
  have hn : (es.map f).Nodup := nodup_map_of_inj (by
    have : ∀ l : List (V × V), (l.map Prod.fst).Nodup → l.Nodup := fun l => by
      induction l with
      | nil => exact fun _ => List.nodup_nil
      | cons a l ih =>
        intro hn
        rw [List.map_cons, List.nodup_cons] at hn
        exact List.nodup_cons.2 ⟨fun hm => hn.1 (List.mem_map.2 ⟨a, hm, rfl⟩), ih hn.2⟩
    exact this es d1) fun a ha b hb e => by
    have key : ∀ (g : V × V → V), (es.map g).Nodup → g a = g b → a = b := fun g hg e' => by
      clear h1 h2 h3 d1 d2 d3 hd he hne
      induction es with
      | nil => cases ha
      | cons c es ih =>
        rw [List.map_cons, List.nodup_cons] at hg
        rcases List.mem_cons.1 ha with ha1 | ha1 <;> rcases List.mem_cons.1 hb with hb1 | hb1
        · rw [ha1, hb1]
        · exact absurd (List.mem_map.2 ⟨b, hb1, by rw [← e', ha1]⟩) hg.1
        · exact absurd (List.mem_map.2 ⟨a, ha1, by rw [e', hb1]⟩) hg.1
        · exact ih ha1 hb1 hg.2
    rcases hf a with h4 | h4 <;> rcases hf b with h5 | h5
    · exact key _ d1 (by rw [← h4, ← h5, e])
    · exact absurd (by rw [← h4, ← h5, e]) (d3 _ (List.mem_map.2 ⟨a, ha, rfl⟩) _ (List.mem_map.2 ⟨b, hb, rfl⟩))
    · exact absurd (by rw [← h4, ← h5, e]) (d3 _ (List.mem_map.2 ⟨b, hb, rfl⟩) _ (List.mem_map.2 ⟨a, ha, rfl⟩))
    · exact key _ d2 (by rw [← h4, ← h5, e])
  have := hn.length_le_of_subset (l₂ := l) fun x hx => by
    obtain ⟨e, hm, rfl⟩ := List.mem_map.1 hx
    obtain ⟨p1, p2, p3⟩ := he e hm
    by_cases h0 : mt e.1 = none
    · rw [show f e = e.2 from if_pos h0]
      exact (h2 _).2 ⟨p2, h.maximal _ _ p1 p3 (hne e hm) h0⟩
    · rw [show f e = e.1 from if_neg h0]
      exact (h2 _).2 ⟨p1, h0⟩
  rwa [List.length_map] at this

/-- `is_perfect` says whether every node has a mate. -/
theorem IsMatching.perfect (h : IsMatching R P mt num) {nodes : List V} (hn : nodes.Nodup) (hm : ∀ a, a ∈ nodes ↔ P a) :
    gmPerfect nodes.length num = true ↔ ∀ a, P a → mt a ≠ none := by
  obtain ⟨l, h1, h2, h3⟩ := h.count
  have hle := h1.length_le_of_subset (l₂ := nodes) fun a ha => (hm a).2 ((h2 a).1 ha).1
  have e : gmPerfect nodes.length num = true ↔ nodes.length ≤ l.length := by
    unfold gmPerfect
    rw [Bool.and_eq_true, beq_iff_eq, beq_iff_eq]
    omega
  rw [e]
  constructor
  · intro hle' a ha h0
    have hna : a ∉ l := fun hal => ((h2 a).1 hal).2 h0
    have := (List.nodup_cons.2 ⟨hna, h1⟩).length_le_of_subset (l₂ := nodes) fun x hx => by
      rcases List.mem_cons.1 hx with rfl | hx
      · exact (hm _).2 ha
      · exact (hm x).2 ((h2 x).1 hx).1
    rw [List.length_cons] at this
    omega
  · exact fun hall => hn.length_le_of_subset fun a ha => (h2 a).2 ⟨(hm a).1 ha, hall a ((hm a).1 ha)⟩

/-- `edges()` lists each pair once. -/
theorem IsMatching.edges (h : IsMatching R P mt num) {idx : V → Nat} {n : Nat} (hi : Indexed P idx n) {ix : V → Res Nat}
    (hix : ∀ u, P u → ix u = .ok (idx u)) {fr : Nat → Res V} (hfr : ∀ u, P u → fr (idx u) = .ok u) {mate : Nat → Option V}
    (hmt : ∀ u, P u → mt u = mate (idx u)) :
    ∃ es, gmEdges ix fr mate (List.range n) = .ok es ∧ (∀ a b, (a, b) ∈ es ↔ P a ∧ mt a = some b ∧ idx a < idx b) ∧ es.Nodup ∧ es.length = num := by
  have key : ∀ is : List Nat, (∀ i ∈ is, i < n) → is.Nodup → ∃ es, gmEdges ix fr mate is = .ok es ∧ es.Nodup ∧
      ∀ a b, (a, b) ∈ es ↔ P a ∧ idx a ∈ is ∧ mt a = some b ∧ idx a < idx b := by
    intro is
    induction is with
    | nil => exact fun _ _ => ⟨[], rfl, List.nodup_nil, fun a b => ⟨fun h => (nomatch h), fun h => (nomatch h.2.1)⟩⟩
    | cons i is ih =>
      intro hlt hnd
      obtain ⟨hni, hnd⟩ := List.nodup_cons.1 hnd
      obtain ⟨es, h1, h2, h3⟩ := ih (fun j hj => hlt j (List.mem_cons_of_mem _ hj)) hnd
      obtain ⟨u, hu, rfl⟩ := hi.onto (hlt i (List.mem_cons_self ..))
      have skip : (∀ b, mt u = some b → ¬ idx u < idx b) → ∀ a b, (a, b) ∈ es ↔ P a ∧ idx a ∈ idx u :: is ∧ mt a = some b ∧ idx a < idx b := by
        intro hno a b
        rw [h3]
        refine and_congr_right fun ha => ⟨fun ⟨g1, g2⟩ => ⟨List.mem_cons_of_mem _ g1, g2⟩, fun ⟨g1, g2⟩ => ⟨?_, g2⟩⟩
        rcases List.mem_cons.1 g1 with g1 | g1
        · have := hi.inj ha hu g1
          subst this
          exact absurd g2.2 (hno b g2.1)
        · exact g1
      unfold gmEdges
      cases hmu : mate (idx u) with
      | none =>
        refine ⟨es, h1, h2, skip fun b hb => ?_⟩
        rw [hmt u hu, hmu] at hb; cases hb
      | some t =>
        have hmu' : mt u = some t := by rw [hmt u hu, hmu]
        have ht := (h.pair u t hu hmu').1
        simp only [hix t ht, bind, Except.bind]
        by_cases hl : idx u < idx t
        · rw [if_pos hl, hfr u hu]
          simp only [h1, pure, Except.pure]
          refine ⟨_, rfl, List.nodup_cons.2 ⟨fun hm => hni ((h3 u t).1 hm).2.1, h2⟩, fun a b => ?_⟩
          rw [List.mem_cons, h3]
          constructor
          · rintro (e | ⟨g1, g2, g3⟩)
            · have e1 : a = u := congrArg Prod.fst e
              have e2 : b = t := congrArg Prod.snd e
              subst e1; subst e2
              exact ⟨hu, List.mem_cons_self .., hmu', hl⟩
            · exact ⟨g1, List.mem_cons_of_mem _ g2, g3⟩
          · rintro ⟨g1, g2, g3⟩
            rcases List.mem_cons.1 g2 with g2 | g2
            · have := hi.inj g1 hu g2
              subst this
              rw [hmu'] at g3
              exact .inl (by rw [Option.some.inj g3.1])
            · exact .inr ⟨g1, g2, g3⟩
        · rw [if_neg hl]
          refine ⟨es, h1, h2, skip fun b hb => ?_⟩
          rw [hmu'] at hb; cases hb
          exact hl
  obtain ⟨es, h1, h2, h3⟩ := key (List.range n) (fun i h => List.mem_range.1 h) List.nodup_range
  have h3' : ∀ a b, (a, b) ∈ es ↔ P a ∧ mt a = some b ∧ idx a < idx b := fun a b => (h3 a b).trans
    ⟨fun ⟨g1, _, g2⟩ => ⟨g1, g2⟩, fun ⟨g1, g2⟩ => ⟨g1, List.mem_range.2 (hi.lt g1), g2⟩⟩
  refine ⟨es, h1, h3', h2, ?_⟩
  obtain ⟨l, l1, l2, l3⟩ := h.count
  have hmem : ∀ x, x ∈ es.map Prod.fst ++ es.map Prod.snd ↔ x ∈ l := fun x => by
    rw [l2, List.mem_append, List.mem_map, List.mem_map]
    constructor
    · rintro (⟨⟨a, b⟩, g1, rfl⟩ | ⟨⟨a, b⟩, g1, rfl⟩)
      · obtain ⟨g2, g3, -⟩ := (h3' a b).1 g1
        exact ⟨g2, by rw [g3]; exact Option.some_ne_none _⟩
      · obtain ⟨g2, g3, -⟩ := (h3' a b).1 g1
        obtain ⟨g4, -, -, g5⟩ := h.pair a b g2 g3
        exact ⟨g4, by rw [g5]; exact Option.some_ne_none _⟩
    · rintro ⟨hx, hne⟩
      obtain ⟨y, hy⟩ := Option.ne_none_iff_exists'.1 hne
      obtain ⟨g1, -, g2, g3⟩ := h.pair x y hx hy
      rcases Nat.lt_trichotomy (idx x) (idx y) with hlt | he | hlt
      · exact .inl ⟨(x, y), (h3' x y).2 ⟨hx, hy, hlt⟩, rfl⟩
      · exact absurd (hi.inj hx g1 he) g2
      · exact .inr ⟨(y, x), (h3' y x).2 ⟨g1, g3, hlt⟩, rfl⟩
  have hnd : (es.map Prod.fst ++ es.map Prod.snd).Nodup := by
    refine List.nodup_append.2 ⟨nodup_map_of_inj h2 fun a ha b hb e => ?_, nodup_map_of_inj h2 fun a ha b hb e => ?_, fun x hx y hy e => ?_⟩
    · obtain ⟨a1, a2⟩ := a
      obtain ⟨b1, b2⟩ := b
      have e : a1 = b1 := e
      subst e
      have g1 := ((h3' _ _).1 ha).2.1
      rw [((h3' _ _).1 hb).2.1] at g1
      rw [Option.some.inj g1]
    · obtain ⟨a1, a2⟩ := a
      obtain ⟨b1, b2⟩ := b
      have e : a2 = b2 := e
      subst e
      obtain ⟨g1, g2, -⟩ := (h3' _ _).1 ha
      obtain ⟨g3, g4, -⟩ := (h3' _ _).1 hb
      have g5 := (h.pair _ _ g1 g2).2.2.2
      rw [(h.pair _ _ g3 g4).2.2.2] at g5
      rw [Option.some.inj g5]
    · obtain ⟨⟨a1, a2⟩, ha, rfl⟩ := List.mem_map.1 hx
      obtain ⟨⟨b1, b2⟩, hb, rfl⟩ := List.mem_map.1 hy
      have e : a1 = b2 := e
      subst e
      obtain ⟨g1, g2, g6⟩ := (h3' _ _).1 ha
      obtain ⟨g3, g4, g7⟩ := (h3' _ _).1 hb
      have g5 := (h.pair _ _ g3 g4).2.2.2
      rw [g2] at g5
      cases g5
      omega
  have q1 := hnd.length_le_of_subset (l₂ := l) fun x => (hmem x).1
  have q2 := l1.length_le_of_subset (l₂ := es.map Prod.fst ++ es.map Prod.snd) fun x => (hmem x).2
  rw [List.length_append, List.length_map, List.length_map] at q1 q2
  omega
end

/-! ### The search -/
section
variable {V M : Type} [DecidableEq V] {T : Traversable V M} {P : V → Prop} {nb : V → List V} {Vis : M → (V → Bool) → Prop}
variable {ix : V → Res Nat} {idx : V → Nat} {n : Nat}

theorem gmSeek_eq (hT : Behaves T P nb Vis) {m : M} {S : V → Bool} (hv : Vis m S) :
    ∀ l : List V, (∀ t ∈ l, P t) → gmSeek T m l = .ok (l.find? fun t => !S t)
  | [], _ => rfl
  | t :: l, h => by
    unfold gmSeek
    rw [hT.isVisited hv (h t (List.mem_cons_self ..)), List.find?_cons]
    simp only [bind, Except.bind]
    cases hS : S t with
    | true => exact gmSeek_eq hT hv l fun t' h' => h t' (List.mem_cons_of_mem _ h')
    | false => rfl

/-- What holds when the search comes to `u`, of the visited nodes `S`. -/
structure GmInv (P : V → Prop) (nb : V → List V) (idx : V → Nat) (u : V) (S : V → Bool) (st : GmSt V) : Prop where
  node : ∀ a, S a = true → P a
  pair : ∀ a b, P a → st.mate (idx a) = some b → P b ∧ b ∈ nb a ∧ a ≠ b ∧ st.mate (idx b) = some a ∧ (S a = true ∨ a = u)
  free : ∀ a, S a = true → st.mate (idx a) = none → ∀ t ∈ nb a, t ≠ a → S t = true ∧ st.mate (idx t) ≠ none
  last : S u = false → (st.last = some u ∧ st.mate (idx u) = none) ∨ (st.last = none ∧ st.mate (idx u) ≠ none)
  count : ∃ l : List V, l.Nodup ∧ (∀ a, a ∈ l ↔ P a ∧ st.mate (idx a) ≠ none) ∧ l.length = 2 * st.edges

/-- What holds between two searches. -/
structure GmRest (P : V → Prop) (nb : V → List V) (idx : V → Nat) (S : V → Bool) (st : GmSt V) : Prop where
  node : ∀ a, S a = true → P a
  pair : ∀ a b, P a → st.mate (idx a) = some b → P b ∧ b ∈ nb a ∧ a ≠ b ∧ st.mate (idx b) = some a ∧ S a = true
  free : ∀ a, S a = true → st.mate (idx a) = none → ∀ t ∈ nb a, t ≠ a → S t = true ∧ st.mate (idx t) ≠ none
  count : ∃ l : List V, l.Nodup ∧ (∀ a, a ∈ l ↔ P a ∧ st.mate (idx a) ≠ none) ∧ l.length = 2 * st.edges

theorem GmInv.stuck (hsy : ∀ a b, P a → b ∈ nb a → a ∈ nb b) {u : V} {S : V → Bool} {st : GmSt V} (hv : GmInv P nb idx u S st) (hu : P u)
    (hS : S u = false) (hall : ∀ t ∈ nb u, (if t = u then true else S t) = true) :
    GmRest P nb idx (fun x => if x = u then true else S x) st := by
  refine ⟨fun a ha => ?_, fun a b ha hm => ?_, fun a ha hm t ht hne => ?_, hv.count⟩
  · by_cases e : a = u
    · rw [e]; exact hu
    · rw [if_neg e] at ha; exact hv.node a ha
  · obtain ⟨h1, h2, h3, h4, h5⟩ := hv.pair a b ha hm
    refine ⟨h1, h2, h3, h4, ?_⟩
    by_cases e : a = u
    · exact if_pos e
    · rw [if_neg e]; exact h5.resolve_right e
  · by_cases e : a = u
    · subst e
      refine ⟨hall t ht, fun h0 => ?_⟩
      have hSt := hall t ht
      rw [if_neg hne] at hSt
      have := (hv.free t hSt h0 a (hsy a t hu ht) (fun e => hne e.symm)).1
      rw [hS] at this; cases this
    · rw [if_neg e] at ha
      obtain ⟨h1, h2⟩ := hv.free a ha hm t ht hne
      refine ⟨?_, h2⟩
      by_cases e : t = u
      · exact if_pos e
      · rw [if_neg e]; exact h1

theorem GmInv.go (hi : Indexed P idx n) (hix : ∀ u, P u → ix u = .ok (idx u)) (hsy : ∀ a b, P a → b ∈ nb a → a ∈ nb b) {u t : V} {S : V → Bool}
    {st : GmSt V} (hv : GmInv P nb idx u S st) (hu : P u) (hS : S u = false) (htn : t ∈ nb u) (ht : P t) (hSt : S t = false) (hne : t ≠ u) :
    ∃ st1, gmVisit ix n t st = .ok st1 ∧ GmInv P nb idx t (fun x => if x = u then true else S x) st1 := by
  have hmt : st.mate (idx t) = none := Classical.byContradiction fun h0 => by
    obtain ⟨b, hb⟩ := Option.ne_none_iff_exists'.1 h0
    rcases (hv.pair t b ht hb).2.2.2.2 with h | h
    · rw [hSt] at h; cases h
    · exact hne h
  have hnode : ∀ a, (if a = u then true else S a) = true → P a := fun a ha => by
    by_cases e : a = u
    · rw [e]; exact hu
    · rw [if_neg e] at ha; exact hv.node a ha
  have hsee : ∀ a, S a = true → (if a = u then true else S a) = true := fun a ha => by
    by_cases e : a = u
    · exact if_pos e
    · rw [if_neg e]; exact ha
  rcases hv.last hS with ⟨hl, hmu⟩ | ⟨hl, hmu⟩
  · refine ⟨⟨tset (tset st.mate (idx u) (some t)) (idx t) (some u), st.edges + 1, none⟩, ?_, ?_⟩
    · unfold gmVisit
      rw [hl]
      simp only [hix u hu, hix t ht, bind, Except.bind]
      rw [if_pos (hi.lt hu), if_pos (hi.lt ht)]
    · have m1 : tset (tset st.mate (idx u) (some t)) (idx t) (some u) (idx t) = some u := tset_same ..
      have m2 : tset (tset st.mate (idx u) (some t)) (idx t) (some u) (idx u) = some t := by
        rw [tset_ne _ _ (fun e => hne (hi.inj hu ht e).symm), tset_same]
      have m3 : ∀ a, P a → a ≠ u → a ≠ t → tset (tset st.mate (idx u) (some t)) (idx t) (some u) (idx a) = st.mate (idx a) := fun a ha h1 h2 => by
        rw [tset_ne _ _ (fun e => h2 (hi.inj ha ht e)), tset_ne _ _ (fun e => h1 (hi.inj ha hu e))]
      have old : ∀ a b, P a → st.mate (idx a) = some b → a ≠ u ∧ a ≠ t := fun a b ha hb =>
        ⟨fun e => (by rw [e, hmu] at hb; cases hb), fun e => (by rw [e, hmt] at hb; cases hb)⟩
      have nonew : ∀ a, P a → tset (tset st.mate (idx u) (some t)) (idx t) (some u) (idx a) = none → a ≠ u ∧ a ≠ t := fun a ha h0 =>
        ⟨fun e => (by rw [e, m2] at h0; cases h0), fun e => (by rw [e, m1] at h0; cases h0)⟩
      refine ⟨hnode, fun a b ha hm => ?_, fun a ha hm x hx hne' => ?_, fun _ => .inr ⟨rfl, by show tset _ _ _ _ ≠ none; rw [m1]; exact Option.some_ne_none _⟩, ?_⟩
      · by_cases e1 : a = u
        · subst e1
          have hm : tset _ _ _ _ = _ := hm
          rw [m2] at hm; cases hm
          exact ⟨ht, htn, fun e => hne e.symm, m1, .inl (if_pos rfl)⟩
        · by_cases e2 : a = t
          · subst e2
            have hm : tset _ _ _ _ = _ := hm
            rw [m1] at hm; cases hm
            exact ⟨hu, hsy _ _ hu htn, hne, m2, .inr rfl⟩
          · have hm : tset _ _ _ _ = _ := hm
            rw [m3 a ha e1 e2] at hm
            obtain ⟨h1, h2, h3, h4, h5⟩ := hv.pair a b ha hm
            obtain ⟨o1, o2⟩ := old b a h1 h4
            exact ⟨h1, h2, h3, (m3 b h1 o1 o2).trans h4, .inl (hsee a (h5.resolve_right e1))⟩
      · have haP := hnode a ha
        obtain ⟨o1, o2⟩ := nonew a haP hm
        have hm : tset _ _ _ _ = _ := hm
        rw [m3 a haP o1 o2] at hm
        rw [if_neg o1] at ha
        obtain ⟨h1, h2⟩ := hv.free a ha hm x hx hne'
        have hxP := hv.node x h1
        obtain ⟨b, hb⟩ := Option.ne_none_iff_exists'.1 h2
        obtain ⟨o3, o4⟩ := old x b hxP hb
        refine ⟨hsee x h1, ?_⟩
        show tset _ _ _ _ ≠ none
        rw [m3 x hxP o3 o4]
        exact h2
      · obtain ⟨l, l1, l2, l3⟩ := hv.count
        have hul : u ∉ l := fun h => ((l2 u).1 h).2 hmu
        have htl : t ∉ l := fun h => ((l2 t).1 h).2 hmt
        refine ⟨u :: t :: l, List.nodup_cons.2 ⟨fun h => (List.mem_cons.1 h).elim (fun e => hne e.symm) hul, List.nodup_cons.2 ⟨htl, l1⟩⟩, fun a => ?_, ?_⟩
        · rw [List.mem_cons, List.mem_cons, l2]
          show _ ↔ P a ∧ tset _ _ _ _ ≠ none
          by_cases e1 : a = u
          · subst e1
            rw [m2]
            exact ⟨fun _ => ⟨hu, Option.some_ne_none _⟩, fun _ => .inl rfl⟩
          · by_cases e2 : a = t
            · subst e2
              rw [m1]
              exact ⟨fun _ => ⟨ht, Option.some_ne_none _⟩, fun _ => .inr (.inl rfl)⟩
            · constructor
              · rintro (h | h | ⟨h, h'⟩)
                · exact absurd h e1
                · exact absurd h e2
                · exact ⟨h, by rw [m3 a h e1 e2]; exact h'⟩
              · rintro ⟨h, h'⟩
                rw [m3 a h e1 e2] at h'
                exact .inr (.inr ⟨h, h'⟩)
        · show (u :: t :: l).length = 2 * (st.edges + 1)
          rw [List.length_cons, List.length_cons, l3]
          omega
  · refine ⟨{ st with last := some t }, by unfold gmVisit; rw [hl], hnode, fun a b ha hm => ?_, fun a ha hm x hx hne' => ?_,
      fun _ => .inl ⟨rfl, hmt⟩, hv.count⟩
    · obtain ⟨h1, h2, h3, h4, h5⟩ := hv.pair a b ha hm
      refine ⟨h1, h2, h3, h4, .inl ?_⟩
      rcases h5 with h | h
      · exact hsee a h
      · exact if_pos h
    · by_cases e : a = u
      · subst e; exact absurd hm hmu
      · rw [if_neg e] at ha
        obtain ⟨h1, h2⟩ := hv.free a ha hm x hx hne'
        exact ⟨hsee x h1, h2⟩

/-- How many of the nodes are not visited. -/
def gmLeft (nodes : List V) (S : V → Bool) : Nat := (nodes.filter fun a => !S a).length

theorem gmLeft_lt {nodes : List V} {S : V → Bool} {u : V} (hm : u ∈ nodes) (hS : S u = false) :
    gmLeft nodes (fun x => if x = u then true else S x) < gmLeft nodes S := by
  unfold gmLeft
  have hle : ∀ l : List V, (l.filter fun a => !(if a = u then true else S a)).length ≤ (l.filter fun a => !S a).length := fun l => by
    induction l with
    | nil => exact Nat.le_refl _
    | cons a l ih =>
      rw [List.filter_cons, List.filter_cons]
      by_cases e : a = u
      · subst e
        rw [if_pos rfl, hS]
        simp only [Bool.not_true, Bool.not_false, if_true, List.length_cons, Bool.false_eq_true, if_false]
        omega
      · rw [if_neg e]
        split
        · rw [List.length_cons, List.length_cons]; omega
        · exact ih
  show (nodes.filter fun a => !(if a = u then true else S a)).length < _
  induction nodes with
  | nil => cases hm
  | cons a l ih =>
    rw [List.filter_cons, List.filter_cons]
    by_cases e : a = u
    · subst e
      rw [if_pos rfl, hS]
      simp only [Bool.not_true, Bool.not_false, if_true, List.length_cons, Bool.false_eq_true, if_false]
      exact Nat.lt_succ_of_le (hle l)
    · rw [if_neg e]
      have := ih ((List.mem_cons.1 hm).resolve_left fun h => e h.symm)
      split
      · rw [List.length_cons, List.length_cons]; omega
      · exact this

/-- The search from `u`. -/
theorem gmDfs_spec (hT : Behaves T P nb Vis) (hi : Indexed P idx n) (hix : ∀ u, P u → ix u = .ok (idx u))
    (hsy : ∀ a b, P a → b ∈ nb a → a ∈ nb b) {nodes : List V} (hn : ∀ a, P a → a ∈ nodes) :
    ∀ (k : Nat) {u : V} {m : M} {S : V → Bool} {st : GmSt V}, gmLeft nodes S ≤ k → P u → Vis m S → GmInv P nb idx u S st →
      (S u = true → GmRest P nb idx S st) →
      ∃ m' S' st', (∀ m1 st1, GmDfs T ix n u m st m1 st1 ↔ m1 = m' ∧ st1 = st') ∧ Vis m' S' ∧ GmRest P nb idx S' st' ∧ S' u = true ∧
        ∀ x, S x = true → S' x = true := by
  intro k
  induction k using Nat.strongRecOn with
  | _ k ih =>
    intro u m S st hk hu hv hI hR
    obtain ⟨m1, h1, h2⟩ := hT.visit hv hu
    cases hS : S u with
    | true =>
      rw [hS] at h1
      have hsame : (fun x => if x = u then true else S x) = S := funext fun x => by
        by_cases e : x = u
        · rw [if_pos e, e, hS]
        · rw [if_neg e]
      rw [hsame] at h2
      refine ⟨m1, S, st, fun m2 st2 => ⟨fun h => ?_, fun ⟨e1, e2⟩ => e1 ▸ e2 ▸ .seen h1⟩, h2, hR hS, hS, fun _ h => h⟩
      cases h with
      | seen g => rw [h1] at g; cases g; exact ⟨rfl, rfl⟩
      | stuck g => rw [h1] at g; cases g
      | go g => rw [h1] at g; cases g
    | false =>
      rw [hS] at h1
      have h1 : T.visit m u = .ok (true, m1) := h1
      have hnb := hT.neighbors hu
      have hsk := gmSeek_eq hT h2 (nb u) fun t ht => hT.stays hu ht
      have hu1 : (if u = u then true else S u) = true := if_pos rfl
      have hmono : ∀ x, S x = true → (if x = u then true else S x) = true := fun x hx => by
        by_cases e : x = u
        · exact if_pos e
        · rw [if_neg e]; exact hx
      cases hfd : (nb u).find? (fun t => !(if t = u then true else S t)) with
      | none =>
        rw [hfd] at hsk
        have hall : ∀ t ∈ nb u, (if t = u then true else S t) = true := fun t ht => by
          have := List.find?_eq_none.1 hfd t ht
          revert this
          cases (if t = u then true else S t) <;> simp
        refine ⟨m1, _, st, fun m2 st2 => ⟨fun h => ?_, fun ⟨e1, e2⟩ => e1 ▸ e2 ▸ .stuck h1 hnb hsk⟩, h2, hI.stuck hsy hu hS hall, hu1, hmono⟩
        cases h with
        | seen g => rw [h1] at g; cases g
        | stuck g => rw [h1] at g; cases g; exact ⟨rfl, rfl⟩
        | go g g1 g2 =>
          rw [h1] at g; cases g
          rw [hT.unique g1 hnb, hsk] at g2; cases g2
      | some t =>
        rw [hfd] at hsk
        have htn := List.mem_of_find?_eq_some hfd
        have hts := List.find?_some hfd
        have ht := hT.stays hu htn
        have htu : t ≠ u := fun e => by
          rw [e] at hts
          simp at hts
        have hSt : S t = false := by
          simp only [if_neg htu] at hts
          cases hs : S t with
          | true => rw [hs] at hts; cases hts
          | false => rfl
        obtain ⟨st1, g1, g2⟩ := hI.go hi hix hsy hu hS htn ht hSt htu
        have hlt := gmLeft_lt (hn u hu) hS
        obtain ⟨m', S', st', f1, f2, f3, f4, f5⟩ := ih (gmLeft nodes fun x => if x = u then true else S x) (by omega) (Nat.le_refl _) ht h2 g2
          (fun h => by
            simp only [if_neg htu] at h
            rw [hSt] at h; cases h)
        refine ⟨m', S', st', fun m2 st2 => ⟨fun h => ?_, fun e => .go h1 hnb hsk g1 ((f1 m2 st2).2 e)⟩, f2, f3, f5 u hu1, fun x hx => f5 x (hmono x hx)⟩
        cases h with
        | seen g => rw [h1] at g; cases g
        | stuck g q1 q2 =>
          rw [h1] at g; cases g
          rw [hT.unique q1 hnb, hsk] at q2; cases q2
        | go g q1 q2 q3 q4 =>
          rw [h1] at g; cases g
          rw [hT.unique q1 hnb, hsk] at q2; cases q2
          rw [g1] at q3; cases q3
          exact (f1 m2 st2).1 q4

theorem gmLoop_spec (hT : Behaves T P nb Vis) (hi : Indexed P idx n) (hix : ∀ u, P u → ix u = .ok (idx u))
    (hsy : ∀ a b, P a → b ∈ nb a → a ∈ nb b) {nodes : List V} (hn : ∀ a, P a → a ∈ nodes) :
    ∀ (us : List V) {m : M} {S : V → Bool} {st : GmSt V}, (∀ u ∈ us, P u) → Vis m S → GmRest P nb idx S st →
      ∃ S' st', (∀ st1, GmLoop T ix n us m st st1 ↔ st1 = st') ∧ GmRest P nb idx S' st' ∧ (∀ u ∈ us, S' u = true) ∧ ∀ x, S x = true → S' x = true
  | [], m, S, st, _, _, hR => ⟨S, st, fun st1 => ⟨fun h => by cases h; rfl, fun e => e ▸ .nil⟩, hR, fun _ h => (nomatch h), fun _ h => h⟩
  | u :: us, m, S, st, hP, hv, hR => by
    have hu := hP u (List.mem_cons_self ..)
    have hR' : GmRest P nb idx S { st with last := some u } := ⟨hR.node, hR.pair, hR.free, hR.count⟩
    have hI : GmInv P nb idx u S { st with last := some u } := ⟨hR.node, fun a b ha hm => by
      obtain ⟨h1, h2, h3, h4, h5⟩ := hR.pair a b ha hm
      exact ⟨h1, h2, h3, h4, .inl h5⟩, hR.free, fun hS => .inl ⟨rfl, Classical.byContradiction fun h0 => by
        obtain ⟨b, hb⟩ := Option.ne_none_iff_exists'.1 h0
        have := (hR.pair u b hu hb).2.2.2.2
        rw [hS] at this; cases this⟩, hR.count⟩
    obtain ⟨m', S', st', f1, f2, f3, f4, f5⟩ := gmDfs_spec hT hi hix hsy hn _ (Nat.le_refl _) hu hv hI fun _ => hR'
    obtain ⟨S2, st2, g1, g2, g3, g4⟩ := gmLoop_spec hT hi hix hsy hn us (fun u h => hP u (List.mem_cons_of_mem _ h)) f2 f3
    refine ⟨S2, st2, fun st1 => ⟨fun h => ?_, fun e => .cons ((f1 _ _).2 ⟨rfl, rfl⟩) ((g1 _).2 e)⟩, g2, fun x hx => ?_, fun x hx => g4 x (f5 x hx)⟩
    · cases h with
      | cons q1 q2 =>
        obtain ⟨rfl, rfl⟩ := (f1 _ _).1 q1
        exact (g1 _).1 q2
    · rcases List.mem_cons.1 hx with rfl | hx
      · exact g4 _ f4
      · exact g3 x hx

/-- The whole: it returns, with one result, which is a matching. -/
theorem gmRun_spec (hT : Behaves T P nb Vis) (hi : Indexed P idx n) (hix : ∀ u, P u → ix u = .ok (idx u))
    (hsy : ∀ a b, P a → b ∈ nb a → a ∈ nb b) {us : List V} (hus : ∀ a, a ∈ us ↔ P a) :
    ∃ mate edges, (∀ mate' edges', GmRun T ix n us mate' edges' ↔ mate' = mate ∧ edges' = edges) ∧
      IsMatching (fun a b => b ∈ nb a) P (fun a => mate (idx a)) edges := by
  obtain ⟨S, st, h1, h2, h3, -⟩ := gmLoop_spec hT hi hix hsy (fun a h => (hus a).2 h) us (fun a h => (hus a).1 h) hT.new
    (st := ⟨fun _ => none, 0, none⟩) ⟨fun _ h => (nomatch h), fun _ _ _ h => (nomatch h), fun _ h => (nomatch h),
      ⟨[], List.nodup_nil, fun a => ⟨fun h => (nomatch h), fun h => absurd rfl h.2⟩, rfl⟩⟩
  refine ⟨st.mate, st.edges, fun mate' edges' => ⟨?_, ?_⟩, fun a b ha hm => ?_, fun a b ha hr hne h0 => ?_, h2.count⟩
  · rintro ⟨last, h⟩
    have := (h1 _).1 h
    rw [← this]
    exact ⟨rfl, rfl⟩
  · rintro ⟨rfl, rfl⟩
    exact ⟨st.last, (h1 _).2 rfl⟩
  · obtain ⟨g1, g2, g3, g4, -⟩ := h2.pair a b ha hm
    exact ⟨g1, g2, g3, g4⟩
  · exact (h2.free a (h3 a ((hus a).2 ha)) h0 b hr fun e => hne e.symm).2

/-! ### A walk that comes to every node -/

omit [DecidableEq V] in
theorem gmVisit_keeps {u t : V} {st st1 : GmSt V} (hix : ∀ u, P u → ix u = .ok (idx u)) (hu : P u) (h : gmVisit ix n t st = .ok st1) :
    (∀ i, st.mate i ≠ none → st1.mate i ≠ none) ∧ (st.last = some u → st1.mate (idx u) ≠ none) := by
  unfold gmVisit at h
  cases hl : st.last with
  | none =>
    rw [hl] at h
    cases h
    exact ⟨fun _ h => h, fun h => (nomatch h)⟩
  | some p =>
    rw [hl] at h
    simp only [bind, Except.bind] at h
    split at h
    · cases h
    · next i hi =>
      split at h
      · split at h
        · cases h
        · next j hj =>
          split at h
          · cases h
            have key : ∀ x, (st.mate x ≠ none ∨ x = i) → tset (tset st.mate i (some t)) j (some p) x ≠ none := fun x hx => by
              unfold tset
              split
              · exact Option.some_ne_none _
              · split
                · exact Option.some_ne_none _
                · next h1 => exact hx.resolve_right h1
            refine ⟨fun x hx => key x (.inl hx), fun e => key _ (.inr ?_)⟩
            cases e
            rw [hix _ hu] at hi
            exact Except.ok.inj hi
          · cases h
      · cases h

/-- If `Q` holds at each step of a walk, and where a walk with `Q` gets stuck every node is visited, then the walk leaves at most one node
without a mate. -/
theorem gmDfs_whole (hT : Behaves T P nb Vis) (hi : Indexed P idx n) (hix : ∀ u, P u → ix u = .ok (idx u))
    (hsy : ∀ a b, P a → b ∈ nb a → a ∈ nb b) {Q : V → (V → Bool) → Prop}
    (hstep : ∀ u S t, P u → Q u S → (nb u).find? (fun t => !(if t = u then true else S t)) = some t → Q t (fun x => if x = u then true else S x))
    (hend : ∀ u S, P u → Q u S → (nb u).find? (fun t => !(if t = u then true else S t)) = none → ∀ a, P a → (if a = u then true else S a) = true)
    {u : V} {m m' : M} {S : V → Bool} {st st' : GmSt V} (h : GmDfs T ix n u m st m' st') (hu : P u) (hv : Vis m S) (hS : S u = false)
    (hQ : Q u S) (hI : GmInv P nb idx u S st) (hall : ∀ a, S a = true → st.mate (idx a) ≠ none) :
    (∃ S', Vis m' S' ∧ ∀ a, P a → S' a = true) ∧ ∃ z, ∀ a, P a → st'.mate (idx a) = none → a = z := by
  induction h generalizing S with
  | seen g =>
    obtain ⟨m1, h1, h2⟩ := hT.visit hv hu
    rw [h1, hS] at g; cases g
  | @stuck u m m' st l g g1 g2 =>
    obtain ⟨m1, h1, h2⟩ := hT.visit hv hu
    rw [h1, hS] at g; cases g
    rw [hT.unique g1 (hT.neighbors hu), gmSeek_eq hT h2 (nb u) fun t ht => hT.stays hu ht] at g2
    have hevery := hend u S hu hQ (Except.ok.inj g2)
    refine ⟨⟨_, h2, hevery⟩, u, fun a ha h0 => Classical.byContradiction fun hne => ?_⟩
    have := hevery a ha
    rw [if_neg hne] at this
    exact hall a this h0
  | @go u t m m1 m' st st1 st' l g g1 g2 g3 g4 ih =>
    obtain ⟨m2, h1, h2⟩ := hT.visit hv hu
    rw [h1, hS] at g; cases g
    rw [hT.unique g1 (hT.neighbors hu), gmSeek_eq hT h2 (nb u) fun t ht => hT.stays hu ht] at g2
    have hfd := Except.ok.inj g2
    have htn := List.mem_of_find?_eq_some hfd
    have hts := List.find?_some hfd
    have ht := hT.stays hu htn
    have htu : t ≠ u := fun e => by
      rw [e] at hts
      simp at hts
    have hSt : S t = false := by
      simp only [if_neg htu] at hts
      cases hs : S t with
      | true => rw [hs] at hts; cases hts
      | false => rfl
    obtain ⟨st2, q1, q2⟩ := hI.go hi hix hsy hu hS htn ht hSt htu
    rw [g3] at q1; cases q1
    obtain ⟨k1, k2⟩ := gmVisit_keeps hix hu g3
    refine ih ht h2 (by rw [if_neg htu]; exact hSt) (hstep u S t hu hQ hfd) q2 fun a ha => ?_
    by_cases e : a = u
    · subst e
      rcases hI.last hS with ⟨h3, -⟩ | ⟨-, h3⟩
      · exact k2 h3
      · exact k1 _ h3
    · rw [if_neg e] at ha
      exact k1 _ (hall a ha)

theorem gmLoop_done (hT : Behaves T P nb Vis) {us : List V} {m : M} {st st' : GmSt V} (h : GmLoop T ix n us m st st') (hP : ∀ u ∈ us, P u)
    {S : V → Bool} (hv : Vis m S) (hall : ∀ a, P a → S a = true) : st'.mate = st.mate := by
  induction h generalizing S with
  | nil => rfl
  | @cons u us m m1 st st1 st' h1 h2 ih =>
    have hu := hP u (List.mem_cons_self ..)
    obtain ⟨m2, g1, g2⟩ := hT.visit hv hu
    rw [hall u hu] at g1
    have hm : ∀ a, P a → (if a = u then true else S a) = true := fun a ha => by
      by_cases e : a = u
      · exact if_pos e
      · rw [if_neg e]; exact hall a ha
    cases h1 with
    | seen q =>
      rw [g1] at q; cases q
      exact ih (fun u h => hP u (List.mem_cons_of_mem _ h)) g2 hm
    | stuck q => rw [g1] at q; cases q
    | go q => rw [g1] at q; cases q

/-- Then there are as many pairs as there can be. -/
theorem gmRun_whole (hT : Behaves T P nb Vis) (hi : Indexed P idx n) (hix : ∀ u, P u → ix u = .ok (idx u))
    (hsy : ∀ a b, P a → b ∈ nb a → a ∈ nb b) {Q : V → (V → Bool) → Prop}
    (hstep : ∀ u S t, P u → Q u S → (nb u).find? (fun t => !(if t = u then true else S t)) = some t → Q t (fun x => if x = u then true else S x))
    (hend : ∀ u S, P u → Q u S → (nb u).find? (fun t => !(if t = u then true else S t)) = none → ∀ a, P a → (if a = u then true else S a) = true)
    {us : List V} (hus : ∀ a, a ∈ us ↔ P a) (hnd : us.Nodup) (h0 : ∀ u ∈ us.head?, Q u fun _ => false) {mate : Nat → Option V} {edges : Nat}
    (h : GmRun T ix n us mate edges) : edges = us.length / 2 := by
  obtain ⟨mate', edges', h1, h2⟩ := gmRun_spec hT hi hix hsy hus
  obtain ⟨rfl, rfl⟩ := (h1 _ _).1 h
  obtain ⟨l, l1, l2, l3⟩ := h2.count
  have hle := l1.length_le_of_subset (l₂ := us) fun a ha => (hus a).2 ((l2 a).1 ha).1
  obtain ⟨last, hr⟩ := h
  cases us with
  | nil =>
    rw [List.length_nil] at hle ⊢
    omega
  | cons u us =>
    cases hr with
    | @cons _ _ _ m1 _ st1 _ q1 q2 =>
      have hu := (hus u).1 (List.mem_cons_self ..)
      obtain ⟨⟨S, v1, v2⟩, z, v3⟩ := gmDfs_whole hT hi hix hsy hstep hend q1 hu hT.new rfl (h0 u rfl)
        ⟨fun _ h => (nomatch h), fun _ _ _ h => (nomatch h), fun _ h => (nomatch h), fun _ => .inl ⟨rfl, rfl⟩,
          ⟨[], List.nodup_nil, fun a => ⟨fun h => (nomatch h), fun h => absurd rfl h.2⟩, rfl⟩⟩ (fun _ h => (nomatch h))
      have hm := gmLoop_done hT q2 (fun a ha => (hus a).1 (List.mem_cons_of_mem _ ha)) v1 v2
      have := hnd.length_le_of_subset (l₂ := z :: l) fun a ha => by
        have haP := (hus a).1 ha
        by_cases e : mate (idx a) = none
        · rw [v3 a haP (by rw [← hm]; exact e)]
          exact List.mem_cons_self ..
        · exact List.mem_cons_of_mem _ ((l2 a).2 ⟨haP, e⟩)
      rw [List.length_cons (as := l)] at this
      omega
end
end LG
