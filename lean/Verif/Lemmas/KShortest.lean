import Verif.Model.KShortest
import Verif.Lemmas.Astar
import Verif.Lemmas.Indexed
import Verif.Lemmas.Count
/- `k_shortest_path` finds the cost of the `k`-th cheapest walk. -/
set_option linter.unusedSectionVars false
namespace LG
section
variable {V : Type}

/-- Taking, from `a`, one after the other the edges of the given positions in what `edges` yields leads to `t`, at a total cost of `x`.
The last position comes first. -/
inductive WalkBy (ex : V → List (V × Nat) → Prop) (a : V) : List Nat → V → Nat → Prop where
  | nil : WalkBy ex a [] a 0
  | snoc {is : List Nat} {c t : V} {x w i : Nat} {l : List (V × Nat)} :
    WalkBy ex a is c x → ex c l → l[i]? = some (t, w) → WalkBy ex a (i :: is) t (x + w)

/-- `x` is the cost of the `k`-th cheapest walk from `a` to `t`: of `k` walks one costs `x` and none more, and all others cost at
least `x`. -/
def KthWalk (ex : V → List (V × Nat) → Prop) (a t : V) (k x : Nat) : Prop :=
  ∃ W : List (List Nat), W.Nodup ∧ W.length = k ∧ (∀ is ∈ W, ∃ y, WalkBy ex a is t y ∧ y ≤ x) ∧ (∃ is ∈ W, WalkBy ex a is t x) ∧
    ∀ is y, WalkBy ex a is t y → is ∉ W → x ≤ y

variable {ex : V → List (V × Nat) → Prop} {P : V → Prop} {nodes : List V} {a : V}

theorem WalkBy.node (hg : AstGraph ex P nodes) (ha : P a) {is : List Nat} {t : V} {x : Nat} (h : WalkBy ex a is t x) : P t := by
  induction h with
  | nil => exact ha
  | snoc _ h2 h3 ih => exact hg.node _ _ _ ih ⟨_, h2, List.mem_of_getElem? h3⟩

theorem WalkBy.one (hg : AstGraph ex P nodes) (ha : P a) {is : List Nat} {t t' : V} {x x' : Nat} (h : WalkBy ex a is t x)
    (h' : WalkBy ex a is t' x') : t' = t ∧ x' = x := by
  induction h generalizing t' x' with
  | nil => cases h'; exact ⟨rfl, rfl⟩
  | snoc h1 h2 h3 ih =>
    cases h' with
    | snoc h4 h5 h6 =>
      obtain ⟨rfl, rfl⟩ := ih h4
      rw [hg.one _ _ _ (h1.node hg ha) h2 h5, h6] at h3
      cases h3; exact ⟨rfl, rfl⟩

/-- The way from `p` on can be taken from any other walk to the same node. -/
theorem WalkBy.swap (hg : AstGraph ex P nodes) (ha : P a) {p q : List Nat} {u : V} {xp xq : Nat} (hp : WalkBy ex a p u xp)
    (hq : WalkBy ex a q u xq) : ∀ {rest : List Nat} {t : V} {y : Nat}, WalkBy ex a (rest ++ p) t y →
      ∃ d, y = xp + d ∧ WalkBy ex a (rest ++ q) t (xq + d)
  | [], t, y, h => by
    obtain ⟨rfl, rfl⟩ := hp.one hg ha h
    exact ⟨0, rfl, hq⟩
  | i :: rest, t, y, h => by
    cases h with
    | @snoc _ _ _ x w _ _ h1 h2 h3 =>
      obtain ⟨d, rfl, h4⟩ := WalkBy.swap hg ha hp hq h1
      exact ⟨d + w, by omega, by rw [← Nat.add_assoc]; exact .snoc h4 h2 h3⟩

theorem WalkBy.back {p : List Nat} : ∀ {r : List Nat} {t : V} {y : Nat}, WalkBy ex a (r ++ p) t y → ∃ u x, WalkBy ex a p u x
  | [], _, _, h => ⟨_, _, h⟩
  | _ :: _, _, _, .snoc h1 _ _ => h1.back

/-- The `k`-th cheapest walk costs no more than the dearest of any `k` walks. -/
theorem KthWalk.le_of (hg : AstGraph ex P nodes) (ha : P a) {t : V} {k x b : Nat} (h : KthWalk ex a t k x) {W' : List (List Nat)}
    (h1' : W'.Nodup) (h2' : k ≤ W'.length) (h3' : ∀ is ∈ W', ∃ y, WalkBy ex a is t y ∧ y ≤ b) : x ≤ b := by
  obtain ⟨W, h1, h2, h3, ⟨is, h4, h5⟩, h6⟩ := h
  by_cases hsub : ∃ js ∈ W', js ∉ W
  · obtain ⟨js, h7, h8⟩ := hsub
    obtain ⟨z, h9, h10⟩ := h3' js h7
    exact Nat.le_trans (h6 js z h9 h8) h10
  · have hs : W' ⊆ W := fun js hj => Classical.byContradiction fun hn => hsub ⟨js, hj, hn⟩
    have : is ∈ W' := Classical.byContradiction fun hn => by
      have h7 : (is :: W').Nodup := List.nodup_cons.2 ⟨hn, h1'⟩
      have h8 : (is :: W') ⊆ W := List.cons_subset.2 ⟨h4, hs⟩
      have := h7.length_le_of_subset h8
      simp only [List.length_cons] at this
      omega
    obtain ⟨z, h9, h10⟩ := h3' is this
    obtain ⟨-, rfl⟩ := h5.one hg ha h9
    exact h10

theorem KthWalk.mono (hg : AstGraph ex P nodes) (ha : P a) {t : V} {k k' x y : Nat} (h : KthWalk ex a t k x) (h' : KthWalk ex a t k' y)
    (hk : k ≤ k') : x ≤ y := by
  obtain ⟨W', h1, h2, h3, -⟩ := h'
  exact h.le_of hg ha h1 (by omega) h3

theorem KthWalk.unique (hg : AstGraph ex P nodes) (ha : P a) {t : V} {k x y : Nat} (h : KthWalk ex a t k x) (h' : KthWalk ex a t k y) :
    x = y :=
  Nat.le_antisymm (h.mono hg ha h' (Nat.le_refl k)) (h'.mono hg ha h (Nat.le_refl k))

theorem WalkBy.append {p q : List Nat} {v t : V} {x y : Nat} (hp : WalkBy ex a p v x) (hq : WalkBy ex v q t y) :
    WalkBy ex a (q ++ p) t (x + y) := by
  induction hq with
  | nil => exact hp
  | snoc _ h2 h3 ih => rw [← Nat.add_assoc]; exact .snoc ih h2 h3

open Classical in
theorem aWalk_walkBy {t : V} {n : Nat} : AWalk ex a t n ↔ ∃ is, WalkBy ex a is t n := by
  constructor
  · intro h
    induction h with
    | nil => exact ⟨[], .nil⟩
    | cons h1 _ ih =>
      obtain ⟨is, h3⟩ := ih
      obtain ⟨l, h4, h5⟩ := h1
      obtain ⟨i, h6⟩ := List.mem_iff_getElem?.1 h5
      have := (WalkBy.nil.snoc h4 h6).append h3
      rw [Nat.zero_add] at this
      exact ⟨_, this⟩
  · rintro ⟨is, h⟩
    induction h with
    | nil => exact .nil
    | snoc _ h2 h3 ih => exact ih.snoc ⟨_, h2, List.mem_of_getElem? h3⟩

/-- The first of the walks is the cheapest. -/
theorem kthWalk_one (hg : AstGraph ex P nodes) (ha : P a) {t : V} {x : Nat} : KthWalk ex a t 1 x ↔ AWalk ex a t x ∧ ∀ y, AWalk ex a t y → x ≤ y := by
  constructor
  · rintro ⟨W, h1, h2, h3, ⟨is, h4, h5⟩, h6⟩
    refine ⟨aWalk_walkBy.2 ⟨is, h5⟩, fun y hy => ?_⟩
    obtain ⟨js, h7⟩ := aWalk_walkBy.1 hy
    by_cases hj : js ∈ W
    · match W, h2 with
      | [ks], _ =>
        rw [List.mem_singleton.1 hj] at h7
        rw [List.mem_singleton.1 h4] at h5
        exact Nat.le_of_eq (h7.one hg ha h5).2
    · exact h6 js y h7 hj
  · rintro ⟨h1, h2⟩
    obtain ⟨is, h3⟩ := aWalk_walkBy.1 h1
    exact ⟨[is], by simp, rfl, fun js hj => by rw [List.mem_singleton.1 hj]; exact ⟨x, h3, Nat.le_refl x⟩,
      ⟨is, List.mem_singleton_self _, h3⟩, fun js y hy _ => h2 y (aWalk_walkBy.2 ⟨js, hy⟩)⟩

/-- With a way back to where it ends, a walk can be prolonged any number of times. -/
theorem many_walks {v : V} {p is : List Nat} {i x d : Nat} (hp : WalkBy ex a p v x) (hd : WalkBy ex v (i :: is) v d) : ∀ m,
    ∃ W : List (List Nat), W.Nodup ∧ W.length = m ∧ (∀ w ∈ W, ∃ y, WalkBy ex a w v y ∧ y + d ≤ x + m * d) := by
  intro m
  have key : ∃ (W : List (List Nat)) (q : List Nat), W.Nodup ∧ W.length = m ∧ (∀ w ∈ W, ∃ y, WalkBy ex a w v y ∧ y + d ≤ x + m * d) ∧
      (∀ w ∈ W, w.length < q.length) ∧ WalkBy ex a q v (x + m * d) := by
    induction m with
    | zero => exact ⟨[], p, List.nodup_nil, rfl, (fun _ h => nomatch h), (fun _ h => nomatch h), by rw [Nat.zero_mul]; exact hp⟩
    | succ m ih =>
      obtain ⟨W, q, h1, h2, h3, h4, h5⟩ := ih
      have e : x + (m + 1) * d = x + m * d + d := by rw [Nat.succ_mul, Nat.add_assoc]
      refine ⟨q :: W, (i :: is) ++ q, List.nodup_cons.2 ⟨fun h => Nat.lt_irrefl _ (h4 q h), h1⟩, by rw [List.length_cons, h2], ?_, ?_, ?_⟩
      · intro w hw
        rcases List.mem_cons.1 hw with rfl | hw
        · exact ⟨_, h5, by omega⟩
        · obtain ⟨y, h6, h7⟩ := h3 w hw
          exact ⟨y, h6, by omega⟩
      · intro w hw
        rw [List.length_append, List.length_cons]
        rcases List.mem_cons.1 hw with rfl | hw
        · omega
        · have := h4 w hw
          omega
      · rw [e]
        exact h5.append hd
  obtain ⟨W, -, h1, h2, h3, -⟩ := key
  exact ⟨W, h1, h2, h3⟩

/-- A walk with its end and its cost. -/
abbrev Entry (V : Type) := List Nat × V × Nat

/-- The walks one step longer are among `l`. -/
def Expanded (ex : V → List (V × Nat) → Prop) (l : List (Entry V)) (e : Entry V) : Prop :=
  ∀ es i tw, ex e.2.1 es → es[i]? = some tw → ∃ e' ∈ l, e'.1 = i :: e.1

/-- What is known of the nodes popped, `D`, and in the heap, `H`. -/
structure KWalks (ex : V → List (V × Nat) → Prop) (a : V) (k : Nat) (D H : List (Entry V)) : Prop where
  walk : ∀ e ∈ D ++ H, WalkBy ex a e.1 e.2.1 e.2.2
  nodup : ((D ++ H).map (·.1)).Nodup
  root : ∃ e ∈ D ++ H, e.1 = []
  parent : ∀ e ∈ D ++ H, ∀ i p, e.1 = i :: p → ∃ e' ∈ D, e'.1 = p
  le : ∀ e ∈ D, ∀ e' ∈ H, e.2.2 ≤ e'.2.2
  quota : ∀ v, ∃ Q : List (Entry V), (Q.map (·.1)).Nodup ∧ (∀ e ∈ Q, e ∈ D ∧ e.2.1 = v ∧ Expanded ex (D ++ H) e) ∧
    (Q.length = k ∨ ∀ e ∈ D, e.2.1 = v → e ∈ Q)
  closed : ∀ e ∈ D, Expanded ex (D ++ H) e ∨ ∃ Q : List (Entry V), (Q.map (·.1)).Nodup ∧
    (∀ q ∈ Q, q ∈ D ∧ q.2.1 = e.2.1 ∧ q.2.2 ≤ e.2.2 ∧ Expanded ex (D ++ H) q) ∧ Q.length = k

/-- The entries that end at `v`. -/
def endAt [DecidableEq V] (D : List (Entry V)) (v : V) : List (List Nat) := (D.filter fun e => e.2.1 = v).map (·.1)

theorem mem_endAt [DecidableEq V] {D : List (Entry V)} {v : V} {is : List Nat} : is ∈ endAt D v ↔ ∃ x, (is, v, x) ∈ D := by
  simp only [endAt, List.mem_map, List.mem_filter, decide_eq_true_eq]
  constructor
  · rintro ⟨⟨js, u, x⟩, ⟨h1, rfl⟩, rfl⟩
    exact ⟨x, h1⟩
  · rintro ⟨x, h⟩
    exact ⟨_, ⟨h, rfl⟩, rfl⟩

theorem nodup_of_map_inj {α β : Type} {f : α → β} {l : List α} (h : (l.map f).Nodup) {x y : α} (hx : x ∈ l) (hy : y ∈ l)
    (e : f x = f y) : x = y := by
  induction l with
  | nil => cases hx
  | cons z l ih =>
    rw [List.map_cons, List.nodup_cons] at h
    rcases List.mem_cons.1 hx with rfl | hx'
    · rcases List.mem_cons.1 hy with rfl | hy'
      · rfl
      · exact absurd (e ▸ List.mem_map_of_mem hy') h.1
    · rcases List.mem_cons.1 hy with rfl | hy'
      · exact absurd (e ▸ List.mem_map_of_mem hx') h.1
      · exact ih h.2 hx' hy'

theorem KWalks.endAt_nodup [DecidableEq V] {k : Nat} {D H : List (Entry V)} (hw : KWalks ex a k D H) (v : V) : (endAt D v).Nodup := by
  have h1 : (D.filter fun e => e.2.1 = v).Sublist (D ++ H) := List.filter_sublist.trans (List.sublist_append_left D H)
  exact (h1.map fun e => e.1).nodup hw.nodup

/-- While `v` was popped fewer than `k` times, a walk to it cheaper than all of the heap was popped. -/
theorem KWalks.popped [DecidableEq V] (hg : AstGraph ex P nodes) (ha : P a) {k : Nat} {D H : List (Entry V)} (hw : KWalks ex a k D H) {v : V}
    (hv : (endAt D v).length < k) {b : Nat} (hH : ∀ e ∈ H, b ≤ e.2.2) {is : List Nat} {y : Nat} (h : WalkBy ex a is v y) (hy : y < b) :
    is ∈ endAt D v := by
  have key : ∀ (rest : List Nat) (e : Entry V), e ∈ D ++ H → ∀ y, WalkBy ex a (rest.reverse ++ e.1) v y → y < b →
      rest.reverse ++ e.1 ∈ endAt D v := by
    intro rest
    induction rest with
    | nil =>
      rintro ⟨is, u, x⟩ he y h hy
      obtain ⟨rfl, rfl⟩ := (hw.walk _ he).one hg ha h
      rcases List.mem_append.1 he with he | he
      · exact mem_endAt.2 ⟨_, he⟩
      · have := hH _ he
        simp only [] at this
        omega
    | cons i rest ih =>
      intro e he y h hy
      have hrew : ∀ q : List Nat, (i :: rest).reverse ++ q = rest.reverse ++ (i :: q) := fun q => by simp
      have hgo : ∀ q, Expanded ex (D ++ H) q → q ∈ D ++ H → ∀ z, WalkBy ex a ((i :: rest).reverse ++ q.1) v z → z < b →
          (i :: rest).reverse ++ q.1 ∈ endAt D v := by
        intro q hq hm z hz hlt
        rw [hrew] at hz ⊢
        obtain ⟨t, w, hx⟩ := hz.back
        cases hx with
        | snoc h1 h2 h3 =>
          obtain ⟨e1, -⟩ := (hw.walk _ hm).one hg ha h1
          rw [e1] at h2
          obtain ⟨e', h4, h5⟩ := hq _ _ _ h2 h3
          rw [← h5] at hz ⊢
          exact ih e' h4 z hz hlt
      rcases List.mem_append.1 he with hd | hh
      · rcases hw.closed e hd with hx | ⟨Q, h1, h2, h3⟩
        · exact hgo e hx he y h hy
        · exfalso
          have hsub : (Q.map fun q => (i :: rest).reverse ++ q.1) ⊆ endAt D v := by
            intro js hj
            obtain ⟨q, h4, rfl⟩ := List.mem_map.1 hj
            obtain ⟨h5, h6, h7, h8⟩ := h2 q h4
            have hwq := hw.walk q (List.mem_append_left _ h5)
            rw [h6] at hwq
            obtain ⟨d, rfl, h9⟩ := (hw.walk e he).swap hg ha hwq h
            exact hgo q h8 (List.mem_append_left _ h5) _ h9 (by omega)
          have hnd : (Q.map fun q => (i :: rest).reverse ++ q.1).Nodup := by
            have := nodup_map_of_inj (f := fun q : List Nat => (i :: rest).reverse ++ q) h1 (fun x _ y _ e => List.append_cancel_left e)
            rwa [List.map_map] at this
          have := hnd.length_le_of_subset hsub
          rw [List.length_map] at this
          omega
      · exfalso
        obtain ⟨d, rfl, -⟩ := (hw.walk e he).swap hg ha (hw.walk e he) h
        have := hH e hh
        omega
  obtain ⟨e, h1, h2⟩ := hw.root
  have := key is.reverse e h1 y (by rw [h2]; simpa using h) hy
  rw [h2] at this
  simpa using this

theorem Expanded.mono {l l' : List (Entry V)} {e : Entry V} (h : Expanded ex l e) (hs : l ⊆ l') : Expanded ex l' e := fun es i tw h1 h2 => by
  obtain ⟨e', h3, h4⟩ := h es i tw h1 h2
  exact ⟨e', hs h3, h4⟩

theorem pop_perm {α : Type} (e : α) (D H1 H2 : List α) : ((e :: D) ++ (H1 ++ H2)).Perm (D ++ (H1 ++ e :: H2)) := by
  refine .trans (l₂ := D ++ (e :: (H1 ++ H2))) ?_ (List.Perm.append_left D List.perm_middle.symm)
  exact (List.perm_middle (l₁ := D) (a := e) (l₂ := H1 ++ H2)).symm

/-- If `v` was popped `k` times or more, `k` of these were expanded. -/
theorem KWalks.full [DecidableEq V] {k : Nat} {D H : List (Entry V)} (hw : KWalks ex a k D H) {v : V} (hv : k ≤ (endAt D v).length) :
    ∃ Q : List (Entry V), (Q.map (·.1)).Nodup ∧ (∀ e ∈ Q, e ∈ D ∧ e.2.1 = v ∧ Expanded ex (D ++ H) e) ∧ Q.length = k := by
  obtain ⟨Q, h1, h2, h3⟩ := hw.quota v
  rcases h3 with h3 | h3
  · exact ⟨Q, h1, h2, h3⟩
  · have hsub : endAt D v ⊆ Q.map (·.1) := fun is hi => by
      obtain ⟨x, h4⟩ := mem_endAt.1 hi
      exact List.mem_map.2 ⟨_, h3 _ h4 rfl, rfl⟩
    have hl := (hw.endAt_nodup v).length_le_of_subset hsub
    rw [List.length_map] at hl
    refine ⟨Q.take k, ?_, fun e he => h2 e (List.mem_of_mem_take he), by rw [List.length_take]; omega⟩
    rw [List.map_take]
    exact (List.take_sublist _ _).nodup h1

/-- Popping a node popped `k` times before. -/
theorem KWalks.over [DecidableEq V] {k : Nat} {D H1 H2 : List (Entry V)} {e : Entry V} (hw : KWalks ex a k D (H1 ++ e :: H2))
    (hm : ∀ e' ∈ H1 ++ e :: H2, e.2.2 ≤ e'.2.2) (hk : k ≤ (endAt D e.2.1).length) : KWalks ex a k (e :: D) (H1 ++ H2) := by
  have hp := pop_perm e D H1 H2
  have hs : D ++ (H1 ++ e :: H2) ⊆ (e :: D) ++ (H1 ++ H2) := fun x hx => hp.mem_iff.2 hx
  have heH : e ∈ H1 ++ e :: H2 := List.mem_append_right _ List.mem_cons_self
  refine ⟨fun x hx => hw.walk x (hp.mem_iff.1 hx), (hp.map _).nodup_iff.2 hw.nodup, ?_, ?_, ?_, ?_, ?_⟩
  · obtain ⟨x, h1, h2⟩ := hw.root
    exact ⟨x, hs h1, h2⟩
  · intro x hx i p h1
    obtain ⟨x', h2, h3⟩ := hw.parent x (hp.mem_iff.1 hx) i p h1
    exact ⟨x', List.mem_cons_of_mem _ h2, h3⟩
  · intro x hx x' hx'
    have hx'' : x' ∈ H1 ++ e :: H2 := by
      rcases List.mem_append.1 hx' with h | h
      · exact List.mem_append_left _ h
      · exact List.mem_append_right _ (List.mem_cons_of_mem _ h)
    rcases List.mem_cons.1 hx with rfl | hx
    · exact hm _ hx''
    · exact hw.le x hx x' hx''
  · intro v
    by_cases hv : e.2.1 = v
    · subst hv
      obtain ⟨Q, h1, h2, h3⟩ := hw.full hk
      exact ⟨Q, h1, fun q hq => ⟨List.mem_cons_of_mem _ (h2 q hq).1, (h2 q hq).2.1, (h2 q hq).2.2.mono hs⟩, .inl h3⟩
    · obtain ⟨Q, h1, h2, h3⟩ := hw.quota v
      refine ⟨Q, h1, fun q hq => ⟨List.mem_cons_of_mem _ (h2 q hq).1, (h2 q hq).2.1, (h2 q hq).2.2.mono hs⟩, h3.imp_right fun h3 x hx hv' => ?_⟩
      rcases List.mem_cons.1 hx with rfl | hx
      · exact absurd hv' hv
      · exact h3 x hx hv'
  · intro x hx
    rcases List.mem_cons.1 hx with rfl | hx
    · obtain ⟨Q, h1, h2, h3⟩ := hw.full hk
      exact .inr ⟨Q, h1, fun q hq => ⟨List.mem_cons_of_mem _ (h2 q hq).1, (h2 q hq).2.1, hw.le q (h2 q hq).1 _ heH, (h2 q hq).2.2.mono hs⟩, h3⟩
    · rcases hw.closed x hx with h1 | ⟨Q, h1, h2, h3⟩
      · exact .inl (h1.mono hs)
      · exact .inr ⟨Q, h1, fun q hq => ⟨List.mem_cons_of_mem _ (h2 q hq).1, (h2 q hq).2.1, (h2 q hq).2.2.1, (h2 q hq).2.2.2.mono hs⟩, h3⟩

/-- The walks one step longer than `e`, along the edges `l`. -/
def grow (e : Entry V) (l : List (V × Nat)) : List (Entry V) := l.zipIdx.map fun p => (p.2 :: e.1, p.1.1, e.2.2 + p.1.2)

theorem mem_grow {e x : Entry V} {l : List (V × Nat)} :
    x ∈ grow e l ↔ ∃ i tw, l[i]? = some tw ∧ x = (i :: e.1, tw.1, e.2.2 + tw.2) := by
  simp only [grow, List.mem_map]
  constructor
  · rintro ⟨p, h1, rfl⟩
    exact ⟨p.2, p.1, List.mem_zipIdx_iff_getElem?.1 h1, rfl⟩
  · rintro ⟨i, tw, h1, rfl⟩
    exact ⟨(tw, i), List.mem_zipIdx_iff_getElem?.2 h1, rfl⟩

theorem grow_nodup (e : Entry V) (l : List (V × Nat)) : ((grow e l).map (·.1)).Nodup := by
  have h1 : (grow e l).map (·.1) = (List.range' 0 l.length).map (· :: e.1) := by
    rw [← List.zipIdx_map_snd 0 l, grow, List.map_map, List.map_map]
    rfl
  rw [h1]
  exact nodup_map_of_inj (List.nodup_range') fun x _ y _ h => (List.cons.inj h).1

theorem grow_heap (e : Entry V) (l : List (V × Nat)) :
    (grow e l).map (fun x => (x.2.2, x.2.1)) = l.map fun tw => (e.2.2 + tw.2, tw.1) := by
  have h1 := congrArg (List.map fun tw : V × Nat => (e.2.2 + tw.2, tw.1)) (List.zipIdx_map_fst 0 l)
  rw [← h1, grow, List.map_map, List.map_map]
  rfl

/-- Popping a node and pushing the ends of its edges. -/
theorem KWalks.next (hg : AstGraph ex P nodes) (ha : P a) {k : Nat} {D H1 H2 : List (Entry V)} {e : Entry V}
    (hw : KWalks ex a k D (H1 ++ e :: H2)) (hm : ∀ e' ∈ H1 ++ e :: H2, e.2.2 ≤ e'.2.2) {l : List (V × Nat)} (hl : ex e.2.1 l) :
    KWalks ex a k (e :: D) (grow e l ++ (H1 ++ H2)) := by
  have hp := pop_perm e D H1 H2
  have hq : ((e :: D) ++ (grow e l ++ (H1 ++ H2))).Perm (grow e l ++ (D ++ (H1 ++ e :: H2))) := by
    have h1 : ((e :: D) ++ (grow e l ++ (H1 ++ H2))).Perm (grow e l ++ ((e :: D) ++ (H1 ++ H2))) := by
      rw [← List.append_assoc, ← List.append_assoc (grow e l)]
      exact List.perm_append_comm.append_right _
    exact h1.trans (hp.append_left _)
  have hs : D ++ (H1 ++ e :: H2) ⊆ (e :: D) ++ (grow e l ++ (H1 ++ H2)) := fun x hx => hq.mem_iff.2 (List.mem_append_right _ hx)
  have heH : e ∈ H1 ++ e :: H2 := List.mem_append_right _ List.mem_cons_self
  have heA : e ∈ D ++ (H1 ++ e :: H2) := List.mem_append_right _ heH
  have hin : ∀ x, x ∈ (e :: D) ++ (grow e l ++ (H1 ++ H2)) → x ∈ grow e l ∨ x ∈ D ++ (H1 ++ e :: H2) := fun x hx =>
    List.mem_append.1 (hq.mem_iff.1 hx)
  have hwe := hw.walk e heA
  have hnd := hw.nodup
  rw [List.map_append] at hnd
  have hnew : ∀ x ∈ D, x.1 ≠ e.1 := fun x hx h =>
    (List.nodup_append.1 hnd).2.2 _ (List.mem_map.2 ⟨x, hx, rfl⟩) _ (List.mem_map.2 ⟨e, heH, rfl⟩) h
  have hexp : Expanded ex ((e :: D) ++ (grow e l ++ (H1 ++ H2))) e := fun es i tw h1 h2 => by
    rw [hg.one _ _ _ (hwe.node hg ha) h1 hl] at h2
    exact ⟨_, hq.mem_iff.2 (List.mem_append_left _ (mem_grow.2 ⟨i, tw, h2, rfl⟩)), rfl⟩
  refine ⟨?_, ?_, ?_, ?_, ?_, ?_, ?_⟩
  · intro x hx
    rcases hin x hx with hx | hx
    · obtain ⟨i, tw, h1, rfl⟩ := mem_grow.1 hx
      exact .snoc hwe hl h1
    · exact hw.walk x hx
  · rw [(hq.map _).nodup_iff, List.map_append, List.nodup_append]
    refine ⟨grow_nodup e l, hw.nodup, ?_⟩
    rintro is h1 js h2 rfl
    obtain ⟨x, h3, rfl⟩ := List.mem_map.1 h1
    obtain ⟨i, tw, -, rfl⟩ := mem_grow.1 h3
    obtain ⟨y, h4, h5⟩ := List.mem_map.1 h2
    obtain ⟨z, h6, h7⟩ := hw.parent y h4 i e.1 h5
    exact hnew z h6 h7
  · obtain ⟨x, h1, h2⟩ := hw.root
    exact ⟨x, hs h1, h2⟩
  · intro x hx i p h1
    rcases hin x hx with hx | hx
    · obtain ⟨j, tw, -, rfl⟩ := mem_grow.1 hx
      cases h1
      exact ⟨e, List.mem_cons_self, rfl⟩
    · obtain ⟨x', h2, h3⟩ := hw.parent x hx i p h1
      exact ⟨x', List.mem_cons_of_mem _ h2, h3⟩
  · intro x hx x' hx'
    have hxe : x.2.2 ≤ e.2.2 := by
      rcases List.mem_cons.1 hx with rfl | hx
      · exact Nat.le_refl _
      · exact hw.le x hx e heH
    rcases List.mem_append.1 hx' with h | h
    · obtain ⟨j, tw, -, rfl⟩ := mem_grow.1 h
      exact Nat.le_trans hxe (Nat.le_add_right _ _)
    · refine Nat.le_trans hxe (hm x' ?_)
      rcases List.mem_append.1 h with h | h
      · exact List.mem_append_left _ h
      · exact List.mem_append_right _ (List.mem_cons_of_mem _ h)
  · intro v
    obtain ⟨Q, h1, h2, h3⟩ := hw.quota v
    have h2' : ∀ q ∈ Q, q ∈ e :: D ∧ q.2.1 = v ∧ Expanded ex ((e :: D) ++ (grow e l ++ (H1 ++ H2))) q := fun q hq =>
      ⟨List.mem_cons_of_mem _ (h2 q hq).1, (h2 q hq).2.1, (h2 q hq).2.2.mono hs⟩
    rcases h3 with h3 | h3
    · exact ⟨Q, h1, h2', .inl h3⟩
    · by_cases hv : e.2.1 = v
      · refine ⟨e :: Q, ?_, fun q hq => ?_, .inr fun x hx hv' => ?_⟩
        · rw [List.map_cons, List.nodup_cons]
          refine ⟨fun h4 => ?_, h1⟩
          obtain ⟨q, h5, h6⟩ := List.mem_map.1 h4
          exact hnew q (h2 q h5).1 h6
        · rcases List.mem_cons.1 hq with rfl | hq
          · exact ⟨List.mem_cons_self, hv, hexp⟩
          · exact h2' q hq
        · rcases List.mem_cons.1 hx with rfl | hx
          · exact List.mem_cons_self
          · exact List.mem_cons_of_mem _ (h3 x hx hv')
      · refine ⟨Q, h1, h2', .inr fun x hx hv' => ?_⟩
        rcases List.mem_cons.1 hx with rfl | hx
        · exact absurd hv' hv
        · exact h3 x hx hv'
  · intro x hx
    rcases List.mem_cons.1 hx with rfl | hx
    · exact .inl hexp
    · rcases hw.closed x hx with h1 | ⟨Q, h1, h2, h3⟩
      · exact .inl (h1.mono hs)
      · exact .inr ⟨Q, h1, fun q hq => ⟨List.mem_cons_of_mem _ (h2 q hq).1, (h2 q hq).2.1, (h2 q hq).2.2.1, (h2 q hq).2.2.2.mono hs⟩, h3⟩

theorem KWalks.kth [DecidableEq V] (hg : AstGraph ex P nodes) (ha : P a) {D H1 H2 : List (Entry V)} {e : Entry V} {k : Nat}
    (hw : KWalks ex a k D (H1 ++ e :: H2)) (hm : ∀ e' ∈ H1 ++ e :: H2, e.2.2 ≤ e'.2.2) (hk : (endAt D e.2.1).length + 1 = k) :
    KthWalk ex a e.2.1 k e.2.2 := by
  have heH : e ∈ H1 ++ e :: H2 := List.mem_append_right _ List.mem_cons_self
  have hwe := hw.walk e (List.mem_append_right _ heH)
  have hnd := hw.nodup
  rw [List.map_append] at hnd
  refine ⟨e.1 :: endAt D e.2.1, List.nodup_cons.2 ⟨fun h => ?_, hw.endAt_nodup _⟩, by rw [List.length_cons]; exact hk, ?_,
    ⟨e.1, List.mem_cons_self, hwe⟩, fun is y h hn => ?_⟩
  · obtain ⟨x, h1⟩ := mem_endAt.1 h
    exact (List.nodup_append.1 hnd).2.2 _ (List.mem_map.2 ⟨_, h1, rfl⟩) _ (List.mem_map.2 ⟨e, heH, rfl⟩) rfl
  · intro is hi
    rcases List.mem_cons.1 hi with rfl | hi
    · exact ⟨_, hwe, Nat.le_refl _⟩
    · obtain ⟨x, h1⟩ := mem_endAt.1 hi
      exact ⟨x, hw.walk _ (List.mem_append_left _ h1), hw.le _ h1 e heH⟩
  · refine Classical.byContradiction fun hlt => hn (List.mem_cons_of_mem _ (hw.popped hg ha (by omega) hm h (by omega)))

/-- What holds before every turn, `D` being the walks popped. -/
structure KInv [DecidableEq V] (ex : V → List (V × Nat) → Prop) (P : V → Prop) (idx : V → Nat) (a : V) (k : Nat) (D : List (Entry V))
    (st : KSt V) : Prop where
  walks : ∃ H, st.heap = H.map (fun e => (e.2.2, e.2.1)) ∧ KWalks ex a k D H
  count : ∀ v, P v → st.counter[idx v]? = some (endAt D v).length
  right : ∀ v x, st.scores v = some x → KthWalk ex a v k x
  found : ∀ v, 0 < k → k ≤ (endAt D v).length → ∃ x, st.scores v = some x

variable [DecidableEq V] {ix : V → Res Nat} {idx : V → Nat} {n k : Nat} {goal : Option V}

theorem endAt_cons (e : Entry V) (D : List (Entry V)) (v : V) :
    endAt (e :: D) v = if e.2.1 = v then e.1 :: endAt D v else endAt D v := by
  unfold endAt
  by_cases hv : e.2.1 = v
  · rw [if_pos hv, List.filter_cons_of_pos (by simpa using hv), List.map_cons]
  · rw [if_neg hv, List.filter_cons_of_neg (by simpa using hv)]

theorem KInv.new (hi : Indexed P idx n) : KInv ex P idx a k [] (kNew n a) where
  walks := by
    refine ⟨[([], a, 0)], rfl, ?_, by simp, ⟨_, List.mem_singleton_self _, rfl⟩, ?_, (fun _ h => nomatch h), ?_,
      (fun _ h => nomatch h)⟩
    · intro e he
      rw [List.mem_singleton.1 he]
      exact .nil
    · intro e he i p h
      rw [List.mem_singleton.1 he] at h
      cases h
    · exact fun v => ⟨[], List.nodup_nil, (fun _ h => nomatch h), .inr fun _ h => nomatch h⟩
  count := fun v hv => by
    show (List.replicate n 0)[idx v]? = some 0
    rw [List.getElem?_replicate, if_pos (hi.lt hv)]
  right := fun v x h => nomatch h
  found := fun v h0 h => by
    have : k ≤ 0 := h
    omega

/-- The walk behind an entry popped. -/
theorem KInv.pop (hg : AstGraph ex P nodes) (ha : P a) {D : List (Entry V)} {st : KSt V} (hv : KInv ex P idx a k D st) {x : Nat} {c : V}
    {rest : List (Nat × V)} (hp : Pop st.heap (x, c) rest) : ∃ is H1 H2, rest = (H1 ++ H2).map (fun e : Entry V => (e.2.2, e.2.1)) ∧
      KWalks ex a k D (H1 ++ (is, c, x) :: H2) ∧ (∀ e' ∈ H1 ++ (is, c, x) :: H2, x ≤ e'.2.2) ∧ P c := by
  obtain ⟨H, h1, h2⟩ := hv.walks
  obtain ⟨⟨l1, l2, h3, rfl⟩, h4⟩ := hp
  rw [h1] at h3
  obtain ⟨H1, H', rfl, rfl, h5⟩ := List.map_eq_append_iff.1 h3
  obtain ⟨⟨is, c', x'⟩, H2, rfl, h6, rfl⟩ := List.map_eq_cons_iff.1 h5
  cases h6
  refine ⟨is, H1, H2, by rw [List.map_append], h2, fun e' he => ?_,
    (h2.walk _ (List.mem_append_right _ (List.mem_append_right _ List.mem_cons_self))).node hg ha⟩
  exact h4 (e'.2.2, e'.2.1) (by rw [h1]; exact List.mem_map.2 ⟨e', he, rfl⟩)

theorem count_set (hi : Indexed P idx n) {D : List (Entry V)} {st : KSt V} (hv : KInv ex P idx a k D st) {is : List Nat} {c : V} {x j : Nat}
    (hc : P c) (hj : st.counter[idx c]? = some j) :
    j = (endAt D c).length ∧ ∀ v, P v → (st.counter.set (idx c) (j + 1))[idx v]? = some (endAt ((is, c, x) :: D) v).length := by
  have h1 := hv.count c hc
  rw [hj] at h1
  cases h1
  refine ⟨rfl, fun v pv => ?_⟩
  rw [endAt_cons]
  by_cases e : c = v
  · subst e
    rw [if_pos rfl, List.getElem?_set_self (by rw [List.getElem?_eq_some_iff] at hj; exact hj.1), List.length_cons]
  · rw [if_neg e, List.getElem?_set_ne (fun h => e (hi.inj hc pv h))]
    exact hv.count v pv

theorem kScore_right {D : List (Entry V)} {st : KSt V} (hv : KInv ex P idx a k D st) {c : V} {x j : Nat}
    (h : j = k → KthWalk ex a c k x) : ∀ v y, kScore k j c x st.scores v = some y → KthWalk ex a v k y := by
  intro v y hy
  unfold kScore at hy
  split at hy
  · next hj =>
    simp only [] at hy
    split at hy
    · next e => cases hy; rw [e]; exact h hj
    · exact hv.right v y hy
  · exact hv.right v y hy

theorem kScore_found {D : List (Entry V)} {st : KSt V} (hv : KInv ex P idx a k D st) {is : List Nat} {c : V} {x : Nat} :
    ∀ v, 0 < k → k ≤ (endAt ((is, c, x) :: D) v).length → ∃ y, kScore k ((endAt D c).length + 1) c x st.scores v = some y := by
  intro v h0 hk
  rw [endAt_cons] at hk
  unfold kScore
  by_cases e : c = v
  · subst e
    rw [if_pos rfl, List.length_cons] at hk
    by_cases hj : (endAt D c).length + 1 = k
    · rw [if_pos hj]
      exact ⟨x, if_pos rfl⟩
    · rw [if_neg hj]
      exact hv.found c h0 (by omega)
  · rw [if_neg e] at hk
    obtain ⟨y, hy⟩ := hv.found v h0 hk
    split
    · exact ⟨y, by simp only [if_neg (Ne.symm e)]; exact hy⟩
    · exact ⟨y, hy⟩

theorem KInv.step (hg : AstGraph ex P nodes) (hi : Indexed P idx n) (hix : ∀ v, P v → ix v = .ok (idx v)) (ha : P a)
    {D : List (Entry V)} {st st' : KSt V} (hv : KInv ex P idx a k D st) (hs : KStep ix ex goal k st st') :
    ∃ D', KInv ex P idx a k D' st' := by
  cases hs with
  | @over x c rest i j hp h1 h2 h3 =>
    obtain ⟨is, H1, H2, rfl, hw, hm, hc⟩ := hv.pop hg ha hp
    rw [hix c hc] at h1; cases h1
    obtain ⟨rfl, hcs⟩ := count_set (is := is) (x := x) hi hv hc h2
    refine ⟨(is, c, x) :: D, ⟨⟨H1 ++ H2, rfl, hw.over hm (by show k ≤ (endAt D c).length; omega)⟩, hcs, hv.right, fun v h0 hk => ?_⟩⟩
    rw [endAt_cons] at hk
    refine hv.found v h0 ?_
    split at hk
    · next e => simp only [] at e; subst e; omega
    · exact hk
  | @next x c rest i j l hp h1 h2 h3 h4 h5 =>
    obtain ⟨is, H1, H2, rfl, hw, hm, hc⟩ := hv.pop hg ha hp
    rw [hix c hc] at h1; cases h1
    obtain ⟨rfl, hcs⟩ := count_set (is := is) (x := x) hi hv hc h2
    refine ⟨(is, c, x) :: D, ⟨⟨grow (is, c, x) l ++ (H1 ++ H2), ?_, hw.next hg ha hm h5⟩, hcs, ?_, kScore_found hv⟩⟩
    · rw [List.map_append (l₁ := grow _ _), grow_heap]
    · exact kScore_right hv fun hj => hw.kth hg ha hm hj

theorem KInv.steps (hg : AstGraph ex P nodes) (hi : Indexed P idx n) (hix : ∀ v, P v → ix v = .ok (idx v)) (ha : P a) {st st' : KSt V}
    (hs : KSteps ix ex goal k st st') (hv : ∃ D, KInv ex P idx a k D st) : ∃ D, KInv ex P idx a k D st' := by
  induction hs with
  | refl => exact hv
  | step _ h2 ih =>
    obtain ⟨D, h⟩ := ih
    exact h.step hg hi hix ha h2

theorem sum_set {f : Nat → Nat} : ∀ {l : List Nat} {i x y : Nat}, l[i]? = some x → ((l.set i y).map f).sum + f x = (l.map f).sum + f y
  | [], _, _, _, h => nomatch h
  | z :: l, 0, x, y, h => by
    cases h
    simp only [List.set_cons_zero, List.map_cons, List.sum_cons]
    omega
  | z :: l, i + 1, x, y, h => by
    have := sum_set (f := f) (y := y) (l := l) (i := i) h
    simp only [List.set_cons_succ, List.map_cons, List.sum_cons]
    omega

/-- What shrinks with every turn: how often nodes can still be expanded, then the heap. -/
def kMeasure (k : Nat) (st : KSt V) : Nat × Nat := ((st.counter.map (k - ·)).sum, st.heap.length)

def kLess : Nat × Nat → Nat × Nat → Prop := Prod.Lex (· < ·) (· < ·)

theorem kLess_wf : WellFounded kLess := (Prod.lex ⟨_, Nat.lt_wfRel.wf⟩ ⟨_, Nat.lt_wfRel.wf⟩).wf

theorem KStep.less {st st' : KSt V} (hs : KStep ix ex goal k st st') : kLess (kMeasure k st') (kMeasure k st) := by
  cases hs with
  | @over x c rest i j hp h1 h2 h3 =>
    have h4 := sum_set (f := (k - ·)) (y := j + 1) h2
    have h5 : ((st.counter.set i (j + 1)).map (k - ·)).sum = (st.counter.map (k - ·)).sum := by
      omega
    unfold kMeasure
    rw [h5]
    exact .right _ hp.shorter
  | @next x c rest i j l hp h1 h2 h3 h4 h5 =>
    have h6 := sum_set (f := (k - ·)) (y := j + 1) h2
    refine .left _ _ ?_
    simp only [] at h6 ⊢
    omega

/-- There is no infinite run. -/
theorem k_ends (run : Nat → KSt V) : ¬ ∀ i, KStep ix ex goal k (run i) (run (i + 1)) := by
  intro hrun
  have key : ∀ m, ∀ i, kMeasure k (run i) = m → False := fun m => by
    induction m using kLess_wf.induction with
    | _ m ih =>
      intro i hi
      exact ih _ (hi ▸ (hrun i).less) (i + 1) rfl
  exact key _ 0 rfl

theorem KSteps.trans {st st' st'' : KSt V} (h1 : KSteps ix ex goal k st st') (h2 : KSteps ix ex goal k st' st'') :
    KSteps ix ex goal k st st'' := by
  induction h2 with
  | refl => exact h1
  | step _ h4 ih => exact .step ih h4

/-- Every run can be completed. -/
theorem k_completes (hg : AstGraph ex P nodes) (hi : Indexed P idx n) (hix : ∀ v, P v → ix v = .ok (idx v)) (ha : P a) {st : KSt V}
    (hs : KSteps ix ex goal k (kNew n a) st) : ∃ st' sc, KSteps ix ex goal k st st' ∧ KReturns ix goal k st' sc := by
  have key : ∀ m, ∀ st, KSteps ix ex goal k (kNew n a) st → kMeasure k st = m →
      ∃ st' sc, KSteps ix ex goal k st st' ∧ KReturns ix goal k st' sc := fun m => by
    induction m using kLess_wf.induction with
    | _ m ih =>
      intro st hs hm
      by_cases hne : st.heap = []
      · exact ⟨st, _, .refl, .empty hne⟩
      · obtain ⟨⟨x, c⟩, rest, hp⟩ := pop_some hne
        obtain ⟨D, hv⟩ := KInv.steps hg hi hix ha hs ⟨[], KInv.new hi⟩
        obtain ⟨is, H1, H2, -, -, -, hc⟩ := hv.pop hg ha hp
        have go : ∀ {st1}, KStep ix ex goal k st st1 → ∃ st' sc, KSteps ix ex goal k st st' ∧ KReturns ix goal k st' sc := fun {st1} h1 => by
          obtain ⟨st', sc, h2, h3⟩ := ih _ (hm ▸ h1.less) st1 (.step hs h1) rfl
          exact ⟨st', sc, (KSteps.step .refl h1).trans h2, h3⟩
        by_cases hk : k < (endAt D c).length + 1
        · exact go (.over hp (hix c hc) (hv.count c hc) hk)
        · by_cases hgo : goal = some c ∧ (endAt D c).length + 1 = k
          · exact ⟨st, _, .refl, .goal hp (hix c hc) (hv.count c hc) hgo.1 hgo.2⟩
          · obtain ⟨l, hl⟩ := hg.total c hc
            exact go (.next hp (hix c hc) (hv.count c hc) hk hgo hl)
  exact key _ st hs rfl

/-- The scores returned are costs of `k`-th cheapest walks. A node that is the goal, or any if there is none, has a score unless there are
fewer than `k` walks to it. -/
theorem k_result (hg : AstGraph ex P nodes) (hi : Indexed P idx n) (hix : ∀ v, P v → ix v = .ok (idx v)) (ha : P a)
    {sc : V → Option Nat} (h : KShortest ix ex n a goal k sc) :
    (∀ v x, sc v = some x → KthWalk ex a v k x) ∧
    ∀ v, goal = none ∨ goal = some v → 0 < k → sc v = none →
      ∀ W : List (List Nat), W.Nodup → (∀ is ∈ W, ∃ y, WalkBy ex a is v y) → W.length < k := by
  obtain ⟨st, hs, hr⟩ := h
  obtain ⟨D, hv⟩ := KInv.steps hg hi hix ha hs ⟨[], KInv.new hi⟩
  cases hr with
  | empty he =>
    refine ⟨hv.right, fun v _ h0 hn W h1 h2 => ?_⟩
    obtain ⟨H, h3, hw⟩ := hv.walks
    rw [he] at h3
    have h3' := List.map_eq_nil_iff.1 h3.symm
    subst h3'
    have hlt : (endAt D v).length < k := Classical.byContradiction fun hge => by
      obtain ⟨x, hx⟩ := hv.found v h0 (by omega)
      rw [hn] at hx; cases hx
    have hsub : W ⊆ endAt D v := fun is hm => by
      obtain ⟨y, hy⟩ := h2 is hm
      exact hw.popped hg ha hlt (b := y + 1) (fun _ h => nomatch h) hy (by omega)
    have := h1.length_le_of_subset hsub
    omega
  | @goal x c rest i j hp h1 h2 h3 h4 =>
    obtain ⟨is, H1, H2, rfl, hw, hm, hc⟩ := hv.pop hg ha hp
    rw [hix c hc] at h1; cases h1
    obtain ⟨rfl, -⟩ := count_set (is := is) (x := x) hi hv hc h2
    refine ⟨kScore_right hv fun hj => hw.kth hg ha hm hj, fun v hgv h0 hn => ?_⟩
    rw [h3] at hgv
    rcases hgv with e | e
    · cases e
    · cases e
      unfold kScore at hn
      rw [if_pos h4] at hn
      exact nomatch (if_pos rfl).symm.trans hn

theorem k_exact (hg : AstGraph ex P nodes) (hi : Indexed P idx n) (hix : ∀ v, P v → ix v = .ok (idx v)) (ha : P a)
    {sc : V → Option Nat} (h : KShortest ix ex n a goal k sc) {b : V} (hgb : goal = none ∨ goal = some b) :
    (∀ x, sc b = some x ↔ KthWalk ex a b k x) ∧
    (0 < k → (sc b = none ↔ ∀ W : List (List Nat), W.Nodup → (∀ is ∈ W, ∃ y, WalkBy ex a is b y) → W.length < k)) := by
  obtain ⟨h1, h2⟩ := k_result hg hi hix ha h
  refine ⟨fun x => ⟨h1 b x, fun hx => ?_⟩, fun h0 => ⟨h2 b hgb h0, fun hall => ?_⟩⟩
  · have ⟨W, g1, g2, g3, ⟨is, g4, g5⟩, _⟩ := hx
    have h0 : 0 < k := by
      rw [← g2]; exact List.length_pos_of_mem g4
    cases hn : sc b with
    | none =>
      have := h2 b hgb h0 hn W g1 fun js hj => (g3 js hj).imp fun _ hy => hy.1
      omega
    | some y => rw [hx.unique hg ha (h1 b y hn)]
  · cases hn : sc b with
    | none => rfl
    | some y =>
      obtain ⟨W, g1, g2, g3, -⟩ := h1 b y hn
      have := hall W g1 fun js hj => (g3 js hj).imp fun _ hy => hy.1
      omega

/-- Walks there and round trips. -/
theorem round_trips {b b' : V} (hne : b ≠ b') {x d d' : Nat} (h1 : AWalk ex a b x) (h2 : AWalk ex b b' d) (h3 : AWalk ex b' b d') (m : Nat) :
    ∃ W : List (List Nat), W.Nodup ∧ W.length = m ∧ ∀ w ∈ W, ∃ y, WalkBy ex a w b y ∧ y ≤ x + (m - 1) * (d + d') := by
  obtain ⟨p, g1⟩ := aWalk_walkBy.1 h1
  obtain ⟨q, g2⟩ := aWalk_walkBy.1 h2
  obtain ⟨q', g3⟩ := aWalk_walkBy.1 h3
  have : ∃ W : List (List Nat), W.Nodup ∧ W.length = m ∧ ∀ w ∈ W, ∃ y, WalkBy ex a w b y ∧ y + (d + d') ≤ x + m * (d + d') := by
    cases q' with
    | nil => cases g3; exact absurd rfl hne
    | cons j q' => exact many_walks g1 (g2.append g3) m
  obtain ⟨W, g4, g5, g6⟩ := this
  refine ⟨W, g4, g5, fun w hw => ?_⟩
  obtain ⟨y, g7, g8⟩ := g6 w hw
  refine ⟨y, g7, ?_⟩
  cases m with
  | zero => rw [List.eq_nil_of_length_eq_zero g5] at hw; cases hw
  | succ m =>
    rw [Nat.succ_mul] at g8
    rw [Nat.add_sub_cancel]
    omega

theorem k_all (hg : AstGraph ex P nodes) (hi : Indexed P idx n) (hix : ∀ v, P v → ix v = .ok (idx v)) (ha : P a)
    {sc : V → Option Nat} (h : KShortest ix ex n a goal k sc) {b b' : V} (hne : b ≠ b') (hgb : goal = none ∨ goal = some b) (h0 : 0 < k)
    (hw : ∃ x d d', AWalk ex a b x ∧ AWalk ex b b' d ∧ AWalk ex b' b d') :
    ∃ x, sc b = some x ∧ ∀ n d d', AWalk ex a b n → AWalk ex b b' d → AWalk ex b' b d' → x ≤ n + (k - 1) * (d + d') := by
  obtain ⟨x, d, d', w1, w2, w3⟩ := hw
  obtain ⟨W, g1, g2, g3⟩ := round_trips hne w1 w2 w3 k
  cases hn : sc b with
  | none =>
    have := ((k_exact hg hi hix ha h hgb).2 h0).1 hn W g1 fun js hj => (g3 js hj).imp fun _ hy => hy.1
    omega
  | some x =>
    refine ⟨x, rfl, fun n d d' h1 h2 h3 => ?_⟩
    obtain ⟨W, g1, g2, g3⟩ := round_trips hne h1 h2 h3 k
    exact ((k_result hg hi hix ha h).1 b x hn).le_of hg ha g1 (by omega) g3
end
end LG
