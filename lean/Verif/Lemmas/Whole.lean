import Verif.Model.Whole
/- `floyd_warshall`, `connected_components` and `is_cyclic_undirected` over the numbers below `n`. -/
set_option linter.unusedSectionVars false
namespace LG

/-! ### Least costs by `floyd_warshall` -/

/-- Walks along `E`, with their total cost. -/
inductive GWalk {V : Type} (E : V → V → Nat → Prop) : V → V → Nat → Prop where
  | nil {u : V} : GWalk E u u 0
  | cons {u x t : V} {w n : Nat} : E u x w → GWalk E x t n → GWalk E u t (w + n)

theorem GWalk.trans {V : Type} {E : V → V → Nat → Prop} {u x t : V} {n m : Nat} (h1 : GWalk E u x n) (h2 : GWalk E x t m) :
    GWalk E u t (n + m) := by
  induction h1 with
  | nil => rwa [Nat.zero_add]
  | cons e _ ih => rw [Nat.add_assoc]; exact .cons e (ih h2)

/-- The edges by index, both ways if the graph is undirected. -/
def IdxEdge (directed : Bool) (es : List (Nat × Nat × Nat)) (i j w : Nat) : Prop :=
  (i, j, w) ∈ es ∨ (directed = false ∧ (j, i, w) ∈ es)

/-- Entries only get smaller. -/
def Mat.Le (m' m : Mat) : Prop := ∀ i j x, m i j = some x → ∃ y, m' i j = some y ∧ y ≤ x

theorem Mat.Le.refl (m : Mat) : m.Le m := fun _ _ x h => ⟨x, h, Nat.le_refl x⟩

theorem Mat.Le.trans {m m' m'' : Mat} (h1 : m''.Le m') (h2 : m'.Le m) : m''.Le m := fun i j x h => by
  obtain ⟨y, h3, h4⟩ := h2 i j x h
  obtain ⟨z, h5, h6⟩ := h1 i j y h3
  exact ⟨z, h5, by omega⟩

theorem Mat.set_le {m : Mat} {i j x : Nat} (h : m.above i j x = true) : (m.set i j x).Le m := fun a b y hy => by
  unfold Mat.set
  split
  · rename_i e
    obtain ⟨rfl, rfl⟩ := e
    unfold Mat.above at h
    rw [hy] at h
    exact ⟨x, rfl, Nat.le_of_lt (of_decide_eq_true h)⟩
  · exact ⟨y, hy, Nat.le_refl y⟩

theorem Mat.not_above {m : Mat} {i j x : Nat} (h : ¬ m.above i j x = true) : ∃ y, m i j = some y ∧ y ≤ x := by
  unfold Mat.above at h
  split at h
  · exact absurd rfl h
  · rename_i y hy
    exact ⟨y, hy, by simpa using h⟩

theorem Mat.set_self {m : Mat} {i j x : Nat} : (m.set i j x) i j = some x := if_pos ⟨rfl, rfl⟩

theorem Mat.of_set {m : Mat} {i j x a b y : Nat} (h : (m.set i j x) a b = some y) : (a = i ∧ b = j ∧ y = x) ∨ m a b = some y := by
  unfold Mat.set at h
  split at h
  · rename_i e; cases h; exact .inl ⟨e.1, e.2, rfl⟩
  · exact .inr h

/-- The loop over the edges. -/
theorem fwEdges_spec {directed : Bool} {n : Nat} : ∀ (es : List (Nat × Nat × Nat)) (m : Mat),
    (∀ e ∈ es, e.1 < n ∧ e.2.1 < n) → (directed = false → ∀ i j, m i j = m j i) →
    ∃ m', fwEdges directed n es m = .ok m' ∧ m'.Le m ∧ (∀ i j x, m' i j = some x → m i j = some x ∨ IdxEdge directed es i j x) ∧
      (∀ i j w, IdxEdge directed es i j w → ∃ y, m' i j = some y ∧ y ≤ w) := by
  intro es
  induction es with
  | nil =>
    refine fun m _ _ => ⟨m, rfl, .refl m, fun _ _ _ h => .inl h, fun i j w h => ?_⟩
    rcases h with h | ⟨-, h⟩ <;> cases h
  | cons e es ih =>
    obtain ⟨i, j, w⟩ := e
    intro m hn hsym
    have hij : i < n ∧ j < n := hn (i, j, w) List.mem_cons_self
    have hn' : ∀ e ∈ es, e.1 < n ∧ e.2.1 < n := fun e he => hn e (List.mem_cons_of_mem _ he)
    have more : ∀ {a b x}, IdxEdge directed es a b x → IdxEdge directed ((i, j, w) :: es) a b x := fun h => by
      rcases h with h | ⟨h1, h⟩
      · exact .inl (List.mem_cons_of_mem _ h)
      · exact .inr ⟨h1, List.mem_cons_of_mem _ h⟩
    have less : ∀ {a b x}, IdxEdge directed ((i, j, w) :: es) a b x →
        (a = i ∧ b = j ∧ x = w) ∨ (directed = false ∧ a = j ∧ b = i ∧ x = w) ∨ IdxEdge directed es a b x := fun h => by
      rcases h with h | ⟨h1, h⟩
      · rcases List.mem_cons.1 h with e | h
        · cases e; exact .inl ⟨rfl, rfl, rfl⟩
        · exact .inr (.inr (.inl h))
      · rcases List.mem_cons.1 h with e | h
        · cases e; exact .inr (.inl ⟨h1, rfl, rfl, rfl⟩)
        · exact .inr (.inr (.inr ⟨h1, h⟩))
    have finish : ∀ m1 : Mat, m1.Le m → (directed = false → ∀ i j, m1 i j = m1 j i) → (∃ y, m1 i j = some y ∧ y ≤ w) →
        (∀ a b x, m1 a b = some x → m a b = some x ∨ IdxEdge directed ((i, j, w) :: es) a b x) →
        ∃ m', fwEdges directed n es m1 = .ok m' ∧ m'.Le m ∧
          (∀ a b x, m' a b = some x → m a b = some x ∨ IdxEdge directed ((i, j, w) :: es) a b x) ∧
          (∀ a b x, IdxEdge directed ((i, j, w) :: es) a b x → ∃ y, m' a b = some y ∧ y ≤ x) := by
      intro m1 hle hs1 ⟨y, hy, hyw⟩ hwhy
      obtain ⟨m', h1, h2, h3, h4⟩ := ih m1 hn' hs1
      refine ⟨m', h1, h2.trans hle, fun a b x hx => ?_, fun a b x hx => ?_⟩
      · rcases h3 a b x hx with h5 | h5
        · exact hwhy a b x h5
        · exact .inr (more h5)
      · rcases less hx with ⟨rfl, rfl, rfl⟩ | ⟨hd, rfl, rfl, rfl⟩ | h5
        · obtain ⟨z, h6, h7⟩ := h2 a b y hy
          exact ⟨z, h6, by omega⟩
        · obtain ⟨z, h6, h7⟩ := h2 a b y (by rw [hs1 hd]; exact hy)
          exact ⟨z, h6, by omega⟩
        · exact h4 a b x h5
    unfold fwEdges
    rw [if_pos hij]
    by_cases hab : m.above i j w = true
    · rw [if_pos hab]
      cases hd : directed with
      | true =>
        rw [hd] at finish
        simp only [if_true]
        refine finish (m.set i j w) (Mat.set_le hab) (fun e => nomatch e) ⟨w, Mat.set_self, Nat.le_refl w⟩ fun a b x hx => ?_
        rcases Mat.of_set hx with ⟨rfl, rfl, rfl⟩ | h
        · exact .inr (.inl List.mem_cons_self)
        · exact .inl h
      | false =>
        rw [hd] at finish
        simp only [Bool.false_eq_true, if_false]
        have hs := hsym hd
        have hab' : (m.set i j w).above j i w = true ∨ (j = i) := by
          by_cases e : j = i
          · exact .inr e
          · left
            unfold Mat.above Mat.set
            rw [if_neg (fun h => e h.1), hs j i]
            exact hab
        refine finish ((m.set i j w).set j i w) ?_ ?_ ?_ ?_
        · rcases hab' with h | rfl
          · exact (Mat.set_le h).trans (Mat.set_le hab)
          · intro a b y hy
            obtain ⟨z, hz, hzy⟩ := Mat.set_le hab a b y hy
            refine ⟨z, ?_, hzy⟩
            rcases Mat.of_set hz with ⟨rfl, rfl, rfl⟩ | hz'
            · exact Mat.set_self
            · unfold Mat.set at hz ⊢
              by_cases e : a = j ∧ b = j
              · rw [if_pos e] at hz ⊢; exact hz
              · rw [if_neg e, if_neg e]; exact hz'
        · intro _ a b
          unfold Mat.set
          by_cases e1 : a = j ∧ b = i
          · by_cases e2 : a = i ∧ b = j
            · rw [if_pos e1, if_pos ⟨e2.2, e2.1⟩]
            · rw [if_pos e1, if_neg (fun e => e2 ⟨e.2, e.1⟩), if_pos ⟨e1.2, e1.1⟩]
          · by_cases e2 : a = i ∧ b = j
            · rw [if_neg e1, if_pos e2, if_pos ⟨e2.2, e2.1⟩]
            · rw [if_neg e1, if_neg e2, if_neg (fun e => e2 ⟨e.2, e.1⟩), if_neg (fun e => e1 ⟨e.2, e.1⟩)]
              exact hs a b
        · refine ⟨w, ?_, Nat.le_refl w⟩
          unfold Mat.set
          split
          · rfl
          · rw [if_pos ⟨rfl, rfl⟩]
        · intro a b x hx
          rcases Mat.of_set hx with ⟨rfl, rfl, rfl⟩ | h
          · exact .inr (.inr ⟨rfl, List.mem_cons_self⟩)
          · rcases Mat.of_set h with ⟨rfl, rfl, rfl⟩ | h
            · exact .inr (.inl List.mem_cons_self)
            · exact .inl h
    · rw [if_neg hab]
      exact finish m (.refl m) hsym (Mat.not_above hab) fun a b x hx => .inl hx

/-- The loop over the nodes. -/
theorem fwDiag_spec {n : Nat} : ∀ (ids : List Nat) (m : Mat), (∀ i ∈ ids, i < n) →
    ∃ m', fwDiag n ids m = .ok m' ∧ m'.Le m ∧ (∀ i j x, m' i j = some x → m i j = some x ∨ (i = j ∧ x = 0)) ∧
      (∀ i, i ∈ ids ∨ m i i = some 0 → m' i i = some 0) := by
  intro ids
  induction ids with
  | nil => exact fun m _ => ⟨m, rfl, .refl m, fun _ _ _ h => .inl h, fun i h => h.resolve_left (fun h => nomatch h)⟩
  | cons i ids ih =>
    intro m hn
    obtain ⟨m', h1, h2, h3, h4⟩ := ih (m.set i i 0) fun j hj => hn j (List.mem_cons_of_mem _ hj)
    refine ⟨m', ?_, ?_, ?_, ?_⟩
    · unfold fwDiag
      rw [if_pos (hn i List.mem_cons_self)]; exact h1
    · refine h2.trans fun a b y hy => ?_
      unfold Mat.set
      split
      · exact ⟨0, rfl, Nat.zero_le y⟩
      · exact ⟨y, hy, Nat.le_refl y⟩
    · intro a b x hx
      rcases h3 a b x hx with h5 | h5
      · rcases Mat.of_set h5 with ⟨rfl, rfl, rfl⟩ | h6
        · exact .inr ⟨rfl, rfl⟩
        · exact .inl h6
      · exact .inr h5
    · intro a ha
      refine h4 a ?_
      by_cases e : a = i
      · subst e; exact .inr Mat.set_self
      · rcases ha with ha | ha
        · exact .inl ((List.mem_cons.1 ha).resolve_left e)
        · right
          unfold Mat.set
          rw [if_neg (fun h => e h.1)]; exact ha

theorem fwCell_le (k i j : Nat) (m : Mat) : (fwCell k i j m).Le m := by
  unfold fwCell
  split
  · split
    · rename_i h; exact Mat.set_le h
    · exact .refl m
  · exact .refl m

theorem fwCell_new {k i j a b : Nat} {m : Mat} (h1 : m i k = some a) (h2 : m k j = some b) :
    ∃ x, (fwCell k i j m) i j = some x ∧ x ≤ a + b := by
  unfold fwCell
  rw [h1, h2]
  simp only
  split
  · exact ⟨_, Mat.set_self, Nat.le_refl _⟩
  · rename_i h; exact Mat.not_above h

theorem fwCell_why {k i j : Nat} {m : Mat} {a b x : Nat} (h : (fwCell k i j m) a b = some x) :
    m a b = some x ∨ (a = i ∧ b = j ∧ ∃ y z, m i k = some y ∧ m k j = some z ∧ x = y + z) := by
  unfold fwCell at h
  match h1 : m i k, h2 : m k j with
  | some y, some z =>
    rw [h1, h2] at h
    simp only at h
    split at h
    · rcases Mat.of_set h with ⟨rfl, rfl, rfl⟩ | h
      · exact .inr ⟨rfl, rfl, y, z, rfl, rfl, rfl⟩
      · exact .inl h
    · exact .inl h
  | none, _ => rw [h1] at h; exact .inl h
  | some y, none => rw [h1, h2] at h; exact .inl h

/-- What a property of all cells visited needs: steps that only make entries smaller, and each does its own. -/
theorem foldl_le {α : Type} {f : Mat → α → Mat} (hf : ∀ m a, (f m a).Le m) : ∀ (l : List α) (m : Mat), (l.foldl f m).Le m
  | [], m => .refl m
  | a :: l, m => (foldl_le hf l (f m a)).trans (hf m a)

theorem foldl_mem {α : Type} {f : Mat → α → Mat} (hf : ∀ m a, (f m a).Le m) : ∀ (l : List α) (m : Mat) {a : α}, a ∈ l →
    ∃ m1, m1.Le m ∧ (l.foldl f m).Le (f m1 a)
  | [], m, a, h => nomatch h
  | b :: l, m, a, h => by
    rcases List.mem_cons.1 h with rfl | h
    · exact ⟨m, .refl m, foldl_le hf l (f m a)⟩
    · obtain ⟨m1, h1, h2⟩ := foldl_mem hf l (f m b) h
      exact ⟨m1, h1.trans (hf m b), h2⟩

theorem foldl_pres {α : Type} {f : Mat → α → Mat} {Q : Mat → Prop} (hf : ∀ m a, Q m → Q (f m a)) :
    ∀ (l : List α) (m : Mat), Q m → Q (l.foldl f m)
  | [], _, h => h
  | a :: l, m, h => foldl_pres hf l (f m a) (hf m a h)

/-- One pass of the outer loop. -/
def fwPass (n k : Nat) (m : Mat) : Mat :=
  (List.range n).foldl (fun m i => (List.range n).foldl (fun m j => fwCell k i j m) m) m

theorem fwRow_le (n k i : Nat) (m : Mat) : ((List.range n).foldl (fun m j => fwCell k i j m) m).Le m :=
  foldl_le (fun m j => fwCell_le k i j m) _ m

theorem fwPass_le (n k : Nat) (m : Mat) : (fwPass n k m).Le m := foldl_le (fun m i => fwRow_le n k i m) _ m

theorem fwPass_new {n k i j a b : Nat} {m : Mat} (hi : i < n) (hj : j < n) (h1 : m i k = some a) (h2 : m k j = some b) :
    ∃ x, (fwPass n k m) i j = some x ∧ x ≤ a + b := by
  obtain ⟨m1, h3, h4⟩ := foldl_mem (f := fun m i => (List.range n).foldl (fun m j => fwCell k i j m) m)
    (fun m i => fwRow_le n k i m) (List.range n) m (List.mem_range.2 hi)
  obtain ⟨m2, h5, h6⟩ := foldl_mem (f := fun m j => fwCell k i j m) (fun m j => fwCell_le k i j m) (List.range n) m1
    (List.mem_range.2 hj)
  have h7 := h5.trans h3
  obtain ⟨a', ha, hal⟩ := h7 i k a h1
  obtain ⟨b', hb, hbl⟩ := h7 k j b h2
  obtain ⟨x, hx, hxl⟩ := fwCell_new ha hb
  obtain ⟨y, hy, hyl⟩ := (h4.trans h6) i j x hx
  exact ⟨y, hy, by omega⟩

/-- Ways whose inner stops are below `k`. -/
inductive Via (E : Nat → Nat → Nat → Prop) (k : Nat) : Nat → Nat → Nat → Prop where
  | nil {i : Nat} : Via E k i i 0
  | edge {i j w : Nat} : E i j w → Via E k i j w
  | comp {i x j a b : Nat} : Via E k i x a → x < k → Via E k x j b → Via E k i j (a + b)

/-- A way with stops up to `k` either avoids `k` or goes through it once. -/
theorem Via.split {E : Nat → Nat → Nat → Prop} {k i j a : Nat} (h : Via E (k + 1) i j a) :
    Via E k i j a ∨ ∃ b c, Via E k i k b ∧ Via E k k j c ∧ b + c ≤ a := by
  induction h with
  | nil => exact .inl .nil
  | edge e => exact .inl (.edge e)
  | @comp i x j a b _ hx _ ih1 ih2 =>
    by_cases e : x = k
    · subst e
      right
      have l1 : ∃ b', Via E x i x b' ∧ b' ≤ a := by
        rcases ih1 with h | ⟨b', c, h1, h2, h3⟩
        · exact ⟨a, h, Nat.le_refl a⟩
        · exact ⟨b', h1, by omega⟩
      have l2 : ∃ c', Via E x x j c' ∧ c' ≤ b := by
        rcases ih2 with h | ⟨b', c, h1, h2, h3⟩
        · exact ⟨b, h, Nat.le_refl b⟩
        · exact ⟨c, h2, by omega⟩
      obtain ⟨b', h1, h2⟩ := l1
      obtain ⟨c', h3, h4⟩ := l2
      exact ⟨b', c', h1, h3, by omega⟩
    · have hx' : x < k := by omega
      rcases ih1 with h1 | ⟨b1, c1, h1, h2, h3⟩ <;> rcases ih2 with g1 | ⟨b2, c2, g1, g2, g3⟩
      · exact .inl (.comp h1 hx' g1)
      · exact .inr ⟨a + b2, c2, .comp h1 hx' g1, g2, by omega⟩
      · exact .inr ⟨b1, c1 + b, h1, .comp h2 hx' g1, by omega⟩
      · exact .inr ⟨b1, c2, h1, g2, by omega⟩

theorem GWalk.via {E : Nat → Nat → Nat → Prop} {n : Nat} (hE : ∀ i j w, E i j w → i < n ∧ j < n) {i j a : Nat} (h : GWalk E i j a) :
    Via E n i j a := by
  induction h with
  | nil => exact .nil
  | cons e _ ih => exact .comp (.edge e) (hE _ _ _ e).2 ih

theorem fwLoop_upper {E : Nat → Nat → Nat → Prop} {n : Nat} {m : Mat}
    (h0 : ∀ i, i < n → m i i = some 0) (h1 : ∀ i j w, E i j w → ∃ y, m i j = some y ∧ y ≤ w) : ∀ k, k ≤ n →
    ∀ i j a, i < n → j < n → Via E k i j a → ∃ y, ((List.range k).foldl (fun m k => fwPass n k m) m) i j = some y ∧ y ≤ a := by
  intro k
  induction k with
  | zero =>
    intro _ i j a hi hj hv
    show ∃ y, m i j = some y ∧ y ≤ a
    cases hv with
    | nil => exact ⟨0, h0 i hi, Nat.le_refl 0⟩
    | edge e => exact h1 _ _ _ e
    | comp _ h _ => omega
  | succ k ih =>
    intro hk i j a hi hj hv
    rw [List.range_succ, List.foldl_append]
    simp only [List.foldl_cons, List.foldl_nil]
    rcases hv.split with h | ⟨b, c, h2, h3, h4⟩
    · obtain ⟨y, h5, h6⟩ := ih (by omega) i j a hi hj h
      obtain ⟨z, h7, h8⟩ := fwPass_le n k _ i j y h5
      exact ⟨z, h7, by omega⟩
    · obtain ⟨y, h5, h6⟩ := ih (by omega) i k b hi (by omega) h2
      obtain ⟨z, h7, h8⟩ := ih (by omega) k j c (by omega) hj h3
      obtain ⟨x, h9, h10⟩ := fwPass_new hi hj h5 h7
      exact ⟨x, h9, by omega⟩

theorem fwLoop_lower {E : Nat → Nat → Nat → Prop} {n : Nat} {m : Mat}
    (h : ∀ i j x, m i j = some x → GWalk E i j x) : ∀ i j x, (fwLoop n m) i j = some x → GWalk E i j x := by
  unfold fwLoop
  refine foldl_pres (Q := fun m => ∀ i j x, m i j = some x → GWalk E i j x) (fun m k hm => ?_) _ m h
  refine foldl_pres (Q := fun m => ∀ i j x, m i j = some x → GWalk E i j x) (fun m i hm => ?_) _ m hm
  refine foldl_pres (Q := fun m => ∀ i j x, m i j = some x → GWalk E i j x) (fun m j hm => ?_) _ m hm
  intro a b x hx
  rcases fwCell_why hx with h | ⟨rfl, rfl, y, z, h1, h2, rfl⟩
  · exact hm a b x h
  · exact (hm _ _ _ h1).trans (hm _ _ _ h2)

/-- The run ends without a panic, and the entries are the least costs of walks. -/
theorem fwRun_spec {directed : Bool} {n : Nat} {es : List (Nat × Nat × Nat)} {ids : List Nat}
    (hes : ∀ e ∈ es, e.1 < n ∧ e.2.1 < n) (hids : ∀ i, i ∈ ids ↔ i < n) :
    ∃ m, fwRun directed n es ids = .ok m ∧ ∀ i j, i < n → j < n →
      (∀ x, m i j = some x ↔ GWalk (IdxEdge directed es) i j x ∧ ∀ y, GWalk (IdxEdge directed es) i j y → x ≤ y) ∧
      (m i j = none ↔ ∀ y, ¬ GWalk (IdxEdge directed es) i j y) := by
  obtain ⟨m1, h1, -, h2, h3⟩ := fwEdges_spec es (fun _ _ => none) hes (fun _ _ _ => rfl) (directed := directed)
  obtain ⟨m2, h4, h5, h6, h7⟩ := fwDiag_spec (n := n) ids m1 fun i hi => (hids i).1 hi
  have hE : ∀ i j w, IdxEdge directed es i j w → i < n ∧ j < n := fun i j w h => by
    rcases h with h | ⟨-, h⟩
    · exact hes _ h
    · exact ⟨(hes _ h).2, (hes _ h).1⟩
  have lower : ∀ i j x, (fwLoop n m2) i j = some x → GWalk (IdxEdge directed es) i j x := by
    refine fwLoop_lower fun i j x hx => ?_
    rcases h6 i j x hx with h | ⟨rfl, rfl⟩
    · rcases h2 i j x h with h | h
      · cases h
      · exact .cons h .nil
    · exact .nil
  have upper : ∀ i j, i < n → j < n → ∀ a, GWalk (IdxEdge directed es) i j a → ∃ y, (fwLoop n m2) i j = some y ∧ y ≤ a :=
    fun i j hi hj a h => fwLoop_upper (fun i hi => h7 i (.inl ((hids i).2 hi))) (fun i j w e => by
      obtain ⟨y, h8, h9⟩ := h3 i j w e
      obtain ⟨z, h10, h11⟩ := h5 i j y h8
      exact ⟨z, h10, by omega⟩) n (Nat.le_refl n) i j a hi hj (h.via hE)
  refine ⟨fwLoop n m2, ?_, fun i j hi hj => ⟨fun x => ⟨fun hx => ⟨lower i j x hx, fun y hy => ?_⟩, fun ⟨h8, h9⟩ => ?_⟩, ?_, ?_⟩⟩
  · unfold fwRun
    rw [h1]
    simp only [bind, Except.bind]
    rw [h4]
  · obtain ⟨z, h8, h9⟩ := upper i j hi hj y hy
    rw [hx] at h8; cases h8; exact h9
  · obtain ⟨z, h10, h11⟩ := upper i j hi hj x h8
    have := h9 z (lower i j z h10)
    rw [h10]; congr 1; omega
  · intro hn y hy
    obtain ⟨z, h10, -⟩ := upper i j hi hj y hy
    rw [hn] at h10; cases h10
  · intro hall
    cases hx : (fwLoop n m2) i j with
    | none => rfl
    | some x => exact absurd (lower i j x hx) (hall x)
end LG
