import Verif.Props.LegacyMatching
/- C123 on the deprecated `SquareGraph`: whether it is looped or not, one walk comes to every node. -/
namespace LG.Sq

/-- What of its row the walk has visited when it comes to column `a`: all on one side, or in a circle a stretch up to where it came in. -/
def InRow (lh : Bool) (w a : Nat) (I : Nat → Prop) : Prop :=
  (lh = false ∧ ∀ x, x < w → (I x ↔ x < a)) ∨ (lh = false ∧ ∀ x, x < w → (I x ↔ a < x)) ∨
  (lh = true ∧ ∃ e, e < w ∧ a ≤ e ∧ ∀ x, x < w → (I x ↔ a < x ∧ x ≤ e)) ∨ (lh = true ∧ ∃ e, e < a ∧ ∀ x, x < w → (I x ↔ x ≤ e ∨ a < x))

/-- The rows it has done when it is in row `b`: those below, or in a circle the first and those above. -/
def RowsDone (lv : Bool) (b y : Nat) : Prop := (lv = false ∧ y < b) ∨ (lv = true ∧ 0 < b ∧ (y = 0 ∨ b < y))

section
variable {lh : Bool} {w a c : Nat} {I : Nat → Prop}

theorem InRow.congr {I' : Nat → Prop} (h : InRow lh w a I) (he : ∀ x, x < w → (I x ↔ I' x)) : InRow lh w a I' := by
  rcases h with ⟨h1, h2⟩ | ⟨h1, h2⟩ | ⟨h1, e, h2, h3, h4⟩ | ⟨h1, e, h2, h3⟩
  · exact .inl ⟨h1, fun x hx => (he x hx).symm.trans (h2 x hx)⟩
  · exact .inr (.inl ⟨h1, fun x hx => (he x hx).symm.trans (h2 x hx)⟩)
  · exact .inr (.inr (.inl ⟨h1, e, h2, h3, fun x hx => (he x hx).symm.trans (h4 x hx)⟩))
  · exact .inr (.inr (.inr ⟨h1, e, h2, fun x hx => (he x hx).symm.trans (h3 x hx)⟩))

theorem bwd_cases (ha : a < w) (hc : along lh w a (-1) = some c) : (0 < a ∧ c = a - 1) ∨ (a = 0 ∧ lh = true ∧ c = w - 1) := by
  rw [along_bwd ha] at hc
  split at hc
  · cases hc; exact .inl ⟨by omega, rfl⟩
  · split at hc
    · cases hc; exact .inr ⟨by omega, by assumption, rfl⟩
    · cases hc

theorem fwd_cases (ha : a < w) (hc : along lh w a 1 = some c) : (a + 1 < w ∧ c = a + 1) ∨ (a + 1 = w ∧ lh = true ∧ c = 0) := by
  rw [along_fwd ha] at hc
  split at hc
  · cases hc; exact .inl ⟨by assumption, rfl⟩
  · split at hc
    · cases hc; exact .inr ⟨by omega, by assumption, rfl⟩
    · cases hc

theorem inRow_left (h : InRow lh w a I) (ha : a < w) (hc : along lh w a (-1) = some c) (hne : c ≠ a) (hno : ¬ I c) :
    InRow lh w c (fun x => x = a ∨ I x) := by
  rcases h with ⟨h1, h2⟩ | ⟨h1, h2⟩ | ⟨h1, e, h2, h3, h4⟩ | ⟨h1, e, h2, h3⟩
  · rcases bwd_cases ha hc with ⟨p, rfl⟩ | ⟨p, q, -⟩
    · rw [h2 _ (by omega)] at hno; omega
    · rw [h1] at q; cases q
  · rcases bwd_cases ha hc with ⟨p, rfl⟩ | ⟨p, q, -⟩
    · exact .inr (.inl ⟨h1, fun x hx => by show (x = a ∨ I x) ↔ _; rw [h2 x hx]; omega⟩)
    · rw [h1] at q; cases q
  · rcases bwd_cases ha hc with ⟨p, rfl⟩ | ⟨p, q, rfl⟩
    · exact .inr (.inr (.inl ⟨h1, e, h2, by omega, fun x hx => by show (x = a ∨ I x) ↔ _; rw [h4 x hx]; omega⟩))
    · rw [h4 _ (by omega)] at hno
      exact .inr (.inr (.inr ⟨h1, e, by omega, fun x hx => by show (x = a ∨ I x) ↔ _; rw [h4 x hx]; omega⟩))
  · rcases bwd_cases ha hc with ⟨p, rfl⟩ | ⟨p, q, rfl⟩
    · rw [h3 _ (by omega)] at hno
      exact .inr (.inr (.inr ⟨h1, e, by omega, fun x hx => by show (x = a ∨ I x) ↔ _; rw [h3 x hx]; omega⟩))
    · omega

/-- In a circle, if the left is visited all is. -/
theorem inRow_circle (h : InRow lh w a I) (ha : a < w) (hl : lh = true) (hm : ∀ c, along lh w a (-1) = some c → c = a ∨ I c) :
    ∀ x, x < w → x = a ∨ I x := by
  rw [along_bwd ha] at hm
  rcases h with ⟨h1, h2⟩ | ⟨h1, h2⟩ | ⟨h1, e, h2, h3, h4⟩ | ⟨h1, e, h2, h3⟩
  · rw [hl] at h1; cases h1
  · rw [hl] at h1; cases h1
  · intro x hx
    rw [h4 x hx]
    by_cases h0 : a = 0
    · rw [if_neg (by omega), if_pos hl] at hm
      have := hm _ rfl
      rw [h4 _ (by omega)] at this
      omega
    · rw [if_pos h0] at hm
      have := hm _ rfl
      rw [h4 _ (by omega)] at this
      omega
  · intro x hx
    rw [h3 x hx]
    rw [if_pos (by omega)] at hm
    have := hm _ rfl
    rw [h3 _ (by omega)] at this
    omega

theorem inRow_right (h : InRow lh w a I) (ha : a < w) (hm : ∀ c, along lh w a (-1) = some c → c = a ∨ I c)
    (hc : along lh w a 1 = some c) (hne : c ≠ a) (hno : ¬ I c) : InRow lh w c (fun x => x = a ∨ I x) := by
  have hcw : c < w := by rcases fwd_cases ha hc with ⟨p, rfl⟩ | ⟨p, -, rfl⟩ <;> omega
  cases hl : lh with
  | true => exact absurd ((inRow_circle h ha hl hm c hcw).resolve_left hne) hno
  | false =>
    rcases fwd_cases ha hc with ⟨p, rfl⟩ | ⟨p, q, -⟩
    · rcases h with ⟨h1, h2⟩ | ⟨h1, h2⟩ | ⟨h1, -⟩ | ⟨h1, -⟩
      · exact .inl ⟨rfl, fun x hx => by show (x = a ∨ I x) ↔ _; rw [h2 x hx]; omega⟩
      · rw [h2 _ hcw] at hno; omega
      · rw [hl] at h1; cases h1
      · rw [hl] at h1; cases h1
    · rw [hl] at q; cases q

/-- Where neither side is free the row is done, and from there the next one can be begun. -/
theorem inRow_done (h : InRow lh w a I) (ha : a < w) (hm : ∀ c, along lh w a (-1) = some c → c = a ∨ I c)
    (hr : ∀ c, along lh w a 1 = some c → c = a ∨ I c) : (∀ x, x < w → x = a ∨ I x) ∧ InRow lh w a (fun _ => False) := by
  cases hl : lh with
  | true => exact ⟨inRow_circle h ha hl hm, .inr (.inr (.inl ⟨rfl, a, ha, Nat.le_refl _, fun x _ => by simp only [false_iff]; omega⟩))⟩
  | false =>
    rw [along_bwd ha] at hm
    rw [along_fwd ha] at hr
    rcases h with ⟨h1, h2⟩ | ⟨h1, h2⟩ | ⟨h1, -⟩ | ⟨h1, -⟩
    · have e : a + 1 = w := Classical.byContradiction fun hc => by
        rw [if_pos (by omega)] at hr
        have := hr _ rfl
        rw [h2 _ (by omega)] at this; omega
      exact ⟨fun x hx => by rw [h2 x hx]; omega, .inr (.inl ⟨rfl, fun x _ => by simp only [false_iff]; omega⟩)⟩
    · have e : a = 0 := Classical.byContradiction fun hc => by
        rw [if_pos hc] at hm
        have := hm _ rfl
        rw [h2 _ (by omega)] at this; omega
      exact ⟨fun x hx => by rw [h2 x hx]; omega, .inl ⟨rfl, fun x _ => by simp only [false_iff]; omega⟩⟩
    · rw [hl] at h1; cases h1
    · rw [hl] at h1; cases h1
end

section
variable {lv : Bool} {n b d : Nat}

theorem rows_down (hb : b < n) (hd : along lv n b (-1) = some d) (hne : d ≠ b) (hno : ¬ RowsDone lv b d) :
    ∀ y, y < n → y ≠ d → (RowsDone lv d y ↔ y = b ∨ RowsDone lv b y) := by
  intro y hy hyd
  unfold RowsDone at *
  cases lv with
  | false =>
    rcases bwd_cases hb hd with ⟨p, rfl⟩ | ⟨p, q, -⟩
    · simp only [true_and, Bool.false_eq_true, false_and, or_false] at hno; omega
    · cases q
  | true =>
    simp only [Bool.true_eq_false, false_and, false_or, true_and] at *
    rcases bwd_cases hb hd with ⟨p, rfl⟩ | ⟨p, q, rfl⟩ <;> omega

theorem rows_up (hb : b < n) (hm : ∀ d, along lv n b (-1) = some d → d = b ∨ RowsDone lv b d) (hd : along lv n b 1 = some d) (hne : d ≠ b)
    (hno : ¬ RowsDone lv b d) : ∀ y, y < n → y ≠ d → (RowsDone lv d y ↔ y = b ∨ RowsDone lv b y) := by
  intro y hy hyd
  rw [along_bwd hb] at hm
  unfold RowsDone at *
  cases lv with
  | false =>
    rcases fwd_cases hb hd with ⟨p, rfl⟩ | ⟨p, q, -⟩
    · simp only [true_and, Bool.false_eq_true, false_and, or_false] at *; omega
    · cases q
  | true =>
    simp only [Bool.true_eq_false, false_and, false_or, true_and, if_true] at *
    have h1 : b = 1 ∨ n = 1 := by
      by_cases h0 : b = 0
      · rw [if_neg (by omega)] at hm
        have := hm _ rfl
        omega
      · rw [if_pos h0] at hm
        have := hm _ rfl
        omega
    rcases fwd_cases hb hd with ⟨p, rfl⟩ | ⟨p, q, rfl⟩ <;> omega

theorem rows_done (hb : b < n) (hm : ∀ d, along lv n b (-1) = some d → d = b ∨ RowsDone lv b d)
    (hu : ∀ d, along lv n b 1 = some d → d = b ∨ RowsDone lv b d) : ∀ y, y < n → y = b ∨ RowsDone lv b y := by
  intro y hy
  rw [along_bwd hb] at hm
  rw [along_fwd hb] at hu
  unfold RowsDone at *
  cases lv with
  | false =>
    simp only [true_and, Bool.false_eq_true, false_and, or_false] at *
    have : b + 1 = n := Classical.byContradiction fun hc => by
      rw [if_pos (by omega)] at hu
      have := hu _ rfl
      omega
    omega
  | true =>
    simp only [Bool.true_eq_false, false_and, false_or, true_and, if_true] at *
    by_cases h0 : b = 0
    · rw [if_neg (by omega)] at hm
      have := hm _ rfl
      omega
    · rw [if_pos h0] at hm
      have := hm _ rfl
      omega
end

/-- Where the walk is when it comes to `u`, and what it has visited. -/
def SnakeAt (s : Grid) (u : NodeIx) (S : NodeIx → Bool) : Prop :=
  u.horizontal < s.h ∧ u.vertical < s.v ∧ InRow s.loopH s.h u.horizontal (fun x => S ⟨x, u.vertical⟩ = true) ∧
    ∀ x y, x < s.h → y < s.v → y ≠ u.vertical → (S ⟨x, y⟩ = true ↔ RowsDone s.loopV u.vertical y)

theorem mark_iff {u : NodeIx} {S : NodeIx → Bool} {x y : Nat} :
    (if (⟨x, y⟩ : NodeIx) = u then true else S ⟨x, y⟩) = true ↔ (x = u.horizontal ∧ y = u.vertical) ∨ S ⟨x, y⟩ = true := by
  rcases u with ⟨a, b⟩
  by_cases e : (⟨x, y⟩ : NodeIx) = ⟨a, b⟩
  · rw [if_pos e]
    cases e
    exact ⟨fun _ => .inl ⟨rfl, rfl⟩, fun _ => rfl⟩
  · rw [if_neg e]
    refine ⟨.inr, fun h => h.resolve_left fun ⟨e1, e2⟩ => e ?_⟩
    have e1 : x = a := e1
    have e2 : y = b := e2
    rw [e1, e2]

section
variable {s : Grid} {a b : Nat} {S : NodeIx → Bool}

/-- What it means that a direction offers nothing new. -/
theorem no_any {d : Dir} (hno : ¬ (s.step ⟨a, b⟩ d).any (fun t => !(if t = ⟨a, b⟩ then true else S t)) = true) {x y : Nat}
    (hs : s.step ⟨a, b⟩ d = some ⟨x, y⟩) : (x = a ∧ y = b) ∨ S ⟨x, y⟩ = true := by
  rw [hs, Option.any_some] at hno
  refine (mark_iff (u := ⟨a, b⟩)).1 (Classical.byContradiction fun hc => hno ?_)
  cases hb : (if (⟨x, y⟩ : NodeIx) = ⟨a, b⟩ then true else S ⟨x, y⟩) with
  | true => exact absurd hb hc
  | false => rfl

theorem yes_any {d : Dir} {x y : Nat} (hs : s.step ⟨a, b⟩ d = some ⟨x, y⟩)
    (hyes : (s.step ⟨a, b⟩ d).any (fun t => !(if t = ⟨a, b⟩ then true else S t)) = true) : ¬ (x = a ∧ y = b) ∧ ¬ S ⟨x, y⟩ = true := by
  rw [hs, Option.any_some] at hyes
  have : ¬ ((x = a ∧ y = b) ∨ S ⟨x, y⟩ = true) := fun h => by
    have := mark_iff (u := ⟨a, b⟩).2 h
    rw [this] at hyes; cases hyes
  exact ⟨fun h => this (.inl h), fun h => this (.inr h)⟩

theorem nbrs_find {u : NodeIx} {p : NodeIx → Bool} : (s.nbrs u).find? p =
    if (s.step u (.backward .horizontal)).any p then s.step u (.backward .horizontal)
    else if (s.step u (.foward .horizontal)).any p then s.step u (.foward .horizontal)
    else if (s.step u (.backward .vertical)).any p then s.step u (.backward .vertical)
    else if (s.step u (.foward .vertical)).any p then s.step u (.foward .vertical) else none := by
  unfold Grid.nbrs Grid.dirs
  rw [List.find?_filterMap]
  simp only [List.find?_cons, List.find?_nil]
  cases (s.step u (.backward .horizontal)).any p <;> cases (s.step u (.foward .horizontal)).any p <;>
    cases (s.step u (.backward .vertical)).any p <;> cases (s.step u (.foward .vertical)).any p <;> rfl

theorem row_step {c : Nat} (hc : c < s.h) (hQ : SnakeAt s ⟨a, b⟩ S) (hr : InRow s.loopH s.h c (fun x => x = a ∨ S ⟨x, b⟩ = true)) :
    SnakeAt s ⟨c, b⟩ (fun x => if x = ⟨a, b⟩ then true else S x) := by
  obtain ⟨-, h2, -, h4⟩ := hQ
  refine ⟨hc, h2, hr.congr fun x _ => ?_, fun x y hx hy hne => ?_⟩
  · simp only [mark_iff, and_true]
  · have hne : y ≠ b := hne
    simp only [mark_iff]
    rw [h4 x y hx hy hne]
    exact ⟨fun h => h.resolve_left fun h => hne h.2, .inr⟩

theorem column_step {d : Nat} (hd : d < s.v) (hdb : d ≠ b) (hQ : SnakeAt s ⟨a, b⟩ S) (hS : ¬ S ⟨a, d⟩ = true)
    (hdone : ∀ x, x < s.h → x = a ∨ S ⟨x, b⟩ = true) (hr : InRow s.loopH s.h a (fun _ => False))
    (hrows : ∀ y, y < s.v → y ≠ d → (RowsDone s.loopV d y ↔ y = b ∨ RowsDone s.loopV b y)) :
    SnakeAt s ⟨a, d⟩ (fun x => if x = ⟨a, b⟩ then true else S x) := by
  obtain ⟨h1, h2, -, h4⟩ := hQ
  have h1 : a < s.h := h1
  have hno : ¬ RowsDone s.loopV b d := fun h => hS ((h4 a d h1 hd hdb).2 h)
  refine ⟨h1, hd, hr.congr fun x hx => ?_, fun x y hx hy hne => ?_⟩
  · simp only [mark_iff]
    rw [h4 x d hx hd hdb]
    exact ⟨False.elim, fun h => h.elim (fun h => hdb h.2) hno⟩
  · simp only [mark_iff]
    rw [hrows y hy hne]
    by_cases e : y = b
    · subst e
      exact ⟨fun _ => .inl rfl, fun _ => (hdone x hx).imp (fun e => ⟨e, rfl⟩) id⟩
    · rw [h4 x y hx hy e]
      exact ⟨fun h => .inr (h.resolve_left fun h => e h.2), fun h => .inr (h.resolve_left e)⟩

theorem snake_step {t : NodeIx} (hQ : SnakeAt s ⟨a, b⟩ S)
    (hf : (s.nbrs ⟨a, b⟩).find? (fun t => !(if t = ⟨a, b⟩ then true else S t)) = some t) :
    SnakeAt s t (fun x => if x = ⟨a, b⟩ then true else S x) := by
  rw [nbrs_find] at hf
  obtain ⟨h1, h2, h3, h4⟩ := id hQ
  have h1 : a < s.h := h1
  have h2 : b < s.v := h2
  have h3 : InRow s.loopH s.h a (fun x => S ⟨x, b⟩ = true) := h3
  have h4 : ∀ x y, x < s.h → y < s.v → y ≠ b → (S ⟨x, y⟩ = true ↔ RowsDone s.loopV b y) := h4
  have lt1 : ∀ {c}, along s.loopH s.h a (-1) = some c → c < s.h := fun h => by rcases bwd_cases h1 h with ⟨_, rfl⟩ | ⟨_, _, rfl⟩ <;> omega
  have lt2 : ∀ {c}, along s.loopH s.h a 1 = some c → c < s.h := fun h => by rcases fwd_cases h1 h with ⟨_, rfl⟩ | ⟨_, _, rfl⟩ <;> omega
  have lt3 : ∀ {c}, along s.loopV s.v b (-1) = some c → c < s.v := fun h => by rcases bwd_cases h2 h with ⟨_, rfl⟩ | ⟨_, _, rfl⟩ <;> omega
  have lt4 : ∀ {c}, along s.loopV s.v b 1 = some c → c < s.v := fun h => by rcases fwd_cases h2 h with ⟨_, rfl⟩ | ⟨_, _, rfl⟩ <;> omega
  split at hf
  · next g1 =>
    obtain ⟨c, hc, rfl⟩ := Option.map_eq_some_iff.1 (show (along s.loopH s.h a (-1)).map (fun x => (⟨x, b⟩ : NodeIx)) = some t from hf)
    obtain ⟨y1, y2⟩ := yes_any hf g1
    exact row_step (lt1 hc) hQ (inRow_left h3 h1 hc (fun e => y1 ⟨e, rfl⟩) y2)
  · next g1 =>
    have hL : ∀ c, along s.loopH s.h a (-1) = some c → c = a ∨ S ⟨c, b⟩ = true := fun c hc =>
      (no_any g1 (x := c) (y := b) (by simp only [Grid.step]; rw [hc]; rfl)).imp And.left id
    split at hf
    · next g2 =>
      obtain ⟨c, hc, rfl⟩ := Option.map_eq_some_iff.1 (show (along s.loopH s.h a 1).map (fun x => (⟨x, b⟩ : NodeIx)) = some t from hf)
      obtain ⟨y1, y2⟩ := yes_any hf g2
      exact row_step (lt2 hc) hQ (inRow_right h3 h1 hL hc (fun e => y1 ⟨e, rfl⟩) y2)
    · next g2 =>
      have hR : ∀ c, along s.loopH s.h a 1 = some c → c = a ∨ S ⟨c, b⟩ = true := fun c hc =>
        (no_any g2 (x := c) (y := b) (by simp only [Grid.step]; rw [hc]; rfl)).imp And.left id
      obtain ⟨r1, r2⟩ := inRow_done h3 h1 hL hR
      split at hf
      · next g3 =>
        obtain ⟨d, hd, rfl⟩ := Option.map_eq_some_iff.1 (show (along s.loopV s.v b (-1)).map (fun y => (⟨a, y⟩ : NodeIx)) = some t from hf)
        obtain ⟨y1, y2⟩ := yes_any hf g3
        have hne : d ≠ b := fun e => y1 ⟨rfl, e⟩
        exact column_step (lt3 hd) hne hQ y2 r1 r2 (rows_down h2 hd hne fun h => y2 ((h4 a d h1 (lt3 hd) hne).2 h))
      · next g3 =>
        have hD : ∀ d, along s.loopV s.v b (-1) = some d → d = b ∨ RowsDone s.loopV b d := fun d hd => by
          by_cases e : d = b
          · exact .inl e
          · refine .inr ((h4 a d h1 (lt3 hd) e).1 ?_)
            exact (no_any g3 (x := a) (y := d) (by simp only [Grid.step]; rw [hd]; rfl)).resolve_left fun h => e h.2
        split at hf
        · next g4 =>
          obtain ⟨d, hd, rfl⟩ := Option.map_eq_some_iff.1 (show (along s.loopV s.v b 1).map (fun y => (⟨a, y⟩ : NodeIx)) = some t from hf)
          obtain ⟨y1, y2⟩ := yes_any hf g4
          have hne : d ≠ b := fun e => y1 ⟨rfl, e⟩
          exact column_step (lt4 hd) hne hQ y2 r1 r2 (rows_up h2 hD hd hne fun h => y2 ((h4 a d h1 (lt4 hd) hne).2 h))
        · cases hf

theorem snake_end (hQ : SnakeAt s ⟨a, b⟩ S)
    (hf : (s.nbrs ⟨a, b⟩).find? (fun t => !(if t = ⟨a, b⟩ then true else S t)) = none) {x y : Nat} (hx : x < s.h) (hy : y < s.v) :
    (if (⟨x, y⟩ : NodeIx) = ⟨a, b⟩ then true else S ⟨x, y⟩) = true := by
  obtain ⟨h1, h2, h3, h4⟩ := hQ
  have h1 : a < s.h := h1
  have h2 : b < s.v := h2
  have h3 : InRow s.loopH s.h a (fun x => S ⟨x, b⟩ = true) := h3
  have h4 : ∀ x y, x < s.h → y < s.v → y ≠ b → (S ⟨x, y⟩ = true ↔ RowsDone s.loopV b y) := h4
  have lt3 : ∀ {c}, along s.loopV s.v b (-1) = some c → c < s.v := fun h => by rcases bwd_cases h2 h with ⟨_, rfl⟩ | ⟨_, _, rfl⟩ <;> omega
  have lt4 : ∀ {c}, along s.loopV s.v b 1 = some c → c < s.v := fun h => by rcases fwd_cases h2 h with ⟨_, rfl⟩ | ⟨_, _, rfl⟩ <;> omega
  have hno : ∀ (d : Dir) {x y : Nat}, s.step ⟨a, b⟩ d = some ⟨x, y⟩ → (x = a ∧ y = b) ∨ S ⟨x, y⟩ = true := fun d x y hs =>
    mark_iff.1 (by
      have := List.find?_eq_none.1 hf ⟨x, y⟩ (mem_nbrs_step.2 ⟨d, hs⟩)
      revert this
      cases (if (⟨x, y⟩ : NodeIx) = ⟨a, b⟩ then true else S ⟨x, y⟩) <;> simp)
  obtain ⟨r1, -⟩ := inRow_done h3 h1 (fun c hc => (hno (.backward .horizontal) (x := c) (y := b) (by simp only [Grid.step]; rw [hc]; rfl)).imp And.left id)
    (fun c hc => (hno (.foward .horizontal) (x := c) (y := b) (by simp only [Grid.step]; rw [hc]; rfl)).imp And.left id)
  have hcol : ∀ {d}, d < s.v → ((a = a ∧ d = b) ∨ S ⟨a, d⟩ = true) → d = b ∨ RowsDone s.loopV b d := fun {d} hd h => by
    by_cases e : d = b
    · exact .inl e
    · exact .inr ((h4 a d h1 hd e).1 (h.resolve_left fun h => e h.2))
  have r2 := rows_done h2 (fun d hd => hcol (lt3 hd) (hno (.backward .vertical) (by simp only [Grid.step]; rw [hd]; rfl)))
    (fun d hd => hcol (lt4 hd) (hno (.foward .vertical) (by simp only [Grid.step]; rw [hd]; rfl))) y hy
  rw [mark_iff]
  by_cases e : y = b
  · subst e
    exact (r1 x hx).imp (fun e => ⟨e, rfl⟩) id
  · exact .inr ((h4 x y hx hy e).2 (r2.resolve_left e))
end

section
variable {N E : Type}
variable {g : G N E} {k : Cfg} {h v : Nat} {c : Contents NodeIx Axis N E}

/-- **C123.** On every `SquareGraph`, looped or not, `greedy_matching` finds as many pairs as there can be: at most one node is left over. -/
theorem c123_legacy_most (hb : Built k h v g c) (hf : k.Fits h v) {mate : Nat → Option NodeIx} {edges : Nat} (hg : g.Greedy mate edges) :
    edges = h * v / 2 := by
  have hn := (c45_index_bijection_partial hb hf).1
  have hy : Yields (NodeIndices.next g.k) (.new g.horizontalNodeCount g.verticalNodeCount) (k.grid h v).nodes := by
    rw [hb.stores.cfg]; exact c45_node_identifiers_partial hb hf
  have hadj : ∀ a b, (k.grid h v).Node a → (b ∈ (k.grid h v).nbrs a ↔ Walk g a 1 b) := fun a b ha => (walk_one hb hf ha).symm
  obtain ⟨us, g2, g3⟩ := hg
  rw [Yields.unique g2 hy, hn] at g3
  obtain ⟨e1, e2, e3⟩ := c45_nodes_exact (k.grid h v)
  have := gmRun_whole (behaves hb hf) (indexed hb hf) (ix := g.toIndex) (fun u hu => nodeIdx_eq hb hf hu)
    (fun a b ha h => (hadj b a (nbrs_node ha h)).2 (walk_one_symm hb hf ha ((hadj a b ha).1 h)))
    (Q := SnakeAt (k.grid h v)) (fun u S t _ hQ hf => snake_step hQ hf) (fun u S _ hQ hf a ha => snake_end hQ hf ha.1 ha.2)
    (fun a => e2 a) e1 (fun u hu => by
      have e : (k.grid h v).nodes[0]? = some u := by rw [← List.head?_eq_getElem?]; exact hu
      have hun : (k.grid h v).Node u := (e2 u).1 (List.mem_of_getElem? e)
      have hu0 : u = ⟨0, 0⟩ := by
        have h1 : 0 < h := Nat.lt_of_le_of_lt (Nat.zero_le _) hun.1
        have h2 : 0 < v := Nat.lt_of_le_of_lt (Nat.zero_le _) hun.2
        obtain ⟨h', rfl⟩ : ∃ n, h = n + 1 := ⟨h - 1, by omega⟩
        obtain ⟨v', rfl⟩ : ∃ n, v = n + 1 := ⟨v - 1, by omega⟩
        have : (k.grid (h' + 1) (v' + 1)).nodes.head? = some ⟨0, 0⟩ := by
          show ((List.range (h' + 1)).flatMap fun i => (List.range (v' + 1)).map fun j => (⟨i, j⟩ : NodeIx)).head? = _
          rw [List.range_succ_eq_map, List.range_succ_eq_map]
          rfl
        rw [this] at hu
        exact (Option.some.inj hu).symm
      subst hu0
      refine ⟨hun.1, hun.2, ?_, fun x y _ _ hne => ?_⟩
      · cases hl : (k.grid h v).loopH with
        | false => exact .inl ⟨rfl, fun x _ => by simp⟩
        | true => exact .inr (.inr (.inl ⟨rfl, 0, hun.1, Nat.le_refl _, fun x _ => by simp; omega⟩))
      · unfold RowsDone
        simp) g3
  rw [this, e3]
  rfl
end

/-- A graph looped both ways: the pairs found are half of its six nodes. -/
example : ∃ (g : G Nat Nat) (mate : Nat → Option NodeIx) (edges : Nat), g.Greedy mate edges ∧ edges = 3 := by
  obtain ⟨g, c, hb, _⟩ := exGraph { exCfg with loopH := true, loopV := true } (by decide)
  have hf : Cfg.Fits { exCfg with loopH := true, loopV := true } 3 2 := ⟨by decide, by decide⟩
  obtain ⟨mate, edges, h1, h2⟩ := c123_legacy hb hf
  have h := (h1 _ _).2 ⟨rfl, rfl⟩
  exact ⟨g, mate, edges, h, c123_legacy_most hb hf h⟩
end LG.Sq
