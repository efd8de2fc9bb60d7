/-
Which single cell, or single link between two cells, of a rectangular arrangement of cells cannot be taken away without separating
others. Nothing here is about the code: `Props/Cut.lean` and `Props/LegacyCut.lean` apply it to the neighbours of the two graph types.
-/
namespace LG
section
variable {V : Type}

/-- Zero or more steps. -/
inductive Ways (R : V → V → Prop) (a : V) : V → Prop where
  | nil : Ways R a a
  | step {x y : V} : Ways R a x → R x y → Ways R a y

theorem Ways.trans {R : V → V → Prop} {a b c : V} (h1 : Ways R a b) (h2 : Ways R b c) : Ways R a c := by
  induction h2 with
  | nil => exact h1
  | step _ h ih => exact ih.step h

theorem Ways.mono {R S : V → V → Prop} (hRS : ∀ a b, R a b → S a b) {a b : V} (h : Ways R a b) : Ways S a b := by
  induction h with
  | nil => exact .nil
  | step _ h ih => exact ih.step (hRS _ _ h)

/-- Steps between cells other than `c`. -/
def Around (adj : V → V → Prop) (c x y : V) : Prop := adj x y ∧ x ≠ c ∧ y ≠ c

/-- Steps other than those between `u` and `v`. -/
def Beside (adj : V → V → Prop) (u v x y : V) : Prop := adj x y ∧ ¬(x = u ∧ y = v) ∧ ¬(x = v ∧ y = u)

/-- Cells in `W` columns and `H` rows, each adjacent to the next in its row and in its column; `rx`: the rows are closed to circles;
`ry`: the columns are. A single row or column has no further adjacencies. -/
structure Gridlike (adj : V → V → Prop) (pos : Nat → Nat → V) (W H : Nat) (rx ry : Bool) : Prop where
  inj : ∀ {x y x' y' : Nat}, x < W → y < H → x' < W → y' < H → pos x y = pos x' y' → x = x' ∧ y = y'
  closed : ∀ {x y : Nat} {v : V}, x < W → y < H → adj (pos x y) v → ∃ x' y', x' < W ∧ y' < H ∧ v = pos x' y'
  symm : ∀ {x y x' y' : Nat}, x < W → y < H → x' < W → y' < H → adj (pos x y) (pos x' y') → adj (pos x' y') (pos x y)
  right : ∀ {x y : Nat}, x + 1 < W → y < H → adj (pos x y) (pos (x + 1) y)
  up : ∀ {x y : Nat}, x < W → y + 1 < H → adj (pos x y) (pos x (y + 1))
  aroundX : rx = true → ∀ {y : Nat}, 0 < W → y < H → adj (pos (W - 1) y) (pos 0 y)
  aroundY : ry = true → ∀ {x : Nat}, x < W → 0 < H → adj (pos x (H - 1)) (pos x 0)
  thinX : rx = false → H = 1 → ∀ {x x' : Nat}, x < W → x' < W → adj (pos x 0) (pos x' 0) → x' ≤ x + 1 ∧ x ≤ x' + 1
  thinY : ry = false → W = 1 → ∀ {y y' : Nat}, y < H → y' < H → adj (pos 0 y) (pos 0 y') → y' ≤ y + 1 ∧ y ≤ y' + 1

variable {adj : V → V → Prop} {pos : Nat → Nat → V} {W H : Nat} {rx ry : Bool}

theorem Gridlike.swap (hg : Gridlike adj pos W H rx ry) : Gridlike adj (fun x y => pos y x) H W ry rx where
  inj h1 h2 h3 h4 e := (hg.inj h2 h1 h4 h3 e).symm
  closed h1 h2 h := by
    obtain ⟨x, y, h3, h4, e⟩ := hg.closed h2 h1 h
    exact ⟨y, x, h4, h3, e⟩
  symm h1 h2 h3 h4 := hg.symm h2 h1 h4 h3
  right h1 h2 := hg.up h2 h1
  up h1 h2 := hg.right h2 h1
  aroundX hr _ h1 h2 := hg.aroundY hr h2 h1
  aroundY hr _ h1 h2 := hg.aroundX hr h2 h1
  thinX hr e _ _ h1 h2 := hg.thinY hr e h1 h2
  thinY hr e _ _ h1 h2 := hg.thinX hr e h1 h2

section
variable {P : V → V → Prop}

/-- Ways can be walked back. -/
theorem Gridlike.back (hg : Gridlike adj pos W H rx ry) (hP : ∀ a b, P a b → P b a) {x y : Nat} (hx : x < W) (hy : y < H) {v : V}
    (h : Ways (fun a b => adj a b ∧ P a b) (pos x y) v) :
    (∃ x' y', x' < W ∧ y' < H ∧ v = pos x' y') ∧ Ways (fun a b => adj a b ∧ P a b) v (pos x y) := by
  induction h with
  | nil => exact ⟨⟨x, y, hx, hy, rfl⟩, .nil⟩
  | step _ h ih =>
    obtain ⟨⟨x1, y1, h1, h2, rfl⟩, ih⟩ := ih
    obtain ⟨x2, y2, h3, h4, rfl⟩ := hg.closed h1 h2 h.1
    exact ⟨⟨x2, y2, h3, h4, rfl⟩, (Ways.nil.step ⟨hg.symm h1 h2 h3 h4 h.1, hP _ _ h.2⟩).trans ih⟩
end

theorem around_sym {c : V} : ∀ a b, (a ≠ c ∧ b ≠ c) → (b ≠ c ∧ a ≠ c) := fun _ _ h => h.symm

theorem Gridlike.back' (hg : Gridlike adj pos W H rx ry) {c : V} {x y : Nat} (hx : x < W) (hy : y < H) {v : V}
    (h : Ways (Around adj c) (pos x y) v) : Ways (Around adj c) v (pos x y) :=
  (hg.back around_sym hx hy h).2

/-- Along a row that does not contain `c` between two of its cells. -/
theorem Gridlike.rowUp (hg : Gridlike adj pos W H rx ry) {c : V} {x y : Nat} (hy : y < H) :
    ∀ n, x + n < W → (∀ i, x ≤ i → i ≤ x + n → pos i y ≠ c) → Ways (Around adj c) (pos x y) (pos (x + n) y)
  | 0, _, _ => .nil
  | n + 1, hn, hf => .step (hg.rowUp hy n (by omega) fun i h1 h2 => hf i h1 (by omega))
      ⟨hg.right (by omega) hy, hf _ (by omega) (by omega), hf _ (by omega) (by omega)⟩

theorem Gridlike.row (hg : Gridlike adj pos W H rx ry) {c : V} {x x' y : Nat} (hx : x < W) (hx' : x' < W) (hy : y < H)
    (hf : ∀ i, min x x' ≤ i → i ≤ max x x' → pos i y ≠ c) : Ways (Around adj c) (pos x y) (pos x' y) := by
  rcases Nat.le_total x x' with h | h
  · obtain ⟨n, rfl⟩ := Nat.exists_eq_add_of_le h
    exact hg.rowUp hy n hx' fun i h1 h2 => hf i (by omega) (by omega)
  · obtain ⟨n, rfl⟩ := Nat.exists_eq_add_of_le h
    exact hg.back' hx' hy (hg.rowUp hy n hx fun i h1 h2 => hf i (by omega) (by omega))

theorem Gridlike.column (hg : Gridlike adj pos W H rx ry) {c : V} {x y y' : Nat} (hx : x < W) (hy : y < H) (hy' : y' < H)
    (hf : ∀ i, min y y' ≤ i → i ≤ max y y' → pos x i ≠ c) : Ways (Around adj c) (pos x y) (pos x y') :=
  hg.swap.row hy hy' hx hf

/-- Two or more rows and columns: there is a way around any cell. -/
theorem Gridlike.detour (hg : Gridlike adj pos W H rx ry) (hW : 2 ≤ W) (hH : 2 ≤ H) {cx cy ax ay bx by' : Nat} (hcx : cx < W) (hcy : cy < H)
    (hax : ax < W) (hay : ay < H) (hbx : bx < W) (hby : by' < H) (ha : pos ax ay ≠ pos cx cy) (hb : pos bx by' ≠ pos cx cy) :
    Ways (Around adj (pos cx cy)) (pos ax ay) (pos bx by') := by
  have ha' : ax = cx → ay ≠ cy := fun e1 e2 => ha (by rw [e1, e2])
  have hb' : bx = cx → by' ≠ cy := fun e1 e2 => hb (by rw [e1, e2])
  have R : ∀ {x x' y}, x < W → x' < W → y < H → y ≠ cy → Ways (Around adj (pos cx cy)) (pos x y) (pos x' y) := fun h1 h2 h3 h4 =>
    hg.row h1 h2 h3 fun i h5 h6 e => h4 (hg.inj (by omega) h3 hcx hcy e).2
  have C : ∀ {x y y'}, x < W → y < H → y' < H → x ≠ cx → Ways (Around adj (pos cx cy)) (pos x y) (pos x y') := fun h1 h2 h3 h4 =>
    hg.column h1 h2 h3 fun i h5 h6 e => h4 (hg.inj h1 (by omega) hcx hcy e).1
  by_cases h1 : ax = cx
  · by_cases h2 : bx = cx
    · obtain ⟨x, h3, h4⟩ : ∃ x, x < W ∧ x ≠ cx := ⟨if cx = 0 then 1 else 0, by split <;> omega, by split <;> omega⟩
      exact ((R hax h3 hay (ha' h1)).trans (C h3 hay hby h4)).trans (R h3 hbx hby (hb' h2))
    · exact (R hax hbx hay (ha' h1)).trans (C hbx hay hby h2)
  · by_cases h2 : by' = cy
    · have h5 : bx ≠ cx := fun e => hb' e h2
      obtain ⟨y, h3, h4⟩ : ∃ y, y < H ∧ y ≠ cy := ⟨if cy = 0 then 1 else 0, by split <;> omega, by split <;> omega⟩
      exact ((C hax hay h3 h1).trans (R hax hbx h3 h4)).trans (C hbx h3 hby h5)
    · exact (C hax hay hby h1).trans (R hax hbx hby h2)

/-- One column: there is a way unless `c` is between the two ends of the column and the column is not a circle. -/
theorem Gridlike.strip (hg : Gridlike adj pos 1 H rx ry) {cy ay by' : Nat} (hcy : cy < H) (hay : ay < H) (hby : by' < H)
    (ha : ay ≠ cy) (hb : by' ≠ cy) (hc : ry = false → cy = 0 ∨ cy + 1 = H) :
    Ways (Around adj (pos 0 cy)) (pos 0 ay) (pos 0 by') := by
  have C : ∀ {y y'}, y < H → y' < H → (cy < y ∧ cy < y' ∨ y < cy ∧ y' < cy) → Ways (Around adj (pos 0 cy)) (pos 0 y) (pos 0 y') :=
    fun h2 h3 h4 => hg.column (by omega) h2 h3 fun i h5 h6 e => by
      have := (hg.inj (by omega) (by omega) (by omega) hcy e).2
      omega
  have key : ∀ {y y'}, y < cy → cy < y' → y' < H → Ways (Around adj (pos 0 cy)) (pos 0 y) (pos 0 y') := by
    intro y y' h1 h2 h3
    cases hr : ry with
    | false => have := hc hr; omega
    | true =>
      have hne : ∀ {i}, i < H → i ≠ cy → pos 0 i ≠ pos 0 cy := fun h4 h5 e => h5 (hg.inj (by omega) h4 (by omega) hcy e).2
      have h6 := hg.aroundY hr (x := 0) (by omega) (by omega)
      have h7 : Around adj (pos 0 cy) (pos 0 0) (pos 0 (H - 1)) :=
        ⟨hg.symm (by omega) (by omega) (by omega) (by omega) h6, hne (by omega) (by omega), hne (by omega) (by omega)⟩
      exact ((C (by omega) (by omega) (.inr ⟨h1, by omega⟩)).step h7).trans (C (by omega) h3 (.inl ⟨by omega, h2⟩))
  rcases Nat.lt_or_gt_of_ne ha with h1 | h1 <;> rcases Nat.lt_or_gt_of_ne hb with h2 | h2
  · exact C hay hby (.inr ⟨h1, h2⟩)
  · exact key h1 h2 hby
  · exact hg.back' (by omega) hby (key h2 h1 hay)
  · exact C hay hby (.inl ⟨h1, h2⟩)

/-- One column that is not a circle: a cell between its ends separates them. -/
theorem Gridlike.severed (hg : Gridlike adj pos 1 H rx false) {cy ay : Nat} (hay : ay < cy) (hcy : cy < H) {v : V}
    (h : Ways (Around adj (pos 0 cy)) (pos 0 ay) v) : ∃ y, y < cy ∧ v = pos 0 y := by
  induction h with
  | nil => exact ⟨ay, hay, rfl⟩
  | step _ h ih =>
    obtain ⟨y, h1, rfl⟩ := ih
    obtain ⟨x', y', h2, h3, rfl⟩ := hg.closed (by omega) (by omega) h.1
    obtain rfl : x' = 0 := by omega
    have := hg.thinY rfl rfl (by omega) h3 h.1
    have h4 : y' ≠ cy := fun e => h.2.2 (by rw [e])
    exact ⟨y', by omega, rfl⟩

/-- Cells whose removal separates two others. -/
theorem Gridlike.cut (hg : Gridlike adj pos W H rx ry) {cx cy : Nat} (hcx : cx < W) (hcy : cy < H) :
    (∃ ax ay bx by', ax < W ∧ ay < H ∧ bx < W ∧ by' < H ∧ pos ax ay ≠ pos cx cy ∧ pos bx by' ≠ pos cx cy ∧
      ¬Ways (Around adj (pos cx cy)) (pos ax ay) (pos bx by')) ↔
    (W = 1 ∧ ry = false ∧ 0 < cy ∧ cy + 1 < H) ∨ (H = 1 ∧ rx = false ∧ 0 < cx ∧ cx + 1 < W) := by
  constructor
  · rintro ⟨ax, ay, bx, by', h1, h2, h3, h4, h5, h6, h7⟩
    by_cases hW : 2 ≤ W
    · by_cases hH : 2 ≤ H
      · exact absurd (hg.detour hW hH hcx hcy h1 h2 h3 h4 h5 h6) h7
      · obtain rfl : H = 1 := by omega
        have e1 : ay = 0 := by omega
        have e2 : by' = 0 := by omega
        have e3 : cy = 0 := by omega
        subst e1 e2 e3
        refine .inr ⟨rfl, ?_⟩
        by_cases hc : rx = false → cx = 0 ∨ cx + 1 = W
        · exact absurd (hg.swap.strip hcx h1 h3 (fun e => h5 (by rw [e])) (fun e => h6 (by rw [e])) hc) h7
        · rw [Classical.not_imp] at hc
          exact ⟨hc.1, by omega, by omega⟩
    · obtain rfl : W = 1 := by omega
      have e1 : ax = 0 := by omega
      have e2 : bx = 0 := by omega
      have e3 : cx = 0 := by omega
      subst e1 e2 e3
      refine .inl ⟨rfl, ?_⟩
      by_cases hc : ry = false → cy = 0 ∨ cy + 1 = H
      · exact absurd (hg.strip hcy h2 h4 (fun e => h5 (by rw [e])) (fun e => h6 (by rw [e])) hc) h7
      · rw [Classical.not_imp] at hc
        exact ⟨hc.1, by omega, by omega⟩
  · rintro (⟨rfl, rfl, h1, h2⟩ | ⟨rfl, rfl, h1, h2⟩)
    · obtain rfl : cx = 0 := by omega
      refine ⟨0, 0, 0, cy + 1, hcx, by omega, hcx, h2, fun e => ?_, fun e => ?_, fun hw => ?_⟩
      · have := (hg.inj hcx (by omega) hcx hcy e).2; omega
      · have := (hg.inj hcx h2 hcx hcy e).2; omega
      · obtain ⟨y, h3, h4⟩ := hg.severed h1 hcy hw
        have := (hg.inj hcx h2 hcx (by omega) h4).2; omega
    · obtain rfl : cy = 0 := by omega
      refine ⟨0, 0, cx + 1, 0, by omega, hcy, h2, hcy, fun e => ?_, fun e => ?_, fun hw => ?_⟩
      · have := (hg.inj (by omega) hcy hcx hcy e).1; omega
      · have := (hg.inj h2 hcy hcx hcy e).1; omega
      · obtain ⟨y, h3, h4⟩ := hg.swap.severed h1 hcx hw
        have := (hg.inj h2 hcy (by omega) hcy h4).1; omega

/-! ### Links -/

theorem beside_of_around {c u v x y : V} (hc : c = u ∨ c = v) (h : Around adj c x y) : Beside adj u v x y := by
  refine ⟨h.1, ?_, ?_⟩ <;> rintro ⟨rfl, rfl⟩ <;> rcases hc with rfl | rfl <;> first | exact h.2.1 rfl | exact h.2.2 rfl

/-- If neither end of a link cuts and there is a third cell, the link does not cut either. -/
theorem spared_link {u v z : V} (hz : ∃ x y, x < W ∧ y < H ∧ z = pos x y)
    (huv : u ≠ v) (hzu : z ≠ u) (hzv : z ≠ v)
    (hcu : ∀ a b, (∃ x y, x < W ∧ y < H ∧ a = pos x y) → (∃ x y, x < W ∧ y < H ∧ b = pos x y) → a ≠ u → b ≠ u → Ways (Around adj u) a b)
    (hcv : ∀ a b, (∃ x y, x < W ∧ y < H ∧ a = pos x y) → (∃ x y, x < W ∧ y < H ∧ b = pos x y) → a ≠ v → b ≠ v → Ways (Around adj v) a b)
    {a b : V} (ha : ∃ x y, x < W ∧ y < H ∧ a = pos x y) (hb : ∃ x y, x < W ∧ y < H ∧ b = pos x y) : Ways (Beside adj u v) a b := by
  have mu : ∀ {a b}, Ways (Around adj u) a b → Ways (Beside adj u v) a b := fun h => h.mono fun _ _ => beside_of_around (.inl rfl)
  have mv : ∀ {a b}, Ways (Around adj v) a b → Ways (Beside adj u v) a b := fun h => h.mono fun _ _ => beside_of_around (.inr rfl)
  have toz : ∀ {a}, (∃ x y, x < W ∧ y < H ∧ a = pos x y) → Ways (Beside adj u v) a z ∧ Ways (Beside adj u v) z a := by
    intro a ha
    by_cases h1 : a = u
    · exact ⟨mv (hcv a z ha hz (h1 ▸ huv) hzv), mv (hcv z a hz ha hzv (h1 ▸ huv))⟩
    · exact ⟨mu (hcu a z ha hz h1 hzu), mu (hcu z a hz ha hzu h1)⟩
  exact (toz ha).1.trans (toz hb).2

/-- The link between the cells `y` and `y + 1` of a single column that is not a circle separates them. -/
theorem Gridlike.snapped (hg : Gridlike adj pos 1 H rx false) {y : Nat} (hy : y + 1 < H) {v : V}
    (h : Ways (Beside adj (pos 0 y) (pos 0 (y + 1))) (pos 0 y) v) : ∃ i, i ≤ y ∧ v = pos 0 i := by
  induction h with
  | nil => exact ⟨y, Nat.le_refl _, rfl⟩
  | step _ h ih =>
    obtain ⟨i, h1, rfl⟩ := ih
    obtain ⟨x', i', h2, h3, rfl⟩ := hg.closed (by omega) (by omega) h.1
    obtain rfl : x' = 0 := by omega
    have := hg.thinY rfl rfl (by omega) h3 h.1
    refine ⟨i', Nat.le_of_not_lt fun h4 => ?_, rfl⟩
    obtain rfl : i = y := by omega
    obtain rfl : i' = i + 1 := by omega
    exact h.2.1 ⟨rfl, rfl⟩

/-- With two cells only, the link between them is all there is. -/
theorem lonely {u v : V} (huv : u ≠ v) (hall : ∀ a, adj u a → a = u ∨ a = v) {a : V} (h : Ways (Beside adj u v) u a) : a = u := by
  induction h with
  | nil => rfl
  | step _ h ih =>
    subst ih
    rcases hall _ h.1 with e | rfl
    · exact e
    · exact absurd ⟨rfl, rfl⟩ h.2.1

theorem beside_comm {u v x y : V} : Beside adj u v x y ↔ Beside adj v u x y := by
  simp only [Beside]
  exact ⟨fun h => ⟨h.1, h.2.2, h.2.1⟩, fun h => ⟨h.1, h.2.2, h.2.1⟩⟩

theorem ways_beside_comm {u v x y : V} : Ways (Beside adj u v) x y ↔ Ways (Beside adj v u) x y :=
  ⟨fun h => h.mono fun _ _ => beside_comm.1, fun h => h.mono fun _ _ => beside_comm.1⟩

/-- Links of a single column. -/
theorem Gridlike.stripLink (hg : Gridlike adj pos 1 H rx ry) {y y' : Nat} (hy : y < H) (hy' : y' < H) (hne : y ≠ y')
    (hadj : adj (pos 0 y) (pos 0 y')) :
    (∃ a b, a < H ∧ b < H ∧ ¬Ways (Beside adj (pos 0 y) (pos 0 y')) (pos 0 a) (pos 0 b)) ↔ ry = false ∨ H = 2 := by
  have hne' : pos 0 y ≠ pos 0 y' := fun e => hne (hg.inj (by omega) hy (by omega) hy' e).2
  constructor
  · rintro ⟨a, b, h1, h2, h3⟩
    by_cases hr : ry = false
    · exact .inl hr
    · refine .inr (Nat.le_antisymm (Nat.le_of_not_lt fun h4 => ?_) (by omega))
      obtain ⟨z, h5, h6, h7⟩ : ∃ z, z < H ∧ z ≠ y ∧ z ≠ y' := by
        by_cases e0 : y = 0 ∨ y' = 0
        · by_cases e1 : y = 1 ∨ y' = 1
          · exact ⟨2, by omega, by omega, by omega⟩
          · exact ⟨1, by omega, by omega, by omega⟩
        · exact ⟨0, by omega, by omega, by omega⟩
      have cell : ∀ {i}, i < H → ∃ x y, x < 1 ∧ y < H ∧ pos 0 i = pos x y := fun hi => ⟨0, _, by omega, hi, rfl⟩
      have none : ∀ {c}, c < H → ∀ a b, (∃ x y, x < 1 ∧ y < H ∧ a = pos x y) → (∃ x y, x < 1 ∧ y < H ∧ b = pos x y) → a ≠ pos 0 c →
          b ≠ pos 0 c → Ways (Around adj (pos 0 c)) a b := by
        rintro c hc _ _ ⟨x1, y1, q1, q2, rfl⟩ ⟨x2, y2, q3, q4, rfl⟩ q5 q6
        obtain rfl : x1 = 0 := by omega
        obtain rfl : x2 = 0 := by omega
        exact hg.strip hc q2 q4 (fun e => q5 (by rw [e])) (fun e => q6 (by rw [e])) fun e => absurd e hr
      exact h3 (spared_link (cell h5) hne' (fun e => h6 (hg.inj (by omega) h5 (by omega) hy e).2)
        (fun e => h7 (hg.inj (by omega) h5 (by omega) hy' e).2) (none hy) (none hy') (cell h1) (cell h2))
  · intro hc
    cases hr : ry with
    | false =>
      subst hr
      have := hg.thinY rfl rfl hy hy' hadj
      rcases Nat.lt_or_gt_of_ne hne with h1 | h1
      · obtain rfl : y' = y + 1 := by omega
        refine ⟨y, y + 1, hy, hy', fun hw => ?_⟩
        obtain ⟨i, h2, h3⟩ := hg.snapped hy' hw
        have := (hg.inj (by omega) hy' (by omega) (by omega) h3).2
        omega
      · obtain rfl : y = y' + 1 := by omega
        refine ⟨y', y' + 1, hy', hy, fun hw => ?_⟩
        obtain ⟨i, h2, h3⟩ := hg.snapped hy (ways_beside_comm.1 hw)
        have := (hg.inj (by omega) hy (by omega) (by omega) h3).2
        omega
    | true =>
      obtain rfl : H = 2 := by
        rcases hc with e | e
        · rw [hr] at e; cases e
        · exact e
      refine ⟨y, y', hy, hy', fun hw => hne' (lonely hne' (fun a ha => ?_) hw).symm⟩
      obtain ⟨x1, y1, q1, q2, rfl⟩ := hg.closed (by omega) hy ha
      obtain rfl : x1 = 0 := by omega
      rcases (by omega : y1 = y ∨ y1 = y') with rfl | rfl
      · exact .inl rfl
      · exact .inr rfl

/-- Links whose removal separates two cells. -/
theorem Gridlike.link (hg : Gridlike adj pos W H rx ry) {x y x' y' : Nat} (hx : x < W) (hy : y < H) (hx' : x' < W) (hy' : y' < H)
    (hne : pos x y ≠ pos x' y') (hadj : adj (pos x y) (pos x' y')) :
    (∃ ax ay bx by', ax < W ∧ ay < H ∧ bx < W ∧ by' < H ∧ ¬Ways (Beside adj (pos x y) (pos x' y')) (pos ax ay) (pos bx by')) ↔
    (W = 1 ∧ (ry = false ∨ H = 2)) ∨ (H = 1 ∧ (rx = false ∨ W = 2)) := by
  by_cases hW : W = 1
  · subst hW
    obtain rfl : x = 0 := by omega
    obtain rfl : x' = 0 := by omega
    have hyy : y ≠ y' := fun e => hne (by rw [e])
    have := hg.stripLink hy hy' hyy hadj
    constructor
    · rintro ⟨ax, ay, bx, by', h1, h2, h3, h4, h5⟩
      obtain rfl : ax = 0 := by omega
      obtain rfl : bx = 0 := by omega
      exact .inl ⟨rfl, this.1 ⟨_, _, h2, h4, h5⟩⟩
    · rintro (⟨-, h⟩ | ⟨h, -⟩)
      · obtain ⟨a, b, h1, h2, h3⟩ := this.2 h
        exact ⟨0, a, 0, b, by omega, h1, by omega, h2, h3⟩
      · omega
  · by_cases hH : H = 1
    · subst hH
      obtain rfl : y = 0 := by omega
      obtain rfl : y' = 0 := by omega
      have hxx : x ≠ x' := fun e => hne (by rw [e])
      have := hg.swap.stripLink hx hx' hxx hadj
      constructor
      · rintro ⟨ax, ay, bx, by', h1, h2, h3, h4, h5⟩
        obtain rfl : ay = 0 := by omega
        obtain rfl : by' = 0 := by omega
        exact .inr ⟨rfl, this.1 ⟨_, _, h1, h3, h5⟩⟩
      · rintro (⟨h, -⟩ | ⟨-, h⟩)
        · exact absurd h hW
        · obtain ⟨a, b, h1, h2, h3⟩ := this.2 h
          exact ⟨a, 0, b, 0, h1, by omega, h2, by omega, h3⟩
    · refine ⟨?_, fun h => by rcases h with ⟨h, -⟩ | ⟨h, -⟩ <;> omega⟩
      rintro ⟨ax, ay, bx, by', h1, h2, h3, h4, h5⟩
      have none : ∀ {cx cy}, cx < W → cy < H → ∀ a b, (∃ x y, x < W ∧ y < H ∧ a = pos x y) → (∃ x y, x < W ∧ y < H ∧ b = pos x y) →
          a ≠ pos cx cy → b ≠ pos cx cy → Ways (Around adj (pos cx cy)) a b := by
        rintro cx cy hcx hcy _ _ ⟨x1, y1, q1, q2, rfl⟩ ⟨x2, y2, q3, q4, rfl⟩ q5 q6
        exact hg.detour (by omega) (by omega) hcx hcy q1 q2 q3 q4 q5 q6
      obtain ⟨zx, zy, h6, h7, h8, h9⟩ : ∃ zx zy, zx < W ∧ zy < H ∧ ¬(zx = x ∧ zy = y) ∧ ¬(zx = x' ∧ zy = y') := by
        by_cases e0 : (x = 0 ∧ y = 0) ∨ (x' = 0 ∧ y' = 0)
        · by_cases e1 : (x = 1 ∧ y = 0) ∨ (x' = 1 ∧ y' = 0)
          · exact ⟨0, 1, by omega, by omega, by omega, by omega⟩
          · exact ⟨1, 0, by omega, by omega, by omega, by omega⟩
        · exact ⟨0, 0, by omega, by omega, by omega, by omega⟩
      exact absurd (spared_link ⟨zx, zy, h6, h7, rfl⟩ hne (fun e => h8 (hg.inj h6 h7 hx hy e))
        (fun e => h9 (hg.inj h6 h7 hx' hy' e)) (none hx hy) (none hx' hy') ⟨ax, ay, h1, h2, rfl⟩ ⟨bx, by', h3, h4, rfl⟩) h5
end
end LG
