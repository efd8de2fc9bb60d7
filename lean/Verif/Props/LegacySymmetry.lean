import Verif.Props.LegacyRing
/- C101 for the deprecated graph: reflections, and along looped sides rotations, of a `SquareGraph` are symmetries of it. -/
set_option linter.unusedSectionVars false
namespace LG.Sq

/-- `f` maps the cells of `s` one-to-one onto those of `s'`, `t` the directions, and a step followed by `f` is `f` followed by the
corresponding step. -/
structure GridSym (s s' : Grid) (f : NodeIx → NodeIx) (t : Dir → Dir) : Prop where
  node : ∀ {n}, s.Node n → s'.Node (f n)
  inj : ∀ {a b}, s.Node a → s.Node b → f a = f b → a = b
  onto : ∀ {n'}, s'.Node n' → ∃ n, s.Node n ∧ f n = n'
  dir : (Grid.dirs.map t).Perm Grid.dirs
  step : ∀ {n}, s.Node n → ∀ d, s'.step (f n) (t d) = (s.step n d).map f

/-- The columns in reverse order. -/
def flipH (h : Nat) (n : NodeIx) : NodeIx := ⟨h - 1 - n.horizontal, n.vertical⟩
/-- The rows in reverse order. -/
def flipV (v : Nat) (n : NodeIx) : NodeIx := ⟨n.horizontal, v - 1 - n.vertical⟩
/-- Rows and columns exchanged. -/
def swapHV (n : NodeIx) : NodeIx := ⟨n.vertical, n.horizontal⟩
/-- Turned by `i` columns. -/
def turnH (h i : Nat) (n : NodeIx) : NodeIx := ⟨(n.horizontal + i) % h, n.vertical⟩
/-- Turned by `i` rows. -/
def turnV (v i : Nat) (n : NodeIx) : NodeIx := ⟨n.horizontal, (n.vertical + i) % v⟩

/-- Left and right exchanged. -/
def Dir.flipH : Dir → Dir
  | .foward .horizontal => .backward .horizontal
  | .backward .horizontal => .foward .horizontal
  | d => d
/-- Up and down exchanged. -/
def Dir.flipV : Dir → Dir
  | .foward .vertical => .backward .vertical
  | .backward .vertical => .foward .vertical
  | d => d
/-- The axes exchanged. -/
def Dir.swapHV : Dir → Dir
  | .foward .horizontal => .foward .vertical
  | .foward .vertical => .foward .horizontal
  | .backward .horizontal => .backward .vertical
  | .backward .vertical => .backward .horizontal

theorem along_flip (loop : Bool) {n x : Nat} (hx : x < n) {δ : Int} (hd : δ = 1 ∨ δ = -1) :
    along loop n (n - 1 - x) (-δ) = (along loop n x δ).map fun y => n - 1 - y := by
  unfold along
  by_cases h : 0 ≤ (x : Int) + δ ∧ (x : Int) + δ < n
  · simp only
    rw [if_pos h, if_pos (by omega), Option.map_some]
    congr 1
    omega
  · simp only
    rw [if_neg h, if_neg (by omega)]
    cases loop
    · rfl
    · simp only [if_true, Option.map_some]
      congr 1
      rcases hd with rfl | rfl
      · have e1 : (x : Int) + 1 = n := by omega
        have e2 : ((n - 1 - x : Nat) : Int) + -1 = n * (-1) + (n - 1) := by omega
        rw [e1, e2, Int.emod_self, Int.mul_add_emod_self_left, Int.emod_eq_of_lt (by omega) (by omega)]
        omega
      · have e1 : (x : Int) + -1 = n * (-1) + (n - 1) := by omega
        have e2 : ((n - 1 - x : Nat) : Int) + -(-1) = n := by omega
        rw [e1, e2, Int.emod_self, Int.mul_add_emod_self_left, Int.emod_eq_of_lt (by omega) (by omega)]
        omega

theorem along_loop (n x : Nat) (δ : Int) : along true n x δ = some (((x : Int) + δ) % n).toNat := by
  unfold along
  by_cases h : 0 ≤ (x : Int) + δ ∧ (x : Int) + δ < n
  · simp only
    rw [if_pos h, Int.emod_eq_of_lt h.1 h.2]
  · simp only
    rw [if_neg h]
    rfl

theorem along_turn {n x : Nat} (hx : x < n) (i : Nat) (δ : Int) :
    along true n ((x + i) % n) δ = (along true n x δ).map fun y => (y + i) % n := by
  have hp : 0 < n := by omega
  rw [along_loop, along_loop, Option.map_some]
  congr 1
  have h1 : 0 ≤ ((x : Int) + δ) % n := Int.emod_nonneg _ (by omega)
  have h2 : 0 ≤ (((x + i) % n : Nat) + δ) % (n : Int) := Int.emod_nonneg _ (by omega)
  apply Int.ofNat.inj
  show ((_ : Nat) : Int) = ((_ : Nat) : Int)
  rw [Int.toNat_of_nonneg h2, Int.natCast_emod, Int.natCast_emod, Int.natCast_add, Int.natCast_add, Int.toNat_of_nonneg h1,
    Int.emod_add_emod, Int.emod_add_emod]
  congr 1
  omega

theorem turn_inj {n x y i : Nat} (hx : x < n) (hy : y < n) (h : (x + i) % n = (y + i) % n) : x = y := by
  have h1 : ((x : Int) + i) % n = ((y : Int) + i) % n := by
    have := congrArg (Nat.cast (R := Int)) h
    rw [Int.natCast_emod, Int.natCast_emod, Int.natCast_add, Int.natCast_add] at this
    exact this
  have h3 : ((x : Int) - y) % n = 0 := by
    have h4 := Int.emod_eq_emod_iff_emod_sub_eq_zero.1 h1
    rwa [show (x : Int) + i - (y + i) = x - y by omega] at h4
  obtain ⟨q, hq⟩ := Int.dvd_of_emod_eq_zero h3
  have h5 : q = 0 := by
    rcases Int.lt_trichotomy q 0 with hq' | hq' | hq'
    · have := Int.mul_le_mul_of_nonneg_left (show q ≤ -1 by omega) (show (0 : Int) ≤ n by omega)
      omega
    · exact hq'
    · have := Int.mul_le_mul_of_nonneg_left (show 1 ≤ q by omega) (show (0 : Int) ≤ n by omega)
      omega
  rw [h5] at hq
  omega

theorem turn_onto {n y : Nat} (hy : y < n) (i : Nat) : (((y + (n - i % n)) % n) + i) % n = y := by
  have h1 : i % n < n := Nat.mod_lt _ (by omega)
  rw [Nat.mod_add_mod, Nat.add_mod, ← Nat.add_mod (y + (n - i % n)) i n, Nat.add_assoc]
  have h2 : (n - i % n + i) % n = 0 := by
    rw [← Nat.add_mod_mod, Nat.sub_add_cancel (by omega), Nat.mod_self]
  rw [Nat.add_mod, h2, Nat.add_zero, Nat.mod_mod, Nat.mod_eq_of_lt hy]

/-! ### The symmetries -/

/-- **C105.** The columns of any grid can be put in reverse order. -/
theorem c105_flip_h (s : Grid) : GridSym s s (flipH s.h) Dir.flipH where
  node := fun hn => ⟨by have := hn.1; simp only [flipH]; omega, hn.2⟩
  inj := fun {a b} ha hb he => by
    obtain ⟨a1, a2⟩ := a; obtain ⟨b1, b2⟩ := b
    have h1 : a1 < s.h := ha.1; have h2 : b1 < s.h := hb.1
    simp only [flipH, NodeIx.mk.injEq] at he ⊢
    omega
  onto := fun {n'} hn => by
    obtain ⟨a1, a2⟩ := n'
    have h1 : a1 < s.h := hn.1
    refine ⟨⟨s.h - 1 - a1, a2⟩, ⟨by simp only; omega, hn.2⟩, ?_⟩
    simp only [flipH, NodeIx.mk.injEq, and_true]
    omega
  dir := .swap _ _ _
  step := fun {n} hn d => by
    have h1 : n.horizontal < s.h := hn.1
    rcases d with (_ | _) | (_ | _)
    · show Option.map _ (along _ _ (s.h - 1 - n.horizontal) (-1)) = _
      rw [along_flip _ h1 (.inl rfl), Option.map_map, Grid.step, Option.map_map]; rfl
    · show Option.map _ (along _ _ _ _) = _
      rw [Grid.step, Option.map_map]; rfl
    · show Option.map _ (along _ _ (s.h - 1 - n.horizontal) (-(-1))) = _
      rw [along_flip _ h1 (.inr rfl), Option.map_map, Grid.step, Option.map_map]; rfl
    · show Option.map _ (along _ _ _ _) = _
      rw [Grid.step, Option.map_map]; rfl

/-- **C105.** Rows and columns can be exchanged, the loops and the sides with them. -/
theorem c105_swap (s : Grid) : GridSym s ⟨s.v, s.h, s.loopV, s.loopH⟩ swapHV Dir.swapHV where
  node := fun hn => ⟨hn.2, hn.1⟩
  inj := fun {a b} _ _ he => by
    obtain ⟨a1, a2⟩ := a; obtain ⟨b1, b2⟩ := b
    simp only [swapHV, NodeIx.mk.injEq] at he ⊢
    exact ⟨he.2, he.1⟩
  onto := fun {n'} hn => ⟨swapHV n', ⟨hn.2, hn.1⟩, rfl⟩
  dir := by
    show List.Perm ([_, _] ++ [_, _]) ([_, _] ++ [_, _])
    exact List.perm_append_comm
  step := fun {n} _ d => by
    rcases d with (_ | _) | (_ | _) <;>
    · show Option.map _ (along _ _ _ _) = _
      rw [Grid.step, Option.map_map]; rfl

/-- **C105.** One symmetry after another. -/
theorem c105_trans {s s' s'' : Grid} {f f' : NodeIx → NodeIx} {t t' : Dir → Dir} (h : GridSym s s' f t) (h' : GridSym s' s'' f' t') :
    GridSym s s'' (f' ∘ f) (t' ∘ t) where
  node := fun hn => h'.node (h.node hn)
  inj := fun ha hb he => h.inj ha hb (h'.inj (h.node ha) (h.node hb) he)
  onto := fun hn => by
    obtain ⟨n', h1, rfl⟩ := h'.onto hn
    obtain ⟨n, h2, rfl⟩ := h.onto h1
    exact ⟨n, h2, rfl⟩
  dir := by
    rw [← List.map_map]
    exact (h.dir.map t').trans h'.dir
  step := fun hn d => by
    show Grid.step _ (f' (f _)) (t' (t d)) = _
    rw [h'.step (h.node hn), h.step hn, Option.map_map]

/-- **C105.** The rows of any grid can be put in reverse order. -/
theorem c105_flip_v (s : Grid) : GridSym s s (flipV s.v) Dir.flipV := by
  have h1 := c105_trans (c105_trans (c105_swap s) (c105_flip_h _)) (c105_swap _)
  have e : (Dir.swapHV ∘ Dir.flipH ∘ Dir.swapHV) = Dir.flipV := by
    funext d; rcases d with (_ | _) | (_ | _) <;> rfl
  rw [e] at h1
  exact h1

/-- **C105.** A grid that wraps around horizontally can be turned by any number of columns. -/
theorem c105_turn_h (s : Grid) (hl : s.loopH = true) (i : Nat) : GridSym s s (turnH s.h i) id where
  node := fun hn => ⟨Nat.mod_lt _ (by have := hn.1; omega), hn.2⟩
  inj := fun {a b} ha hb he => by
    obtain ⟨a1, a2⟩ := a; obtain ⟨b1, b2⟩ := b
    simp only [turnH, NodeIx.mk.injEq] at he ⊢
    exact ⟨turn_inj ha.1 hb.1 he.1, he.2⟩
  onto := fun {n'} hn => by
    refine ⟨⟨(n'.horizontal + (s.h - i % s.h)) % s.h, n'.vertical⟩, ⟨Nat.mod_lt _ (by have := hn.1; omega), hn.2⟩, ?_⟩
    obtain ⟨a1, a2⟩ := n'
    simp only [turnH, NodeIx.mk.injEq, and_true]
    exact turn_onto hn.1 i
  dir := by rw [List.map_id]
  step := fun {n} hn d => by
    have h1 : n.horizontal < s.h := hn.1
    rcases d with (_ | _) | (_ | _)
    · show Option.map _ (along _ _ ((n.horizontal + i) % s.h) _) = _
      rw [hl, along_turn h1, Option.map_map, Grid.step, Option.map_map, hl]; rfl
    · show Option.map _ (along _ _ _ _) = _
      rw [Grid.step, Option.map_map]; rfl
    · show Option.map _ (along _ _ ((n.horizontal + i) % s.h) _) = _
      rw [hl, along_turn h1, Option.map_map, Grid.step, Option.map_map, hl]; rfl
    · show Option.map _ (along _ _ _ _) = _
      rw [Grid.step, Option.map_map]; rfl

/-- **C105.** A grid that wraps around vertically can be turned by any number of rows. -/
theorem c105_turn_v (s : Grid) (hl : s.loopV = true) (i : Nat) : GridSym s s (turnV s.v i) id := by
  have h1 := c105_trans (c105_trans (c105_swap s) (c105_turn_h _ hl i)) (c105_swap _)
  have e : (Dir.swapHV ∘ id ∘ Dir.swapHV) = id := by
    funext d; rcases d with (_ | _) | (_ | _) <;> rfl
  rw [e] at h1
  exact h1

/-! ### What they preserve -/
section
variable {N E N' E' : Type}
variable {g : G N E} {k : Cfg} {h v : Nat} {c : Contents NodeIx Axis N E}
variable {g' : G N' E'} {k' : Cfg} {h' v' : Nat} {c' : Contents NodeIx Axis N' E'}
variable {f : NodeIx → NodeIx} {t : Dir → Dir}

theorem GridSym.nbrs {s s' : Grid} (hy : GridSym s s' f t) {n : NodeIx} (hn : s.Node n) :
    (s'.nbrs (f n)).Perm ((s.nbrs n).map f) := by
  have he : (Grid.dirs.map t).filterMap (s'.step (f n)) = (Grid.dirs.filterMap (s.step n)).map f := by
    rw [List.filterMap_map, List.map_filterMap]
    congr 1
    funext d
    exact hy.step hn d
  unfold Grid.nbrs
  rw [← he]
  exact (hy.dir.filterMap _).symm

/-- **C105.** The neighbours of the image of a node are the images of its neighbours (in another order). -/
theorem c105_neighbors (hb : Built k h v g c) (hf : k.Fits h v) (hb' : Built k' h' v' g' c') (hf' : k'.Fits h' v')
    (hy : GridSym (k.grid h v) (k'.grid h' v') f t) {n : NodeIx} (hn : (k.grid h v).Node n) {l l' : List NodeIx}
    (hl : Yields (Nbrs.next k) (g.neighbors n) l) (hl' : Yields (Nbrs.next k') (g'.neighbors (f n)) l') : l'.Perm (l.map f) := by
  rw [hl.unique (c46_neighbors hb hf hn), hl'.unique (c46_neighbors hb' hf' (hy.node hn))]
  exact hy.nbrs hn

/-- **C105.** There is a walk of `n` steps between the images of two nodes iff there is one between the nodes. -/
theorem c105_walks (hb : Built k h v g c) (hf : k.Fits h v) (hb' : Built k' h' v' g' c') (hf' : k'.Fits h' v')
    (hy : GridSym (k.grid h v) (k'.grid h' v') f t) {a b : NodeIx} (ha : (k.grid h v).Node a) (hn : (k.grid h v).Node b) (n : Nat) :
    Walk g' (f a) n (f b) ↔ Walk g a n b := by
  have ek := hb.stores.cfg
  have ek' := hb'.stores.cfg
  constructor
  · have key : ∀ {m b'}, Walk g' (f a) m b' → ∃ b, (k.grid h v).Node b ∧ f b = b' ∧ Walk g a m b := by
      intro m b' hw
      induction hw with
      | nil => exact ⟨a, ha, rfl, .nil⟩
      | step _ hl' hm ih =>
        obtain ⟨x, hx, rfl, hw⟩ := ih
        rw [ek'] at hl'
        have hl := c46_neighbors hb hf hx
        have hp := c105_neighbors hb hf hb' hf' hy hx hl hl'
        obtain ⟨y, hy', rfl⟩ := List.mem_map.1 (hp.mem_iff.1 hm)
        exact ⟨y, (c46_neighbors_nodes _ hx hy').1, rfl, .step hw (by rw [ek]; exact hl) hy'⟩
    intro hw
    obtain ⟨x, hx, he, hw⟩ := key hw
    rwa [← hy.inj hx hn he]
  · intro hw
    induction hw with
    | nil => exact .nil
    | @step m x y l hw hl hm ih =>
      have hx := Walk.node hb hf ha hw
      rw [ek] at hl
      have hl' := c46_neighbors hb' hf' (hy.node hx)
      have hp := c105_neighbors hb hf hb' hf' hy hx hl hl'
      exact .step (ih hx) (by rw [ek']; exact hl') (hp.mem_iff.2 (List.mem_map_of_mem hm))

theorem turn_to {n x y : Nat} (hx : x < n) (hy : y < n) : (x + (n - x + y)) % n = y := by
  rw [show x + (n - x + y) = n + y by omega, Nat.add_mod_left, Nat.mod_eq_of_lt hy]

theorem sym_row (s : Grid) (hl : s.loopH = true ∨ s.h ≤ 2) {x x' : Nat} (y : Nat) (hx : x < s.h) (hx' : x' < s.h) :
    ∃ f t, GridSym s s f t ∧ f ⟨x, y⟩ = ⟨x', y⟩ := by
  by_cases e : x = x'
  · cases e
    exact ⟨_, _, c105_trans (c105_flip_h s) (c105_flip_h s), by simp only [Function.comp, flipH, NodeIx.mk.injEq, and_true]; omega⟩
  · rcases hl with hl | hl
    · exact ⟨_, _, c105_turn_h s hl (s.h - x + x'), by
        simp only [turnH, NodeIx.mk.injEq, and_true]; exact turn_to hx hx'⟩
    · exact ⟨_, _, c105_flip_h s, by simp only [flipH, NodeIx.mk.injEq, and_true]; omega⟩

theorem sym_column (s : Grid) (hl : s.loopV = true ∨ s.v ≤ 2) {y y' : Nat} (x : Nat) (hy : y < s.v) (hy' : y' < s.v) :
    ∃ f t, GridSym s s f t ∧ f ⟨x, y⟩ = ⟨x, y'⟩ := by
  obtain ⟨f, t, h1, h2⟩ := sym_row ⟨s.v, s.h, s.loopV, s.loopH⟩ hl x hy hy'
  refine ⟨_, _, c105_trans (c105_trans (c105_swap s) h1) (c105_swap _), ?_⟩
  show swapHV (f ⟨y, x⟩) = _
  rw [h2]
  rfl

theorem nbrs_end {s : Grid} (hl : s.loopH = false) (h3 : 3 ≤ s.h) (hv : 0 < s.v) :
    (s.nbrs ⟨0, 0⟩).length < (s.nbrs ⟨1, 0⟩).length := by
  have h0 : s.Node ⟨0, 0⟩ := ⟨by show 0 < s.h; omega, hv⟩
  have h1 : s.Node ⟨1, 0⟩ := ⟨by show 1 < s.h; omega, hv⟩
  have p1 : 0 + 1 < s.h := by omega
  have p2 : 1 + 1 < s.h := by omega
  have e : ∀ (x : Nat), (s.step ⟨x, 0⟩ (.backward .vertical)).isSome = (s.step ⟨0, 0⟩ (.backward .vertical)).isSome ∧
      (s.step ⟨x, 0⟩ (.foward .vertical)).isSome = (s.step ⟨0, 0⟩ (.foward .vertical)).isSome := fun x => by
    simp only [Grid.step, Option.isSome_map, and_self]
  obtain ⟨e1, e2⟩ := e 1
  have l0 : s.step ⟨0, 0⟩ (.backward .horizontal) = none := by rw [step_left h0, hl]; rfl
  have r0 : s.step ⟨0, 0⟩ (.foward .horizontal) = some ⟨1, 0⟩ := by rw [step_right h0, if_pos p1]
  have l1 : s.step ⟨1, 0⟩ (.backward .horizontal) = some ⟨0, 0⟩ := by rw [step_left h1]; rfl
  have r1 : s.step ⟨1, 0⟩ (.foward .horizontal) = some ⟨2, 0⟩ := by rw [step_right h1, if_pos p2]
  unfold Grid.nbrs Grid.dirs
  simp only [List.filterMap_cons, List.filterMap_nil, l0, r0, l1, r1]
  cases a0 : s.step ⟨0, 0⟩ (.backward .vertical) <;> cases a1 : s.step ⟨1, 0⟩ (.backward .vertical) <;>
    cases b0 : s.step ⟨0, 0⟩ (.foward .vertical) <;> cases b1 : s.step ⟨1, 0⟩ (.foward .vertical) <;>
    simp_all

theorem not_row {s : Grid} (hl : s.loopH = false) (h3 : 3 ≤ s.h) (hv : 0 < s.v) {f : NodeIx → NodeIx} {t : Dir → Dir}
    (hy : GridSym s s f t) : f ⟨0, 0⟩ ≠ ⟨1, 0⟩ := fun he => by
  have h1 := (hy.nbrs (n := ⟨0, 0⟩) ⟨by show 0 < s.h; omega, hv⟩).length_eq
  have h2 := nbrs_end hl h3 hv
  rw [he, List.length_map] at h1
  omega

/-- **C105.** All nodes look alike, a symmetry taking any of them to any other, exactly when each side wraps around or has at most
two cells. -/
theorem c105_transitive (k : Cfg) {h v : Nat} (h0 : 0 < h) (v0 : 0 < v) :
    (∀ a b, (k.grid h v).Node a → (k.grid h v).Node b → ∃ f t, GridSym (k.grid h v) (k.grid h v) f t ∧ f a = b) ↔
      (k.loopH = true ∨ h ≤ 2) ∧ (k.loopV = true ∨ v ≤ 2) := by
  constructor
  · intro hall
    constructor
    · by_cases h3 : h ≤ 2
      · exact .inr h3
      · cases hl : k.loopH
        · obtain ⟨f, t, h1, h2⟩ := hall ⟨0, 0⟩ ⟨1, 0⟩ ⟨h0, v0⟩ ⟨by show 1 < h; omega, v0⟩
          exact absurd h2 (not_row (s := k.grid h v) hl (by show 3 ≤ h; omega) v0 h1)
        · exact .inl rfl
    · by_cases h3 : v ≤ 2
      · exact .inr h3
      · cases hl : k.loopV
        · obtain ⟨f, t, h1, h2⟩ := hall ⟨0, 0⟩ ⟨0, 1⟩ ⟨h0, v0⟩ ⟨h0, by show 1 < v; omega⟩
          have h4 := c105_trans (c105_trans (c105_swap ⟨v, h, k.loopV, k.loopH⟩) h1) (c105_swap _)
          refine absurd ?_ (not_row (s := ⟨v, h, k.loopV, k.loopH⟩) hl (by show 3 ≤ v; omega) h0 h4)
          show swapHV (f ⟨0, 0⟩) = _
          rw [h2]
          rfl
        · exact .inl rfl
  · rintro ⟨hl, hv⟩ ⟨a1, a2⟩ ⟨b1, b2⟩ ha hb
    obtain ⟨f, t, h1, h2⟩ := sym_row (k.grid h v) hl a2 ha.1 hb.1
    obtain ⟨f', t', h3, h4⟩ := sym_column (k.grid h v) hv b1 ha.2 hb.2
    exact ⟨_, _, c105_trans h1 h3, by simp only [Function.comp]; exact h2 ▸ h4⟩

end

/-! ### Examples -/

/-- The horizontally looped graph of the examples, 3 × 2: turning it by two columns and reversing the columns. -/
example : ∃ (g : G Nat Nat) (c : Contents NodeIx Axis Nat Nat), Built exCfg 3 2 g c ∧
    (∀ {l l'}, Yields (Nbrs.next exCfg) (g.neighbors ⟨0, 1⟩) l → Yields (Nbrs.next exCfg) (g.neighbors ⟨2, 1⟩) l' →
      l'.Perm (l.map (turnH 3 2))) ∧
    (∀ n, Walk g (flipH 3 ⟨0, 0⟩) n (flipH 3 ⟨1, 1⟩) ↔ Walk g ⟨0, 0⟩ n ⟨1, 1⟩) ∧
    (∀ n, Walk g (flipV 2 ⟨0, 0⟩) n (flipV 2 ⟨1, 1⟩) ↔ Walk g ⟨0, 0⟩ n ⟨1, 1⟩) := by
  obtain ⟨g, c, hb, -⟩ := exGraph exCfg (by decide)
  have hf : exCfg.Fits 3 2 := ⟨by decide, by decide⟩
  refine ⟨g, c, hb, fun hl hl' => ?_, fun n => ?_, fun n => ?_⟩
  · exact c105_neighbors hb hf hb hf (c105_turn_h (exCfg.grid 3 2) rfl 2) (n := ⟨0, 1⟩) (by decide) hl hl'
  · exact c105_walks hb hf hb hf (c105_flip_h (exCfg.grid 3 2)) (by decide) (by decide) n
  · exact c105_walks hb hf hb hf (c105_flip_v (exCfg.grid 3 2)) (by decide) (by decide) n

/-- Its rows can be exchanged and its columns turned, so all its nodes look alike; those of the plain 3 × 2 graph do not. -/
example : (∀ a b, (exCfg.grid 3 2).Node a → (exCfg.grid 3 2).Node b →
      ∃ f t, GridSym (exCfg.grid 3 2) (exCfg.grid 3 2) f t ∧ f a = b) ∧
    ¬ ∀ a b, (exPlainR.grid 3 2).Node a → (exPlainR.grid 3 2).Node b →
      ∃ f t, GridSym (exPlainR.grid 3 2) (exPlainR.grid 3 2) f t ∧ f a = b :=
  ⟨(c105_transitive exCfg (by decide) (by decide)).2 (by decide), fun hh =>
    absurd ((c105_transitive exPlainR (by decide) (by decide)).1 hh) (by decide)⟩

/-- A grid that wraps around vertically, turned; its transpose wraps around horizontally. -/
example : GridSym ⟨3, 5, false, true⟩ ⟨3, 5, false, true⟩ (turnV 5 7) id ∧
    GridSym ⟨3, 5, false, true⟩ ⟨5, 3, true, false⟩ (swapHV ∘ turnV 5 7) (Dir.swapHV ∘ id) ∧
    turnV 5 7 ⟨2, 4⟩ = ⟨2, 1⟩ ∧ Grid.step ⟨3, 5, false, true⟩ ⟨2, 4⟩ (.foward .vertical) = some ⟨2, 0⟩ ∧
    Grid.step ⟨3, 5, false, true⟩ ⟨2, 1⟩ (.foward .vertical) = some (turnV 5 7 ⟨2, 0⟩) :=
  ⟨c105_turn_v ⟨3, 5, false, true⟩ rfl 7, c105_trans (c105_turn_v ⟨3, 5, false, true⟩ rfl 7) (c105_swap _), by decide, by decide, by decide⟩

end LG.Sq
