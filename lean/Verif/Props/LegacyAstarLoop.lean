import Verif.Props.LegacyAstar
/- C83: exactly on which `SquareGraph`s `astar` with `distance` as the estimate returns a cheapest path. -/
set_option linter.unusedSectionVars false
namespace LG.Sq
section
variable {N E : Type}
variable {g : G N E} {k : Cfg} {s : Grid} {h v : Nat} {c : Contents NodeIx Axis N E} {cost : Ref E → Nat}

/-- The coordinate along an axis. -/
def alongOf : Axis → NodeIx → Nat
  | .horizontal, x => x.horizontal
  | .vertical, x => x.vertical

/-- The coordinate across an axis. -/
def acrossOf : Axis → NodeIx → Nat
  | .horizontal, x => x.vertical
  | .vertical, x => x.horizontal

/-- The cell of given coordinates along and across an axis. -/
def cellAt : Axis → Nat → Nat → NodeIx
  | .horizontal, i, j => ⟨i, j⟩
  | .vertical, i, j => ⟨j, i⟩

/-- The number of cells along an axis. -/
def sideOf : Axis → Nat → Nat → Nat
  | .horizontal, h, _ => h
  | .vertical, _, v => v

/-- Whether an axis is looped. -/
def loopOf : Axis → Cfg → Bool
  | .horizontal, k => k.loopH
  | .vertical, k => k.loopV

@[simp] theorem alongOf_cellAt {ax : Axis} {i j : Nat} : alongOf ax (cellAt ax i j) = i := by cases ax <;> rfl
@[simp] theorem acrossOf_cellAt {ax : Axis} {i j : Nat} : acrossOf ax (cellAt ax i j) = j := by cases ax <;> rfl

theorem cellAt_node {ax : Axis} {i j : Nat} (hi : i < sideOf ax h v) (hj : j < acrossOf ax ⟨h, v⟩) :
    (k.grid h v).Node (cellAt ax i j) := by
  cases ax
  · exact ⟨hi, hj⟩
  · exact ⟨hj, hi⟩

theorem taxi_along {ax : Axis} {x y : NodeIx} : taxi x y =
    ((alongOf ax x : Int) - alongOf ax y).natAbs + ((acrossOf ax x : Int) - acrossOf ax y).natAbs := by
  cases ax
  · rfl
  · unfold taxi alongOf acrossOf; simp only; omega

/-- A step back along a looped axis. -/
theorem step_back {ax : Axis} {i j : Nat} (hi : i < sideOf ax h v) (hj : j < acrossOf ax ⟨h, v⟩) :
    (k.grid h v).step (cellAt ax i j) (.backward ax) =
      if i ≠ 0 then some (cellAt ax (i - 1) j) else if loopOf ax k then some (cellAt ax (sideOf ax h v - 1) j) else none := by
  have hn := cellAt_node (k := k) hi hj
  cases ax
  · rw [step_left hn]; rfl
  · rw [step_down hn]; rfl

theorem step_forth {ax : Axis} {i j : Nat} (hi : i < sideOf ax h v) (hj : j < acrossOf ax ⟨h, v⟩) :
    (k.grid h v).step (cellAt ax i j) (.foward ax) =
      if i + 1 < sideOf ax h v then some (cellAt ax (i + 1) j) else if loopOf ax k then some (cellAt ax 0 j) else none := by
  have hn := cellAt_node (k := k) hi hj
  cases ax
  · rw [step_right hn]; rfl
  · rw [step_up hn]; rfl

/-- What the steps do to the two coordinates. -/
theorem step_along {ax : Axis} {x t : NodeIx} (hx : (k.grid h v).Node x) {d : Dir} (hd : (k.grid h v).step x d = some t) :
    (alongOf ax t = alongOf ax x ∧ Grid.key x t d ≠ ⟨(Grid.key x t d).node, ax⟩) ∨
    acrossOf ax t = acrossOf ax x ∧
      (alongOf ax t = alongOf ax x + 1 ∧ Grid.key x t d = ⟨x, ax⟩ ∨
       alongOf ax x = alongOf ax t + 1 ∧ Grid.key x t d = ⟨t, ax⟩ ∨
       loopOf ax k = true ∧ alongOf ax x + 1 = sideOf ax h v ∧ alongOf ax t = 0 ∧ Grid.key x t d = ⟨x, ax⟩ ∨
       loopOf ax k = true ∧ alongOf ax t + 1 = sideOf ax h v ∧ alongOf ax x = 0 ∧ Grid.key x t d = ⟨t, ax⟩) := by
  have h1 : x.horizontal < h := hx.1
  have h2 : x.vertical < v := hx.2
  rcases d with (_ | _) | (_ | _)
  · rw [step_right hx] at hd
    cases ax
    · right
      split at hd
      · cases hd; simp [alongOf, acrossOf, Grid.key]
      · split at hd
        · rename_i h3 h4
          cases hd
          have h3' : ¬ x.horizontal + 1 < h := h3
          exact ⟨rfl, .inr (.inr (.inl ⟨h4, by simp only [alongOf, sideOf]; omega, rfl, rfl⟩))⟩
        · cases hd
    · left
      split at hd
      · cases hd; simp [alongOf, Grid.key]
      · split at hd
        · cases hd; simp [alongOf, Grid.key]
        · cases hd
  · rw [step_up hx] at hd
    cases ax
    · left
      split at hd
      · cases hd; simp [alongOf, Grid.key]
      · split at hd
        · cases hd; simp [alongOf, Grid.key]
        · cases hd
    · right
      split at hd
      · cases hd; simp [alongOf, acrossOf, Grid.key]
      · split at hd
        · rename_i h3 h4
          cases hd
          have h3' : ¬ x.vertical + 1 < v := h3
          exact ⟨rfl, .inr (.inr (.inl ⟨h4, by simp only [alongOf, sideOf]; omega, rfl, rfl⟩))⟩
        · cases hd
  · rw [step_left hx] at hd
    cases ax
    · right
      split at hd
      · cases hd
        exact ⟨rfl, .inr (.inl ⟨by simp only [alongOf]; omega, rfl⟩)⟩
      · split at hd
        · rename_i h3 h4
          cases hd
          have h5 : (k.grid h v).h = h := rfl
          refine ⟨rfl, .inr (.inr (.inr ⟨h4, ?_, ?_, rfl⟩))⟩
          · simp only [alongOf, sideOf, h5]; omega
          · simp only [alongOf]; omega
        · cases hd
    · left
      split at hd
      · cases hd; simp [alongOf, Grid.key]
      · split at hd
        · cases hd; simp [alongOf, Grid.key]
        · cases hd
  · rw [step_down hx] at hd
    cases ax
    · left
      split at hd
      · cases hd; simp [alongOf, Grid.key]
      · split at hd
        · cases hd; simp [alongOf, Grid.key]
        · cases hd
    · right
      split at hd
      · cases hd
        exact ⟨rfl, .inr (.inl ⟨by simp only [alongOf]; omega, rfl⟩)⟩
      · split at hd
        · rename_i h3 h4
          cases hd
          have h5 : (k.grid h v).v = v := rfl
          refine ⟨rfl, .inr (.inr (.inr ⟨h4, ?_, ?_, rfl⟩))⟩
          · simp only [alongOf, sideOf, h5]; omega
          · simp only [alongOf]; omega
        · cases hd

/-! ### Loops of at most two cells -/

/-- Without loops of three or more cells a step changes `distance` by at most one. -/
theorem step_short (hl : k.loopH = true → h ≤ 2) (hv : k.loopV = true → v ≤ 2) {x t : NodeIx} (hx : (k.grid h v).Node x)
    {d : Dir} (hd : (k.grid h v).step x d = some t) : taxi x t ≤ 1 := by
  have h1 := step_along (ax := .horizontal) hx hd
  have h2 := step_along (ax := .vertical) hx hd
  simp only [alongOf, acrossOf, loopOf, sideOf] at h1 h2
  unfold taxi
  rcases h1 with h1 | ⟨h1, h3⟩
  · rcases h2 with h2 | ⟨-, h4⟩
    · omega
    · rcases h4 with h4 | h4 | h4 | h4
      · omega
      · omega
      · have := hv h4.1; omega
      · have := hv h4.1; omega
  · rcases h3 with h3 | h3 | h3 | h3
    · omega
    · omega
    · have := hl h3.1; omega
    · have := hl h3.1; omega

theorem taxi_short (hb : Built k h v g c) (hf : k.Fits h v) (hl : k.loopH = true → h ≤ 2) (hv : k.loopV = true → v ≤ 2)
    {q : Nat} (hq : ∀ x r t, (k.grid h v).Node x → EdgeTo g x r t → q ≤ cost r) {a b : NodeIx} {n : Nat}
    (ha : (k.grid h v).Node a) (hw : CostWalk g cost a b n) : q * taxi a b ≤ n := by
  induction hw with
  | nil => simp [taxi]
  | @step b t n r h1 he ih =>
    have hbn := h1.node hb hf ha
    obtain ⟨h2, rfl⟩ := (edgeTo_iff hb hf hbn).1 he
    obtain ⟨-, d, h3⟩ := outRefs_target hb hf hbn h2
    have h4 := step_short hl hv hbn h3
    have h5 : taxi a (tg k r) ≤ taxi a b + 1 := Nat.le_trans (c50_metric a b (tg k r)).2.2 (by omega)
    have h6 := Nat.mul_le_mul_left q h5
    have h7 := hq b r _ hbn he
    rw [Nat.mul_add, Nat.mul_one] at h6
    omega

/-- **C83**, the part that holds: on a graph whose loops, if any, have at most two cells, `astar` with `q` times `distance` to the
goal as the estimate, `q` being at most the cost of any edge, returns a cheapest path. Missing: longer loops, for which it is false
(`c83_toll_wrong`). -/
theorem c83_distance_partial (hb : Built k h v g c) (hf : k.Fits h v) (hl : k.loopH = true → h ≤ 2) (hv : k.loopV = true → v ≤ 2)
    {a t : NodeIx} (ha : (k.grid h v).Node a) (ht : (k.grid h v).Node t) (cost : Ref E → Nat) {q : Nat}
    (hq : ∀ x r y, (k.grid h v).Node x → EdgeTo g x r y → q ≤ cost r) (d : NodeIx → Nat)
    (hd : ∀ x, (k.grid h v).Node x → x.distance k t.horizontal t.vertical = .ok (d x)) {o : Option (Nat × List NodeIx)}
    (ho : AstOutcome (sqEdges g cost) (fun x => q * d x) (fun x => decide (x = t)) a o) :
    ∃ n p, o = some (n, p) ∧ CostWalk g cost a t n ∧ (∀ m, CostWalk g cost a t m → n ≤ m) ∧
      p.head? = some a ∧ p.getLast? = some t ∧ PathOf (Link g cost) p n := by
  obtain ⟨h1, h2⟩ := (c83_astar hb hf ha cost _ _).2.2 o ho
  match o, ho, h1, h2 with
  | none, ho, h1, _ =>
    have := h1.1 rfl t ht
    simp at this
  | some (n, p), ho, _, h2 =>
    obtain ⟨t', m, h3, h4, h5, h6, -⟩ := h2 n p rfl
    have e : t' = t := of_decide_eq_true h3
    subst e
    obtain ⟨h7, h8⟩ := c83_least hb hf ha cost _ _ (fun x u n hx hu hxw => by
      have e : u = t' := of_decide_eq_true hu
      subst e
      have h9 := taxi_short hb hf hl hv hq hx hxw
      have h10 := hd x hx
      rw [c50_nodes hb hf hx ht] at h10
      injection h10 with h10
      show q * d x ≤ n
      rw [← h10]
      exact h9) ho
    exact ⟨n, p, rfl, h4, fun m hm => h8 t' m (by simp) hm, h5, h6, h7⟩

/-! ### A toll -/

/-- All edges cost two, but the one between the third and the second cell from the end of the first line costs five. -/
def toll (ax : Axis) (n : Nat) (r : Ref E) : Nat := if r.id = ⟨cellAt ax (n - 3) 0, ax⟩ then 5 else 2

theorem link_key (hb : Built k h v g c) (hf : k.Fits h v) {x t : NodeIx} (hx : (k.grid h v).Node x) {w : Nat} :
    Link g cost x t w ↔ ∃ d e, (k.grid h v).step x d = some t ∧ w = cost ⟨Grid.key x t d, e, d.isFwd, k.sizeInfo h v⟩ ∧
      c.edge (Grid.key x t d).node (Grid.key x t d).axis = some e := by
  have htg : ∀ {d e}, (k.grid h v).step x d = some t →
      (⟨Grid.key x t d, e, d.isFwd, k.sizeInfo h v⟩ : Ref E).target k = .ok t := fun {d e} hd => by
    have := view_eq (hb.sizes hf) hx hd e
    unfold Ref.view at this
    cases h1 : (⟨Grid.key x t d, e, d.isFwd, k.sizeInfo (k.grid h v).h (k.grid h v).v⟩ : Ref E).source k with
    | error => rw [h1] at this; cases this
    | ok =>
      cases h2 : (⟨Grid.key x t d, e, d.isFwd, k.sizeInfo (k.grid h v).h (k.grid h v).v⟩ : Ref E).target k with
      | error => rw [h1, h2] at this; cases this
      | ok =>
        rw [h1, h2] at this
        injection this with this
        exact h2.trans (congrArg Except.ok (congrArg View.target this))
  constructor
  · rintro ⟨r, h1, rfl⟩
    obtain ⟨h2, rfl⟩ := (edgeTo_iff hb hf hx).1 h1
    obtain ⟨d, -, hd⟩ := List.mem_filterMap.1 h2
    cases hst : (k.grid h v).step x d with
    | none => rw [refOf_none hst] at hd; cases hd
    | some t =>
      obtain ⟨e, h3, h4⟩ := refOf_some hb.stores hx hst
      rw [h4] at hd
      cases hd
      have := view_eq (hb.sizes hf) hx hst e
      have h5 : tg k (⟨Grid.key x t d, e, d.isFwd, k.sizeInfo (k.grid h v).h (k.grid h v).v⟩ : Ref E) = t := by
        have h6 := (outRefs_target hb hf hx h2).1
        unfold Ref.view at this
        rw [h6] at this
        simp only [bind, Except.bind] at this
        split at this
        · cases this
        · injection this with this
          exact congrArg View.target this
      rw [h5]
      exact ⟨d, e, hst, rfl, h3⟩
  · rintro ⟨d, e, hst, rfl, he⟩
    obtain ⟨e', h3, h4⟩ := refOf_some hb.stores hx hst
    rw [h3] at he
    cases he
    refine ⟨_, (edgeTo_iff hb hf hx).2 ⟨List.mem_filterMap.2 ⟨d, dirs_all d, h4⟩, ?_⟩, rfl⟩
    unfold tg
    have h5 : (⟨Grid.key x t d, e, d.isFwd, k.sizeInfo (k.grid h v).h (k.grid h v).v⟩ : Ref E).target k = .ok t := htg hst
    rw [h5]

theorem link_of_step (hb : Built k h v g c) (hf : k.Fits h v) {x t : NodeIx} (hx : (k.grid h v).Node x) {d : Dir}
    (hd : (k.grid h v).step x d = some t) {ax : Axis} {n w : Nat}
    (hw : w = if Grid.key x t d = ⟨cellAt ax (n - 3) 0, ax⟩ then 5 else 2) : Link g (toll ax n) x t w := by
  obtain ⟨e, h3, -⟩ := refOf_some hb.stores hx hd
  exact (link_key hb hf hx).2 ⟨d, e, hd, hw, h3⟩

theorem link_toll (hb : Built k h v g c) (hf : k.Fits h v) {x t : NodeIx} (hx : (k.grid h v).Node x) {ax : Axis} {n w : Nat}
    (hl : Link g (toll ax n) x t w) :
    ∃ d, (k.grid h v).step x d = some t ∧ w = if Grid.key x t d = ⟨cellAt ax (n - 3) 0, ax⟩ then 5 else 2 := by
  obtain ⟨d, e, h1, h2, -⟩ := (link_key hb hf hx).1 hl
  exact ⟨d, h1, h2⟩

/-- What a way from the last but one cell of the first line costs at least, if it does not leave a last cell of a line. -/
def tollLow (ax : Axis) (n : Nat) (x : NodeIx) : Nat :=
  if alongOf ax x + 1 = n then 2
  else if alongOf ax x + 2 = n then (if acrossOf ax x = 0 then 0 else 2)
  else 2 * (n - 2 - alongOf ax x) + (if acrossOf ax x = 0 then 3 else 2)

theorem cellAt_self {ax : Axis} {x : NodeIx} : cellAt ax (alongOf ax x) (acrossOf ax x) = x := by cases ax <;> rfl

theorem toll_step {ax : Axis} {x t : NodeIx} (hx : (k.grid h v).Node x) {d : Dir} (hd : (k.grid h v).step x d = some t)
    (h3 : 3 ≤ sideOf ax h v) (hlast : alongOf ax x + 1 ≠ sideOf ax h v) :
    tollLow ax (sideOf ax h v) t ≤ tollLow ax (sideOf ax h v) x +
      if Grid.key x t d = ⟨cellAt ax (sideOf ax h v - 3) 0, ax⟩ then 5 else 2 := by
  have hin : alongOf ax x < sideOf ax h v := by
    have h1 : x.horizontal < h := hx.1
    have h2 : x.vertical < v := hx.2
    cases ax <;> assumption
  unfold tollLow
  rcases step_along (ax := ax) hx hd with ⟨h1, h2⟩ | ⟨h1, h2 | h2 | h2 | h2⟩
  · rw [if_neg (c := Grid.key x t d = _) (fun e => h2 (by rw [e])), h1]
    split
    · omega
    · split <;> split <;> split <;> omega
  · rw [h1]
    split <;> rename_i e
    · split <;> split <;> (try split) <;> omega
    · split <;> split <;> (try split) <;> (try split) <;> omega
  · by_cases e : Grid.key x t d = ⟨cellAt ax (sideOf ax h v - 3) 0, ax⟩
    · rw [if_pos (c := Grid.key x t d = _) e, h1]
      split <;> split <;> (try split) <;> (try split) <;> omega
    · rw [if_neg (c := Grid.key x t d = _) e, h1]
      have h4 : ¬ (alongOf ax t = sideOf ax h v - 3 ∧ acrossOf ax t = 0) := fun h4 => e (by
        rw [h2.2, ← h4.1, ← h4.2, cellAt_self])
      rw [h1] at h4
      by_cases h5 : acrossOf ax x = 0
      · have h6 : alongOf ax t ≠ sideOf ax h v - 3 := fun e => h4 ⟨e, h5⟩
        rw [if_pos h5]
        split <;> split <;> (try split) <;> (try split) <;> omega
      · rw [if_neg h5]
        split <;> split <;> (try split) <;> (try split) <;> omega
  · exact absurd h2.2.1 hlast
  · rw [if_pos (c := alongOf ax t + 1 = _) h2.2.1]
    split <;> split <;> (try split) <;> (try split) <;> omega

/-! ### What a run returns when the estimate hides the shorter way -/

/-- If every reachable heap has an entry of at most `T`, and `L` cannot be undercut by expanding nodes of estimate at most `T`, what
is returned costs at least `L` and at most `T`. -/
theorem ast_between {V : Type} [DecidableEq V] {ex : V → List (V × Nat) → Prop} {P : V → Prop} {nodes : List V} {est : V → Nat}
    {goal : V → Bool} {a : V} (G : AstGraph ex P nodes) (ha : P a) {T : Nat} {L : V → Nat}
    (hT : ∀ st, AInv ex P est goal a (fun _ => True) st → ∃ f y, (f, y) ∈ st.heap ∧ f ≤ T) (h0 : L a = 0)
    (hL : ∀ x t w i, P x → Leads ex x t w → i + est x ≤ T → L x ≤ i → L t ≤ i + w) {o : Option (Nat × List V)}
    (ho : AstOutcome ex est goal a o) : ∃ n p t, o = some (n, p) ∧ goal t = true ∧ L t ≤ n ∧ n + est t ≤ T := by
  obtain ⟨st, hs, hr⟩ := ho
  have hinv : ∀ {st}, AstSteps ex est goal (astNew est a) st → AInv ex P est goal a (fun _ => True) st :=
    fun hs => (AInv.new ha).steps G hs
  have small : ∀ {st f x rest}, AstSteps ex est goal (astNew est a) st → Pop st.heap (f, x) rest → f ≤ T :=
    fun {st f x rest} hs hp => by
      obtain ⟨f', y, h3, h4⟩ := hT st (hinv hs)
      have := hp.2 _ h3
      simp only at this
      omega
  have low : ∀ {st}, AstSteps ex est goal (astNew est a) st → ∀ x i, st.scores x = some i → L x ≤ i := by
    intro st hs
    generalize hst0 : astNew est a = st0 at hs
    induction hs with
    | nil =>
      subst hst0
      intro x i hi
      change (if x = _ then some 0 else none) = some i at hi
      split at hi
      · rename_i e; subst e; omega
      · cases hi
    | @step st1 st2 hs h3 ih =>
      subst hst0
      cases h3 with
      | skip => exact ih
      | @next f n x rest l hp _ _ hx hex =>
        intro y i hi
        rcases astRelax_scores _ _ hi with h4 | ⟨w, h4, rfl⟩
        · exact ih y i h4
        · obtain ⟨n', h5, h6⟩ := (hinv hs).entry f x hp.self
          rw [hx] at h5; cases h5
          exact hL x y w n ((hinv hs).node x n hx) ⟨l, hex, h4⟩ (Nat.le_trans h6 (small hs hp)) (ih x n hx)
  cases hr with
  | none he =>
    obtain ⟨f, y, h1, -⟩ := hT st (hinv hs)
    rw [he] at h1
    cases h1
  | @some f n x rest p hp hg hn hpath =>
    obtain ⟨n', h5, h6⟩ := (hinv hs).entry f x hp.self
    rw [hn] at h5; cases h5
    exact ⟨n, p, x, rfl, hg, low hs x n hn, Nat.le_trans h6 (small hs hp)⟩

theorem key_cross {ax : Axis} {x : NodeIx} {i : Nat} (hi : alongOf ax x ≠ i) {j : Nat} : (⟨x, ax⟩ : EdgeIx) ≠ ⟨cellAt ax i j, ax⟩ := by
  intro e
  injection e with e
  rw [e] at hi
  simp at hi

/-- While the way back along the first line has not been walked to its end, there is a heap entry of at most its cost. -/
theorem toll_open (hb : Built k h v g c) (hf : k.Fits h v) {ax : Axis} (h3 : 3 ≤ sideOf ax h v) (hw : 0 < acrossOf ax ⟨h, v⟩)
    {goal : NodeIx → Bool} {d : NodeIx → Nat} {a : NodeIx} {st : Ast NodeIx} (hgoal : goal (cellAt ax 0 0) = true)
    (hd : ∀ x, (k.grid h v).Node x → d x = taxi x (cellAt ax 0 0))
    (hv : AInv (sqEdges g (toll ax (sideOf ax h v))) (k.grid h v).Node (fun x => 2 * d x) goal a (fun _ => True) st) :
    ∀ (l : Nat) {s : Nat}, l ≤ sideOf ax h v - 3 → st.scores (cellAt ax l 0) = some s → ∃ f y, (f, y) ∈ st.heap ∧ f ≤ s + 2 * l := by
  have hest : ∀ {l}, l < sideOf ax h v → d (cellAt ax l 0) = l := fun {l} hl => by
    rw [hd _ (cellAt_node hl hw), taxi_along (ax := ax)]
    simp
  intro l
  induction l with
  | zero =>
    intro s _ hs
    rcases hv.opened _ s trivial hs with h1 | h1
    · refine ⟨_, _, h1, ?_⟩
      simp only [hest (show 0 < _ by omega)]
      omega
    · exact absurd (hgoal.symm.trans h1.1) (by decide)
  | succ l ih =>
    intro s hl hs
    have hx := hv.node _ _ hs
    rcases hv.opened _ s trivial hs with h1 | h1
    · refine ⟨_, _, h1, ?_⟩
      simp only [hest (show l + 1 < _ by omega)]
      omega
    · have hst : (k.grid h v).step (cellAt ax (l + 1) 0) (.backward ax) = some (cellAt ax l 0) := by
        rw [step_back (by omega) hw, if_pos (by omega)]; rfl
      have hne : Grid.key (cellAt ax (l + 1) 0) (cellAt ax l 0) (.backward ax) ≠ ⟨cellAt ax (sideOf ax h v - 3) 0, ax⟩ :=
        key_cross (by simp; omega)
      obtain ⟨i, h2, h4⟩ := h1.2 _ 2 ((leads_iff hb hf hx).2 (link_of_step hb hf hx hst (by rw [if_neg hne])))
      obtain ⟨f, y, h5, h6⟩ := ih (by omega) h2
      exact ⟨f, y, h5, by omega⟩

/-- **C83** fails around every loop of three or more cells, along either axis, for some costs. All edges cost two, but one costs
five. Every run of `astar` from the last but one cell of the first line to its first cell, with twice `distance` as the estimate,
returns the way back along the line, of cost `2 n - 1`, although the way across the border costs 4. -/
theorem c83_toll_wrong (hb : Built k h v g c) (hf : k.Fits h v) {ax : Axis} (hl : loopOf ax k = true) (h3 : 3 ≤ sideOf ax h v)
    (hw : 0 < acrossOf ax ⟨h, v⟩) (d : NodeIx → Nat)
    (hd : ∀ x, (k.grid h v).Node x → x.distance k 0 0 = .ok (d x)) :
    (∀ x r t, (k.grid h v).Node x → EdgeTo g x r t → 2 ≤ toll ax (sideOf ax h v) r) ∧
    CostWalk g (toll ax (sideOf ax h v)) (cellAt ax (sideOf ax h v - 2) 0) (cellAt ax 0 0) 4 ∧ 4 < 2 * sideOf ax h v - 1 ∧
    ∀ o, AstOutcome (sqEdges g (toll ax (sideOf ax h v))) (fun x => 2 * d x) (fun x => decide (x = cellAt ax 0 0))
      (cellAt ax (sideOf ax h v - 2) 0) o → ∃ p, o = some (2 * sideOf ax h v - 1, p) := by
  have hnode : ∀ {i}, i < sideOf ax h v → (k.grid h v).Node (cellAt ax i 0) := fun hi => cellAt_node hi hw
  have ha := hnode (show sideOf ax h v - 2 < sideOf ax h v by omega)
  have ht := hnode (show 0 < sideOf ax h v by omega)
  have hd' : ∀ x, (k.grid h v).Node x → d x = taxi x (cellAt ax 0 0) := fun x hx => by
    have h1 := hd x hx
    have h2 := c50_nodes hb hf hx ht
    have h0 : (cellAt ax 0 0) = ⟨0, 0⟩ := by cases ax <;> rfl
    rw [h0] at h2
    rw [h2] at h1
    injection h1 with h1
    rw [h0]
    exact h1.symm
  refine ⟨fun x r t _ _ => by unfold toll; split <;> omega, ?_, by omega, fun o ho => ?_⟩
  · rw [← aWalk_iff hb hf ha]
    have l1 : Link g (toll ax (sideOf ax h v)) (cellAt ax (sideOf ax h v - 2) 0) (cellAt ax (sideOf ax h v - 1) 0) 2 :=
      link_of_step hb hf ha (d := .foward ax)
        (by rw [step_forth (by omega) hw, if_pos (by omega)]; congr 2; omega)
        (by rw [if_neg]; exact key_cross (by simp; omega))
    have l2 : Link g (toll ax (sideOf ax h v)) (cellAt ax (sideOf ax h v - 1) 0) (cellAt ax 0 0) 2 :=
      link_of_step hb hf (hnode (by omega)) (d := .foward ax)
        (by rw [step_forth (by omega) hw, if_neg (by omega), if_pos hl])
        (by rw [if_neg]; exact key_cross (by simp; omega))
    exact .cons ((leads_iff hb hf ha).2 l1) (.cons ((leads_iff hb hf (hnode (by omega))).2 l2) .nil)
  · obtain ⟨n, p, t, rfl, h1, h2, h4⟩ := ast_between (sqGraph hb hf _) ha (T := 2 * sideOf ax h v - 1)
      (L := tollLow ax (sideOf ax h v)) (fun st hv => by
        rcases hv.opened _ 0 trivial hv.start with h1 | h1
        · refine ⟨_, _, h1, ?_⟩
          simp only [hd' _ ha, taxi_along (ax := ax), alongOf_cellAt, acrossOf_cellAt]
          omega
        · have hst : (k.grid h v).step (cellAt ax (sideOf ax h v - 2) 0) (.backward ax) = some (cellAt ax (sideOf ax h v - 3) 0) := by
            rw [step_back (by omega) hw, if_pos (by omega)]; rfl
          obtain ⟨i, h2, h4⟩ := h1.2 _ 5 ((leads_iff hb hf ha).2 (link_of_step hb hf ha hst (by rw [if_pos]; rfl)))
          obtain ⟨f, y, h5, h6⟩ := toll_open hb hf h3 hw (by simp) hd' hv _ (Nat.le_refl _) h2
          exact ⟨f, y, h5, by omega⟩)
      (by unfold tollLow; rw [alongOf_cellAt, acrossOf_cellAt, if_neg (by omega), if_pos (by omega), if_pos rfl])
      (fun x t w i hx hlk hi hlow => by
        have hlast : alongOf ax x + 1 ≠ sideOf ax h v := fun e => by
          simp only [hd' x hx, taxi_along (ax := ax), alongOf_cellAt, acrossOf_cellAt] at hi
          unfold tollLow at hlow
          rw [if_pos e] at hlow
          omega
        obtain ⟨dir, h5, rfl⟩ := link_toll hb hf hx ((leads_iff hb hf hx).1 hlk)
        have := toll_step hx h5 h3 hlast
        omega) ho
    have e : t = cellAt ax 0 0 := of_decide_eq_true h1
    subst e
    unfold tollLow at h2
    simp only [alongOf_cellAt, acrossOf_cellAt] at h2
    rw [if_neg (by omega), if_neg (by omega), if_pos trivial] at h2
    exact ⟨p, by congr 2; omega⟩

/-- **C83**, exactly: `astar` with `q` times `distance` to the goal as the estimate, `q` being at most the cost of any edge, returns
a cheapest way whatever the costs, the start and the goal, exactly on the graphs whose loops have at most two cells. -/
theorem c83_distance_iff (hb : Built k h v g c) (hf : k.Fits h v) (h0 : 0 < h) (v0 : 0 < v) :
    (∀ (cost : Ref E → Nat) (q : Nat) (a t : NodeIx) (d : NodeIx → Nat), (k.grid h v).Node a → (k.grid h v).Node t →
      (∀ x r y, (k.grid h v).Node x → EdgeTo g x r y → q ≤ cost r) →
      (∀ x, (k.grid h v).Node x → x.distance k t.horizontal t.vertical = .ok (d x)) →
      ∀ o, AstOutcome (sqEdges g cost) (fun x => q * d x) (fun x => decide (x = t)) a o →
        ∃ n p, o = some (n, p) ∧ ∀ m, CostWalk g cost a t m → n ≤ m) ↔
    (k.loopH = true → h ≤ 2) ∧ (k.loopV = true → v ≤ 2) := by
  constructor
  · intro hall
    have key : ∀ ax, loopOf ax k = true → 0 < acrossOf ax ⟨h, v⟩ → sideOf ax h v ≤ 2 := fun ax hl hw => by
      apply Nat.le_of_not_lt
      intro h3
      have h00 : cellAt ax 0 0 = ⟨0, 0⟩ := by cases ax <;> rfl
      have ht : (k.grid h v).Node (cellAt ax 0 0) := cellAt_node (by omega) hw
      have ha : (k.grid h v).Node (cellAt ax (sideOf ax h v - 2) 0) := cellAt_node (by omega) hw
      have hd : ∀ x, (k.grid h v).Node x →
          x.distance k (cellAt ax 0 0).horizontal (cellAt ax 0 0).vertical = .ok (taxi x (cellAt ax 0 0)) :=
        fun x hx => c50_nodes hb hf hx ht
      obtain ⟨h1, h2, h4, h5⟩ := c83_toll_wrong hb hf hl h3 hw (fun x => taxi x (cellAt ax 0 0)) (by
        intro x hx
        have := hd x hx
        rw [h00] at this ⊢
        exact this)
      obtain ⟨st, o, h6, h7⟩ := (c83_astar hb hf ha (toll ax (sideOf ax h v)) (fun x => 2 * taxi x (cellAt ax 0 0))
        (fun x => decide (x = cellAt ax 0 0))).2.1 _ .nil
      obtain ⟨n, p, rfl, h8⟩ := hall _ 2 _ _ _ ha ht h1 hd o ⟨st, h6, h7⟩
      obtain ⟨p', h9⟩ := h5 _ ⟨st, h6, h7⟩
      have := h8 4 h2
      injection h9 with h9
      injection h9 with h9
      omega
    exact ⟨fun hl => key .horizontal hl v0, fun hl => key .vertical hl h0⟩
  · rintro ⟨hl, hv⟩ cost q a t d ha ht hq hd o ho
    obtain ⟨n, p, h1, -, h2, -⟩ := c83_distance_partial hb hf hl hv ha ht cost hq d hd ho
    exact ⟨n, p, h1, h2⟩

/-! ### All edges costing one -/

theorem line_open (hb : Built k h v g c) (hf : k.Fits h v) {ax : Axis} {j : Nat} (h3 : 3 ≤ sideOf ax h v) (hw : j < acrossOf ax ⟨h, v⟩)
    {goal : NodeIx → Bool} {d : NodeIx → Nat} {a : NodeIx} {st : Ast NodeIx} (hgoal : goal (cellAt ax (sideOf ax h v - 1) j) = true)
    (hd : ∀ x, (k.grid h v).Node x → d x = taxi x (cellAt ax (sideOf ax h v - 1) j))
    (hv : AInv (sqEdges g fun _ => 1) (k.grid h v).Node d goal a (fun _ => True) st) :
    ∀ (l : Nat) {s : Nat}, l ≤ sideOf ax h v - 2 → st.scores (cellAt ax (sideOf ax h v - 1 - l) j) = some s →
      ∃ f y, (f, y) ∈ st.heap ∧ f ≤ s + l := by
  have hest : ∀ {l}, l < sideOf ax h v → d (cellAt ax (sideOf ax h v - 1 - l) j) = l := fun {l} hl => by
    rw [hd _ (cellAt_node (by omega) hw), taxi_along (ax := ax)]
    simp only [alongOf_cellAt, acrossOf_cellAt]
    omega
  intro l
  induction l with
  | zero =>
    intro s _ hs
    rcases hv.opened _ s trivial hs with h1 | h1
    · refine ⟨_, _, h1, ?_⟩
      rw [hest (by omega)]
      omega
    · exact absurd (hgoal.symm.trans h1.1) (by decide)
  | succ l ih =>
    intro s hl hs
    have hx := hv.node _ _ hs
    rcases hv.opened _ s trivial hs with h1 | h1
    · refine ⟨_, _, h1, ?_⟩
      rw [hest (by omega)]
      omega
    · have hst : (k.grid h v).step (cellAt ax (sideOf ax h v - 1 - (l + 1)) j) (.foward ax) =
          some (cellAt ax (sideOf ax h v - 1 - l) j) := by
        rw [step_forth (by omega) hw, if_pos (by omega)]
        congr 2; omega
      obtain ⟨i, h2, h4⟩ := h1.2 _ 1 ((leads_iff hb hf hx).2 (unit_link hb hf hx hst))
      obtain ⟨f, y, h5, h6⟩ := ih (by omega) h2
      exact ⟨f, y, h5, by omega⟩

/-- **C83** fails around a loop of five or more cells even if all edges cost one: every run of `astar` from the second cell of a
line to its last, with `distance` as the estimate, returns the way along the line, of cost `n - 2`, although the way across the
border costs 2. -/
theorem c83_looped_wrong (hb : Built k h v g c) (hf : k.Fits h v) {ax : Axis} (hl : loopOf ax k = true) (h5 : 5 ≤ sideOf ax h v)
    {j : Nat} (hj : j < acrossOf ax ⟨h, v⟩) (d : NodeIx → Nat)
    (hd : ∀ x, (k.grid h v).Node x → x.distance k (cellAt ax (sideOf ax h v - 1) j).horizontal
      (cellAt ax (sideOf ax h v - 1) j).vertical = .ok (d x)) :
    CostWalk g (fun _ => 1) (cellAt ax 1 j) (cellAt ax (sideOf ax h v - 1) j) 2 ∧ 2 < sideOf ax h v - 2 ∧
    ∀ o, AstOutcome (sqEdges g fun _ => 1) d (fun x => decide (x = cellAt ax (sideOf ax h v - 1) j)) (cellAt ax 1 j) o →
      ∃ p, o = some (sideOf ax h v - 2, p) := by
  have hnode : ∀ {i}, i < sideOf ax h v → (k.grid h v).Node (cellAt ax i j) := fun hi => cellAt_node hi hj
  have ha := hnode (show 1 < sideOf ax h v by omega)
  have ht := hnode (show sideOf ax h v - 1 < sideOf ax h v by omega)
  have hd' : ∀ x, (k.grid h v).Node x → d x = taxi x (cellAt ax (sideOf ax h v - 1) j) := fun x hx => by
    have h1 := hd x hx
    rw [c50_nodes hb hf hx ht] at h1
    injection h1 with h1
    exact h1.symm
  refine ⟨?_, by omega, fun o ho => ?_⟩
  · rw [← aWalk_iff hb hf ha]
    have l1 : Link g (fun _ => 1) (cellAt ax 1 j) (cellAt ax 0 j) 1 := unit_link hb hf ha (d := .backward ax) (by
      rw [step_back (by omega) hj, if_pos (by simp)])
    have l2 : Link g (fun _ => 1) (cellAt ax 0 j) (cellAt ax (sideOf ax h v - 1) j) 1 :=
      unit_link hb hf (hnode (by omega)) (d := .backward ax) (by
        rw [step_back (by omega) hj, if_neg (by simp), if_pos hl])
    exact .cons ((leads_iff hb hf ha).2 l1) (.cons ((leads_iff hb hf (hnode (by omega))).2 l2) .nil)
  · obtain ⟨n, p, t, rfl, h1, h2, h4⟩ := ast_between (sqGraph hb hf _) ha (T := sideOf ax h v - 2)
      (L := fun x => ((alongOf ax x : Int) - 1).natAbs) (fun st hv => by
        obtain ⟨f, y, h1, h2⟩ := line_open hb hf (by omega) hj (by simp) hd' hv (sideOf ax h v - 2) (Nat.le_refl _) (s := 0) (by
          rw [show sideOf ax h v - 1 - (sideOf ax h v - 2) = 1 by omega]; exact hv.start)
        exact ⟨f, y, h1, by omega⟩)
      (by simp)
      (fun x t w i hx hlk hi hlow => by
        have h0 : alongOf ax x ≠ 0 := fun e => by
          simp only [hd' x hx, taxi_along (ax := ax), alongOf_cellAt, acrossOf_cellAt] at hi
          omega
        have hlk' := (leads_iff hb hf hx).1 hlk
        obtain ⟨dir, h6⟩ := (link_step hb hf hx).1 ⟨w, hlk'⟩
        have hw : 1 = w := by obtain ⟨_, _, e⟩ := hlk'; exact e
        rcases step_along (ax := ax) hx h6 with ⟨h7, -⟩ | ⟨-, h7 | h7 | h7 | h7⟩ <;> omega) ho
    have e : t = cellAt ax (sideOf ax h v - 1) j := of_decide_eq_true h1
    subst e
    simp only [alongOf_cellAt] at h2
    exact ⟨p, by congr 2; omega⟩
end

/-- Example: in the 6 × 1 graph looped horizontally, `astar` from (1,0) to (5,0) returns 4 although there is a walk of cost 2. -/
example : ∃ (g : G Nat Nat) (d : NodeIx → Nat) (p : List NodeIx), CostWalk g (fun _ => 1) ⟨1, 0⟩ ⟨5, 0⟩ 2 ∧
    AstOutcome (sqEdges g fun _ => 1) d (fun x => decide (x = ⟨5, 0⟩)) ⟨1, 0⟩ (some (4, p)) ∧
    ∀ x : NodeIx, x.horizontal < 6 → x.vertical < 1 → x.distance exCfg 5 0 = .ok (d x) := by
  obtain ⟨g, h1, _⟩ := c43_new_with (N := Nat) (E := Nat) exCfg (h := 6) (v := 1) (by decide) (by decide) (by decide)
    (fun u _ _ => (0, u)) (fun u _ _ _ => (0, u)) ()
  have hb := Built.new (k := exCfg) (h := 6) (v := 1) h1 (by decide)
  have hf : exCfg.Fits 6 1 := ⟨by decide, by decide⟩
  have ha : (exCfg.grid 6 1).Node ⟨1, 0⟩ := ⟨by decide, by decide⟩
  have ht : (exCfg.grid 6 1).Node ⟨5, 0⟩ := ⟨by decide, by decide⟩
  have hd : ∀ x, (exCfg.grid 6 1).Node x → x.distance exCfg 5 0 = .ok (taxi x ⟨5, 0⟩) := fun x hx => c50_nodes hb hf hx ht
  obtain ⟨h2, -, h3⟩ := c83_looped_wrong hb hf (ax := .horizontal) rfl (by decide) (j := 0) (by decide) _ hd
  obtain ⟨st, o, h4, h5⟩ := (c83_astar hb hf ha (fun _ => 1) (fun x => taxi x ⟨5, 0⟩) (fun x => decide (x = ⟨5, 0⟩))).2.1 _ .nil
  obtain ⟨p, rfl⟩ := h3 o ⟨st, h4, h5⟩
  exact ⟨g, _, p, h2, ⟨st, h4, h5⟩, fun x h6 h7 => hd x ⟨h6, h7⟩⟩

/-- Example: in the 3 × 2 graph looped horizontally the toll makes `astar` return 5 instead of 4. -/
example : ∃ (g : G Nat Nat) (d : NodeIx → Nat) (p : List NodeIx), CostWalk g (toll .horizontal 3) ⟨1, 0⟩ ⟨0, 0⟩ 4 ∧
    AstOutcome (sqEdges g (toll .horizontal 3)) (fun x => 2 * d x) (fun x => decide (x = ⟨0, 0⟩)) ⟨1, 0⟩ (some (5, p)) := by
  obtain ⟨g, c, hb, _⟩ := exGraph exCfg (by decide)
  have hf : exCfg.Fits 3 2 := ⟨by decide, by decide⟩
  have ha : (exCfg.grid 3 2).Node ⟨1, 0⟩ := ⟨by decide, by decide⟩
  have ht : (exCfg.grid 3 2).Node ⟨0, 0⟩ := ⟨by decide, by decide⟩
  have hd : ∀ x, (exCfg.grid 3 2).Node x → x.distance exCfg 0 0 = .ok (taxi x ⟨0, 0⟩) := fun x hx => c50_nodes hb hf hx ht
  obtain ⟨-, h2, -, h3⟩ := c83_toll_wrong hb hf (ax := .horizontal) rfl (by decide) (by decide) _ hd
  obtain ⟨st, o, h4, h5⟩ := (c83_astar hb hf ha (toll .horizontal 3) (fun x => 2 * taxi x ⟨0, 0⟩)
    (fun x => decide (x = ⟨0, 0⟩))).2.1 _ .nil
  obtain ⟨p, rfl⟩ := h3 o ⟨st, h4, h5⟩
  exact ⟨g, _, p, h2, ⟨st, h4, h5⟩⟩

/-- a 3 × 2 graph with a vertical loop -/
example : ∃ (k : Cfg) (g : G Nat Nat) (d : NodeIx → Nat) (n : Nat) (p : List NodeIx), k.loopH = false ∧ k.loopV = true ∧
    (∀ x, (k.grid 3 2).Node x → x.distance k 2 1 = .ok (d x)) ∧
    AstOutcome (sqEdges g fun _ => 1) (fun x => 1 * d x) (fun x => decide (x = ⟨2, 1⟩)) ⟨0, 0⟩ (some (n, p)) ∧
    ∀ m, CostWalk g (fun _ => 1) ⟨0, 0⟩ ⟨2, 1⟩ m → n ≤ m := by
  let k : Cfg := ⟨m64, 256, false, true, by decide, by decide⟩
  obtain ⟨g, c, hb, _⟩ := exGraph k (by decide)
  have hf : k.Fits 3 2 := ⟨by decide, by decide⟩
  have ha : (k.grid 3 2).Node ⟨0, 0⟩ := ⟨by decide, by decide⟩
  have ht : (k.grid 3 2).Node ⟨2, 1⟩ := ⟨by decide, by decide⟩
  have hd : ∀ x, (k.grid 3 2).Node x → x.distance k 2 1 = .ok (taxi x ⟨2, 1⟩) := fun x hx => c50_nodes hb hf hx ht
  obtain ⟨st, o, h4, h5⟩ := (c83_astar hb hf ha (fun _ => 1) (fun x => 1 * taxi x ⟨2, 1⟩) (fun x => decide (x = ⟨2, 1⟩))).2.1 _ .nil
  obtain ⟨n, p, rfl, -, h6, -⟩ := c83_distance_partial hb hf (by decide) (by decide) ha ht (fun _ => 1) (q := 1)
    (fun _ _ _ _ _ => Nat.le_refl 1) _ hd ⟨st, h4, h5⟩
  exact ⟨k, g, _, n, p, rfl, rfl, hd, ⟨st, h4, h5⟩, h6⟩

/-- The 3 × 2 graph that wraps horizontally is on the wrong side of the equivalence, the one that wraps vertically on the right one. -/
example : ∃ (g : G Nat Nat) (c : Contents NodeIx Axis Nat Nat), Built exCfg 3 2 g c ∧
    ¬ (∀ (cost : Ref Nat → Nat) (q : Nat) (a t : NodeIx) (d : NodeIx → Nat), (exCfg.grid 3 2).Node a → (exCfg.grid 3 2).Node t →
      (∀ x r y, (exCfg.grid 3 2).Node x → EdgeTo g x r y → q ≤ cost r) →
      (∀ x, (exCfg.grid 3 2).Node x → x.distance exCfg t.horizontal t.vertical = .ok (d x)) →
      ∀ o, AstOutcome (sqEdges g cost) (fun x => q * d x) (fun x => decide (x = t)) a o →
        ∃ n p, o = some (n, p) ∧ ∀ m, CostWalk g cost a t m → n ≤ m) := by
  obtain ⟨g, c, hb, _⟩ := exGraph exCfg (by decide)
  exact ⟨g, c, hb, fun h => absurd (((c83_distance_iff hb ⟨by decide, by decide⟩ (by decide) (by decide)).1 h).1 rfl) (by decide)⟩

end LG.Sq
