import Verif.Props.LegacyAstarLoop
/- C103: distances in a `SquareGraph` that wraps around, and `astar` with them as the estimate. -/
set_option linter.unusedSectionVars false
namespace LG.Sq
section
variable {N E : Type}
variable {g : G N E} {k : Cfg} {h v : Nat} {c : Contents NodeIx Axis N E}

/-- The difference of two coordinates, on a looped side the shorter way round. -/
def around (loop : Bool) (n i j : Nat) : Nat :=
  if loop then min ((i : Int) - j).natAbs (n - ((i : Int) - j).natAbs) else ((i : Int) - j).natAbs

/-- The sum of both differences. -/
def ringDist (k : Cfg) (h v : Nat) (a b : NodeIx) : Nat :=
  around k.loopH h a.horizontal b.horizontal + around k.loopV v a.vertical b.vertical

theorem around_next {loop : Bool} {n i i' j : Nat} (hi : i < n) (hi' : i' < n) (hj : j < n)
    (hs : i' = i + 1 ∨ i = i' + 1 ∨ (loop = true ∧ i + 1 = n ∧ i' = 0) ∨ (loop = true ∧ i' + 1 = n ∧ i = 0)) :
    around loop n i j ≤ around loop n i' j + 1 := by
  unfold around
  cases loop
  · simp only [Bool.false_eq_true, false_and, or_false, if_false] at hs ⊢
    omega
  · simp only [true_and, if_true] at hs ⊢
    omega

theorem ring_step {a x t : NodeIx} (ha : (k.grid h v).Node a) (ht : (k.grid h v).Node t) {d : Dir}
    (hd : (k.grid h v).step a d = some x) : ringDist k h v a t ≤ ringDist k h v x t + 1 := by
  have hx := Grid.step_node ha hd
  have h1 := step_along (ax := .horizontal) ha hd
  have h2 := step_along (ax := .vertical) ha hd
  simp only [alongOf, acrossOf, loopOf, sideOf] at h1 h2
  have a1 : a.horizontal < h := ha.1
  have a2 : a.vertical < v := ha.2
  have x1 : x.horizontal < h := hx.1
  have x2 : x.vertical < v := hx.2
  have t1 : t.horizontal < h := ht.1
  have t2 : t.vertical < v := ht.2
  unfold ringDist
  rcases h1 with ⟨h1, -⟩ | ⟨h1, h3⟩
  · rw [h1]
    rcases h2 with ⟨h2, -⟩ | ⟨-, h4⟩
    · rw [h2]; omega
    · have := around_next (loop := k.loopV) (j := t.vertical) a2 x2 t2 (by
        rcases h4 with h4 | h4 | h4 | h4
        · exact .inl h4.1
        · exact .inr (.inl h4.1)
        · exact .inr (.inr (.inl ⟨h4.1, h4.2.1, h4.2.2.1⟩))
        · exact .inr (.inr (.inr ⟨h4.1, h4.2.1, h4.2.2.1⟩)))
      omega
  · rw [h1]
    have := around_next (loop := k.loopH) (j := t.horizontal) a1 x1 t1 (by
      rcases h3 with h4 | h4 | h4 | h4
      · exact .inl h4.1
      · exact .inr (.inl h4.1)
      · exact .inr (.inr (.inl ⟨h4.1, h4.2.1, h4.2.2.1⟩))
      · exact .inr (.inr (.inr ⟨h4.1, h4.2.1, h4.2.2.1⟩)))
    omega

theorem around_zero {loop : Bool} {n i j : Nat} (hi : i < n) (hj : j < n) : around loop n i j = 0 ↔ i = j := by
  unfold around
  cases loop
  · simp only [Bool.false_eq_true, if_false]; omega
  · simp only [if_true]; omega

/-- One coordinate can be brought nearer by a step forward or back. -/
theorem around_toward {loop : Bool} {n i j : Nat} (hi : i < n) (hj : j < n) (hne : i ≠ j) :
    (i + 1 < n ∧ around loop n (i + 1) j + 1 = around loop n i j) ∨
    (i ≠ 0 ∧ around loop n (i - 1) j + 1 = around loop n i j) ∨
    (loop = true ∧ ¬ i + 1 < n ∧ around loop n 0 j + 1 = around loop n i j) ∨
    (loop = true ∧ i = 0 ∧ around loop n (n - 1) j + 1 = around loop n i j) := by
  unfold around
  cases loop
  · simp only [Bool.false_eq_true, if_false]
    by_cases e : i < j
    · left; omega
    · right; left; omega
  · simp only [if_true, true_and]
    by_cases e : i < j
    · by_cases e2 : 2 * (j - i) ≤ n
      · left; omega
      · by_cases e3 : i = 0
        · right; right; right; omega
        · right; left; omega
    · by_cases e2 : 2 * (i - j) ≤ n
      · right; left; omega
      · by_cases e3 : i + 1 < n
        · left; omega
        · right; right; left; omega

theorem ring_toward {a t : NodeIx} (ha : (k.grid h v).Node a) (ht : (k.grid h v).Node t) (hd : ringDist k h v a t ≠ 0) :
    ∃ d x, d ∈ Grid.dirs ∧ (k.grid h v).step a d = some x ∧ ringDist k h v x t + 1 = ringDist k h v a t := by
  have a1 : a.horizontal < h := ha.1
  have a2 : a.vertical < v := ha.2
  have t1 : t.horizontal < h := ht.1
  have t2 : t.vertical < v := ht.2
  unfold ringDist at hd ⊢
  by_cases e : a.horizontal = t.horizontal
  · by_cases e' : a.vertical = t.vertical
    · exact absurd (by rw [(around_zero a1 t1).2 e, (around_zero a2 t2).2 e']) hd
    · rcases around_toward (loop := k.loopV) a2 t2 e' with ⟨h1, h2⟩ | ⟨h1, h2⟩ | ⟨h0, h1, h2⟩ | ⟨h0, h1, h2⟩
      · exact ⟨.foward .vertical, ⟨a.horizontal, a.vertical + 1⟩, by decide, (step_up ha).trans (if_pos h1), by simp only; omega⟩
      · exact ⟨.backward .vertical, ⟨a.horizontal, a.vertical - 1⟩, by decide, (step_down ha).trans (if_pos h1), by simp only; omega⟩
      · exact ⟨.foward .vertical, ⟨a.horizontal, 0⟩, by decide, (step_up ha).trans ((if_neg h1).trans (if_pos h0)), by simp only; omega⟩
      · exact ⟨.backward .vertical, ⟨a.horizontal, v - 1⟩, by decide, (step_down ha).trans ((if_neg (by simp [h1])).trans (if_pos h0)),
          by simp only; omega⟩
  · rcases around_toward (loop := k.loopH) a1 t1 e with ⟨h1, h2⟩ | ⟨h1, h2⟩ | ⟨h0, h1, h2⟩ | ⟨h0, h1, h2⟩
    · exact ⟨.foward .horizontal, ⟨a.horizontal + 1, a.vertical⟩, by decide, (step_right ha).trans (if_pos h1), by simp only; omega⟩
    · exact ⟨.backward .horizontal, ⟨a.horizontal - 1, a.vertical⟩, by decide, (step_left ha).trans (if_pos h1), by simp only; omega⟩
    · exact ⟨.foward .horizontal, ⟨0, a.vertical⟩, by decide, (step_right ha).trans ((if_neg h1).trans (if_pos h0)), by simp only; omega⟩
    · exact ⟨.backward .horizontal, ⟨h - 1, a.vertical⟩, by decide, (step_left ha).trans ((if_neg (by simp [h1])).trans (if_pos h0)),
        by simp only; omega⟩

theorem ring_zero {a t : NodeIx} (ha : (k.grid h v).Node a) (ht : (k.grid h v).Node t) : ringDist k h v a t = 0 ↔ a = t := by
  have h1 := around_zero (loop := k.loopH) (show a.horizontal < h from ha.1) (show t.horizontal < h from ht.1)
  have h2 := around_zero (loop := k.loopV) (show a.vertical < v from ha.2) (show t.vertical < v from ht.2)
  unfold ringDist
  constructor
  · intro e
    obtain ⟨x, y⟩ := a
    obtain ⟨x', y'⟩ := t
    simp only at *
    rw [h1.1 (by omega), h2.1 (by omega)]
  · rintro rfl
    rw [h1.2 rfl, h2.2 rfl]

theorem Walk.ring (hb : Built k h v g c) (hf : k.Fits h v) {a t : NodeIx} (ht : (k.grid h v).Node t) :
    ∀ (d n : Nat) (b : NodeIx), (k.grid h v).Node b → Walk g a n b → ringDist k h v b t = d → Walk g a (n + d) t
  | 0, n, b, hn, hw, hd => by
    rw [← (ring_zero hn ht).1 hd]; exact hw
  | d + 1, n, b, hn, hw, hd => by
    obtain ⟨dir, x, h1, h2, h3⟩ := ring_toward hn ht (by omega)
    have hy := nbrs_at hb hf hn
    have hw' : Walk g a (n + 1) x := .step hw hy (List.mem_filterMap.2 ⟨dir, h1, h2⟩)
    rw [show n + (d + 1) = n + 1 + d by omega]
    exact Walk.ring hb hf ht d (n + 1) x (Grid.step_node hn h2) hw' (by omega)

/-- **C103.** On every `SquareGraph` the least number of `neighbors` steps between two nodes is the sum of the differences of their
coordinates, each the shorter way round if its side is looped. -/
theorem c103_shortest (hb : Built k h v g c) (hf : k.Fits h v) {a b : NodeIx} (ha : (k.grid h v).Node a)
    (hb' : (k.grid h v).Node b) : Walk g a (ringDist k h v a b) b ∧ ∀ n, Walk g a n b → ringDist k h v a b ≤ n := by
  constructor
  · have := Walk.ring hb hf hb' (ringDist k h v a b) 0 a ha .nil rfl
    rwa [Nat.zero_add] at this
  · intro n hw
    have key : ∀ {n x}, Walk g a n x → ∀ t, (k.grid h v).Node t → ringDist k h v a t ≤ n + ringDist k h v x t := by
      intro n x hw
      induction hw with
      | nil => intro t _; omega
      | @step n b x l hw hy hm ih =>
        intro t ht
        have hnb := Walk.node hb hf ha hw
        rw [hb.stores.cfg] at hy
        rw [Yields.unique hy (c46_neighbors hb hf hnb)] at hm
        obtain ⟨d, _, hd⟩ := List.mem_filterMap.1 hm
        have h1 := ring_step hnb ht hd
        have h2 := ih t ht
        omega
    have := key hw b hb'
    rw [(ring_zero hb' hb').2 rfl] at this
    exact this

/-- **C103.** So `distance` is the least number of steps exactly for the pairs that are no more than half a looped side apart. -/
theorem c103_distance_iff (hb : Built k h v g c) (hf : k.Fits h v) {a b : NodeIx} (ha : (k.grid h v).Node a)
    (hb' : (k.grid h v).Node b) : ∃ d, a.distance k b.horizontal b.vertical = .ok d ∧
      ((∀ n, Walk g a n b → d ≤ n) ↔ (k.loopH = true → 2 * ((a.horizontal : Int) - b.horizontal).natAbs ≤ h) ∧
        (k.loopV = true → 2 * ((a.vertical : Int) - b.vertical).natAbs ≤ v)) := by
  refine ⟨_, c50_nodes hb hf ha hb', ?_⟩
  obtain ⟨h1, h2⟩ := c103_shortest hb hf ha hb'
  have h3 : (∀ n, Walk g a n b → taxi a b ≤ n) ↔ taxi a b ≤ ringDist k h v a b :=
    ⟨fun hall => hall _ h1, fun hle n hw => Nat.le_trans hle (h2 n hw)⟩
  rw [h3]
  have a1 : a.horizontal < h := ha.1
  have a2 : a.vertical < v := ha.2
  have b1 : b.horizontal < h := hb'.1
  have b2 : b.vertical < v := hb'.2
  unfold ringDist taxi around
  cases k.loopH <;> cases k.loopV <;>
    simp only [Bool.false_eq_true, if_false, if_true, false_implies, true_implies, true_and, and_true, and_self,
      Nat.le_refl] <;> omega

/-- **C103.** Two nodes are at most half of each looped side and all but one cell of each other side apart, and some two nodes
are. -/
theorem c103_diameter (hb : Built k h v g c) (hf : k.Fits h v) (h0 : 0 < h) (v0 : 0 < v) :
    (∀ a b, (k.grid h v).Node a → (k.grid h v).Node b →
      ∃ n, Walk g a n b ∧ n ≤ (if k.loopH then h / 2 else h - 1) + (if k.loopV then v / 2 else v - 1)) ∧
    ∃ a b, (k.grid h v).Node a ∧ (k.grid h v).Node b ∧
      ∀ n, Walk g a n b → (if k.loopH then h / 2 else h - 1) + (if k.loopV then v / 2 else v - 1) ≤ n := by
  constructor
  · intro a b ha hb'
    refine ⟨_, (c103_shortest hb hf ha hb').1, ?_⟩
    have a1 : a.horizontal < h := ha.1
    have a2 : a.vertical < v := ha.2
    have b1 : b.horizontal < h := hb'.1
    have b2 : b.vertical < v := hb'.2
    unfold ringDist around
    cases k.loopH <;> cases k.loopV <;> simp only [Bool.false_eq_true, if_false, if_true] <;> omega
  · have ha : (k.grid h v).Node ⟨0, 0⟩ := ⟨h0, v0⟩
    have hb' : (k.grid h v).Node ⟨if k.loopH then h / 2 else h - 1, if k.loopV then v / 2 else v - 1⟩ :=
      ⟨by show (if k.loopH = true then h / 2 else h - 1) < h; split <;> omega,
       by show (if k.loopV = true then v / 2 else v - 1) < v; split <;> omega⟩
    refine ⟨_, _, ha, hb', fun n hw => Nat.le_trans ?_ ((c103_shortest hb hf ha hb').2 n hw)⟩
    unfold ringDist around
    cases k.loopH <;> cases k.loopV <;> simp only [Bool.false_eq_true, if_false, if_true] <;> omega

theorem ring_cost (hb : Built k h v g c) (hf : k.Fits h v) {cost : Ref E → Nat} {q : Nat}
    (hq : ∀ x r t, (k.grid h v).Node x → EdgeTo g x r t → q ≤ cost r) {a b : NodeIx} {n : Nat}
    (ha : (k.grid h v).Node a) (hw : CostWalk g cost a b n) {t : NodeIx} (ht : (k.grid h v).Node t) :
    q * ringDist k h v a t ≤ n + q * ringDist k h v b t := by
  induction hw with
  | nil => omega
  | @step b x n r h1 he ih =>
    have hbn := h1.node hb hf ha
    obtain ⟨h2, rfl⟩ := (edgeTo_iff hb hf hbn).1 he
    obtain ⟨-, d, h3⟩ := outRefs_target hb hf hbn h2
    have h6 := Nat.mul_le_mul_left q (ring_step hbn ht h3)
    have h7 := hq b r _ hbn he
    rw [Nat.mul_add, Nat.mul_one] at h6
    omega

/-- **C103.** With this distance instead of `distance` as the estimate, times a lower bound of the costs, `astar` returns a cheapest
path on every `SquareGraph`, whatever the loops and the costs. -/
theorem c103_astar (hb : Built k h v g c) (hf : k.Fits h v) {a t : NodeIx} (ha : (k.grid h v).Node a)
    (ht : (k.grid h v).Node t) (cost : Ref E → Nat) {q : Nat}
    (hq : ∀ x r y, (k.grid h v).Node x → EdgeTo g x r y → q ≤ cost r) {o : Option (Nat × List NodeIx)}
    (ho : AstOutcome (sqEdges g cost) (fun x => q * ringDist k h v x t) (fun x => decide (x = t)) a o) :
    ∃ n p, o = some (n, p) ∧ CostWalk g cost a t n ∧ (∀ m, CostWalk g cost a t m → n ≤ m) ∧
      p.head? = some a ∧ p.getLast? = some t ∧ PathOf (Link g cost) p n := by
  obtain ⟨h1, h2⟩ := (c83_astar hb hf ha cost _ _).2.2 o ho
  match o, ho, h1, h2 with
  | none, ho, h1, _ =>
    have := h1.1 rfl t ht
    simp at this
  | some (n, p), ho, _, h2 =>
    obtain ⟨t', m, h3, h4, h5, h6, -⟩ := h2 n p rfl
    have e : t' = t := of_decide_eq_true h3
    subst e
    obtain ⟨h7, h8⟩ := c83_least hb hf ha cost _ _ (fun x u n hx hu hxw => by
      have e : u = t' := of_decide_eq_true hu
      subst e
      have h9 := ring_cost hb hf hq hx hxw ht
      rw [(ring_zero ht ht).2 rfl] at h9
      simpa using h9) ho
    exact ⟨n, p, rfl, h4, fun m hm => h8 t' m (by simp) hm, h5, h6, h7⟩
end

/-- Example: in the 3 × 2 graph that wraps horizontally the two ends of a row are one step apart, `distance` says two, and no two
cells are more than two steps apart. -/
example : ∃ (g : G Nat Nat) (c : Contents NodeIx Axis Nat Nat), Built exCfg 3 2 g c ∧ Walk g ⟨0, 0⟩ 1 ⟨2, 0⟩ ∧
    (∃ d, NodeIx.distance exCfg ⟨0, 0⟩ 2 0 = .ok d ∧ ¬ ∀ n, Walk g ⟨0, 0⟩ n ⟨2, 0⟩ → d ≤ n) ∧
    (∀ a b, (exCfg.grid 3 2).Node a → (exCfg.grid 3 2).Node b → ∃ n, Walk g a n b ∧ n ≤ 2) := by
  obtain ⟨g, c, hb, _⟩ := exGraph exCfg (by decide)
  have hf : exCfg.Fits 3 2 := ⟨by decide, by decide⟩
  have ha : (exCfg.grid 3 2).Node ⟨0, 0⟩ := ⟨by decide, by decide⟩
  have ht : (exCfg.grid 3 2).Node ⟨2, 0⟩ := ⟨by decide, by decide⟩
  obtain ⟨d, h1, h2⟩ := c103_distance_iff hb hf ha ht
  refine ⟨g, c, hb, (c103_shortest hb hf ha ht).1, ⟨d, h1, fun h3 => ?_⟩, (c103_diameter hb hf (by decide) (by decide)).1⟩
  exact absurd ((h2.1 h3).1 rfl) (by decide)

/-- Example: there `astar` with this distance pays any toll only if it must. -/
example : ∃ (g : G Nat Nat) (n : Nat) (p : List NodeIx),
    AstOutcome (sqEdges g (toll .horizontal 3)) (fun x => 2 * ringDist exCfg 3 2 x ⟨0, 0⟩) (fun x => decide (x = ⟨0, 0⟩)) ⟨1, 0⟩
      (some (n, p)) ∧ n ≤ 4 := by
  obtain ⟨g, c, hb, _⟩ := exGraph exCfg (by decide)
  have hf : exCfg.Fits 3 2 := ⟨by decide, by decide⟩
  have ha : (exCfg.grid 3 2).Node ⟨1, 0⟩ := ⟨by decide, by decide⟩
  have ht : (exCfg.grid 3 2).Node ⟨0, 0⟩ := ⟨by decide, by decide⟩
  have hd : ∀ x, (exCfg.grid 3 2).Node x → x.distance exCfg 0 0 = .ok (taxi x ⟨0, 0⟩) := fun x hx => c50_nodes hb hf hx ht
  obtain ⟨h1, h2, -, -⟩ := c83_toll_wrong hb hf (ax := .horizontal) rfl (by decide) (by decide) _ hd
  obtain ⟨st, o, h4, h5⟩ := (c83_astar hb hf ha (toll .horizontal 3) (fun x => 2 * ringDist exCfg 3 2 x ⟨0, 0⟩)
    (fun x => decide (x = ⟨0, 0⟩))).2.1 _ .nil
  obtain ⟨n, p, rfl, -, h6, -⟩ := c103_astar hb hf ha ht (toll .horizontal 3) (q := 2) h1 ⟨st, h4, h5⟩
  exact ⟨g, n, p, ⟨st, h4, h5⟩, h6 4 h2⟩
end LG.Sq
