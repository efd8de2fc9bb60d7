import Verif.Lemmas.KShortest
import Verif.Props.Astar
import Verif.Props.Bellman
/- C119: the k-th cheapest walks by `k_shortest_path`, from `edges` and the node numbers. -/
set_option linter.unusedSectionVars false
namespace LG
section
variable {C A D N E : Type} [DecidableEq C] [DecidableEq A] [DecidableEq D]
variable {g : Graph C A D N E} {s : Shape C A D} {L : Lat C A D} {rep : C → Prop} {k : Contents C A N E}
variable {cost : EdgeRef C D E → Nat} {goal : Option C} {m : Nat} {sc : C → Option Nat}

/-- **C119.** No run of `k_shortest_path` is infinite, whatever the costs, the goal and the entries of least score popped, and each can be
completed: nothing faults on the way. So there is a result. -/
theorem c119_runs (hs : Lawful s L rep) (hb : Built s L g k) {a : C} (ha : L.Node a) (cost : EdgeRef C D E → Nat) (goal : Option C) (m : Nat) :
    ∃ n, g.nodeBound = .ok n ∧
      (∀ run : Nat → KSt C, run 0 = kNew n a → ¬ ∀ i, KStep g.toIndex (latEdges g cost) goal m (run i) (run (i + 1))) ∧
      (∀ st, KSteps g.toIndex (latEdges g cost) goal m (kNew n a) st →
        ∃ st' sc, KSteps g.toIndex (latEdges g cost) goal m st st' ∧ KReturns g.toIndex goal m st' sc) ∧
      ∃ sc, g.KShortest cost a goal m sc := by
  have hc : ∀ st, KSteps g.toIndex (latEdges g cost) goal m (kNew (L.width * L.height) a) st →
      ∃ st' sc, KSteps g.toIndex (latEdges g cost) goal m st st' ∧ KReturns g.toIndex goal m st' sc := fun st h1 =>
    k_completes (latGraph hs hb cost) (indexed hs hb) (fun _ hv => (nodeIdx_spec hs hb hv).1) ha h1
  refine ⟨_, nodeBound_eq hs hb, fun run _ => k_ends run, hc, ?_⟩
  obtain ⟨st, sc, h1, h2⟩ := hc _ .refl
  exact ⟨sc, _, nodeBound_eq hs hb, st, h1, h2⟩

theorem kShortest_bound (hs : Lawful s L rep) (hb : Built s L g k) {a : C} (h : g.KShortest cost a goal m sc) :
    KShortest g.toIndex (latEdges g cost) (L.width * L.height) a goal m sc := by
  obtain ⟨n, h1, h2⟩ := h
  rw [nodeBound_eq hs hb] at h1; cases h1
  exact h2

/-- **C119.** Whatever the goal, every score returned is the cost of the `m`-th cheapest walk along `edges`. (Walks are told apart by the
positions of their edges in what `edges` yields, so that parallel edges count.) -/
theorem c119_right (hs : Lawful s L rep) (hb : Built s L g k) {a b : C} (ha : L.Node a) (h : g.KShortest cost a goal m sc) {x : Nat}
    (hx : sc b = some x) : KthWalk (latEdges g cost) a b m x :=
  (k_result (latGraph hs hb cost) (indexed hs hb) (fun _ hv => (nodeIdx_spec hs hb hv).1) ha (kShortest_bound hs hb h)).1 b x hx

/-- **C119.** Without a goal the result is one: the scores are exactly the costs of the `m`-th cheapest walks, and a node has none exactly
if there are fewer than `m` walks to it. With a goal that is so of the goal. -/
theorem c119_exact (hs : Lawful s L rep) (hb : Built s L g k) {a b : C} (ha : L.Node a) (h : g.KShortest cost a goal m sc)
    (hgb : goal = none ∨ goal = some b) :
    (∀ x, sc b = some x ↔ KthWalk (latEdges g cost) a b m x) ∧
    (0 < m → (sc b = none ↔
      ∀ W : List (List Nat), W.Nodup → (∀ is ∈ W, ∃ y, WalkBy (latEdges g cost) a is b y) → W.length < m)) :=
  k_exact (latGraph hs hb cost) (indexed hs hb) (fun _ hv => (nodeIdx_spec hs hb hv).1) ha (kShortest_bound hs hb h) hgb

/-- **C119.** With `k = 1` the scores are the least costs, those of `dijkstra` (C65). -/
theorem c119_one (hs : Lawful s L rep) (hb : Built s L g k) {a b : C} (ha : L.Node a) (h : g.KShortest cost a goal 1 sc)
    (hgb : goal = none ∨ goal = some b) {x : Nat} :
    sc b = some x ↔ CostWalk g cost a b x ∧ ∀ y, CostWalk g cost a b y → x ≤ y := by
  rw [(c119_exact hs hb ha h hgb).1 x, kthWalk_one (latGraph hs hb cost) ha]
  simp only [aWalk_iff hs hb ha]

/-- **C119.** The scores grow with `k`. -/
theorem c119_grow (hs : Lawful s L rep) (hb : Built s L g k) {a b : C} (ha : L.Node a) {goal' : Option C} {m' : Nat} {sc' : C → Option Nat}
    (h : g.KShortest cost a goal m sc) (h' : g.KShortest cost a goal' m' sc') (hm : m ≤ m') {x y : Nat} (hx : sc b = some x)
    (hy : sc' b = some y) : x ≤ y :=
  (c119_right hs hb ha h hx).mono (latGraph hs hb cost) ha (c119_right hs hb ha h' hy) hm

/-- **C119.** On a connected map of two nodes or more there are as many walks as one likes: every node has a score (the goal, if there is
one). It is at most the cost of any walk to the node and `m - 1` round trips from there. -/
theorem c119_all (hs : Sound s L rep) (hb : Built s L g k) {a b b' : C} (ha : L.Node a) (hbn : L.Node b) (hbn' : L.Node b') (hne : b ≠ b')
    (h : g.KShortest cost a goal m sc) (hgb : goal = none ∨ goal = some b) (hm : 0 < m) :
    ∃ x, sc b = some x ∧ ∀ n d d', CostWalk g cost a b n → CostWalk g cost b b' d → CostWalk g cost b' b d' →
      x ≤ n + (m - 1) * (d + d') := by
  have hsl := hs.lawful
  obtain ⟨n, w1⟩ := costWalk_exists (cost := cost) hs hb ha hbn
  obtain ⟨d, w2⟩ := costWalk_exists (cost := cost) hs hb hbn hbn'
  obtain ⟨d', w3⟩ := costWalk_exists (cost := cost) hs hb hbn' hbn
  have := k_all (latGraph hsl hb cost) (indexed hsl hb) (fun _ hv => (nodeIdx_spec hsl hb hv).1) ha (kShortest_bound hsl hb h) hne hgb hm
    ⟨n, d, d', (aWalk_iff hsl hb ha).2 w1, (aWalk_iff hsl hb hbn).2 w2, (aWalk_iff hsl hb hbn').2 w3⟩
  simpa only [aWalk_iff hsl hb ha, aWalk_iff hsl hb hbn, aWalk_iff hsl hb hbn'] using this
end

/-- On the 3 × 2 square graph with steps of cost one, the second cheapest walk from a corner to itself costs two: a step and back.
There and elsewhere the scores for `k = 3` are found too, and are no less. -/
example : ∃ (g : Graph Offset SquareAxis DSquareAxis Nat Nat) (sc sc3 : Offset → Option Nat),
    g.KShortest (fun _ => 1) ⟨0, 0⟩ none 2 sc ∧ sc ⟨0, 0⟩ = some 2 ∧ g.KShortest (fun _ => 1) ⟨0, 0⟩ (some ⟨0, 0⟩) 3 sc3 ∧
    ∃ x, sc3 ⟨0, 0⟩ = some x ∧ 2 ≤ x ∧ x ≤ 4 := by
  obtain ⟨g, hb⟩ := exSquare
  have hs := Sound.square m64 3 2
  have h0 : (squareLat 3 2).Node ⟨0, 0⟩ := ⟨0, 0, by decide, by decide, rfl⟩
  have h1 : (squareLat 3 2).Node ⟨1, 0⟩ := ⟨1, 0, by decide, by decide, rfl⟩
  obtain ⟨-, -, -, -, sc, hsc⟩ := c119_runs hs.lawful hb h0 (fun _ => 1) none 2
  obtain ⟨-, -, -, -, sc3, hsc3⟩ := c119_runs hs.lawful hb h0 (fun _ => 1) (some ⟨0, 0⟩) 3
  obtain ⟨x, hx, hle⟩ := c119_all hs hb h0 h0 h1 (by decide) hsc (.inl rfl) (by decide)
  obtain ⟨y, hy, hle3⟩ := c119_all hs hb h0 h0 h1 (by decide) hsc3 (.inr rfl) (by decide)
  have e1 : CostWalk g (fun _ => 1) ⟨0, 0⟩ ⟨1, 0⟩ 1 :=
    .step (r := ⟨⟨0, 0⟩, ⟨1, 0⟩, 1000, .X⟩) .nil ((edgeOf_iff hs.lawful hb h0).2 (by decide))
  have e2 : CostWalk g (fun _ => 1) ⟨1, 0⟩ ⟨0, 0⟩ 1 :=
    .step (r := ⟨⟨1, 0⟩, ⟨0, 0⟩, 1000, .RX⟩) .nil ((edgeOf_iff hs.lawful hb h1).2 (by decide))
  have hx2 : x ≤ 2 := hle 0 1 1 .nil e1 e2
  have hy4 : y ≤ 4 := hle3 0 1 1 .nil e1 e2
  have hx2' : 2 ≤ x := by
    obtain ⟨W, g1, g2, g3, -⟩ := (c119_exact hs.lawful hb h0 hsc (.inl rfl)).1 x |>.1 hx
    have : ∃ i is, i :: is ∈ W := by
      match W, g1, g2 with
      | [[], []], g1, _ => simp at g1
      | [[], i :: is], _, _ => exact ⟨i, is, by simp⟩
      | [i :: is, _], _, _ => exact ⟨i, is, by simp⟩
    obtain ⟨i, is, g4⟩ := this
    obtain ⟨y, g5, g6⟩ := g3 _ g4
    cases g5 with
    | snoc g7 g8 g9 =>
      have hc : ∀ {is t y}, WalkBy (latEdges g fun _ => 1) ⟨0, 0⟩ is t y → (squareLat 3 2).Node t ∧ y = is.length := by
        intro is t y h
        have hn := h.node (latGraph hs.lawful hb _) h0
        refine ⟨hn, ?_⟩
        clear hn
        induction h with
        | nil => rfl
        | snoc q1 q2 q3 ih =>
          rw [(latEdges_iff hs.lawful hb (q1.node (latGraph hs.lawful hb _) h0)).1 q2] at q3
          obtain ⟨r, -, q4⟩ := List.mem_map.1 (List.mem_of_getElem? q3)
          cases q4
          rw [ih, List.length_cons]
      obtain ⟨hn, rfl⟩ := hc g7
      rw [(latEdges_iff hs.lawful hb hn).1 g8] at g9
      obtain ⟨r, q4, q5⟩ := List.mem_map.1 (List.mem_of_getElem? g9)
      cases is with
      | cons j is => have := (Prod.mk.inj q5).2; rw [List.length_cons] at g6; omega
      | nil =>
        cases g7
        have : ∀ r ∈ outEdges (squareLat 3 2) exK ⟨0, 0⟩, r.target ≠ ⟨0, 0⟩ := by decide
        exact absurd (Prod.mk.inj q5).1 (this r q4)
  have e : x = 2 := by omega
  exact ⟨g, sc, sc3, hsc, e ▸ hx, hsc3, y, hy, e ▸ c119_grow hs.lawful hb h0 hsc hsc3 (by decide) hx hy, hy4⟩

/-- With `k = 1` and the start as the goal the score is zero. -/
example : ∃ (g : Graph Offset SquareAxis DSquareAxis Nat Nat) (sc : Offset → Option Nat),
    g.KShortest (fun _ => 1) ⟨0, 0⟩ (some ⟨0, 0⟩) 1 sc ∧ sc ⟨0, 0⟩ = some 0 ∧ KthWalk (latEdges g fun _ => 1) ⟨0, 0⟩ ⟨0, 0⟩ 1 0 := by
  obtain ⟨g, hb⟩ := exSquare
  have hs := Sound.square m64 3 2
  have h0 : (squareLat 3 2).Node ⟨0, 0⟩ := ⟨0, 0, by decide, by decide, rfl⟩
  obtain ⟨-, -, -, -, sc, hsc⟩ := c119_runs hs.lawful hb h0 (fun _ => 1) (some ⟨0, 0⟩) 1
  have hx := (c119_one hs.lawful hb h0 hsc (.inr rfl) (x := 0)).2 ⟨.nil, fun _ _ => Nat.zero_le _⟩
  exact ⟨g, sc, hsc, hx, c119_right hs.lawful hb h0 hsc hx⟩
end LG
