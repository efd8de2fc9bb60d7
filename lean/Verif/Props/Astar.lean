import Verif.Lemmas.Astar
import Verif.Props.Dijkstra
import Verif.Props.Distance
/- C82: A* over the crate's weighted edges. -/
set_option linter.unusedSectionVars false
namespace LG
section
variable {C A D N E : Type} [DecidableEq C] [DecidableEq A] [DecidableEq D]
variable {g : Graph C A D N E} {s : Shape C A D} {L : Lat C A D} {rep : C → Prop} {k : Contents C A N E}
variable {cost : EdgeRef C D E → Nat} {h : C → Nat} {goal : C → Bool}

/-- `edges(u)` yields a reference to `t` of cost `w`. -/
def Link (g : Graph C A D N E) (cost : EdgeRef C D E → Nat) (u t : C) (w : Nat) : Prop :=
  ∃ r, EdgeOf g u r ∧ r.target = t ∧ cost r = w

/-- `n` is the least total cost of a walk along `edges` from `a` to a goal. -/
def Cheapest (g : Graph C A D N E) (cost : EdgeRef C D E → Nat) (a : C) (goal : C → Bool) (n : Nat) : Prop :=
  (∃ t, goal t = true ∧ CostWalk g cost a t n) ∧ ∀ t m, goal t = true → CostWalk g cost a t m → n ≤ m

theorem latEdges_iff (hs : Lawful s L rep) (hb : Built s L g k) {c : C} (hc : L.Node c) {l : List (C × Nat)} :
    latEdges g cost c l ↔ l = (outEdges L k c).map fun r => (r.target, cost r) := by
  obtain ⟨it, h1, h2⟩ := c58_edges_partial hs.storable hb hc (hs.readable hc)
  constructor
  · rintro ⟨it', rs, h3, h4, rfl⟩
    rw [h1] at h3; cases h3
    rw [Yields.unique h4 h2]
  · rintro rfl
    exact ⟨it, _, h1, h2, rfl⟩

theorem leads_iff (hs : Lawful s L rep) (hb : Built s L g k) {u t : C} (hu : L.Node u) {w : Nat} :
    Leads (latEdges g cost) u t w ↔ Link g cost u t w := by
  constructor
  · rintro ⟨l, h1, h2⟩
    rw [(latEdges_iff hs hb hu).1 h1] at h2
    obtain ⟨r, h3, h4⟩ := List.mem_map.1 h2
    cases h4
    exact ⟨r, (edgeOf_iff hs hb hu).2 h3, rfl, rfl⟩
  · rintro ⟨r, h1, rfl, rfl⟩
    exact ⟨_, (latEdges_iff hs hb hu).2 rfl, List.mem_map.2 ⟨r, (edgeOf_iff hs hb hu).1 h1, rfl⟩⟩

theorem Link.node (hs : Lawful s L rep) (hb : Built s L g k) {u t : C} (hu : L.Node u) {w : Nat} (hl : Link g cost u t w) :
    L.Node t := by
  obtain ⟨r, h1, rfl, -⟩ := hl
  exact hs.laws.nbr_node hu (c10_edge_exact hs hb hu ((edgeOf_iff hs hb hu).1 h1)).2.1

theorem latGraph (hs : Lawful s L rep) (hb : Built s L g k) (cost : EdgeRef C D E → Nat) :
    AstGraph (latEdges g cost) L.Node L.nodes where
  total := fun _ hc => ⟨_, (latEdges_iff hs hb hc).2 rfl⟩
  one := fun _ _ _ hc h1 h2 => by rw [(latEdges_iff hs hb hc).1 h1, (latEdges_iff hs hb hc).1 h2]
  node := fun _ _ _ hc hl => ((leads_iff hs hb hc).1 hl).node hs hb hc
  mem := fun _ hc => Lat.mem_nodes.2 hc

theorem aWalk_iff (hs : Lawful s L rep) (hb : Built s L g k) {a t : C} (ha : L.Node a) {n : Nat} :
    AWalk (latEdges g cost) a t n ↔ CostWalk g cost a t n := by
  constructor
  · intro hw
    have key : ∀ {b : C} {m : Nat}, CostWalk g cost b a m → L.Node b → CostWalk g cost b t (m + n) := by
      induction hw with
      | nil => exact fun h _ => h
      | @cons u x t w n he _ ih =>
        intro b m h1 hbn
        obtain ⟨r, h2, rfl, rfl⟩ := (leads_iff hs hb ha).1 he
        rw [← Nat.add_assoc]
        exact ih (Link.node (cost := cost) hs hb ha ⟨r, h2, rfl, rfl⟩) (.step h1 h2) hbn
    have := key .nil ha
    rwa [Nat.zero_add] at this
  · intro hw
    induction hw with
    | nil => exact .nil
    | step h1 he ih => exact ih.snoc ((leads_iff hs hb (h1.node hs hb ha)).2 ⟨_, he, rfl, rfl⟩)

theorem pathOf_link (hs : Lawful s L rep) (hb : Built s L g k) {p : List C} {n : Nat}
    (hp : PathOf (Leads (latEdges g cost)) p n) : ∀ {a}, p.head? = some a → L.Node a → PathOf (Link g cost) p n := by
  induction hp with
  | one => exact fun _ _ => .one
  | cons he _ ih =>
    intro a h1 ha
    cases h1
    have hl := (leads_iff hs hb ha).1 he
    exact .cons hl (ih rfl (hl.node hs hb ha))

/-- **C82.** No run of `astar`, whatever the costs, the estimate and the entries of least estimate popped, is infinite, and each
can be completed: nothing faults on the way. -/
theorem c82_runs (hs : Lawful s L rep) (hb : Built s L g k) {a : C} (ha : L.Node a) (cost : EdgeRef C D E → Nat) (h : C → Nat)
    (goal : C → Bool) :
    (∀ run : Nat → Ast C, run 0 = astNew h a → ¬ ∀ i, AstStep (latEdges g cost) h goal (run i) (run (i + 1))) ∧
    ∀ st, AstSteps (latEdges g cost) h goal (astNew h a) st →
      ∃ st' o, AstSteps (latEdges g cost) h goal st st' ∧ AstReturns goal st' o :=
  ⟨fun run h0 => ast_ends (latGraph hs hb cost) ha run h0, fun _ h1 => ast_completes (latGraph hs hb cost) ha h1⟩

/-- **C82.** What is returned, for any estimate: `None` only if no goal can be walked to; otherwise a path from the start to a goal
along `edges`, whose total cost is at most the cost returned, which is the cost of some walk to that goal. -/
theorem c82_result (hs : Lawful s L rep) (hb : Built s L g k) {a : C} (ha : L.Node a) (cost : EdgeRef C D E → Nat) (h : C → Nat)
    (goal : C → Bool) {o : Option (Nat × List C)} (ho : AstOutcome (latEdges g cost) h goal a o) :
    (o = none → ∀ t n, goal t = true → ¬ CostWalk g cost a t n) ∧
    (∀ n p, o = some (n, p) → ∃ t m, goal t = true ∧ CostWalk g cost a t n ∧ p.head? = some a ∧ p.getLast? = some t ∧
      PathOf (Link g cost) p m ∧ m ≤ n) := by
  obtain ⟨h1, h2⟩ := ast_result (latGraph hs hb cost) ha ho
  refine ⟨fun e t n hg hw => h1 e t n hg ((aWalk_iff hs hb ha).2 hw), fun n p e => ?_⟩
  obtain ⟨t, m, h3, h4, h5, h6, h7, h8⟩ := h2 n p e
  exact ⟨t, m, h3, (aWalk_iff hs hb ha).1 h4, h5, h6, pathOf_link hs hb h7 h5 ha, h8⟩

/-- **C82.** On connected shapes `None` is returned exactly if no node is a goal. -/
theorem c82_none_iff (hs : Sound s L rep) (hb : Built s L g k) {a : C} (ha : L.Node a) (cost : EdgeRef C D E → Nat) (h : C → Nat)
    (goal : C → Bool) {o : Option (Nat × List C)} (ho : AstOutcome (latEdges g cost) h goal a o) :
    o = none ↔ ∀ c, L.Node c → goal c = false := by
  obtain ⟨h1, h2⟩ := c82_result hs.lawful hb ha cost h goal ho
  constructor
  · intro e c hc
    cases hg : goal c with
    | false => rfl
    | true =>
      obtain ⟨n, hw⟩ := costWalk_exists (cost := cost) hs hb ha hc
      exact absurd hw (h1 e c n hg)
  · intro hall
    match o, h2 with
    | none, _ => rfl
    | some (n, p), h2 =>
      obtain ⟨t, m, h3, h4, -⟩ := h2 n p rfl
      rw [hall t (h4.node hs.lawful hb ha)] at h3
      cases h3

/-- **C82.** If the estimate never exceeds the cost of a walk to a goal (it need not be consistent), the cost returned is the
least, and it is the cost of the returned path. -/
theorem c82_least (hs : Lawful s L rep) (hb : Built s L g k) {a : C} (ha : L.Node a) (cost : EdgeRef C D E → Nat) (h : C → Nat)
    (goal : C → Bool) (hadm : ∀ x t n, L.Node x → goal t = true → CostWalk g cost x t n → h x ≤ n) {n : Nat} {p : List C}
    (ho : AstOutcome (latEdges g cost) h goal a (some (n, p))) :
    Cheapest g cost a goal n ∧ PathOf (Link g cost) p n := by
  obtain ⟨h1, h2⟩ := ast_least (latGraph hs hb cost) ha
    (fun x t n hx hg hw => hadm x t n hx hg ((aWalk_iff hs hb hx).1 hw)) ho
  obtain ⟨t, m, h3, h4, h5, -⟩ := (c82_result hs hb ha cost h goal ho).2 n p rfl
  exact ⟨⟨⟨t, h3, h4⟩, fun t m hg hw => h2 t m hg ((aWalk_iff hs hb ha).2 hw)⟩, pathOf_link hs hb h1 h5 ha⟩

theorem CostWalk.steps (hs : Lawful s L rep) (hb : Built s L g k) {q : Nat}
    (hq : ∀ c r, L.Node c → EdgeOf g c r → q ≤ cost r) {a b : C} {n : Nat} (ha : L.Node a) (hw : CostWalk g cost a b n) :
    ∃ j, Walk g.s a j b ∧ q * j ≤ n := by
  induction hw with
  | nil => exact ⟨0, .nil, Nat.le_refl 0⟩
  | @step b n r h1 he ih =>
    obtain ⟨j, h2, h3⟩ := ih
    have hbn := h1.node hs hb ha
    have hm := (edgeOf_iff hs hb hbn).1 he
    refine ⟨j + 1, ((h2.path hs hb ha).step (c10_edge_exact hs hb hbn hm).2.1).walk hs hb ha, ?_⟩
    rw [Nat.mul_add, Nat.mul_one]
    have := hq b r hbn he
    omega

/-- **C82.** The estimate games use: the number of steps to the goal times the least cost of a step. With it `astar` finds a
cheapest path. -/
theorem c82_steps (hs : Lawful s L rep) (hb : Built s L g k) {a t : C} (ha : L.Node a) (cost : EdgeRef C D E → Nat) {q : Nat}
    (hq : ∀ c r, L.Node c → EdgeOf g c r → q ≤ cost r) (d : C → Nat) (hd : ∀ x, L.Node x → ShortestWalk g.s x t (d x))
    {o : Option (Nat × List C)} (ho : AstOutcome (latEdges g cost) (fun x => q * d x) (fun x => decide (x = t)) a o) :
    ∃ n p, o = some (n, p) ∧ CostWalk g cost a t n ∧ (∀ m, CostWalk g cost a t m → n ≤ m) ∧
      p.head? = some a ∧ p.getLast? = some t ∧ PathOf (Link g cost) p n := by
  have hw : ∃ n, CostWalk g cost a t n := by
    have hp := (hd a ha).1.path hs hb ha
    clear hd ho
    generalize d a = j at hp
    induction hp with
    | nil => exact ⟨0, .nil⟩
    | @step j b c d hp hd ih =>
      obtain ⟨n, hn⟩ := ih
      have hbn := hp.node hs.laws ha
      have hm : c ∈ (outEdges L k b).map EdgeRef.target := by
        rw [(c10_targets hs hb hbn).1]
        exact List.mem_filterMap.2 ⟨d, hs.laws.dir.dirs_mem d, hd⟩
      obtain ⟨r, hr, rfl⟩ := List.mem_map.1 hm
      exact ⟨_, .step hn ((edgeOf_iff hs hb hbn).2 hr)⟩
  match o, ho with
  | none, ho =>
    obtain ⟨n, hw⟩ := hw
    exact absurd hw ((c82_result hs hb ha cost _ _ ho).1 rfl t n (by simp))
  | some (n, p), ho =>
    obtain ⟨t', m, h1, h2, h3, h4, -⟩ := (c82_result hs hb ha cost _ _ ho).2 n p rfl
    have e : t' = t := of_decide_eq_true h1
    subst e
    obtain ⟨h5, h6⟩ := c82_least hs hb ha cost _ _ (fun x u n hx hu hxw => by
      have e : u = t' := of_decide_eq_true hu
      subst e
      obtain ⟨j, h7, h8⟩ := CostWalk.steps hs hb hq hx hxw
      have h9 := Nat.mul_le_mul_left q ((hd x hx).2 j h7)
      show q * d x ≤ n
      omega) ho
    exact ⟨n, p, rfl, h2, fun m hm => h5.2 t' m (by simp) hm, h3, h4, h6⟩
end

/-- **C82** with `q` times the Manhattan distance on square graphs, the estimate of the crate's own test. -/
theorem c82_square {N E : Type} {rep : Offset → Prop} {w h : Nat} {s : Shape Offset SquareAxis DSquareAxis}
    {g : Graph Offset SquareAxis DSquareAxis N E} {k : Contents Offset SquareAxis N E} (hs : Lawful s (squareLat w h) rep)
    (hb : Built s (squareLat w h) g k) (cost : EdgeRef Offset DSquareAxis E → Nat) {q x y x' y' : Nat}
    (hq : ∀ c r, c.horizontal < w → c.vertical < h → EdgeOf g c r → q ≤ cost r) (hx : x < w) (hy : y < h) (hx' : x' < w) (hy' : y' < h)
    {o : Option (Nat × List Offset)}
    (ho : AstOutcome (latEdges g cost) (fun c => q * (((c.horizontal : Int) - x').natAbs + ((c.vertical : Int) - y').natAbs))
      (fun c => decide (c = ⟨x', y'⟩)) ⟨x, y⟩ o) :
    ∃ n p, o = some (n, p) ∧ CostWalk g cost ⟨x, y⟩ ⟨x', y'⟩ n ∧ (∀ m, CostWalk g cost ⟨x, y⟩ ⟨x', y'⟩ m → n ≤ m) ∧
      p.head? = some ⟨x, y⟩ ∧ p.getLast? = some ⟨x', y'⟩ ∧ PathOf (Link g cost) p n :=
  c82_steps hs hb ⟨x, y, hx, hy, rfl⟩ cost (fun c r ⟨_, _, h1, h2, e⟩ he => hq c r (e ▸ h1) (e ▸ h2) he) _
    (fun _ ⟨_, _, h1, h2, e⟩ => e ▸ c59_square hs hb h1 h2 hx' hy') ho

/-- the 3 × 2 square graph whose edges weigh 1000 and more: from the origin to the next cell -/
example : ∃ (g : Graph Offset SquareAxis DSquareAxis Nat Nat) (n : Nat) (p : List Offset),
    AstOutcome (latEdges g EdgeRef.weight) (fun c => 1000 * (((c.horizontal : Int) - (1 : Nat)).natAbs + ((c.vertical : Int) - (0 : Nat)).natAbs))
      (fun c => decide (c = ⟨1, 0⟩)) ⟨0, 0⟩ (some (n, p)) ∧ n = 1000 := by
  obtain ⟨g, hb⟩ := exSquare
  have hs := (Sound.square m64 3 2).lawful
  have h0 : (squareLat 3 2).Node ⟨0, 0⟩ := ⟨0, 0, by decide, by decide, rfl⟩
  have hq : ∀ c r, (squareLat 3 2).Node c → EdgeOf g c r → 1000 ≤ r.weight := fun c r hn he => by
    have hall : ∀ c ∈ (squareLat 3 2).nodes, ∀ r ∈ outEdges (squareLat 3 2) exK c, 1000 ≤ r.weight := by decide
    exact hall c (Lat.mem_nodes.2 hn) r ((edgeOf_iff hs hb hn).1 he)
  have hd : ∀ x, (squareLat 3 2).Node x → ShortestWalk g.s x ⟨1, 0⟩
      (((x.horizontal : Int) - (1 : Nat)).natAbs + ((x.vertical : Int) - (0 : Nat)).natAbs) :=
    fun _ ⟨_, _, h1, h2, e⟩ => e ▸ c59_square hs hb h1 h2 (by decide) (by decide)
  obtain ⟨st, o, h1, h2⟩ := (c82_runs hs hb h0 EdgeRef.weight
    (fun c => 1000 * (((c.horizontal : Int) - (1 : Nat)).natAbs + ((c.vertical : Int) - (0 : Nat)).natAbs))
      (fun c => decide (c = ⟨1, 0⟩))).2 _ .nil
  obtain ⟨n, p, rfl, h3, h4, -⟩ := c82_steps hs hb h0 EdgeRef.weight hq _ hd ⟨st, h1, h2⟩
  refine ⟨g, n, p, ⟨st, h1, h2⟩, ?_⟩
  have h5 := h4 1000 (.step (r := ⟨⟨0, 0⟩, ⟨1, 0⟩, 1000, .X⟩) .nil ((edgeOf_iff hs hb h0).2 (by decide)))
  obtain ⟨j, h6, h7⟩ := CostWalk.steps hs hb hq h0 h3
  have h8 : 1 ≤ j := by
    cases j with
    | zero => cases h6
    | succ j => omega
  omega

/-- A search for something that is not there, one with the zero estimate, and one through `c82_square`. -/
example : ∃ g : Graph Offset SquareAxis DSquareAxis Nat Nat, Built (squareShape m64 3 2) (squareLat 3 2) g exK ∧
    AstOutcome (latEdges g EdgeRef.weight) (fun _ => 0) (fun _ => false) ⟨0, 0⟩ none := by
  obtain ⟨g, hb⟩ := exSquare
  have hs := Sound.square m64 3 2
  have h0 : (squareLat 3 2).Node ⟨0, 0⟩ := ⟨0, 0, by decide, by decide, rfl⟩
  obtain ⟨st, o, h1, h2⟩ := (c82_runs hs.lawful hb h0 EdgeRef.weight (fun _ => 0) (fun _ => false)).2 _ .nil
  have ho : AstOutcome (latEdges g EdgeRef.weight) (fun _ => 0) (fun _ => false) ⟨0, 0⟩ o := ⟨st, h1, h2⟩
  cases (c82_none_iff hs hb h0 EdgeRef.weight _ _ ho).2 fun _ _ => rfl
  exact ⟨g, hb, ho⟩
example : ∃ (g : Graph Offset SquareAxis DSquareAxis Nat Nat) (n : Nat) (p : List Offset),
    Cheapest g EdgeRef.weight ⟨0, 0⟩ (fun c => decide (c = ⟨2, 1⟩)) n ∧ PathOf (Link g EdgeRef.weight) p n ∧ p.head? = some ⟨0, 0⟩ := by
  obtain ⟨g, hb⟩ := exSquare
  have hs := Sound.square m64 3 2
  have h0 : (squareLat 3 2).Node ⟨0, 0⟩ := ⟨0, 0, by decide, by decide, rfl⟩
  obtain ⟨st, o, h1, h2⟩ := (c82_runs hs.lawful hb h0 EdgeRef.weight (fun _ => 0) (fun c => decide (c = ⟨2, 1⟩))).2 _ .nil
  have ho : AstOutcome (latEdges g EdgeRef.weight) (fun _ => 0) (fun c => decide (c = ⟨2, 1⟩)) ⟨0, 0⟩ o := ⟨st, h1, h2⟩
  cases o with
  | none => exact absurd ((c82_none_iff hs hb h0 EdgeRef.weight _ _ ho).1 rfl ⟨2, 1⟩ ⟨2, 1, by decide, by decide, rfl⟩) (by decide)
  | some r =>
    obtain ⟨_, _, -, -, h3, -⟩ := (c82_result hs.lawful hb h0 EdgeRef.weight _ _ ho).2 r.1 r.2 rfl
    have h4 := c82_least hs.lawful hb h0 EdgeRef.weight _ _ (fun _ _ _ _ _ _ => Nat.zero_le _) ho
    exact ⟨g, r.1, r.2, h4.1, h4.2, h3⟩
example : ∃ (g : Graph Offset SquareAxis DSquareAxis Nat Nat) (n : Nat), CostWalk g EdgeRef.weight ⟨0, 0⟩ ⟨2, 1⟩ n ∧
    ∀ m, CostWalk g EdgeRef.weight ⟨0, 0⟩ ⟨2, 1⟩ m → n ≤ m := by
  obtain ⟨g, hb⟩ := exSquare
  have hs := (Sound.square m64 3 2).lawful
  have h0 : (squareLat 3 2).Node ⟨0, 0⟩ := ⟨0, 0, by decide, by decide, rfl⟩
  obtain ⟨st, o, h1, h2⟩ := (c82_runs hs hb h0 EdgeRef.weight
    (fun c => 1000 * (((c.horizontal : Int) - (2 : Nat)).natAbs + ((c.vertical : Int) - (1 : Nat)).natAbs)) (fun c => decide (c = ⟨2, 1⟩))).2 _ .nil
  obtain ⟨n, p, -, h3, h4, -⟩ := c82_square hs hb EdgeRef.weight (q := 1000) (x := 0) (y := 0) (x' := 2) (y' := 1) (fun c r hx hy he => by
    have hall : ∀ c ∈ (squareLat 3 2).nodes, ∀ r ∈ outEdges (squareLat 3 2) exK c, 1000 ≤ r.weight := by decide
    have hn : (squareLat 3 2).Node c := ⟨c.horizontal, c.vertical, hx, hy, rfl⟩
    exact hall c (Lat.mem_nodes.2 hn) r ((edgeOf_iff hs hb hn).1 he)) (by decide) (by decide) (by decide) (by decide) ⟨st, h1, h2⟩
  exact ⟨g, n, h3, h4⟩

end LG
