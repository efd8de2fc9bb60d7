import Verif.Model.Astar
/- The loop of `astar` over any finite graph. -/
set_option linter.unusedSectionVars false
namespace LG
section
variable {V : Type} [DecidableEq V] {ex : V → List (V × Nat) → Prop} {P : V → Prop} {nodes : List V}
variable {h : V → Nat} {goal : V → Bool} {a : V}

/-- `edges(u)` yields an edge to `t` of cost `w`. -/
def Leads (ex : V → List (V × Nat) → Prop) (u t : V) (w : Nat) : Prop := ∃ l, ex u l ∧ (t, w) ∈ l

/-- Walks, with their total cost. -/
inductive AWalk (ex : V → List (V × Nat) → Prop) : V → V → Nat → Prop where
  | nil {u : V} : AWalk ex u u 0
  | cons {u x t : V} {w n : Nat} : Leads ex u x w → AWalk ex x t n → AWalk ex u t (w + n)

/-- `p` is a list of nodes each of which has an edge to the next, of total cost `n`. -/
inductive PathOf (E : V → V → Nat → Prop) : List V → Nat → Prop where
  | one {u : V} : PathOf E [u] 0
  | cons {u x : V} {w n : Nat} {p : List V} : E u x w → PathOf E (x :: p) n → PathOf E (u :: x :: p) (w + n)

/-- What the proofs need of the graph: on the nodes `P`, finitely many, `edges` yields one list, of nodes. -/
structure AstGraph (ex : V → List (V × Nat) → Prop) (P : V → Prop) (nodes : List V) : Prop where
  total : ∀ c, P c → ∃ l, ex c l
  one : ∀ c l l', P c → ex c l → ex c l' → l = l'
  node : ∀ c t w, P c → Leads ex c t w → P t
  mem : ∀ c, P c → c ∈ nodes

theorem AWalk.trans {u x t : V} {n m : Nat} (h1 : AWalk ex u x n) (h2 : AWalk ex x t m) : AWalk ex u t (n + m) := by
  induction h1 with
  | nil => rwa [Nat.zero_add]
  | cons e _ ih => rw [Nat.add_assoc]; exact .cons e (ih h2)

theorem AWalk.snoc {u x t : V} {n w : Nat} (h1 : AWalk ex u x n) (h2 : Leads ex x t w) : AWalk ex u t (n + w) :=
  h1.trans (n := n) (m := w) (by have := AWalk.cons h2 .nil; rwa [Nat.add_zero] at this)

/-- All edges of `x` have been relaxed from the score `s`. -/
def Closed (ex : V → List (V × Nat) → Prop) (goal : V → Bool) (sc : V → Option Nat) (x : V) (s : Nat) : Prop :=
  goal x = false ∧ ∀ t w, Leads ex x t w → ∃ i, sc t = some i ∧ i ≤ s + w

/-- The invariant of the loop. `Ok x` says the claims about what has been done for `x` are wanted. -/
structure AInv (ex : V → List (V × Nat) → Prop) (P : V → Prop) (h : V → Nat) (goal : V → Bool) (a : V) (Ok : V → Prop)
    (st : Ast V) : Prop where
  node : ∀ x i, st.scores x = some i → P x
  walk : ∀ x i, st.scores x = some i → AWalk ex a x i
  entry : ∀ f x, (f, x) ∈ st.heap → ∃ i, st.scores x = some i ∧ i + h x ≤ f
  start : st.scores a = some 0
  opened : ∀ x s, Ok x → st.scores x = some s → (s + h x, x) ∈ st.heap ∨ Closed ex goal st.scores x s
  est : ∀ x f, Ok x → st.est x = some f → ∃ s, s + h x ≤ f ∧ Closed ex goal st.scores x s
  came : ∀ t u, st.came t = some u → ∃ w i j, Leads ex u t w ∧ st.scores u = some i ∧ st.scores t = some j ∧ i + w ≤ j
  root : ∀ x s, st.scores x = some s → st.came x = none → x = a
  start_root : st.came a = none
  traced : ∀ x s, st.scores x = some s → ∃ p, Rebuilt st.came x p

/-- Scores only get smaller. -/
def Below (sc sc' : V → Option Nat) : Prop := ∀ x i, sc x = some i → ∃ j, sc' x = some j ∧ j ≤ i

theorem Below.refl (sc : V → Option Nat) : Below sc sc := fun _ i hi => ⟨i, hi, Nat.le_refl i⟩

theorem Below.trans {sc sc' sc'' : V → Option Nat} (h1 : Below sc sc') (h2 : Below sc' sc'') : Below sc sc'' := fun x i hi => by
  obtain ⟨j, hj, h3⟩ := h1 x i hi
  obtain ⟨k, hk, h4⟩ := h2 x j hj
  exact ⟨k, hk, by omega⟩

theorem Closed.mono {sc sc' : V → Option Nat} {x : V} {s : Nat} (hc : Closed ex goal sc x s) (hb : Below sc sc') :
    Closed ex goal sc' x s := ⟨hc.1, fun t w he => by
  obtain ⟨i, hi, h1⟩ := hc.2 t w he
  obtain ⟨j, hj, h2⟩ := hb t i hi
  exact ⟨j, hj, by omega⟩⟩

/-- On the way back to the start scores do not grow. -/
theorem Rebuilt.le {st : Ast V} {Ok : V → Prop} (hv : AInv ex P h goal a Ok st) {x : V} {p : List V}
    (hr : Rebuilt st.came x p) : ∀ {s}, st.scores x = some s → ∀ y ∈ p, ∃ j, st.scores y = some j ∧ j ≤ s := by
  induction hr with
  | root _ =>
    intro s hs y hy
    rw [List.mem_singleton.1 hy]
    exact ⟨s, hs, Nat.le_refl s⟩
  | step hc _ ih =>
    intro s hs y hy
    rcases List.mem_append.1 hy with hy | hy
    · obtain ⟨w, i, j, -, h2, h3, h4⟩ := hv.came _ _ hc
      rw [hs] at h3; cases h3
      obtain ⟨j, h5, h6⟩ := ih h2 y hy
      exact ⟨j, h5, by omega⟩
    · rw [List.mem_singleton.1 hy]
      exact ⟨s, hs, Nat.le_refl s⟩

/-- Changing the predecessor of a node off the way changes nothing. -/
theorem Rebuilt.off {came : V → Option V} {x t u : V} {p : List V} (hr : Rebuilt came x p) (ht : t ∉ p) :
    Rebuilt (fun c => if c = t then some u else came c) x p := by
  induction hr with
  | root hc =>
    refine .root ?_
    rw [if_neg (fun e => ht (by simp [e]))]
    exact hc
  | step hc _ ih =>
    refine .step ?_ (ih fun e => ht (List.mem_append_left _ e))
    rw [if_neg (fun e => ht (by simp [e]))]
    exact hc

/-- With the predecessor of `t` set to `u`, whose way back does not go through `t`, every way back still ends. -/
theorem Rebuilt.reset {came : V → Option V} {x t u : V} {p q : List V} (hr : Rebuilt came x p) (hu : Rebuilt came u q)
    (ht : t ∉ q) : ∃ p', Rebuilt (fun c => if c = t then some u else came c) x p' := by
  have hu' := hu.off (u := u) ht
  induction hr with
  | @root v hc =>
    by_cases e : v = t
    · exact ⟨q ++ [v], .step (by rw [if_pos e]) hu'⟩
    · exact ⟨[v], .root (by rw [if_neg e]; exact hc)⟩
  | @step v x p hc _ ih =>
    by_cases e : v = t
    · exact ⟨q ++ [v], .step (by rw [if_pos e]) hu'⟩
    · obtain ⟨p', hp⟩ := ih
      exact ⟨p' ++ [v], .step (by rw [if_neg e]; exact hc) hp⟩

/-- One improvement from the node `c` of score `n`. -/
theorem AInv.improve {st : Ast V} {c t : V} {n w : Nat} {Ok : V → Prop} (hg : AstGraph ex P nodes)
    (hv : AInv ex P h goal a Ok st) (hc : st.scores c = some n) (he : Leads ex c t w)
    (hlt : ∀ old, st.scores t = some old → n + w < old) :
    AInv ex P h goal a Ok (st.improve h c t (n + w)) ∧ Below st.scores (st.improve h c t (n + w)).scores ∧
      (st.improve h c t (n + w)).scores c = some n := by
  have hct : c ≠ t := fun e => by have := hlt n (e ▸ hc); omega
  have hta : t ≠ a := fun e => by have := hlt 0 (e ▸ hv.start); omega
  have hb : Below st.scores (st.improve h c t (n + w)).scores := fun x i hi => by
    show ∃ j, (if x = t then some (n + w) else st.scores x) = some j ∧ _
    by_cases e : x = t
    · rw [if_pos e]
      exact ⟨_, rfl, Nat.le_of_lt (hlt i (e ▸ hi))⟩
    · rw [if_neg e]
      exact ⟨i, hi, Nat.le_refl i⟩
  have hcn : (st.improve h c t (n + w)).scores c = some n := by
    show (if c = t then some (n + w) else st.scores c) = _
    rw [if_neg hct]; exact hc
  have htn : (st.improve h c t (n + w)).scores t = some (n + w) := if_pos rfl
  have hne : ∀ {x}, x ≠ t → (st.improve h c t (n + w)).scores x = st.scores x := fun e => if_neg e
  refine ⟨?_, hb, hcn⟩
  constructor
  · intro x i hi
    by_cases e : x = t
    · rw [e]; exact hg.node c t w (hv.node c n hc) he
    · rw [hne e] at hi; exact hv.node x i hi
  · intro x i hi
    by_cases e : x = t
    · rw [e, htn] at hi; cases hi
      rw [e]; exact (hv.walk c n hc).snoc he
    · rw [hne e] at hi; exact hv.walk x i hi
  · intro f x hm
    rcases List.mem_cons.1 hm with e | hm
    · cases e; exact ⟨_, htn, Nat.le_refl _⟩
    · obtain ⟨i, hi, h1⟩ := hv.entry f x hm
      obtain ⟨j, hj, h2⟩ := hb x i hi
      exact ⟨j, hj, by omega⟩
  · rw [hne (Ne.symm hta)]; exact hv.start
  · intro x s hok hs
    by_cases e : x = t
    · rw [e, htn] at hs; cases hs
      exact .inl (by rw [e]; exact List.mem_cons_self)
    · rw [hne e] at hs
      rcases hv.opened x s hok hs with h1 | h1
      · exact .inl (List.mem_cons_of_mem _ h1)
      · exact .inr (h1.mono hb)
  · intro x f hok hf
    obtain ⟨s, h1, h2⟩ := hv.est x f hok hf
    exact ⟨s, h1, h2.mono hb⟩
  · intro x u hu
    change (if x = t then some c else st.came x) = some u at hu
    by_cases e : x = t
    · rw [if_pos e] at hu; cases hu
      rw [e]; exact ⟨w, n, n + w, he, hcn, htn, Nat.le_refl _⟩
    · rw [if_neg e] at hu
      obtain ⟨w', i, j, h1, h2, h3, h4⟩ := hv.came x u hu
      obtain ⟨i', h5, h6⟩ := hb u i h2
      exact ⟨w', i', j, h1, h5, by rw [hne e]; exact h3, by omega⟩
  · intro x s hs hx
    change (if x = t then some c else st.came x) = none at hx
    by_cases e : x = t
    · rw [if_pos e] at hx; cases hx
    · rw [if_neg e] at hx
      rw [hne e] at hs
      exact hv.root x s hs hx
  · show (if a = t then some c else st.came a) = none
    rw [if_neg (Ne.symm hta)]; exact hv.start_root
  · obtain ⟨q, hq⟩ := hv.traced c n hc
    have hnq : t ∉ q := fun hm => by
      obtain ⟨j, hj, h1⟩ := hq.le hv hc t hm
      have := hlt j hj; omega
    intro x s hs
    by_cases e : x = t
    · exact ⟨q ++ [x], .step (if_pos e) (hq.off hnq)⟩
    · rw [hne e] at hs
      obtain ⟨p, hp⟩ := hv.traced x s hs
      exact hp.reset hq hnq

/-- The loop over the edges. -/
theorem astRelax_inv (hg : AstGraph ex P nodes) {c : V} {n : Nat} {Ok : V → Prop} : ∀ (l : List (V × Nat)) (st : Ast V),
    AInv ex P h goal a Ok st → st.scores c = some n → (∀ e ∈ l, Leads ex c e.1 e.2) →
    AInv ex P h goal a Ok (astRelax h c n l st) ∧ Below st.scores (astRelax h c n l st).scores ∧
      (astRelax h c n l st).scores c = some n ∧ (astRelax h c n l st).est = st.est ∧
      (∀ e ∈ l, ∃ i, (astRelax h c n l st).scores e.1 = some i ∧ i ≤ n + e.2) := by
  intro l
  induction l with
  | nil => exact fun st hv hc _ => ⟨hv, .refl _, hc, rfl, fun e he => nomatch he⟩
  | cons e l ih =>
    obtain ⟨t, w⟩ := e
    intro st hv hc hl
    have hl' : ∀ e ∈ l, Leads ex c e.1 e.2 := fun e he => hl e (List.mem_cons_of_mem _ he)
    have keep : ∀ {old}, st.scores t = some old → old ≤ n + w → AInv ex P h goal a Ok (astRelax h c n l st) ∧
        Below st.scores (astRelax h c n l st).scores ∧ (astRelax h c n l st).scores c = some n ∧
        (astRelax h c n l st).est = st.est ∧
        (∀ e ∈ (t, w) :: l, ∃ i, (astRelax h c n l st).scores e.1 = some i ∧ i ≤ n + e.2) := by
      intro old ho hle
      obtain ⟨h1, h2, h3, h4, h5⟩ := ih st hv hc hl'
      refine ⟨h1, h2, h3, h4, fun e he => ?_⟩
      rcases List.mem_cons.1 he with e' | he
      · subst e'
        obtain ⟨j, hj, h6⟩ := h2 t old ho
        exact ⟨j, hj, by show j ≤ n + w; omega⟩
      · exact h5 e he
    have change : (∀ old, st.scores t = some old → n + w < old) →
        AInv ex P h goal a Ok (astRelax h c n l (st.improve h c t (n + w))) ∧
        Below st.scores (astRelax h c n l (st.improve h c t (n + w))).scores ∧
        (astRelax h c n l (st.improve h c t (n + w))).scores c = some n ∧
        (astRelax h c n l (st.improve h c t (n + w))).est = st.est ∧
        (∀ e ∈ (t, w) :: l, ∃ i, (astRelax h c n l (st.improve h c t (n + w))).scores e.1 = some i ∧ i ≤ n + e.2) := by
      intro hlt
      obtain ⟨g1, g2, g3⟩ := hv.improve hg hc (hl (t, w) List.mem_cons_self) hlt
      obtain ⟨h1, h2, h3, h4, h5⟩ := ih _ g1 g3 hl'
      refine ⟨h1, g2.trans h2, h3, h4, fun e he => ?_⟩
      rcases List.mem_cons.1 he with e' | he
      · subst e'
        exact h2 t (n + w) (if_pos rfl)
      · exact h5 e he
    unfold astRelax
    cases ho : st.scores t with
    | none => exact change (fun old e => by rw [ho] at e; cases e)
    | some old =>
      by_cases hle : old ≤ n + w
      · simp only [if_pos hle]; exact keep ho hle
      · simp only [if_neg hle]; exact change (fun old' e => by rw [ho] at e; cases e; omega)

theorem AInv.new (hP : P a) : AInv ex P h goal a (fun _ => True) (astNew h a) := by
  have hs : ∀ {x i}, (astNew h a).scores x = some i → x = a ∧ i = 0 := fun {x i} hx => by
    change (if x = a then some 0 else none) = some i at hx
    split at hx
    · cases hx; exact ⟨by assumption, rfl⟩
    · cases hx
  constructor
  · intro x i hi; rw [(hs hi).1]; exact hP
  · intro x i hi; obtain ⟨rfl, rfl⟩ := hs hi; exact .nil
  · intro f x hm; cases List.mem_singleton.1 hm; exact ⟨0, if_pos rfl, by omega⟩
  · exact if_pos rfl
  · intro x s _ hi; obtain ⟨rfl, rfl⟩ := hs hi
    exact .inl (by rw [Nat.zero_add]; exact List.mem_singleton_self _)
  · intro x f _ hf; cases hf
  · intro t u hu; cases hu
  · intro x s hi _; exact (hs hi).1
  · rfl
  · intro x s _; exact ⟨[x], .root rfl⟩

theorem Pop.rest {hp rest : List (Nat × V)} {e e' : Nat × V} (hpop : Pop hp e rest) (hm : e' ∈ hp) (hne : e' ≠ e) :
    e' ∈ rest := by
  obtain ⟨⟨h1, h2, rfl, rfl⟩, -⟩ := hpop
  rcases List.mem_append.1 hm with h | h
  · exact List.mem_append_left _ h
  · rcases List.mem_cons.1 h with h | h
    · exact absurd h hne
    · exact List.mem_append_right _ h

theorem Pop.of_rest {hp rest : List (Nat × V)} {e e' : Nat × V} (hpop : Pop hp e rest) (hm : e' ∈ rest) : e' ∈ hp := by
  obtain ⟨⟨h1, h2, rfl, rfl⟩, -⟩ := hpop
  rcases List.mem_append.1 hm with h | h
  · exact List.mem_append_left _ h
  · exact List.mem_append_right _ (List.mem_cons_of_mem _ h)

theorem Pop.self {hp rest : List (Nat × V)} {e : Nat × V} (hpop : Pop hp e rest) : e ∈ hp := by
  obtain ⟨⟨h1, h2, rfl, rfl⟩, -⟩ := hpop
  exact List.mem_append_right _ List.mem_cons_self

theorem AInv.step (hg : AstGraph ex P nodes) {st st' : Ast V} (hv : AInv ex P h goal a (fun _ => True) st)
    (hs : AstStep ex h goal st st') : AInv ex P h goal a (fun _ => True) st' := by
  cases hs with
  | @skip f f0 c rest hpop hgoal hest hle =>
    refine ⟨hv.node, hv.walk, fun f x hm => hv.entry f x (hpop.of_rest hm), hv.start, ?_, hv.est, hv.came, hv.root,
      hv.start_root, hv.traced⟩
    intro x s _ hx
    rcases hv.opened x s trivial hx with h1 | h1
    · by_cases e : (s + h x, x) = (f, c)
      · cases e
        obtain ⟨s0, h2, h3⟩ := hv.est c f0 trivial hest
        exact .inr ⟨hgoal, fun t w he => by
          obtain ⟨i, hi, h4⟩ := h3.2 t w he
          exact ⟨i, hi, by omega⟩⟩
      · exact .inl (hpop.rest h1 e)
    · exact .inr h1
  | @next f n c rest l hpop hgoal hest hsc hex =>
    have hP := hv.node c n hsc
    have hl : ∀ e ∈ l, Leads ex c e.1 e.2 := fun e he => ⟨l, hex, he⟩
    have h0 : AInv ex P h goal a (fun x => x ≠ c)
        { st with heap := rest, est := fun x => if x = c then some f else st.est x } := by
      refine ⟨hv.node, hv.walk, fun f x hm => hv.entry f x (hpop.of_rest hm), hv.start, ?_, ?_, hv.came, hv.root,
        hv.start_root, hv.traced⟩
      · intro x s hx hs
        rcases hv.opened x s trivial hs with h1 | h1
        · exact .inl (hpop.rest h1 fun e => hx (by cases e; rfl))
        · exact .inr h1
      · intro x f' hx hf
        change (if x = c then some f else st.est x) = some f' at hf
        rw [if_neg hx] at hf
        exact hv.est x f' trivial hf
    obtain ⟨h1, h2, h3, h4, h5⟩ := astRelax_inv hg (c := c) (n := n) l _ h0 hsc hl
    have hclosed : Closed ex goal
        (astRelax h c n l { st with heap := rest, est := fun x => if x = c then some f else st.est x }).scores c n :=
      ⟨hgoal, fun t w ⟨l', h6, h7⟩ => h5 (t, w) (hg.one c l' l hP h6 hex ▸ h7)⟩
    refine ⟨h1.node, h1.walk, h1.entry, h1.start, ?_, ?_, h1.came, h1.root, h1.start_root, h1.traced⟩
    · intro x s _ hs
      by_cases e : x = c
      · subst e; rw [h3] at hs; cases hs; exact .inr hclosed
      · exact h1.opened x s e hs
    · intro x f' _ hf
      by_cases e : x = c
      · subst e
        rw [h4] at hf
        change (if x = x then some f else st.est x) = some f' at hf
        rw [if_pos rfl] at hf; cases hf
        obtain ⟨i, hi, h6⟩ := hv.entry f x hpop.self
        rw [hsc] at hi; cases hi
        exact ⟨n, h6, hclosed⟩
      · exact h1.est x f' e hf

theorem AInv.steps (hg : AstGraph ex P nodes) {st st' : Ast V} (hv : AInv ex P h goal a (fun _ => True) st)
    (hs : AstSteps ex h goal st st') : AInv ex P h goal a (fun _ => True) st' := by
  induction hs with
  | nil => exact hv
  | step _ h1 ih => exact ih.step hg h1

/-- On every walk to a goal there is a node in the heap from which the rest of the walk costs no more than it should. -/
theorem AInv.frontier {st : Ast V} (hv : AInv ex P h goal a (fun _ => True) st) {x t : V} {m : Nat} (hw : AWalk ex x t m) :
    ∀ {s}, goal t = true → st.scores x = some s →
      ∃ y i j, (i + h y, y) ∈ st.heap ∧ st.scores y = some i ∧ AWalk ex y t j ∧ i + j ≤ s + m := by
  induction hw with
  | @nil u =>
    intro s ht hs
    rcases hv.opened u s trivial hs with h1 | h1
    · exact ⟨u, s, 0, h1, hs, .nil, Nat.le_refl _⟩
    · rw [h1.1] at ht; cases ht
  | @cons u x t w n he hw ih =>
    intro s ht hs
    rcases hv.opened u s trivial hs with h1 | h1
    · exact ⟨u, s, w + n, h1, hs, .cons he hw, Nat.le_refl _⟩
    · obtain ⟨i, hi, h2⟩ := h1.2 x w he
      obtain ⟨y, i', j, h3, h4, h5, h6⟩ := ih ht hi
      exact ⟨y, i', j, h3, h4, h5, by omega⟩

/-! ### Every run ends -/

/-- How many of the nodes have no score. -/
def unscored (sc : V → Option Nat) : List V → Nat
  | [] => 0
  | x :: l => (match sc x with | none => 1 | some _ => 0) + unscored sc l

/-- The sum of the scores of the nodes. -/
def scoreSum (sc : V → Option Nat) : List V → Nat
  | [] => 0
  | x :: l => (match sc x with | none => 0 | some n => n) + scoreSum sc l

theorem unscored_le {sc sc' : V → Option Nat} (hb : Below sc sc') : ∀ l, unscored sc' l ≤ unscored sc l
  | [] => Nat.le_refl _
  | x :: l => by
    have := unscored_le hb l
    unfold unscored
    cases h1 : sc x with
    | none => split <;> omega
    | some i =>
      obtain ⟨j, hj, -⟩ := hb x i h1
      simp only [hj]; omega

theorem unscored_lt {sc sc' : V → Option Nat} (hb : Below sc sc') {x : V} (h0 : sc x = none) {n : Nat} (h1 : sc' x = some n) :
    ∀ {l}, x ∈ l → unscored sc' l < unscored sc l := by
  intro l
  induction l with
  | nil => intro hm; cases hm
  | cons y l ih =>
    intro hm
    have hle := unscored_le hb l
    unfold unscored
    by_cases e : y = x
    · subst e; simp only [h0, h1]; omega
    · have hm' : x ∈ l := by
        rcases List.mem_cons.1 hm with e' | e'
        · exact absurd e'.symm e
        · exact e'
      have := ih hm'
      cases h2 : sc y with
      | none => split <;> omega
      | some i =>
        obtain ⟨j, hj, -⟩ := hb y i h2
        simp only [hj]; omega

theorem scoreSum_le {sc sc' : V → Option Nat} (hb : Below sc sc') : ∀ {l}, unscored sc' l = unscored sc l →
    scoreSum sc' l ≤ scoreSum sc l := by
  intro l
  induction l with
  | nil => intro _; exact Nat.le_refl _
  | cons y l ih =>
    intro he
    have hle := unscored_le hb l
    unfold unscored at he
    unfold scoreSum
    cases h2 : sc y with
    | none =>
      cases h3 : sc' y with
      | none => simp only [h2, h3] at he ⊢; have := ih (by omega); omega
      | some j => simp only [h2, h3] at he; omega
    | some i =>
      obtain ⟨j, hj, h4⟩ := hb y i h2
      simp only [h2, hj] at he ⊢
      have := ih (by omega); omega

theorem scoreSum_lt {sc sc' : V → Option Nat} (hb : Below sc sc') {x : V} {n m : Nat} (h0 : sc x = some n) (h1 : sc' x = some m)
    (hlt : m < n) : ∀ {l}, x ∈ l → unscored sc' l = unscored sc l → scoreSum sc' l < scoreSum sc l := by
  intro l
  induction l with
  | nil => intro hm; cases hm
  | cons y l ih =>
    intro hm he
    have hle := unscored_le hb l
    have hle' := scoreSum_le hb (l := l)
    unfold unscored at he
    unfold scoreSum
    by_cases e : y = x
    · subst e
      simp only [h0, h1] at he ⊢
      have := hle' (by omega); omega
    · have hm' : x ∈ l := by
        rcases List.mem_cons.1 hm with e' | e'
        · exact absurd e'.symm e
        · exact e'
      cases h2 : sc y with
      | none =>
        cases h3 : sc' y with
        | none => simp only [h2, h3] at he ⊢; have := ih hm' (by omega); omega
        | some j => simp only [h2, h3] at he; omega
      | some i =>
        obtain ⟨j, hj, h4⟩ := hb y i h2
        simp only [h2, hj] at he ⊢
        have := ih hm' (by omega); omega

/-- The states a turn makes smaller: fewer unscored nodes, or a smaller sum of scores, or a shorter heap. -/
def astMeasure (nodes : List V) (st : Ast V) : Nat × Nat × Nat := (unscored st.scores nodes, scoreSum st.scores nodes, st.heap.length)

def astLess : Nat × Nat × Nat → Nat × Nat × Nat → Prop := Prod.Lex (· < ·) (Prod.Lex (· < ·) (· < ·))

theorem astLess_wf : WellFounded astLess := (Prod.lex ⟨_, Nat.lt_wfRel.wf⟩ (Prod.lex ⟨_, Nat.lt_wfRel.wf⟩ ⟨_, Nat.lt_wfRel.wf⟩)).wf

/-- The loop over the edges either changes nothing or makes scores smaller. -/
theorem astRelax_less (hg : AstGraph ex P nodes) {c : V} {n : Nat} {Ok : V → Prop} : ∀ (l : List (V × Nat)) (st : Ast V),
    AInv ex P h goal a Ok st → st.scores c = some n → (∀ e ∈ l, Leads ex c e.1 e.2) →
    astRelax h c n l st = st ∨ unscored (astRelax h c n l st).scores nodes < unscored st.scores nodes ∨
      (unscored (astRelax h c n l st).scores nodes = unscored st.scores nodes ∧
        scoreSum (astRelax h c n l st).scores nodes < scoreSum st.scores nodes) := by
  intro l
  induction l with
  | nil => exact fun st _ _ _ => .inl rfl
  | cons e l ih =>
    obtain ⟨t, w⟩ := e
    intro st hv hc hl
    have hl' : ∀ e ∈ l, Leads ex c e.1 e.2 := fun e he => hl e (List.mem_cons_of_mem _ he)
    have change : (∀ old, st.scores t = some old → n + w < old) →
        unscored (astRelax h c n l (st.improve h c t (n + w))).scores nodes < unscored st.scores nodes ∨
        (unscored (astRelax h c n l (st.improve h c t (n + w))).scores nodes = unscored st.scores nodes ∧
          scoreSum (astRelax h c n l (st.improve h c t (n + w))).scores nodes < scoreSum st.scores nodes) := by
      intro hlt
      have he : Leads ex c t w := hl (t, w) List.mem_cons_self
      obtain ⟨g1, g2, g3⟩ := hv.improve hg hc he hlt
      obtain ⟨-, h2, -, -, -⟩ := astRelax_inv hg l _ g1 g3 hl'
      have htm : t ∈ nodes := hg.mem t (hg.node c t w (hv.node c n hc) he)
      have hb := g2.trans h2
      obtain ⟨j, hj, hjle⟩ := h2 t (n + w) (if_pos rfl)
      cases h0 : st.scores t with
      | none => exact .inl (unscored_lt hb h0 hj htm)
      | some old =>
        have := hlt old h0
        have hle := unscored_le hb nodes
        by_cases e : unscored (astRelax h c n l (st.improve h c t (n + w))).scores nodes = unscored st.scores nodes
        · exact .inr ⟨e, scoreSum_lt hb h0 hj (by omega) htm e⟩
        · exact .inl (by omega)
    unfold astRelax
    cases ho : st.scores t with
    | none => exact .inr (change (fun old e => by rw [ho] at e; cases e))
    | some old =>
      by_cases hle : old ≤ n + w
      · simp only [if_pos hle]; exact ih st hv hc hl'
      · simp only [if_neg hle]; exact .inr (change (fun old' e => by rw [ho] at e; cases e; omega))

theorem Pop.shorter {hp rest : List (Nat × V)} {e : Nat × V} (hpop : Pop hp e rest) : rest.length < hp.length := by
  obtain ⟨⟨h1, h2, rfl, rfl⟩, -⟩ := hpop
  simp only [List.length_append, List.length_cons]; omega

theorem AstStep.less (hg : AstGraph ex P nodes) {st st' : Ast V} (hv : AInv ex P h goal a (fun _ => True) st)
    (hs : AstStep ex h goal st st') : astLess (astMeasure nodes st') (astMeasure nodes st) := by
  cases hs with
  | skip hpop _ _ _ => exact .right _ (.right _ hpop.shorter)
  | @next f n c rest l hpop hgoal hest hsc hex =>
    have hl : ∀ e ∈ l, Leads ex c e.1 e.2 := fun e he => ⟨l, hex, he⟩
    have h0 : AInv ex P h goal a (fun x => x ≠ c)
        { st with heap := rest, est := fun x => if x = c then some f else st.est x } := by
      refine ⟨hv.node, hv.walk, fun f x hm => hv.entry f x (hpop.of_rest hm), hv.start, ?_, ?_, hv.came, hv.root,
        hv.start_root, hv.traced⟩
      · intro x s hx hs
        rcases hv.opened x s trivial hs with h1 | h1
        · exact .inl (hpop.rest h1 fun e => hx (by cases e; rfl))
        · exact .inr h1
      · intro x f' hx hf
        change (if x = c then some f else st.est x) = some f' at hf
        rw [if_neg hx] at hf
        exact hv.est x f' trivial hf
    rcases astRelax_less hg (c := c) (n := n) l _ h0 hsc hl with h1 | h1 | ⟨h1, h2⟩
    · rw [h1]; exact .right _ (.right _ hpop.shorter)
    · exact .left _ _ h1
    · unfold astMeasure
      rw [h1]
      exact .right _ (.left _ _ h2)

/-- There is no infinite run. -/
theorem ast_ends (hg : AstGraph ex P nodes) (hP : P a) (run : Nat → Ast V) (h0 : run 0 = astNew h a) :
    ¬ ∀ i, AstStep ex h goal (run i) (run (i + 1)) := by
  intro hrun
  have hv : ∀ i, AInv ex P h goal a (fun _ => True) (run i) := fun i => by
    induction i with
    | zero => rw [h0]; exact .new hP
    | succ i ih => exact ih.step hg (hrun i)
  have key : ∀ m, ∀ i, astMeasure nodes (run i) = m → False := fun m => by
    induction m using astLess_wf.induction with
    | _ m ih =>
      intro i hi
      exact ih _ (hi ▸ (hrun i).less hg (hv i)) (i + 1) rfl
  exact key _ 0 rfl

theorem pop_some : ∀ {hp : List (Nat × V)}, hp ≠ [] → ∃ e rest, Pop hp e rest := by
  intro hp
  induction hp with
  | nil => intro hne; exact absurd rfl hne
  | cons e l ih =>
    intro _
    by_cases hl : l = []
    · subst hl
      exact ⟨e, [], ⟨[], [], rfl, rfl⟩, fun e' he => by rw [List.mem_singleton.1 he]; exact Nat.le_refl _⟩
    · obtain ⟨e', rest, ⟨h1, h2, he, hr⟩, hmin⟩ := ih hl
      by_cases hle : e.1 ≤ e'.1
      · exact ⟨e, l, ⟨[], l, rfl, rfl⟩, fun x hx => by
          rcases List.mem_cons.1 hx with rfl | hx
          · exact Nat.le_refl _
          · exact Nat.le_trans hle (hmin x hx)⟩
      · exact ⟨e', e :: rest, ⟨e :: h1, h2, by rw [he]; rfl, by rw [hr]; rfl⟩, fun x hx => by
          rcases List.mem_cons.1 hx with rfl | hx
          · omega
          · exact hmin x hx⟩

/-- A run that has not returned goes on or returns. -/
theorem ast_progress (hg : AstGraph ex P nodes) {st : Ast V} (hv : AInv ex P h goal a (fun _ => True) st) :
    (∃ o, AstReturns goal st o) ∨ ∃ st', AstStep ex h goal st st' := by
  by_cases he : st.heap = []
  · exact .inl ⟨none, .none he⟩
  · obtain ⟨⟨f, c⟩, rest, hpop⟩ := pop_some he
    obtain ⟨n, hn, -⟩ := hv.entry f c hpop.self
    cases hgc : goal c with
    | true =>
      obtain ⟨p, hp⟩ := hv.traced c n hn
      exact .inl ⟨_, .some hpop hgc hn hp⟩
    | false =>
      right
      by_cases hest : ∀ f0, st.est c = some f0 → f < f0
      · obtain ⟨l, hl⟩ := hg.total c (hv.node c n hn)
        exact ⟨_, .next hpop hgc hest hn hl⟩
      · cases h1 : st.est c with
        | none => exact absurd (fun f0 e => by rw [h1] at e; cases e) hest
        | some f0 =>
          by_cases hlt : f < f0
          · exact absurd (fun f0' e => by rw [h1] at e; cases e; exact hlt) hest
          · exact ⟨_, .skip hpop hgc h1 (by omega)⟩

/-- Every run can be completed. -/
theorem ast_completes (hg : AstGraph ex P nodes) (hP : P a) {st : Ast V} (hs : AstSteps ex h goal (astNew h a) st) :
    ∃ st' o, AstSteps ex h goal st st' ∧ AstReturns goal st' o := by
  have hv := (AInv.new (ex := ex) (h := h) (goal := goal) hP).steps hg hs
  clear hs
  have key : ∀ m (st : Ast V), astMeasure nodes st = m → AInv ex P h goal a (fun _ => True) st →
      ∃ st' o, AstSteps ex h goal st st' ∧ AstReturns goal st' o := fun m => by
    induction m using astLess_wf.induction with
    | _ m ih =>
      intro st hm hv
      rcases ast_progress hg hv with ⟨o, ho⟩ | ⟨st', h1⟩
      · exact ⟨st, o, .nil, ho⟩
      · obtain ⟨st'', o, h2, h3⟩ := ih _ (hm ▸ h1.less hg hv) st' rfl (hv.step hg h1)
        refine ⟨st'', o, ?_, h3⟩
        clear h3 ih
        induction h2 with
        | nil => exact .step .nil h1
        | step _ h4 ih => exact .step ih h4
  exact key _ st rfl hv

theorem PathOf.snoc {E : V → V → Nat → Prop} {p : List V} {n w : Nat} {u v : V} (hp : PathOf E p n) :
    p.getLast? = some u → E u v w → PathOf E (p ++ [v]) (n + w) := by
  induction hp with
  | one =>
    intro h1 h2
    cases h1
    have := PathOf.cons h2 (.one (u := v))
    rw [Nat.add_zero] at this
    rw [Nat.zero_add]
    exact this
  | cons he _ ih =>
    intro h1 h2
    rw [List.getLast?_cons_cons] at h1
    rw [Nat.add_assoc]
    exact .cons he (ih h1 h2)

/-- The way back from a node is a path from the start, whose cost is at most its score. -/
theorem Rebuilt.path {st : Ast V} (hv : AInv ex P h goal a (fun _ => True) st) {x : V} {p : List V}
    (hr : Rebuilt st.came x p) : ∀ {s}, st.scores x = some s →
      p.head? = some a ∧ p.getLast? = some x ∧ ∃ n, PathOf (Leads ex) p n ∧ n ≤ s := by
  induction hr with
  | root hc =>
    intro s hs
    exact ⟨by rw [hv.root _ s hs hc]; rfl, rfl, 0, .one, Nat.zero_le s⟩
  | @step v u p hc _ ih =>
    intro s hs
    obtain ⟨w, i, j, h1, h2, h3, h4⟩ := hv.came _ _ hc
    rw [hs] at h3; cases h3
    obtain ⟨h5, h6, n, h7, h8⟩ := ih h2
    refine ⟨?_, by simp, n + w, ?_, by omega⟩
    · cases p with
      | nil => cases h5
      | cons y p => exact h5
    · exact h7.snoc h6 h1

/-- A path is a walk. -/
theorem PathOf.walk {p : List V} {n : Nat} (hp : PathOf (Leads ex) p n) : ∀ {u t}, p.head? = some u → p.getLast? = some t →
    AWalk ex u t n := by
  induction hp with
  | one => intro u t h1 h2; cases h1; cases h2; exact .nil
  | cons he _ ih =>
    intro u t h1 h2
    cases h1
    rw [List.getLast?_cons_cons] at h2
    exact .cons he (ih rfl h2)

/-- What is returned, for any estimate. -/
theorem ast_result (hg : AstGraph ex P nodes) (hP : P a) {o : Option (Nat × List V)} (ho : AstOutcome ex h goal a o) :
    (o = none → ∀ t n, goal t = true → ¬ AWalk ex a t n) ∧
    (∀ n p, o = some (n, p) → ∃ t m, goal t = true ∧ AWalk ex a t n ∧ p.head? = some a ∧ p.getLast? = some t ∧
      PathOf (Leads ex) p m ∧ m ≤ n) := by
  obtain ⟨st, hs, hr⟩ := ho
  have hv := (AInv.new (ex := ex) (h := h) (goal := goal) hP).steps hg hs
  cases hr with
  | none he =>
    refine ⟨fun _ t n hgt hw => ?_, fun _ _ e => nomatch e⟩
    obtain ⟨y, i, j, h1, -⟩ := hv.frontier hw hgt hv.start
    rw [he] at h1; cases h1
  | @some f n c rest p hpop hgc hn hp =>
    refine ⟨fun e => (nomatch e), fun n' p' e => ?_⟩
    cases e
    obtain ⟨h1, h2, m, h3, h4⟩ := hp.path hv hn
    exact ⟨c, m, hgc, hv.walk c n hn, h1, h2, h3, h4⟩

/-- With an estimate that never exceeds the cost of a walk to a goal, the cost returned is least and is that of the path. -/
theorem ast_least (hg : AstGraph ex P nodes) (hP : P a) (hadm : ∀ x t n, P x → goal t = true → AWalk ex x t n → h x ≤ n)
    {n : Nat} {p : List V} (ho : AstOutcome ex h goal a (some (n, p))) :
    PathOf (Leads ex) p n ∧ ∀ t m, goal t = true → AWalk ex a t m → n ≤ m := by
  have hmin : ∀ t m, goal t = true → AWalk ex a t m → n ≤ m := by
    intro t m hgt hw
    obtain ⟨st, hs, hr⟩ := ho
    have hv := (AInv.new (ex := ex) (h := h) (goal := goal) hP).steps hg hs
    cases hr with
    | @some f _ c rest _ hpop hgc hn hp =>
      obtain ⟨y, i, j, h1, h2, h3, h4⟩ := hv.frontier hw hgt hv.start
      have h5 := hpop.2 _ h1
      have h6 := hadm y t j (hv.node y i h2) hgt h3
      obtain ⟨i', h7, h8⟩ := hv.entry f c hpop.self
      rw [hn] at h7; cases h7
      show n ≤ m
      simp only at h5
      omega
  refine ⟨?_, hmin⟩
  obtain ⟨t, m, h1, h2, h3, h4, h5, h6⟩ := (ast_result hg hP ho).2 n p rfl
  have := hmin t m h1 (h5.walk h3 h4)
  have e : m = n := by omega
  exact e ▸ h5
end
end LG
