import Verif.Lemmas.Scc
import Verif.Model.Events
/- `depth_first_search` over any graph whose methods behave: what the list of events looks like. -/
set_option linter.unusedSectionVars false
namespace LG

/-! ### What is said about events -/

section
variable {C : Type}

/-- The nodes discovered, in order. -/
def discovered (evs : List (DfsEvent C)) : List C := evs.filterMap fun | .discover c _ => some c | _ => none

/-- The nodes finished, in order. -/
def finished (evs : List (DfsEvent C)) : List C := evs.filterMap fun | .finish c _ => some c | _ => none

/-- The times given, in order. -/
def stamps (evs : List (DfsEvent C)) : List Nat := evs.filterMap fun | .discover _ t => some t | .finish _ t => some t | _ => none

/-- The ends of the edges reported from `x`, in order. -/
def reported [DecidableEq C] (x : C) (evs : List (DfsEvent C)) : List C := evs.filterMap fun
  | .treeEdge u v => if u = x then some v else none
  | .backEdge u v => if u = x then some v else none
  | .crossForwardEdge u v => if u = x then some v else none
  | _ => none

/-- The number of tree edges. -/
def treeEdges (evs : List (DfsEvent C)) : Nat := evs.countP fun | .treeEdge _ _ => true | _ => false

/-- The rules of a depth-first search, from a moment at which the starts `us` are left, the nodes `st` are open (discovered, not
finished; the last first), `S` are discovered and it is `t`. A node is discovered once: as a start when nothing is open, or right after a
tree edge to it; edges are reported from the node opened last: tree edges to a node not discovered, back edges to an open one, cross or
forward edges to a finished one. The node opened last is finished when all its neighbours are discovered. In the end nothing is open.
A tree edge may also lead out of the graph. -/
inductive Legal (nodes : List C) (nb : C → List C) [DecidableEq C] : List C → List C → (C → Bool) → Nat → List (DfsEvent C) → Prop where
  | done {S : C → Bool} {t : Nat} : Legal nodes nb [] [] S t []
  | skip {S : C → Bool} {t : Nat} {u : C} {us : List C} {l : List (DfsEvent C)} : (u ∈ nodes → S u = true) →
    Legal nodes nb us [] S t l → Legal nodes nb (u :: us) [] S t l
  | root {S : C → Bool} {t : Nat} {u : C} {us : List C} {l : List (DfsEvent C)} : u ∈ nodes → S u = false →
    Legal nodes nb us [u] (fun x => if x = u then true else S x) (t + 1) l → Legal nodes nb (u :: us) [] S t (.discover u t :: l)
  | tree {S : C → Bool} {t : Nat} {u v : C} {us st : List C} {l : List (DfsEvent C)} : v ∈ nb u → v ∈ nodes → S v = false →
    Legal nodes nb us (v :: u :: st) (fun x => if x = v then true else S x) (t + 1) l →
    Legal nodes nb us (u :: st) S t (.treeEdge u v :: .discover v t :: l)
  | off {S : C → Bool} {t : Nat} {u v : C} {us st : List C} {l : List (DfsEvent C)} : v ∈ nb u → v ∉ nodes →
    Legal nodes nb us (u :: st) S t l → Legal nodes nb us (u :: st) S t (.treeEdge u v :: l)
  | back {S : C → Bool} {t : Nat} {u v : C} {us st : List C} {l : List (DfsEvent C)} : v ∈ nb u → v ∈ u :: st →
    Legal nodes nb us (u :: st) S t l → Legal nodes nb us (u :: st) S t (.backEdge u v :: l)
  | cross {S : C → Bool} {t : Nat} {u v : C} {us st : List C} {l : List (DfsEvent C)} : v ∈ nb u → S v = true → v ∉ u :: st →
    Legal nodes nb us (u :: st) S t l → Legal nodes nb us (u :: st) S t (.crossForwardEdge u v :: l)
  | finish {S : C → Bool} {t : Nat} {u : C} {us st : List C} {l : List (DfsEvent C)} : (∀ y ∈ nb u, y ∈ nodes → S y = true) →
    Legal nodes nb us st S (t + 1) l → Legal nodes nb us (u :: st) S t (.finish u t :: l)
end

section
variable {C M : Type} [DecidableEq C] {T : Rovable C M}

/-- Like `DfsEvents`, on sets instead of visit maps. -/
inductive DfsTrace (nodes : List C) (nb : C → List C) : DfsJob C → (C → Bool) → (C → Bool) → Nat → List (DfsEvent C) → (C → Bool) → (C → Bool) →
    Nat → Prop where
  | seen {u : C} {S F : C → Bool} {t : Nat} : (u ∈ nodes → S u = true) → DfsTrace nodes nb (.enter u) S F t [] S F t
  | enter {u : C} {S F S2 F2 : C → Bool} {t t2 : Nat} {evs : List (DfsEvent C)} : u ∈ nodes → S u = false →
    DfsTrace nodes nb (.scan u (nb u)) (fun x => if x = u then true else S x) F (t + 1) evs S2 F2 t2 → F2 u = false →
    DfsTrace nodes nb (.enter u) S F t (.discover u t :: (evs ++ [.finish u t2])) S2 (fun x => if x = u then true else F2 x) (t2 + 1)
  | nil {u : C} {S F : C → Bool} {t : Nat} : DfsTrace nodes nb (.scan u []) S F t [] S F t
  | tree {u v : C} {vs : List C} {S F S1 F1 S2 F2 : C → Bool} {t t1 t2 : Nat} {e1 e2 : List (DfsEvent C)} :
    S v = false → DfsTrace nodes nb (.enter v) S F t e1 S1 F1 t1 → DfsTrace nodes nb (.scan u vs) S1 F1 t1 e2 S2 F2 t2 →
    DfsTrace nodes nb (.scan u (v :: vs)) S F t (.treeEdge u v :: (e1 ++ e2)) S2 F2 t2
  | back {u v : C} {vs : List C} {S F S2 F2 : C → Bool} {t t2 : Nat} {e : List (DfsEvent C)} :
    S v = true → F v = false → DfsTrace nodes nb (.scan u vs) S F t e S2 F2 t2 →
    DfsTrace nodes nb (.scan u (v :: vs)) S F t (.backEdge u v :: e) S2 F2 t2
  | cross {u v : C} {vs : List C} {S F S2 F2 : C → Bool} {t t2 : Nat} {e : List (DfsEvent C)} :
    S v = true → F v = true → DfsTrace nodes nb (.scan u vs) S F t e S2 F2 t2 →
    DfsTrace nodes nb (.scan u (v :: vs)) S F t (.crossForwardEdge u v :: e) S2 F2 t2

variable {nodes : List C} {Ok : C → Prop} {nb : C → List C} {Vis : M → (C → Bool) → Prop}

/-- Sets only grow, and what a call discovers it finishes. -/
theorem DfsTrace.sets {j : DfsJob C} {S F S2 F2 : C → Bool} {t t2 : Nat} {evs : List (DfsEvent C)} (h : DfsTrace nodes nb j S F t evs S2 F2 t2) :
    (∀ x, S x = true → S2 x = true) ∧ ∀ x, F2 x = (F x || (S2 x && !S x)) := by
  induction h with
  | seen => exact ⟨fun _ h => h, fun x => by simp⟩
  | @enter u S F S2 F2 _ _ _ hu hS _ hF ih =>
    refine ⟨fun x hx => ih.1 x ?_, fun x => ?_⟩
    · by_cases e : x = u <;> simp [e, hx]
    · by_cases e : x = u
      · subst e
        have := ih.1 x (by simp)
        simp [this, hS]
      · simp only [e, if_false]
        rw [ih.2 x]
        simp [e]
  | nil => exact ⟨fun _ h => h, fun x => by simp⟩
  | @tree _ _ _ S F S1 F1 S2 F2 _ _ _ _ _ _ _ _ ih1 ih2 =>
    refine ⟨fun x hx => ih2.1 x (ih1.1 x hx), fun x => ?_⟩
    rw [ih2.2 x, ih1.2 x]
    have h1 := ih1.1 x
    have h2 := ih2.1 x
    cases hS : S x <;> cases hS1 : S1 x <;> cases hS2 : S2 x <;> simp [hS, hS1, hS2] at h1 h2 ⊢
  | back _ _ _ ih => exact ih
  | cross _ _ _ ih => exact ih

/-- There is a run. -/
theorem dfsTrace_exists : ∀ (n : Nat) (S F : C → Bool), left nodes S ≤ n → (∀ x, F x = true → S x = true) →
    (∀ u t, ∃ evs S2 F2 t2, DfsTrace nodes nb (.enter u) S F t evs S2 F2 t2) := by
  intro n
  induction n with
  | zero =>
    intro S F hn hF u t
    refine ⟨[], S, F, t, .seen fun hu => ?_⟩
    cases h : S u with
    | true => rfl
    | false => have := left_lt hu h; omega
  | succ n ih =>
    intro S F hn hF u t
    by_cases hu : u ∈ nodes ∧ S u = false
    · obtain ⟨hu, hS⟩ := hu
      have scan : ∀ (vs : List C) (S' F' : C → Bool) (t : Nat), left nodes S' ≤ n → (∀ x, F' x = true → S' x = true) →
          ∃ evs S2 F2 t2, DfsTrace nodes nb (.scan u vs) S' F' t evs S2 F2 t2 := by
        intro vs
        induction vs with
        | nil => exact fun S' F' t _ _ => ⟨_, _, _, _, .nil⟩
        | cons v vs ihv =>
          intro S' F' t hl hsub
          cases hv : S' v with
          | true =>
            obtain ⟨e, S2, F2, t2, h⟩ := ihv S' F' t hl hsub
            cases hf : F' v with
            | true => exact ⟨_, _, _, _, .cross hv hf h⟩
            | false => exact ⟨_, _, _, _, .back hv hf h⟩
          | false =>
            obtain ⟨e1, S1, F1, t1, h1⟩ := ih S' F' hl hsub v t
            have hs := h1.sets
            obtain ⟨e2, S2, F2, t2, h2⟩ := ihv S1 F1 t1 (by
              refine Nat.le_trans (List.countP_mono_left fun x _ hx => ?_) hl
              cases h : S' x with
              | false => rfl
              | true => rw [hs.1 x h] at hx; exact hx) (by
              intro x hx
              rw [hs.2 x] at hx
              cases h : S1 x with
              | true => rfl
              | false =>
                rw [h] at hx
                simp only [Bool.false_and, Bool.or_false] at hx
                rw [← h]; exact hs.1 x (hsub x hx))
            exact ⟨_, _, _, _, .tree hv h1 h2⟩
      obtain ⟨e, S2, F2, t2, h⟩ := scan (nb u) (fun x => if x = u then true else S x) F (t + 1) (by have := left_lt hu hS; omega)
        (fun x hx => by by_cases e : x = u <;> simp [e, hF x hx])
      refine ⟨_, _, _, _, .enter hu hS h ?_⟩
      rw [h.sets.2 u]
      cases hf : F u with
      | true => rw [hF u hf] at hS; cases hS
      | false => simp
    · refine ⟨[], S, F, t, .seen fun h => ?_⟩
      cases hs : S u with
      | true => rfl
      | false => exact absurd ⟨h, hs⟩ hu

/-- The maps follow the sets. -/
theorem DfsTrace.events (hT : Roams T nodes Ok nb Vis) {j : DfsJob C} {S F S2 F2 : C → Bool} {t t2 : Nat} {evs : List (DfsEvent C)}
    (h : DfsTrace nodes nb j S F t evs S2 F2 t2) : (match j with | .enter u => Ok u | .scan _ vs => ∀ v ∈ vs, Ok v) →
    ∀ {d f : M}, Vis d S → Vis f F → ∃ d2 f2, DfsEvents T j d f t evs d2 f2 t2 ∧ Vis d2 S2 ∧ Vis f2 F2 := by
  induction h with
  | @seen u S F t hu =>
    intro ho d f hd hf
    by_cases hm : u ∈ nodes
    · obtain ⟨d', h1, h2⟩ := hT.visit hd hm
      rw [hu hm] at h1
      rw [upd_same (hu hm)] at h2
      exact ⟨d', f, .seen h1, h2, hf⟩
    · obtain ⟨d', h1, h2⟩ := hT.visitOff hd ho hm
      exact ⟨d', f, .seen h1, h2, hf⟩
  | @enter u S F S2 F2 t t2 evs hu hS _ hF ih =>
    intro _ d f hd hf
    obtain ⟨d', h1, h2⟩ := hT.visit hd hu
    rw [hS] at h1
    obtain ⟨d2, f2, h3, h4, h5⟩ := ih (fun v hv => hT.stays hu hv) h2 hf
    obtain ⟨f3, h6, h7⟩ := hT.visit h5 hu
    rw [hF] at h6
    exact ⟨d2, f3, .enter h1 (hT.neighbors hu) h3 h6, h4, h7⟩
  | nil => exact fun _ d f hd hf => ⟨d, f, .nil, hd, hf⟩
  | @tree u v vs S F S1 F1 S2 F2 t t1 t2 e1 e2 hv _ _ ih1 ih2 =>
    intro ho d f hd hf
    obtain ⟨d1, f1, h1, h2, h3⟩ := ih1 (ho v List.mem_cons_self) hd hf
    obtain ⟨d2, f2, h4, h5, h6⟩ := ih2 (fun x hx => ho x (List.mem_cons_of_mem _ hx)) h2 h3
    exact ⟨d2, f2, .tree (by rw [hT.isVisited hd (ho v List.mem_cons_self), hv]) h1 h4, h5, h6⟩
  | @back u v vs S F S2 F2 t t2 e hv hf' _ ih =>
    intro ho d f hd hf
    obtain ⟨d2, f2, h4, h5, h6⟩ := ih (fun x hx => ho x (List.mem_cons_of_mem _ hx)) hd hf
    exact ⟨d2, f2, .back (by rw [hT.isVisited hd (ho v List.mem_cons_self), hv])
      (by rw [hT.isVisited hf (ho v List.mem_cons_self), hf']) h4, h5, h6⟩
  | @cross u v vs S F S2 F2 t t2 e hv hf' _ ih =>
    intro ho d f hd hf
    obtain ⟨d2, f2, h4, h5, h6⟩ := ih (fun x hx => ho x (List.mem_cons_of_mem _ hx)) hd hf
    exact ⟨d2, f2, .cross (by rw [hT.isVisited hd (ho v List.mem_cons_self), hv])
      (by rw [hT.isVisited hf (ho v List.mem_cons_self), hf']) h4, h5, h6⟩

/-- A run has one outcome. -/
theorem DfsEvents.unique (hu : ∀ {c l l'}, T.neighbors c l → T.neighbors c l' → l = l') {j : DfsJob C} {d f d2 f2 : M} {t t2 : Nat}
    {evs : List (DfsEvent C)} (h : DfsEvents T j d f t evs d2 f2 t2) : ∀ {evs' d2' f2' t2'}, DfsEvents T j d f t evs' d2' f2' t2' →
    evs' = evs ∧ d2' = d2 ∧ f2' = f2 ∧ t2' = t2 := by
  induction h with
  | seen h1 =>
    intro _ _ _ _ h'
    cases h' with
    | seen h2 => rw [h1] at h2; cases h2; exact ⟨rfl, rfl, rfl, rfl⟩
    | enter h2 => rw [h1] at h2; cases h2
  | enter h1 h2 _ h4 ih =>
    intro _ _ _ _ h'
    cases h' with
    | seen k1 => rw [h1] at k1; cases k1
    | enter k1 k2 k3 k4 =>
      rw [h1] at k1; cases k1
      cases hu h2 k2
      obtain ⟨rfl, rfl, rfl, rfl⟩ := ih k3
      rw [h4] at k4; cases k4
      exact ⟨rfl, rfl, rfl, rfl⟩
  | nil =>
    intro _ _ _ _ h'
    cases h'
    exact ⟨rfl, rfl, rfl, rfl⟩
  | tree h1 _ _ ih1 ih2 =>
    intro _ _ _ _ h'
    cases h' with
    | tree _ k2 k3 =>
      obtain ⟨rfl, rfl, rfl, rfl⟩ := ih1 k2
      obtain ⟨rfl, rfl, rfl, rfl⟩ := ih2 k3
      exact ⟨rfl, rfl, rfl, rfl⟩
    | back k1 => rw [h1] at k1; cases k1
    | cross k1 => rw [h1] at k1; cases k1
  | back h1 h2 _ ih =>
    intro _ _ _ _ h'
    cases h' with
    | tree k1 => rw [h1] at k1; cases k1
    | back _ _ k =>
      obtain ⟨rfl, rfl, rfl, rfl⟩ := ih k
      exact ⟨rfl, rfl, rfl, rfl⟩
    | cross _ k2 => rw [h2] at k2; cases k2
  | cross h1 h2 _ ih =>
    intro _ _ _ _ h'
    cases h' with
    | tree k1 => rw [h1] at k1; cases k1
    | back _ k2 => rw [h2] at k2; cases k2
    | cross _ _ k =>
      obtain ⟨rfl, rfl, rfl, rfl⟩ := ih k
      exact ⟨rfl, rfl, rfl, rfl⟩

/-! ### What a run looks like -/

theorem discovered_append (a b : List (DfsEvent C)) : discovered (a ++ b) = discovered a ++ discovered b := List.filterMap_append
theorem finished_append (a b : List (DfsEvent C)) : finished (a ++ b) = finished a ++ finished b := List.filterMap_append
theorem stamps_append (a b : List (DfsEvent C)) : stamps (a ++ b) = stamps a ++ stamps b := List.filterMap_append
theorem reported_append (x : C) (a b : List (DfsEvent C)) : reported x (a ++ b) = reported x a ++ reported x b := List.filterMap_append
theorem treeEdges_append (a b : List (DfsEvent C)) : treeEdges (a ++ b) = treeEdges a + treeEdges b := List.countP_append

theorem DfsTrace.discovers {j : DfsJob C} {S F S2 F2 : C → Bool} {t t2 : Nat} {evs : List (DfsEvent C)} (h : DfsTrace nodes nb j S F t evs S2 F2 t2) :
    (discovered evs).Nodup ∧ ∀ x, x ∈ discovered evs ↔ S2 x = true ∧ S x = false := by
  induction h with
  | seen => exact ⟨.nil, fun x => by simp [discovered]⟩
  | @enter u S F S2 F2 t t2 evs hu hS h hF ih =>
    have e : discovered (.discover u t :: (evs ++ [.finish u t2])) = u :: discovered evs := by
      show u :: discovered (evs ++ [.finish u t2]) = _
      rw [discovered_append]; simp [discovered]
    rw [e]
    refine ⟨List.nodup_cons.2 ⟨fun hm => ?_, ih.1⟩, fun x => ?_⟩
    · have := ((ih.2 u).1 hm).2; simp at this
    · rw [List.mem_cons, ih.2 x]
      by_cases e : x = u
      · subst e
        simp [h.sets.1 x (by simp), hS]
      · simp [e]
  | nil => exact ⟨.nil, fun x => by simp [discovered]⟩
  | @tree u v vs S F S1 F1 S2 F2 t t1 t2 e1 e2 hv h1 h2 ih1 ih2 =>
    have e : discovered (.treeEdge u v :: (e1 ++ e2)) = discovered e1 ++ discovered e2 := discovered_append e1 e2
    rw [e]
    refine ⟨List.nodup_append.2 ⟨ih1.1, ih2.1, fun x hx y hy e => ?_⟩, fun x => ?_⟩
    · subst e
      have := ((ih2.2 x).1 hy).2
      rw [((ih1.2 x).1 hx).1] at this; cases this
    · rw [List.mem_append, ih1.2, ih2.2]
      have k1 := h1.sets.1 x
      have k2 := h2.sets.1 x
      cases hS : S x <;> cases hS1 : S1 x <;> cases hS2 : S2 x <;> simp [hS, hS1, hS2] at k1 k2 ⊢
  | back _ _ _ ih => exact ih
  | cross _ _ _ ih => exact ih

theorem DfsTrace.finishes {j : DfsJob C} {S F S2 F2 : C → Bool} {t t2 : Nat} {evs : List (DfsEvent C)} (h : DfsTrace nodes nb j S F t evs S2 F2 t2) :
    (finished evs).Nodup ∧ ∀ x, x ∈ finished evs ↔ S2 x = true ∧ S x = false := by
  induction h with
  | seen => exact ⟨.nil, fun x => by simp [finished]⟩
  | @enter u S F S2 F2 t t2 evs hu hS h hF ih =>
    have e : finished (.discover u t :: (evs ++ [.finish u t2])) = finished evs ++ [u] := by
      show finished (evs ++ [.finish u t2]) = _
      rw [finished_append]; rfl
    rw [e]
    refine ⟨List.nodup_append.2 ⟨ih.1, by simp, fun x hx y hy exy => ?_⟩, fun x => ?_⟩
    · simp only [List.mem_singleton] at hy
      subst hy exy
      have := ((ih.2 x).1 hx).2; simp at this
    · rw [List.mem_append, ih.2 x, List.mem_singleton]
      by_cases e : x = u
      · subst e
        simp [h.sets.1 x (by simp), hS]
      · simp [e]
  | nil => exact ⟨.nil, fun x => by simp [finished]⟩
  | @tree u v vs S F S1 F1 S2 F2 t t1 t2 e1 e2 hv h1 h2 ih1 ih2 =>
    have e : finished (.treeEdge u v :: (e1 ++ e2)) = finished e1 ++ finished e2 := finished_append e1 e2
    rw [e]
    refine ⟨List.nodup_append.2 ⟨ih1.1, ih2.1, fun x hx y hy e => ?_⟩, fun x => ?_⟩
    · subst e
      have := ((ih2.2 x).1 hy).2
      rw [((ih1.2 x).1 hx).1] at this; cases this
    · rw [List.mem_append, ih1.2, ih2.2]
      have k1 := h1.sets.1 x
      have k2 := h2.sets.1 x
      cases hS : S x <;> cases hS1 : S1 x <;> cases hS2 : S2 x <;> simp [hS, hS1, hS2] at k1 k2 ⊢
  | back _ _ _ ih => exact ih
  | cross _ _ _ ih => exact ih

theorem DfsTrace.times {j : DfsJob C} {S F S2 F2 : C → Bool} {t t2 : Nat} {evs : List (DfsEvent C)} (h : DfsTrace nodes nb j S F t evs S2 F2 t2) :
    t ≤ t2 ∧ stamps evs = List.range' t (t2 - t) := by
  induction h with
  | seen => exact ⟨Nat.le_refl _, by simp [stamps]⟩
  | @enter u S F S2 F2 t t2 evs _ _ _ _ ih =>
    refine ⟨by omega, ?_⟩
    have e : stamps (.discover u t :: (evs ++ [.finish u t2])) = t :: (stamps evs ++ [t2]) := by
      show t :: stamps (evs ++ [.finish u t2]) = _
      rw [stamps_append]; rfl
    rw [e, ih.2, show t2 + 1 - t = (t2 - (t + 1)) + 1 + 1 by omega, List.range'_succ, List.range'_concat]
    rw [show t + 1 + 1 * (t2 - (t + 1)) = t2 by omega]
  | nil => exact ⟨Nat.le_refl _, by simp [stamps]⟩
  | @tree u v vs S F S1 F1 S2 F2 t t1 t2 e1 e2 _ _ _ ih1 ih2 =>
    refine ⟨by omega, ?_⟩
    show stamps (e1 ++ e2) = _
    rw [stamps_append, ih1.2, ih2.2, show t2 - t = (t1 - t) + (t2 - t1) by omega, ← List.range'_append,
      show t + 1 * (t1 - t) = t1 by omega]
  | back _ _ _ ih => exact ih
  | cross _ _ _ ih => exact ih

/-- The edges a job has to report from `x` besides those of the nodes it discovers. -/
def DfsJob.owed (x : C) : DfsJob C → List C
  | .enter _ => []
  | .scan u vs => if u = x then vs else []

/-- The node in whose loop a job is has been discovered. -/
def DfsJob.Inside (S : C → Bool) : DfsJob C → Prop
  | .enter _ => True
  | .scan u _ => S u = true

theorem DfsTrace.reports {j : DfsJob C} {S F S2 F2 : C → Bool} {t t2 : Nat} {evs : List (DfsEvent C)} (h : DfsTrace nodes nb j S F t evs S2 F2 t2)
    (x : C) : j.Inside S → reported x evs = j.owed x ++ if S2 x = true ∧ S x = false then nb x else [] := by
  induction h with
  | @seen u S F t =>
    intro _
    simp [reported, DfsJob.owed]
  | @enter u S F S2 F2 t t2 evs hu hS h hF ih =>
    intro _
    have e : reported x (.discover u t :: (evs ++ [.finish u t2])) = reported x evs := by
      show reported x (evs ++ [.finish u t2]) = _
      rw [reported_append]; simp [reported]
    rw [e, ih (by simp [DfsJob.Inside])]
    by_cases e : x = u
    · subst e
      simp [DfsJob.owed, h.sets.1 x (by simp), hS]
    · have : ¬u = x := fun h => e h.symm
      simp [DfsJob.owed, e, this]
  | @nil u S F t =>
    intro _
    simp [reported, DfsJob.owed]
  | @tree u v vs S F S1 F1 S2 F2 t t1 t2 e1 e2 hv h1 h2 ih1 ih2 =>
    intro hi
    have hi : S u = true := hi
    have e : reported x (.treeEdge u v :: (e1 ++ e2)) = (if u = x then [v] else []) ++ (reported x e1 ++ reported x e2) := by
      rw [← reported_append]
      by_cases e : u = x <;> simp [reported, e]
    have k1 := h1.sets.1
    have k2 := h2.sets.1
    rw [e, ih1 trivial, ih2 (k1 u hi)]
    by_cases e : u = x
    · subst e
      simp [DfsJob.owed, hi, k1 u hi]
    · have k1 := k1 x
      have k2 := k2 x
      cases hS : S x <;> cases hS1 : S1 x <;> cases hS2 : S2 x <;> simp [hS, hS1, hS2, DfsJob.owed, e] at k1 k2 ⊢
  | @back u v vs S F S2 F2 t t2 e hv hf h ih =>
    intro hi
    have e1 : reported x (.backEdge u v :: e) = (if u = x then [v] else []) ++ reported x e := by
      by_cases e : u = x <;> simp [reported, e]
    rw [e1, ih hi]
    by_cases e : u = x <;> simp [DfsJob.owed, e]
  | @cross u v vs S F S2 F2 t t2 e hv hf h ih =>
    intro hi
    have e1 : reported x (.crossForwardEdge u v :: e) = (if u = x then [v] else []) ++ reported x e := by
      by_cases e : u = x <;> simp [reported, e]
    rw [e1, ih hi]
    by_cases e : u = x <;> simp [DfsJob.owed, e]

/-- What a job makes sure is discovered. -/
def DfsJob.goals : DfsJob C → List C
  | .enter u => [u]
  | .scan _ vs => vs

theorem DfsTrace.reaches {j : DfsJob C} {S F S2 F2 : C → Bool} {t t2 : Nat} {evs : List (DfsEvent C)} (h : DfsTrace nodes nb j S F t evs S2 F2 t2) :
    ∀ y ∈ j.goals, y ∈ nodes → S2 y = true := by
  induction h with
  | seen hu =>
    intro y hy hn
    simp only [DfsJob.goals, List.mem_singleton] at hy
    subst hy
    exact hu hn
  | enter _ _ h _ _ =>
    intro y hy _
    simp only [DfsJob.goals, List.mem_singleton] at hy
    subst hy
    exact h.sets.1 y (by simp)
  | nil => simp [DfsJob.goals]
  | tree _ _ h2 ih1 ih2 =>
    intro y hy hn
    rcases List.mem_cons.1 hy with rfl | hy
    · exact h2.sets.1 _ (ih1 _ (by simp [DfsJob.goals]) hn)
    · exact ih2 y hy hn
  | back hv _ h ih =>
    intro y hy hn
    rcases List.mem_cons.1 hy with rfl | hy
    · exact h.sets.1 _ hv
    · exact ih y hy hn
  | cross hv _ h ih =>
    intro y hy hn
    rcases List.mem_cons.1 hy with rfl | hy
    · exact h.sets.1 _ hv
    · exact ih y hy hn

/-- When a job may run: `st` are the nodes discovered and not finished. -/
def DfsJob.Ready (nb : C → List C) (st : List C) (S : C → Bool) : DfsJob C → Prop
  | .enter u => ∀ p, st.head? = some p → u ∈ nb p ∧ S u = false
  | .scan u vs => st.head? = some u ∧ ∀ v ∈ vs, v ∈ nb u

/-- The tree edge reported before a job. -/
def DfsJob.lead (st : List C) : DfsJob C → List (DfsEvent C)
  | .enter v => st.head?.toList.map (.treeEdge · v)
  | .scan _ _ => []

/-- The starts left before a job. -/
def DfsJob.queue (st us : List C) : DfsJob C → List C
  | .enter v => if st = [] then v :: us else us
  | .scan _ _ => us

theorem DfsTrace.legal {j : DfsJob C} {S F S2 F2 : C → Bool} {t t2 : Nat} {evs : List (DfsEvent C)} (h : DfsTrace nodes nb j S F t evs S2 F2 t2) :
    ∀ {us st l}, j.Ready nb st S → (∀ x, F x = true → S x = true) → (∀ x, x ∈ st ↔ S x = true ∧ F x = false) → Legal nodes nb us st S2 t2 l →
      Legal nodes nb (j.queue st us) st S t (j.lead st ++ (evs ++ l)) := by
  induction h with
  | @seen u S F t hu =>
    intro us st l hr _ _ hl
    cases st with
    | nil => exact .skip hu hl
    | cons p st =>
      obtain ⟨h1, h2⟩ := hr p rfl
      exact .off h1 (fun h => by rw [hu h] at h2; cases h2) hl
  | @enter u S F S2 F2 t t2 evs hu hS h hF ih =>
    intro us st l hr hF' hst hl
    have key : Legal nodes nb us (u :: st) (fun x => if x = u then true else S x) (t + 1) (evs ++ (.finish u t2 :: l)) := by
      refine ih ⟨rfl, fun v hv => hv⟩ (fun x hx => ?_) (fun x => ?_) (.finish h.reaches hl)
      · by_cases e : x = u <;> simp [e, hF' x hx]
      · rw [List.mem_cons, hst x]
        by_cases e : x = u
        · subst e
          cases hf : F x with
          | true => rw [hF' x hf] at hS; cases hS
          | false => simp
        · simp [e]
    have e : DfsEvent.discover u t :: (evs ++ [.finish u t2]) ++ l = .discover u t :: (evs ++ (.finish u t2 :: l)) := by simp
    rw [e]
    cases st with
    | nil => exact .root hu hS key
    | cons p st => exact .tree (hr p rfl).1 hu hS key
  | nil => exact fun _ _ _ hl => hl
  | @tree u v vs S F S1 F1 S2 F2 t t1 t2 e1 e2 hv h1 h2 ih1 ih2 =>
    intro us st l hr hF' hst hl
    have := ih1 (us := us) (st := st) (fun p hp => ?_) hF' hst (ih2 ⟨hr.1, fun x hx => hr.2 x (List.mem_cons_of_mem _ hx)⟩ (fun x hx => ?_) (fun x => ?_) hl)
    · simp only [DfsJob.lead, hr.1, Option.toList_some, List.map_cons, List.map_nil, List.nil_append, List.cons_append] at this ⊢
      rw [List.append_assoc]
      cases st with
      | nil => cases hr.1
      | cons p st => exact this
    · rw [hr.1] at hp; cases hp
      exact ⟨hr.2 v List.mem_cons_self, hv⟩
    · rw [h1.sets.2] at hx
      cases hS1 : S1 x with
      | true => rfl
      | false =>
        rw [hS1] at hx
        simp only [Bool.false_and, Bool.or_false] at hx
        rw [← hS1]; exact h1.sets.1 x (hF' x hx)
    · rw [hst x, h1.sets.2 x]
      have k1 := h1.sets.1 x
      have k2 := hF' x
      cases hS : S x <;> cases hS1 : S1 x <;> cases hF : F x <;> simp [hS, hS1, hF] at k1 k2 ⊢
  | @back u v vs S F S2 F2 t t2 e hv hf _ ih =>
    intro us st l hr hF' hst hl
    cases st with
    | nil => cases hr.1
    | cons p st =>
      cases hr.1
      exact .back (hr.2 v List.mem_cons_self) ((hst v).2 ⟨hv, hf⟩) (ih ⟨hr.1, fun x hx => hr.2 x (List.mem_cons_of_mem _ hx)⟩ hF' hst hl)
  | @cross u v vs S F S2 F2 t t2 e hv hf _ ih =>
    intro us st l hr hF' hst hl
    cases st with
    | nil => cases hr.1
    | cons p st =>
      cases hr.1
      refine .cross (hr.2 v List.mem_cons_self) hv (fun h => ?_) (ih ⟨hr.1, fun x hx => hr.2 x (List.mem_cons_of_mem _ hx)⟩ hF' hst hl)
      rw [((hst v).1 h).2] at hf; cases hf

/-- What is discovered lies behind the goals of the job. -/
theorem DfsTrace.sound {j : DfsJob C} {S F S2 F2 : C → Bool} {t t2 : Nat} {evs : List (DfsEvent C)} (h : DfsTrace nodes nb j S F t evs S2 F2 t2) :
    ∀ x, S2 x = true → S x = true ∨ ∃ y ∈ j.goals, y ∈ nodes ∧ Reached (within nodes nb) y x := by
  induction h with
  | seen => exact fun x hx => .inl hx
  | @enter u S F S2 F2 t t2 evs hu hS h hF ih =>
    intro x hx
    rcases ih x hx with h | ⟨y, hy, hn, hr⟩
    · by_cases e : x = u
      · subst e; exact .inr ⟨x, by simp [DfsJob.goals], hu, .refl⟩
      · exact .inl (by simpa [e] using h)
    · exact .inr ⟨u, by simp [DfsJob.goals], hu, .head (mem_within.2 ⟨hy, hn⟩) hr⟩
  | nil => exact fun x hx => .inl hx
  | tree _ _ _ ih1 ih2 =>
    intro x hx
    rcases ih2 x hx with h | ⟨y, hy, h⟩
    · rcases ih1 x h with h | ⟨y, hy, h⟩
      · exact .inl h
      · simp only [DfsJob.goals, List.mem_singleton] at hy
        subst hy
        exact .inr ⟨y, List.mem_cons_self, h⟩
    · exact .inr ⟨y, List.mem_cons_of_mem _ hy, h⟩
  | back _ _ _ ih =>
    intro x hx
    rcases ih x hx with h | ⟨y, hy, h⟩
    · exact .inl h
    · exact .inr ⟨y, List.mem_cons_of_mem _ hy, h⟩
  | cross _ _ _ ih =>
    intro x hx
    rcases ih x hx with h | ⟨y, hy, h⟩
    · exact .inl h
    · exact .inr ⟨y, List.mem_cons_of_mem _ hy, h⟩

/-- The neighbours of a finished node are discovered. -/
theorem DfsTrace.closed {j : DfsJob C} {S F S2 F2 : C → Bool} {t t2 : Nat} {evs : List (DfsEvent C)} (h : DfsTrace nodes nb j S F t evs S2 F2 t2) :
    (∀ x, F x = true → ∀ y ∈ within nodes nb x, S y = true) → ∀ x, F2 x = true → ∀ y ∈ within nodes nb x, S2 y = true := by
  induction h with
  | seen => exact id
  | @enter u S F S2 F2 t t2 evs hu hS h hF ih =>
    intro hc x hx y hy
    by_cases e : x = u
    · subst e
      exact h.reaches y (mem_within.1 hy).1 (mem_within.1 hy).2
    · refine ih (fun x hx y hy => ?_) x (by simpa [e] using hx) y hy
      have := hc x hx y hy
      by_cases e : y = u <;> simp [e, this]
  | nil => exact id
  | tree _ _ _ ih1 ih2 => exact fun hc => ih2 (ih1 hc)
  | back _ _ _ ih => exact ih
  | cross _ _ _ ih => exact ih

/-- Without a back edge nothing finished lies on a cycle. -/
theorem DfsTrace.grounded {j : DfsJob C} {S F S2 F2 : C → Bool} {t t2 : Nat} {evs : List (DfsEvent C)} (h : DfsTrace nodes nb j S F t evs S2 F2 t2) :
    evs.any DfsEvent.isBack = false → (∀ x, F x = true → Acc (fun y x => y ∈ within nodes nb x) x) →
    (∀ x, F2 x = true → Acc (fun y x => y ∈ within nodes nb x) x) ∧ (∀ y ∈ j.goals, y ∈ nodes → (∃ u vs, j = .scan u vs) → F2 y = true) := by
  induction h with
  | seen => exact fun _ hA => ⟨hA, fun y _ _ ⟨u, vs, e⟩ => nomatch e⟩
  | @enter u S F S2 F2 t t2 evs hu hS h hF ih =>
    intro hb hA
    obtain ⟨k1, k2⟩ := ih (by
      simp only [List.any_cons, List.any_append, Bool.or_eq_false_iff] at hb
      exact hb.2.1) hA
    refine ⟨fun x hx => ?_, fun y _ _ ⟨u, vs, e⟩ => nomatch e⟩
    by_cases e : x = u
    · subst e
      exact .intro _ fun y hy => k1 y (k2 y (mem_within.1 hy).1 (mem_within.1 hy).2 ⟨_, _, rfl⟩)
    · have hx : (if x = u then true else F2 x) = true := hx
      rw [if_neg e] at hx
      exact k1 x hx
  | nil => exact fun _ hA => ⟨hA, by simp [DfsJob.goals]⟩
  | @tree u v vs S F S1 F1 S2 F2 t t1 t2 e1 e2 hv h1 h2 ih1 ih2 =>
    intro hb hA
    simp only [List.any_cons, List.any_append, Bool.or_eq_false_iff] at hb
    obtain ⟨k1, -⟩ := ih1 hb.2.1 hA
    obtain ⟨k2, k3⟩ := ih2 hb.2.2 k1
    refine ⟨k2, fun y hy hn _ => ?_⟩
    rcases List.mem_cons.1 hy with rfl | hy
    · have q1 : S1 y = true := h1.reaches y (by simp [DfsJob.goals]) hn
      have q2 : F1 y = true := by rw [h1.sets.2, q1, hv]; simp
      rw [h2.sets.2, q2]; rfl
    · exact k3 y hy hn ⟨_, _, rfl⟩
  | @back u v vs S F S2 F2 t t2 e hv hf _ ih =>
    intro hb
    simp [DfsEvent.isBack] at hb
  | @cross u v vs S F S2 F2 t t2 e hv hf h ih =>
    intro hb hA
    simp only [List.any_cons, Bool.or_eq_false_iff] at hb
    obtain ⟨k2, k3⟩ := ih hb.2 hA
    refine ⟨k2, fun y hy hn _ => ?_⟩
    rcases List.mem_cons.1 hy with rfl | hy
    · rw [h.sets.2, hf]; rfl
    · exact k3 y hy hn ⟨_, _, rfl⟩

/-- The node a job discovers without a tree edge. -/
def DfsJob.roots (S : C → Bool) : DfsJob C → Nat
  | .enter u => if S u = true then 0 else 1
  | .scan _ _ => 0

/-- A job that starts at new nodes of the graph reports one tree edge for each node it discovers, but for the one it starts at. -/
theorem DfsTrace.trees (hin : ∀ c ∈ nodes, ∀ y ∈ nb c, y ∈ nodes) {j : DfsJob C} {S F S2 F2 : C → Bool} {t t2 : Nat} {evs : List (DfsEvent C)}
    (h : DfsTrace nodes nb j S F t evs S2 F2 t2) : (∀ y ∈ j.goals, y ∈ nodes) →
    treeEdges evs + j.roots S = (discovered evs).length := by
  induction h with
  | @seen u S F t hu =>
    intro hg
    have := hu (hg u (by simp [DfsJob.goals]))
    simp [treeEdges, discovered, this, DfsJob.roots]
  | @enter u S F S2 F2 t t2 evs hu hS h hF ih =>
    intro _
    have := ih (fun y hy => hin u hu y hy)
    have e1 : discovered (.discover u t :: (evs ++ [.finish u t2])) = u :: discovered evs := by
      show u :: discovered (evs ++ [.finish u t2]) = _
      rw [discovered_append]; simp [discovered]
    have e2 : treeEdges (.discover u t :: (evs ++ [.finish u t2])) = treeEdges evs := by
      show treeEdges (evs ++ [.finish u t2]) = _
      rw [treeEdges_append]; rfl
    rw [e1, e2, List.length_cons, ← this]
    simp [DfsJob.roots, hS]
  | nil => exact fun _ => rfl
  | @tree u v vs S F S1 F1 S2 F2 t t1 t2 e1 e2 hv h1 h2 ih1 ih2 =>
    intro hg
    have k1 := ih1 (fun y hy => by
      simp only [DfsJob.goals, List.mem_singleton] at hy
      rw [hy]; exact hg v List.mem_cons_self)
    have k2 := ih2 (fun y hy => hg y (List.mem_cons_of_mem _ hy))
    have q1 : discovered (.treeEdge u v :: (e1 ++ e2)) = discovered e1 ++ discovered e2 := discovered_append e1 e2
    have q2 : treeEdges (.treeEdge u v :: (e1 ++ e2)) = treeEdges e1 + treeEdges e2 + 1 := by
      rw [← treeEdges_append]; exact List.countP_cons_of_pos rfl
    simp only [DfsJob.roots, hv, Bool.false_eq_true, if_false] at k1 k2
    rw [q1, q2, List.length_append]
    simp only [DfsJob.roots]
    omega
  | back _ _ _ ih => exact fun hg => ih fun y hy => hg y (List.mem_cons_of_mem _ hy)
  | cross _ _ _ ih => exact fun hg => ih fun y hy => hg y (List.mem_cons_of_mem _ hy)

/-! ### All starts -/

/-- What a run from the set `S` and the time `t` on does, with `S2` discovered in the end. -/
structure DfsFacts (nodes : List C) (nb : C → List C) (us : List C) (S : C → Bool) (t : Nat) (evs : List (DfsEvent C)) (S2 : C → Bool) : Prop where
  grows : ∀ x, S x = true → S2 x = true
  legal : Legal nodes nb us [] S t evs
  discovers : (discovered evs).Nodup ∧ ∀ x, x ∈ discovered evs ↔ S2 x = true ∧ S x = false
  finishes : (finished evs).Nodup ∧ ∀ x, x ∈ finished evs ↔ S2 x = true ∧ S x = false
  times : stamps evs = List.range' t (stamps evs).length
  reports : ∀ x, reported x evs = if S2 x = true ∧ S x = false then nb x else []
  reaches : ∀ u ∈ us, u ∈ nodes → S2 u = true
  sound : ∀ x, S2 x = true → S x = true ∨ ∃ y ∈ us, y ∈ nodes ∧ Reached (within nodes nb) y x
  closed : (∀ x, S x = true → ∀ y ∈ within nodes nb x, S y = true) → ∀ x, S2 x = true → ∀ y ∈ within nodes nb x, S2 y = true
  grounded : evs.any DfsEvent.isBack = false → (∀ x, S x = true → Acc (fun y x => y ∈ within nodes nb x) x) →
    ∀ x, S2 x = true → Acc (fun y x => y ∈ within nodes nb x) x

theorem dfsStarts_run (hT : Roams T nodes Ok nb Vis) : ∀ (us : List C) {d f : M} {S : C → Bool} (t : Nat), (∀ u ∈ us, Ok u) → Vis d S → Vis f S →
    ∃ evs S2, DfsStarts T us d f t evs ∧ DfsFacts nodes nb us S t evs S2
  | [], d, f, S, t, _, _, _ =>
    ⟨[], S, .done, fun _ h => h, .done, ⟨.nil, by simp [discovered]⟩, ⟨.nil, by simp [finished]⟩, rfl, by simp [reported], nofun, fun _ h => .inl h, id, fun _ h => h⟩
  | u :: us, d, f, S, t, ho, hd, hf => by
    obtain ⟨e1, S1, F1, t1, h1⟩ := dfsTrace_exists (nb := nb) (left nodes S) S S (Nat.le_refl _) (fun _ h => h) u t
    obtain ⟨d1, f1, k1, k2, k3⟩ := h1.events hT (ho u List.mem_cons_self) hd hf
    have hsets := h1.sets
    have e : F1 = S1 := by
      funext x
      rw [hsets.2 x]
      have := hsets.1 x
      cases hS : S x <;> cases hS1 : S1 x <;> simp [hS, hS1] at this ⊢
    subst e
    obtain ⟨e2, S2, k4, h2⟩ := dfsStarts_run hT us t1 (fun x hx => ho x (List.mem_cons_of_mem _ hx)) k2 k3
    refine ⟨e1 ++ e2, S2, .next k1 k4, fun x hx => h2.grows x (hsets.1 x hx), ?_, ?_, ?_, ?_, fun x => ?_, ?_, fun x hx => ?_,
      fun hc => h2.closed (h1.closed hc), fun hb hA => ?_⟩
    · exact h1.legal (st := []) nofun (fun _ h => h) (by simp) h2.legal
    · rw [discovered_append]
      refine ⟨List.nodup_append.2 ⟨h1.discovers.1, h2.discovers.1, fun x hx y hy e => ?_⟩, fun x => ?_⟩
      · subst e
        have := ((h2.discovers.2 x).1 hy).2
        rw [((h1.discovers.2 x).1 hx).1] at this; cases this
      · rw [List.mem_append, h1.discovers.2, h2.discovers.2]
        have k1 := hsets.1 x
        have k2 := h2.grows x
        cases hS : S x <;> cases hS1 : F1 x <;> cases hS2 : S2 x <;> simp [hS, hS1, hS2] at k1 k2 ⊢
    · rw [finished_append]
      refine ⟨List.nodup_append.2 ⟨h1.finishes.1, h2.finishes.1, fun x hx y hy e => ?_⟩, fun x => ?_⟩
      · subst e
        have := ((h2.finishes.2 x).1 hy).2
        rw [((h1.finishes.2 x).1 hx).1] at this; cases this
      · rw [List.mem_append, h1.finishes.2, h2.finishes.2]
        have k1 := hsets.1 x
        have k2 := h2.grows x
        cases hS : S x <;> cases hS1 : F1 x <;> cases hS2 : S2 x <;> simp [hS, hS1, hS2] at k1 k2 ⊢
    · have q := h1.times
      rw [stamps_append, List.length_append, ← List.range'_append, q.2, List.length_range', h2.times, List.length_range',
        show t + 1 * (t1 - t) = t1 by omega]
    · rw [reported_append, h1.reports x trivial, h2.reports x]
      have k1 := hsets.1 x
      have k2 := h2.grows x
      cases hS : S x <;> cases hS1 : F1 x <;> cases hS2 : S2 x <;> simp [hS, hS1, hS2, DfsJob.owed] at k1 k2 ⊢
    · intro y hy hn
      rcases List.mem_cons.1 hy with rfl | hy
      · exact h2.grows _ (h1.reaches _ (by simp [DfsJob.goals]) hn)
      · exact h2.reaches y hy hn
    · rcases h2.sound x hx with h | ⟨y, hy, h⟩
      · rcases h1.sound x h with h | ⟨y, hy, h⟩
        · exact .inl h
        · simp only [DfsJob.goals, List.mem_singleton] at hy
          subst hy
          exact .inr ⟨y, List.mem_cons_self, h⟩
      · exact .inr ⟨y, List.mem_cons_of_mem _ hy, h⟩
    · rw [List.any_append, Bool.or_eq_false_iff] at hb
      exact h2.grounded hb.2 (h1.grounded hb.1 hA).1

theorem DfsStarts.unique (hu : ∀ {c l l'}, T.neighbors c l → T.neighbors c l' → l = l') {us : List C} {d f : M} {t : Nat} {evs : List (DfsEvent C)}
    (h : DfsStarts T us d f t evs) : ∀ {evs'}, DfsStarts T us d f t evs' → evs' = evs := by
  induction h with
  | done => intro _ h'; cases h'; rfl
  | next h1 _ ih =>
    intro _ h'
    cases h' with
    | next k1 k2 =>
      obtain ⟨rfl, rfl, rfl, rfl⟩ := h1.unique hu k1
      rw [ih k2]

theorem stamps_length (evs : List (DfsEvent C)) : (stamps evs).length = (discovered evs).length + (finished evs).length := by
  induction evs with
  | nil => rfl
  | cons e evs ih =>
    have h1 (a b : List (DfsEvent C)) (ha : (stamps a).length = (discovered a).length + (finished a).length)
        (hb : (stamps b).length = (discovered b).length + (finished b).length) :
        (stamps (a ++ b)).length = (discovered (a ++ b)).length + (finished (a ++ b)).length := by
      rw [stamps_append, discovered_append, finished_append, List.length_append, List.length_append, List.length_append]
      omega
    exact h1 [e] evs (by cases e <;> rfl) ih

/-- **The search.** From starts it may be asked about it ends without a fault, in one way; it keeps the rules; it discovers and finishes,
once each, the nodes that can be reached from the starts inside the graph; the times are `0, 1, 2, …`; and from every node discovered it
reports its edges, once each, in the order of `neighbors`. -/
theorem depthFirst_run (hT : Roams T nodes Ok nb Vis) {us : List C} (ho : ∀ u ∈ us, Ok u) : ∃ evs, (∀ evs', DepthFirst T us evs' ↔ evs' = evs) ∧
    Legal nodes nb us [] (fun _ => false) 0 evs ∧ (discovered evs).Nodup ∧ (finished evs).Nodup ∧
    (∀ x, x ∈ discovered evs ↔ ∃ u ∈ us, u ∈ nodes ∧ Reached (within nodes nb) u x) ∧
    (∀ x, x ∈ finished evs ↔ x ∈ discovered evs) ∧
    stamps evs = List.range (2 * (discovered evs).length) ∧
    ∀ x, reported x evs = if x ∈ discovered evs then nb x else [] := by
  obtain ⟨evs, S2, h1, h2⟩ := dfsStarts_run hT us 0 ho hT.new hT.new
  have hm : ∀ x, x ∈ discovered evs ↔ S2 x = true := fun x => by simp [h2.discovers.2 x]
  have hm' : ∀ x, x ∈ finished evs ↔ S2 x = true := fun x => by simp [h2.finishes.2 x]
  refine ⟨evs, fun evs' => ⟨fun h => h1.unique hT.uniqueN h, fun e => e ▸ h1⟩, h2.legal, h2.discovers.1, h2.finishes.1, fun x => ?_, fun x => ?_, ?_,
    fun x => ?_⟩
  · rw [hm]
    constructor
    · intro h
      rcases h2.sound x h with h | h
      · cases h
      · exact h
    · rintro ⟨u, hu, hn, hr⟩
      exact hr.closed (P := fun x => S2 x = true) (h2.closed nofun) (h2.reaches u hu hn)
  · rw [hm, hm']
  · have e : (finished evs).length = (discovered evs).length :=
      ((List.perm_ext_iff_of_nodup h2.finishes.1 h2.discovers.1).2 fun x => by rw [hm, hm']).length_eq
    have := h2.times
    rw [stamps_length, e] at this
    rw [this, List.range_eq_range', Nat.two_mul]
  · rw [h2.reports x]; simp only [hm, and_true]

/-! ### Cycles -/

/-- The open nodes form a path. -/
def Chained (nodes : List C) (nb : C → List C) : List C → Prop
  | [] => True
  | [a] => a ∈ nodes
  | a :: b :: st => a ∈ nodes ∧ a ∈ nb b ∧ Chained nodes nb (b :: st)

theorem Chained.node {st : List C} : Chained nodes nb st → ∀ a ∈ st, a ∈ nodes := by
  intro h
  induction st with
  | nil => exact nofun
  | cons b st ih =>
    intro a ha
    cases st with
    | nil =>
      simp only [List.mem_singleton] at ha
      subst ha; exact h
    | cons c st =>
      rcases List.mem_cons.1 ha with rfl | ha
      · exact h.1
      · exact ih h.2.2 a ha

theorem Chained.reached {st : List C} {u : C} : Chained nodes nb (u :: st) → ∀ v ∈ u :: st, Reached (within nodes nb) v u := by
  induction st generalizing u with
  | nil =>
    intro _ v hv
    simp only [List.mem_singleton] at hv
    subst hv; exact .refl
  | cons b st ih =>
    intro h v hv
    rcases List.mem_cons.1 hv with rfl | hv
    · exact .refl
    · exact .step (ih h.2.2 v hv) (mem_within.2 ⟨h.2.1, h.1⟩)

theorem Chained.tail {st : List C} {u : C} (h : Chained nodes nb (u :: st)) : Chained nodes nb st := by
  cases st with
  | nil => trivial
  | cons b st => exact h.2.2

/-- A back edge closes a walk. -/
theorem Legal.closes {us st : List C} {S : C → Bool} {t : Nat} {l : List (DfsEvent C)} (h : Legal nodes nb us st S t l) : Chained nodes nb st →
    ∀ {u v}, .backEdge u v ∈ l → u ∈ nodes ∧ v ∈ within nodes nb u ∧ Reached (within nodes nb) v u := by
  induction h with
  | done => exact fun _ _ _ h => absurd h (by simp)
  | skip _ _ ih => exact ih
  | root hu _ _ ih =>
    intro _ u v hm
    exact ih hu ((List.mem_cons.1 hm).resolve_left nofun)
  | tree hv hn _ _ ih =>
    intro hc u v hm
    exact ih ⟨hn, hv, hc⟩ ((List.mem_cons.1 ((List.mem_cons.1 hm).resolve_left nofun)).resolve_left nofun)
  | off _ _ _ ih => exact fun hc u v hm => ih hc ((List.mem_cons.1 hm).resolve_left nofun)
  | back hv hm' _ ih =>
    intro hc u v hm
    rcases List.mem_cons.1 hm with e | hm
    · cases e
      exact ⟨hc.node _ List.mem_cons_self, mem_within.2 ⟨hv, hc.node _ hm'⟩, hc.reached _ hm'⟩
    · exact ih hc hm
  | cross _ _ _ _ ih => exact fun hc u v hm => ih hc ((List.mem_cons.1 hm).resolve_left nofun)
  | finish _ _ ih => exact fun hc u v hm => ih hc.tail ((List.mem_cons.1 hm).resolve_left nofun)

theorem Reached.cons_cases {nb : C → List C} {a c : C} (h : Reached nb a c) : a = c ∨ ∃ b ∈ nb a, Reached nb b c := by
  induction h with
  | refl => exact .inl rfl
  | step _ hy ih =>
    rcases ih with rfl | ⟨b, hb, h⟩
    · exact .inr ⟨_, hy, .refl⟩
    · exact .inr ⟨b, hb, .step h hy⟩

/-- Nothing returns to a node from which every walk ends. -/
theorem acc_acyclic {nb : C → List C} {x : C} (h : Acc (fun y x => y ∈ nb x) x) : ∀ y ∈ nb x, ¬ Reached nb y x := by
  induction h with
  | intro x _ ih =>
    intro y hy hr
    rcases hr.cons_cases with rfl | ⟨b, hb, h⟩
    · exact ih y hy y hy .refl
    · exact ih y hy b hb (.step h hy)

/-- **`is_cyclic_directed`**: it ends without a fault, in one way, and answers whether a walk inside the graph returns to where it began. -/
theorem cyclicDirected_run (hT : Roams T nodes Ok nb Vis) (b : Bool) : CyclicDirected T b ↔
    (b = true ↔ ∃ x ∈ nodes, ∃ y ∈ within nodes nb x, Reached (within nodes nb) y x) := by
  obtain ⟨evs, S2, h1, h2⟩ := dfsStarts_run hT nodes 0 (fun _ => hT.node_ok) hT.new hT.new
  have e : evs.any DfsEvent.isBack = true ↔ ∃ x ∈ nodes, ∃ y ∈ within nodes nb x, Reached (within nodes nb) y x := by
    rw [List.any_eq_true]
    constructor
    · rintro ⟨ev, hm, hb⟩
      cases ev with
      | backEdge u v =>
        obtain ⟨q1, q2, q3⟩ := h2.legal.closes trivial hm
        exact ⟨u, q1, v, q2, q3⟩
      | _ => cases hb
    · rintro ⟨x, hx, y, hy, hr⟩
      apply Classical.byContradiction
      intro hno
      have hb : evs.any DfsEvent.isBack = false := by
        rw [List.any_eq_false]
        exact fun ev hm hb => hno ⟨ev, hm, hb⟩
      exact acc_acyclic (h2.grounded hb nofun x (h2.reaches x hx hx)) y hy hr
  constructor
  · rintro ⟨ids, evs', q1, q2, q3⟩
    cases hT.uniqueIds q1 hT.ids
    cases h1.unique hT.uniqueN q2
    rw [q3, e]
  · intro h
    exact ⟨nodes, evs, hT.ids, h1, Bool.eq_iff_iff.2 (h.trans e.symm)⟩

/-! ### The order of discovery -/

theorem sub_reverse {u v : C} {st o : List C} (h : (u :: st).reverse.Sublist o) (hv : v ∈ st) : [v, u].Sublist o := by
  refine List.Sublist.trans ?_ h
  rw [List.reverse_cons]
  exact List.Sublist.append (List.singleton_sublist.2 (List.mem_reverse.2 hv)) (List.Sublist.refl _)

theorem not_both {o : List C} (hn : o.Nodup) {a b : C} (h1 : [a, b].Sublist o) : ¬ [b, a].Sublist o := by
  induction o with
  | nil => simp at h1
  | cons x o ih =>
    have hx := List.nodup_cons.1 hn
    intro h2
    cases h1 with
    | cons _ h1 =>
      cases h2 with
      | cons _ h2 => exact ih hx.2 h1 h2
      | cons_cons _ h2 => exact hx.1 (h1.subset (by simp))
    | cons_cons _ h1 =>
      cases h2 with
      | cons _ h2 => exact hx.1 (h2.subset (by simp))
      | cons_cons _ h2 => exact hx.1 (h1.subset (by simp))

theorem one_or_other {o : List C} {a b : C} (ha : a ∈ o) (hb : b ∈ o) (hne : a ≠ b) : [a, b].Sublist o ∨ [b, a].Sublist o := by
  induction o with
  | nil => simp at ha
  | cons x o ih =>
    rcases List.mem_cons.1 ha with rfl | ha'
    · exact .inl (.cons_cons _ (List.singleton_sublist.2 ((List.mem_cons.1 hb).resolve_left hne.symm)))
    · rcases List.mem_cons.1 hb with rfl | hb'
      · exact .inr (.cons_cons _ (List.singleton_sublist.2 ha'))
      · rcases ih ha' hb' with h | h
        · exact .inl (.cons _ h)
        · exact .inr (.cons _ h)

/-- Tree edges lead to nodes discovered later, back edges to the node itself or one discovered earlier. -/
theorem Legal.order {us st : List C} {S : C → Bool} {t : Nat} {l : List (DfsEvent C)} (h : Legal nodes nb us st S t l) :
    ∀ {o}, st.reverse.Sublist o → ∀ u v, (.treeEdge u v ∈ l → v ∈ nodes → [u, v].Sublist (o ++ discovered l)) ∧
      (.backEdge u v ∈ l → v = u ∨ [v, u].Sublist (o ++ discovered l)) := by
  induction h with
  | done => exact fun _ u v => ⟨fun h => absurd h (by simp), fun h => absurd h (by simp)⟩
  | skip _ _ ih => exact ih
  | @root S t a us l hu _ _ ih =>
    intro o ho u v
    have e : o ++ discovered (.discover a t :: l) = (o ++ [a]) ++ discovered l := by simp [discovered]
    rw [e]
    have := ih (o := o ++ [a]) (by simp) u v
    exact ⟨fun h => this.1 ((List.mem_cons.1 h).resolve_left nofun), fun h => this.2 ((List.mem_cons.1 h).resolve_left nofun)⟩
  | @tree S t a b us st l hv hn _ _ ih =>
    intro o ho u v
    have e : o ++ discovered (.treeEdge a b :: .discover b t :: l) = (o ++ [b]) ++ discovered l := by simp [discovered]
    rw [e]
    have := ih (o := o ++ [b]) (by rw [List.reverse_cons]; exact ho.append (.refl _)) u v
    refine ⟨fun h hn => ?_, fun h => this.2 ((List.mem_cons.1 ((List.mem_cons.1 h).resolve_left nofun)).resolve_left nofun)⟩
    rcases List.mem_cons.1 h with e | h
    · cases e
      rw [List.append_assoc]
      exact List.Sublist.append (l₁ := [a]) (r₁ := [b]) (List.singleton_sublist.2 (ho.subset (by simp))) (by simp)
    · exact this.1 ((List.mem_cons.1 h).resolve_left nofun) hn
  | off _ hn' _ ih =>
    intro o ho u v
    refine ⟨fun h hn => ?_, fun h => (ih ho u v).2 ((List.mem_cons.1 h).resolve_left nofun)⟩
    rcases List.mem_cons.1 h with e | h
    · cases e; exact absurd hn hn'
    · exact (ih ho u v).1 h hn
  | back _ hm _ ih =>
    intro o ho u v
    refine ⟨fun h => (ih ho u v).1 ((List.mem_cons.1 h).resolve_left nofun), fun h => ?_⟩
    rcases List.mem_cons.1 h with e | h
    · cases e
      rcases List.mem_cons.1 hm with e | hm
      · exact .inl e
      · exact .inr ((sub_reverse ho hm).trans (List.sublist_append_left _ _))
    · exact (ih ho u v).2 h
  | cross _ _ _ _ ih =>
    exact fun ho u v => ⟨fun h => (ih ho u v).1 ((List.mem_cons.1 h).resolve_left nofun), fun h => (ih ho u v).2 ((List.mem_cons.1 h).resolve_left nofun)⟩
  | finish _ _ ih =>
    intro o ho u v
    have ho' := (List.Sublist.reverse (List.sublist_cons_self _ _)).trans ho
    exact ⟨fun h => (ih ho' u v).1 ((List.mem_cons.1 h).resolve_left nofun), fun h => (ih ho' u v).2 ((List.mem_cons.1 h).resolve_left nofun)⟩

/-- If every edge can be gone back, a cross or forward edge leads forward: to a node discovered later. -/
theorem Legal.forward (hsym : ∀ u ∈ nodes, ∀ v ∈ nodes, v ∈ nb u → u ∈ nb v) {us st : List C} {S : C → Bool} {t : Nat} {l : List (DfsEvent C)}
    (h : Legal nodes nb us st S t l) : ∀ {o}, o.Nodup → (∀ x, S x = true ↔ x ∈ o) → (∀ x ∈ o, x ∈ nodes) → st.reverse.Sublist o →
    (∀ v ∈ o, v ∉ st → ∀ y ∈ nb v, y ∈ nodes → S y = true) → (∀ v ∈ o, v ∉ st → ∀ x ∈ st, [v, x].Sublist o → x ∉ nb v) →
    ∀ u v, .crossForwardEdge u v ∈ l → [u, v].Sublist (o ++ discovered l) := by
  have step : ∀ {S : C → Bool} {st o : List C} {a : C}, o.Nodup → (∀ x, S x = true ↔ x ∈ o) → (∀ x ∈ o, x ∈ nodes) → st.reverse.Sublist o →
      (∀ v ∈ o, v ∉ st → ∀ y ∈ nb v, y ∈ nodes → S y = true) → (∀ v ∈ o, v ∉ st → ∀ x ∈ st, [v, x].Sublist o → x ∉ nb v) →
      a ∈ nodes → S a = false → (o ++ [a]).Nodup ∧ (∀ x, (if x = a then true else S x) = true ↔ x ∈ o ++ [a]) ∧ (∀ x ∈ o ++ [a], x ∈ nodes) ∧
      (a :: st).reverse.Sublist (o ++ [a]) ∧ (∀ v ∈ o ++ [a], v ∉ a :: st → ∀ y ∈ nb v, y ∈ nodes → (if y = a then true else S y) = true) ∧
      (∀ v ∈ o ++ [a], v ∉ a :: st → ∀ x ∈ a :: st, [v, x].Sublist (o ++ [a]) → x ∉ nb v) := by
    intro S st o a h1 h2 h3 h4 h5 h6 ha hS
    have hao : a ∉ o := fun h => by rw [(h2 a).2 h] at hS; cases hS
    refine ⟨List.nodup_append.2 ⟨h1, by simp, fun x hx y hy e => hao (by simp at hy; rw [← hy, ← e]; exact hx)⟩, fun x => ?_, fun x hx => ?_,
      by rw [List.reverse_cons]; exact h4.append (.refl _), fun v hv hst y hy hn => ?_, fun v hv hst x hx hsub hnb => ?_⟩
    · by_cases e : x = a <;> simp [e, h2]
    · rcases List.mem_append.1 hx with h | h
      · exact h3 x h
      · rw [List.mem_singleton.1 h]; exact ha
    · rw [List.mem_cons, not_or] at hst
      have hv : v ∈ o := (List.mem_append.1 hv).resolve_right (by simpa using hst.1)
      have := h5 v hv hst.2 y hy hn
      by_cases e : y = a <;> simp [e, this]
    · rw [List.mem_cons, not_or] at hst
      have hvo : v ∈ o := (List.mem_append.1 hv).resolve_right (by simpa using hst.1)
      clear hv
      rcases List.mem_cons.1 hx with rfl | hx
      · rw [h5 v hvo hst.2 x hnb ha] at hS; cases hS
      · have hxo : x ∈ o := h4.subset (List.mem_reverse.2 hx)
        have hne : v ≠ x := fun e => hst.2 (e ▸ hx)
        rcases one_or_other hvo hxo hne with h | h
        · exact h6 v hvo hst.2 x hx h hnb
        · exact not_both (List.nodup_append.2 ⟨h1, by simp, fun x hx y hy e => hao (by simp at hy; rw [← hy, ← e]; exact hx)⟩) hsub
            (h.trans (List.sublist_append_left _ _))
  induction h with
  | done => exact fun _ _ _ _ _ _ u v h => absurd h (by simp)
  | skip _ _ ih => exact ih
  | @root S t a us l hu hS _ ih =>
    intro o h1 h2 h3 h4 h5 h6 u v h
    have e : o ++ discovered (.discover a t :: l) = (o ++ [a]) ++ discovered l := by simp [discovered]
    rw [e]
    obtain ⟨k1, k2, k3, k4, k5, k6⟩ := step h1 h2 h3 h4 h5 h6 hu hS
    exact ih k1 k2 k3 k4 k5 k6 u v ((List.mem_cons.1 h).resolve_left nofun)
  | @tree S t a b us st l hv hn hS _ ih =>
    intro o h1 h2 h3 h4 h5 h6 u v h
    have e : o ++ discovered (.treeEdge a b :: .discover b t :: l) = (o ++ [b]) ++ discovered l := by simp [discovered]
    rw [e]
    obtain ⟨k1, k2, k3, k4, k5, k6⟩ := step h1 h2 h3 h4 h5 h6 hn hS
    exact ih k1 k2 k3 k4 k5 k6 u v ((List.mem_cons.1 ((List.mem_cons.1 h).resolve_left nofun)).resolve_left nofun)
  | off _ _ _ ih => exact fun h1 h2 h3 h4 h5 h6 u v h => ih h1 h2 h3 h4 h5 h6 u v ((List.mem_cons.1 h).resolve_left nofun)
  | back _ _ _ ih => exact fun h1 h2 h3 h4 h5 h6 u v h => ih h1 h2 h3 h4 h5 h6 u v ((List.mem_cons.1 h).resolve_left nofun)
  | @cross S t a b us st l hab hS hst _ ih =>
    intro o h1 h2 h3 h4 h5 h6 u v h
    rcases List.mem_cons.1 h with e | h
    · cases e
      have huo : a ∈ o := h4.subset (by simp)
      have hvo : b ∈ o := (h2 b).1 hS
      have hne : a ≠ b := fun e => hst (e ▸ List.mem_cons_self)
      refine List.Sublist.trans ?_ (List.sublist_append_left _ _)
      exact (one_or_other huo hvo hne).resolve_right fun h =>
        h6 b hvo hst a List.mem_cons_self h (hsym a (h3 a huo) b (h3 b hvo) hab)
    · exact ih h1 h2 h3 h4 h5 h6 u v h
  | @finish S t a us st l hall _ ih =>
    intro o h1 h2 h3 h4 h5 h6 u v h
    refine ih h1 h2 h3 ((List.Sublist.reverse (List.sublist_cons_self _ _)).trans h4) (fun w hw hst y hy hn => ?_) (fun w hw hst x hx hsub => ?_) u v
      ((List.mem_cons.1 h).resolve_left nofun)
    · by_cases e : w = a
      · subst e; exact hall y hy hn
      · exact h5 w hw (by simp [e, hst]) y hy hn
    · by_cases e : w = a
      · subst e; exact absurd (sub_reverse h4 hx) (not_both h1 hsub)
      · exact h6 w hw (by simp [e, hst]) x (List.mem_cons_of_mem _ hx) hsub

/-- Once everything is discovered further starts add nothing. -/
theorem dfsStarts_full (hT : Roams T nodes Ok nb Vis) : ∀ (us : List C) {d f : M} {S : C → Bool} {t : Nat}, (∀ u ∈ us, Ok u) → Vis d S →
    (∀ x ∈ nodes, S x = true) → DfsStarts T us d f t []
  | [], _, _, _, _, _, _, _ => .done
  | u :: us, d, f, S, t, ho, hd, hS => by
    have h : ∃ d', T.visit d u = .ok (false, d') ∧ Vis d' S := by
      by_cases hm : u ∈ nodes
      · obtain ⟨d', h1, h2⟩ := hT.visit hd hm
        rw [hS u hm] at h1
        rw [upd_same (hS u hm)] at h2
        exact ⟨d', h1, h2⟩
      · exact hT.visitOff hd (ho u List.mem_cons_self) hm
    obtain ⟨d', h1, h2⟩ := h
    exact .next (e1 := []) (e2 := []) (.seen h1) (dfsStarts_full hT us (fun x hx => ho x (List.mem_cons_of_mem _ hx)) h2 hS)

/-- **The tree.** From a node that leads to all others, in a graph that nothing leads out of: further starts add nothing, and there is
one tree edge for every node but the first. -/
theorem depthFirst_tree (hT : Roams T nodes Ok nb Vis) (hin : ∀ c ∈ nodes, ∀ y ∈ nb c, y ∈ nodes) {a : C} (ha : a ∈ nodes)
    (hall : ∀ x ∈ nodes, Reached (within nodes nb) a x) {us : List C} (ho : ∀ u ∈ us, Ok u) {evs : List (DfsEvent C)}
    (h : DepthFirst T (a :: us) evs) : DepthFirst T [a] evs ∧ treeEdges evs + 1 = nodes.length := by
  obtain ⟨e1, S1, F1, t1, h1⟩ := dfsTrace_exists (nodes := nodes) (nb := nb) (left nodes fun _ => false) (fun _ => false) (fun _ => false)
    (Nat.le_refl _) (fun _ h => h) a 0
  obtain ⟨d1, f1, k1, k2, k3⟩ := h1.events hT (hT.node_ok ha) hT.new hT.new
  have hF : ∀ x, S1 x = true → F1 x = true := fun x hx => by rw [h1.sets.2 x, hx]; rfl
  have hfull : ∀ x ∈ nodes, S1 x = true := fun x hx =>
    (hall x hx).closed (P := fun x => S1 x = true) (fun x hx => h1.closed nofun x (hF x hx)) (h1.reaches a (by simp [DfsJob.goals]) ha)
  have q := dfsStarts_full (f := f1) (t := t1) hT us ho k2 hfull
  have e := (DfsStarts.next k1 q).unique hT.uniqueN h
  rw [List.append_nil] at e
  subst e
  have r : DepthFirst T [a] evs := by
    have := DfsStarts.next k1 (.done (T := T) (d := d1) (f := f1) (t := t1))
    rwa [List.append_nil] at this
  refine ⟨r, ?_⟩
  have w := h1.trees hin (fun y hy => by
    simp only [DfsJob.goals, List.mem_singleton] at hy
    rw [hy]; exact ha)
  simp only [DfsJob.roots, Bool.false_eq_true, if_false] at w
  rw [w]
  exact ((List.perm_ext_iff_of_nodup h1.discovers.1 hT.nodup).2 fun x =>
    ⟨fun h => hT.only k2 ((h1.discovers.2 x).1 h).1, fun h => (h1.discovers.2 x).2 ⟨hfull x h, rfl⟩⟩).length_eq

end
end LG
