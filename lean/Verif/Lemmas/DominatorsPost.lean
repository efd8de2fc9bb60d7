import Verif.Lemmas.Scc
import Verif.Lemmas.Dominators
import Verif.Lemmas.Cut
/- `simple_fast`: the post-order, and back from numbers to nodes. -/
set_option linter.unusedSectionVars false
namespace LG
section
variable {C M : Type} [DecidableEq C] {T : Rovable C M} {nodes : List C} {Ok : C → Prop} {nb : C → List C} {Vis : M → (C → Bool) → Prop}

theorem Roams.visited (hT : Roams T nodes Ok nb Vis) {m m' : M} {S : C → Bool} {c : C} {b : Bool} (hv : Vis m S) (hc : Ok c)
    (h : T.visit m c = .ok (b, m')) : ∃ S', Vis m' S' ∧ (∀ x, S' x = true ↔ S x = true ∨ (x = c ∧ c ∈ nodes)) ∧
      (b = true ↔ c ∈ nodes ∧ S c = false) := by
  by_cases hn : c ∈ nodes
  · obtain ⟨m1, h1, h2⟩ := hT.visit hv hn
    rw [h] at h1
    simp only [Except.ok.injEq, Prod.mk.injEq] at h1
    obtain ⟨rfl, rfl⟩ := h1
    refine ⟨_, h2, fun x => ?_, ?_⟩
    · by_cases e : x = c
      · simp [e, hn]
      · simp [e]
    · simp [hn]
  · obtain ⟨m1, h1, h2⟩ := hT.visitOff hv hc hn
    rw [h] at h1
    simp only [Except.ok.injEq, Prod.mk.injEq] at h1
    obtain ⟨rfl, rfl⟩ := h1
    exact ⟨S, h2, fun x => by simp [hn], by simp [hn]⟩

theorem post_out (hT : Roams T nodes Ok nb Vis) {st out : List C} {d f d2 f2 : M} (h : PostTo T T.neighbors st d f out d2 f2) :
    ∀ {S F : C → Bool}, Vis d S → Vis f F → (∀ x ∈ st, Ok x) → ∀ {p}, p ∈ st → p ∈ nodes → F p = false → p ∈ out := by
  induction h with
  | done => intro S F _ _ _ p hp; cases hp
  | @enter c st st' nbs out d d' f d2 f2 h1 h2 h3 _ ih =>
    intro S F hv hf ho p hp hpn hF
    obtain ⟨S', g1, g2, g3⟩ := hT.visited hv (ho c (by simp)) h1
    have hc := (g3.1 rfl).1
    cases hT.uniqueN h2 (hT.neighbors hc)
    rw [pushNew_eq hT g1 (nb c) (fun y hy => hT.stays hc hy) (c :: st)] at h3
    cases h3
    refine ih g1 hf (fun x hx => ?_) (List.mem_append_right _ hp) hpn hF
    rcases List.mem_append.1 hx with hx | hx
    · exact hT.stays hc (List.mem_filter.1 (List.mem_reverse.1 hx)).1
    · exact ho x hx
  | @leave c st out d d' f f' d2 f2 h1 h2 _ ih =>
    intro S F hv hf ho p hp hpn hF
    obtain ⟨S', g1, -, -⟩ := hT.visited hv (ho c (by simp)) h1
    obtain ⟨F', g2, g3, -⟩ := hT.visited hf (ho c (by simp)) h2
    by_cases e : p = c
    · simp [e]
    · refine List.mem_cons_of_mem _ (ih g1 g2 (fun x hx => ho x (by simp [hx])) ((List.mem_cons.1 hp).resolve_left e) hpn ?_)
      cases hb : F' p with
      | false => rfl
      | true =>
        rcases (g3 p).1 hb with h | h
        · rw [hF] at h; cases h
        · exact absurd h.1 e
  | @again c st out d d' f f' d2 f2 h1 h2 _ ih =>
    intro S F hv hf ho p hp hpn hF
    obtain ⟨S', g1, -, -⟩ := hT.visited hv (ho c (by simp)) h1
    obtain ⟨F', g2, g3, g4⟩ := hT.visited hf (ho c (by simp)) h2
    have e : p ≠ c := fun e => by subst e; exact nomatch (g4.2 ⟨hpn, hF⟩)
    refine ih g1 g2 (fun x hx => ho x (by simp [hx])) ((List.mem_cons.1 hp).resolve_left e) hpn ?_
    cases hb : F' p with
    | false => rfl
    | true =>
      rcases (g3 p).1 hb with h | h
      · rw [hF] at h; cases h
      · exact absurd h.1 e

/-- Below each node of the stack, but for the first, is the one that put it there, which is not done. -/
def PostPut (nodes : List C) (nb : C → List C) (a : C) (st : List C) (S F : C → Bool) : Prop :=
  ∀ st1 c st2, st = st1 ++ c :: st2 → c = a ∨ ∃ p ∈ st2, p ∈ nodes ∧ S p = true ∧ F p = false ∧ p ∉ st1 ∧ p ≠ c ∧ c ∈ nb p

theorem PostPut.tail {a c : C} {st : List C} {S S' F F' : C → Bool} (h : PostPut nodes nb a (c :: st) S F)
    (hS : ∀ x, S x = true → S' x = true) (hF : ∀ x, F' x = true → F x = true ∨ x = c) : PostPut nodes nb a st S' F' := by
  intro st1 x st2 e
  refine (h (c :: st1) x st2 (by rw [e]; rfl)).imp id ?_
  rintro ⟨p, h1, h2, h3, h4, h5, h6, h7⟩
  refine ⟨p, h1, h2, hS p h3, ?_, fun h => h5 (by simp [h]), h6, h7⟩
  cases hb : F' p with
  | false => rfl
  | true =>
    rcases hF p hb with h | h
    · rw [h4] at h; cases h
    · exact absurd (by simp [h]) h5

/-- Each node of the post-order, but for the root, is among the neighbors of a later one. -/
theorem post_parent (hT : Roams T nodes Ok nb Vis) {a : C} {st out : List C} {d f d2 f2 : M} (h : PostTo T T.neighbors st d f out d2 f2) :
    ∀ {S F : C → Bool}, Vis d S → Vis f F → (∀ x ∈ st, Ok x) → (∀ x, F x = true → S x = true) → PostPut nodes nb a st S F → ∀ (o1 o2 : List C) (c : C), out = o1 ++ c :: o2 →
      c = a ∨ ∃ p ∈ o2, c ∈ nb p := by
  induction h with
  | done => intro S F _ _ _ _ _ o1 o2 c e; simp at e
  | @enter c st st' nbs out d d' f d2 f2 h1 h2 h3 _ ih =>
    intro S F hv hf ho hsub hi
    obtain ⟨S', g1, g2, g3⟩ := hT.visited hv (ho c (by simp)) h1
    have hc := (g3.1 rfl).1
    have hFc : ∀ {x}, x ∈ (nb c).filter (fun y => !S' y) → S' x = false := fun hx => by simpa using (List.mem_filter.1 hx).2
    cases hT.uniqueN h2 (hT.neighbors hc)
    rw [pushNew_eq hT g1 (nb c) (fun y hy => hT.stays hc hy) (c :: st)] at h3
    cases h3
    have hFc' : ¬ F c = true := fun h => by have := hsub c h; rw [(g3.1 rfl).2] at this; cases this
    refine ih g1 hf (fun x hx => ?_) (fun x hx => (g2 x).2 (.inl (hsub x hx))) ?_
    · rcases List.mem_append.1 hx with hx | hx
      · exact hT.stays hc (List.mem_filter.1 (List.mem_reverse.1 hx)).1
      · exact ho x hx
    · intro st1 x st2 e
      rcases List.append_eq_append_iff.1 e with ⟨l, e1, e2⟩ | ⟨l, e1, e2⟩
      · refine (hi l x st2 e2).imp id ?_
        rintro ⟨p, q1, q2, q3, q4, q5, q6, q7⟩
        refine ⟨p, q1, q2, (g2 p).2 (.inl q3), q4, fun hp => ?_, q6, q7⟩
        rw [e1] at hp
        rcases List.mem_append.1 hp with hp | hp
        · have := hFc (List.mem_reverse.1 hp)
          rw [(g2 p).2 (.inl q3)] at this; cases this
        · exact q5 hp
      · cases l with
        | nil =>
          refine (hi [] x st2 e2.symm).imp id ?_
          rintro ⟨p, q1, q2, q3, q4, q5, q6, q7⟩
          refine ⟨p, q1, q2, (g2 p).2 (.inl q3), q4, fun hp => ?_, q6, q7⟩
          rw [List.append_nil] at e1
          rw [← e1] at hp
          have := hFc (List.mem_reverse.1 hp)
          rw [(g2 p).2 (.inl q3)] at this; cases this
        | cons y l =>
          cases e2
          have hnew : ∀ z, z ∈ st1 ++ x :: l → z ∈ nb c ∧ S' z = false := fun z hz => by
            rw [← e1, List.mem_reverse] at hz
            exact ⟨(List.mem_filter.1 hz).1, hFc hz⟩
          have hSc : S' c = true := (g2 c).2 (.inr ⟨rfl, hc⟩)
          refine .inr ⟨c, by simp, hc, hSc, by simpa using hFc', fun hp => ?_, fun e => ?_, (hnew x (by simp)).1⟩
          · have := (hnew c (by simp [hp])).2
            rw [hSc] at this; cases this
          · have := (hnew x (by simp)).2
            rw [← e, hSc] at this; cases this
  | @leave c st out d d' f f' d2 f2 h1 h2 hrun ih =>
    intro S F hv hf ho hsub hi o1 o2 x e
    obtain ⟨S', g1, g1', -⟩ := hT.visited hv (ho c (by simp)) h1
    obtain ⟨F', g2, g3, -⟩ := hT.visited hf (ho c (by simp)) h2
    have hsub' : ∀ x, F' x = true → S' x = true := fun x hx => (g1' x).2 (((g3 x).1 hx).imp (hsub x) id)
    have hi' : PostPut nodes nb a st S' F' := hi.tail (fun x hx => (g1' x).2 (.inl hx)) fun x hx => ((g3 x).1 hx).imp id And.left
    cases o1 with
    | nil =>
      cases e
      refine (hi [] c st rfl).imp id ?_
      rintro ⟨p, q1, q2, q3, q4, q5, q6, q7⟩
      refine ⟨p, post_out hT hrun g1 g2 (fun x hx => ho x (by simp [hx])) q1 q2 ?_, q7⟩
      cases hb : F' p with
      | false => rfl
      | true =>
        rcases (g3 p).1 hb with h | h
        · rw [q4] at h; cases h
        · exact absurd h.1 q6
    | cons y o1 =>
      cases e
      exact ih g1 g2 (fun x hx => ho x (by simp [hx])) hsub' hi' _ _ _ rfl
  | @again c st out d d' f f' d2 f2 h1 h2 _ ih =>
    intro S F hv hf ho hsub hi
    obtain ⟨S', g1, g1', -⟩ := hT.visited hv (ho c (by simp)) h1
    obtain ⟨F', g2, g3, g4⟩ := hT.visited hf (ho c (by simp)) h2
    exact ih g1 g2 (fun x hx => ho x (by simp [hx])) (fun x hx => (g1' x).2 (((g3 x).1 hx).imp (hsub x) id))
      (hi.tail (fun x hx => (g1' x).2 (.inl hx)) fun x hx => ((g3 x).1 hx).imp id And.left)
end

/-! ### Nodes -/

/-- A way from `a` to a node, the last node first. -/
inductive Way {C : Type} (R : C → C → Prop) (a : C) : List C → C → Prop where
  | here : Way R a [a] a
  | step {l : List C} {x y : C} : Way R a l x → R x y → Way R a (y :: l) y

/-- `d` is on every way from `a` to `v`. -/
def Dominates {C : Type} (R : C → C → Prop) (a d v : C) : Prop := ∀ l, Way R a l v → d ∈ l

/-- `d` is the last before `v` of what is on every way from `a` to `v`. -/
def ImmediatelyDominates {C : Type} (R : C → C → Prop) (a d v : C) : Prop :=
  d ≠ v ∧ Dominates R a d v ∧ ∀ e, e ≠ v → Dominates R a e v → Dominates R a e d

section
variable {C M : Type} [DecidableEq C] {T : Rovable C M} {nodes : List C} {Ok : C → Prop} {nb : C → List C} {Vis : M → (C → Bool) → Prop}

/-- What is needed of the post-order. -/
structure PostFacts (nodes : List C) (nb : C → List C) (a : C) (post : List C) : Prop where
  nodup : post.Nodup
  root : a ∈ post
  node : ∀ {c}, c ∈ post → c ∈ nodes
  closed : ∀ {x y}, x ∈ post → y ∈ nb x → y ∈ post
  later : ∀ o1 o2 c, post = o1 ++ c :: o2 → c = a ∨ ∃ p ∈ o2, c ∈ nb p

theorem post_facts (hT : Roams T nodes Ok nb Vis) (hin : ∀ {c y}, c ∈ nodes → y ∈ nb c → y ∈ nodes) {a : C} (ha : a ∈ nodes) :
    ∃ post d f, PostTo T T.neighbors [a] T.visitMap T.visitMap post d f ∧ PostFacts nodes nb a post ∧
      (∀ c, c ∈ post ↔ Reached (within nodes nb) a c) ∧ ∀ post' d' f', PostTo T T.neighbors [a] T.visitMap T.visitMap post' d' f' → post' = post := by
  obtain ⟨post, d, f, S, k1, -, -, -, -, k6, k7, -⟩ := post_from hT (nbr := T.neighbors) hT.neighbors hT.uniqueN hT.new hT.new
    (fun x h => nomatch h) ha rfl
  have hmem : ∀ c, c ∈ post ↔ Reached (within nodes nb) a c := fun c => by rw [k7]; simp
  have hnode : ∀ {c}, c ∈ post → c ∈ nodes := fun hc => ((hmem _).1 hc).inside ha
  refine ⟨post, d, f, k1, ⟨k6, (hmem a).2 .refl, hnode, fun {x y} hx hy => ?_, ?_⟩, hmem, fun _ _ _ h => (PostTo.unique (T := T) (nbr := T.neighbors) (fun h h' => hT.uniqueN h h') h k1).1⟩
  · exact (hmem y).2 (.step ((hmem x).1 hx) (mem_within.2 ⟨hy, hin (hnode hx) hy⟩))
  · refine post_parent hT k1 hT.new hT.new (by simpa using hT.node_ok ha) (fun _ h => nomatch h) ?_
    intro st1 c st2 e
    cases st1 with
    | nil => cases e; exact .inl rfl
    | cons x st1 => simp at e

variable {a : C} {post : List C} {P : Nat → List Nat} {r : Nat}

theorem get_idxOf {l : List C} {c : C} (h : c ∈ l) : l[l.idxOf c]? = some c := by
  rw [List.getElem?_eq_getElem (List.idxOf_lt_length_of_mem h), List.getElem_idxOf]

theorem idxOf_get {l : List C} (hn : l.Nodup) {i : Nat} {c : C} (h : l[i]? = some c) : l.idxOf c = i := by
  have hm : c ∈ l := List.mem_of_getElem? h
  have h1 := get_idxOf hm
  have hlt : l.idxOf c < l.length := List.idxOf_lt_length_of_mem hm
  exact (List.getElem?_inj hlt hn).1 (h1.trans h.symm)

theorem PostFacts.last (h : PostFacts nodes nb a post) (hl : post.length = r + 1) : post[r]? = some a := by
  have hlt : r < post.length := by omega
  have := h.later (post.take r) (post.drop (r + 1)) post[r] (by
    rw [← List.drop_eq_getElem_cons hlt, List.take_append_drop])
  rw [List.getElem?_eq_getElem hlt]
  rcases this with h' | ⟨p, hp, -⟩
  · rw [h']
  · rw [List.drop_eq_nil_of_le (by omega)] at hp; cases hp

/-- The vectors of predecessors are as needed. -/
theorem PostFacts.preds (h : PostFacts nodes nb a post) (hnb : ∀ {c}, c ∈ nodes → ∀ {l}, T.neighbors c l ↔ l = nb c) (hl : post.length = r + 1)
    (hP : DomPreds T.neighbors post P) : (∀ i c, post[i]? = some c → ∀ j, j ∈ P i ↔ ∃ p, post[j]? = some p ∧ c ∈ nb p) ∧
      (∀ i, i < r → ∀ j ∈ P i, j ≤ r) ∧ ∀ i, i < r → ∃ j ∈ P i, i < j ∧ j ≤ r := by
  have h1 : ∀ i c, post[i]? = some c → ∀ j, j ∈ P i ↔ ∃ p, post[j]? = some p ∧ c ∈ nb p := fun i c hi j => by
    rw [(hP.2 i c hi).2 j]
    constructor
    · rintro ⟨p, l, g1, g2, g3⟩
      rw [hnb (h.node (List.mem_of_getElem? g1))] at g2
      exact ⟨p, g1, g2 ▸ g3⟩
    · rintro ⟨p, g1, g2⟩
      exact ⟨p, nb p, g1, (hnb (h.node (List.mem_of_getElem? g1))).2 rfl, g2⟩
  refine ⟨h1, fun i hi j hj => ?_, fun i hi => ?_⟩
  · obtain ⟨p, g1, -⟩ := (h1 i _ (List.getElem?_eq_getElem (by omega)) j).1 hj
    have := (List.getElem?_eq_some_iff.1 g1).1
    omega
  · have hlt : i < post.length := by omega
    rcases h.later (post.take i) (post.drop (i + 1)) post[i] (by rw [← List.drop_eq_getElem_cons hlt, List.take_append_drop]) with h' | ⟨p, hp, hc⟩
    · have e := (List.getElem?_inj hlt h.nodup).1 ((List.getElem?_eq_getElem hlt).trans ((congrArg some h').trans (h.last hl).symm))
      omega
    · obtain ⟨j, hj⟩ := List.mem_iff_getElem?.1 hp
      rw [List.getElem?_drop] at hj
      have := (List.getElem?_eq_some_iff.1 hj).1
      exact ⟨_, (h1 i _ (List.getElem?_eq_getElem hlt) _).2 ⟨p, hj, hc⟩, by omega, by omega⟩

theorem PostFacts.way (h : PostFacts nodes nb a post) (hl : post.length = r + 1)
    (hP : ∀ i c, post[i]? = some c → ∀ j, j ∈ P i ↔ ∃ p, post[j]? = some p ∧ c ∈ nb p) {l : List C} {v : C} (hw : Way (fun x y => y ∈ nb x) a l v) :
    (∀ x ∈ l, x ∈ post) ∧ v ∈ post ∧ DomWay P r (l.map post.idxOf) (post.idxOf v) := by
  induction hw with
  | here =>
    refine ⟨by simpa using h.root, h.root, ?_⟩
    rw [List.map_singleton, idxOf_get h.nodup (h.last hl)]
    exact .root
  | @step l x y _ hy ih =>
    obtain ⟨h1, h2, h3⟩ := ih
    have hy' := h.closed h2 hy
    have hlt := List.idxOf_lt_length_of_mem hy'
    refine ⟨fun z hz => ?_, hy', DomWay.step h3 (show post.idxOf y ≤ r by omega) ((hP _ y (get_idxOf hy') _).2 ⟨x, get_idxOf h2, hy⟩)⟩
    rcases List.mem_cons.1 hz with rfl | hz
    · exact hy'
    · exact h1 z hz

theorem PostFacts.back (h : PostFacts nodes nb a post) (hl : post.length = r + 1)
    (hP : ∀ i c, post[i]? = some c → ∀ j, j ∈ P i ↔ ∃ p, post[j]? = some p ∧ c ∈ nb p) {l : List Nat} {i : Nat} (hw : DomWay P r l i) :
    ∃ l' v, post[i]? = some v ∧ Way (fun x y => y ∈ nb x) a l' v ∧ l'.map post.idxOf = l := by
  induction hw with
  | root => exact ⟨[a], a, h.last hl, .here, by rw [List.map_singleton, idxOf_get h.nodup (h.last hl)]⟩
  | @step l x y _ hy hx ih =>
    obtain ⟨l', v, h1, h2, h3⟩ := ih
    have hc : post[y]? = some (post[y]'(by omega)) := List.getElem?_eq_getElem (by omega)
    obtain ⟨p, g1, g2⟩ := (hP y _ hc x).1 hx
    rw [h1] at g1; cases g1
    exact ⟨_, _, hc, .step h2 g2, by rw [List.map_cons, h3, idxOf_get h.nodup hc]⟩

theorem PostFacts.dominates (h : PostFacts nodes nb a post) (hl : post.length = r + 1)
    (hP : ∀ i c, post[i]? = some c → ∀ j, j ∈ P i ↔ ∃ p, post[j]? = some p ∧ c ∈ nb p) {e v : C} (he : e ∈ post) (hv : v ∈ post) :
    Dominates (fun x y => y ∈ nb x) a e v ↔ DomOn P r (post.idxOf e) (post.idxOf v) := by
  constructor
  · intro hd l hw
    obtain ⟨l', v', h1, h2, h3⟩ := h.back hl hP hw
    rw [get_idxOf hv] at h1; cases h1
    rw [← h3]
    exact List.mem_map_of_mem (hd l' h2)
  · intro hd l hw
    obtain ⟨h1, -, h3⟩ := h.way hl hP hw
    obtain ⟨x, hx, hxe⟩ := List.mem_map.1 (hd _ h3)
    have h4 := get_idxOf (h1 x hx)
    rw [hxe, get_idxOf he] at h4
    cases h4
    exact hx

/-- The result: each node found has its immediate dominator, and `dominators` lists what is on every way to it, each once. -/
theorem PostFacts.right (h : PostFacts nodes nb a post) (hl : post.length = r + 1)
    (hP : ∀ i c, post[i]? = some c → ∀ j, j ∈ P i ↔ ∃ p, post[j]? = some p ∧ c ∈ nb p) (hreach : ∀ c ∈ post, ∃ l, Way (fun x y => y ∈ nb x) a l c)
    {dom : Nat → Option Nat} (hok : DomOk P r dom) (hdef : ∀ i, i ≤ r → dom i ≠ none) (hfull : DomFull P r dom) {c : C} (hc : c ∈ post) :
    (∀ d, immediateDominator a post dom c = some d ↔ ImmediatelyDominates (fun x y => y ∈ nb x) a d c) ∧
    ∃ l, DominatorsOf a post dom c l ∧ l.Nodup ∧ ∀ e, e ∈ l ↔ Dominates (fun x y => y ∈ nb x) a e c := by
  have hix : ∀ {c}, c ∈ post → post.idxOf c ≤ r := fun hc => by have := List.idxOf_lt_length_of_mem hc; omega
  have hra : post.idxOf a = r := idxOf_get h.nodup (h.last hl)
  have hsub : ∀ {c}, c ∈ post → ∀ e, Dominates (fun x y => y ∈ nb x) a e c → e ∈ post := fun hc e hd => by
    obtain ⟨l, hw⟩ := hreach _ hc
    exact (h.way hl hP hw).1 e (hd l hw)
  have hinj : ∀ {x y}, x ∈ post → y ∈ post → post.idxOf x = post.idxOf y → x = y := fun {x y} hx hy e => by
    have := get_idxOf hx
    rw [e, get_idxOf hy] at this
    exact (Option.some.inj this).symm
  -- what the table says of a node other than the root
  have hnext : ∀ {c}, c ∈ post → c ≠ a → ∃ d, d ∈ post ∧ immediateDominator a post dom c = some d ∧ dom (post.idxOf c) = some (post.idxOf d) ∧
      post.idxOf c < post.idxOf d := fun {c} hc hne => by
    obtain ⟨i, hi⟩ := Option.ne_none_iff_exists'.1 (hdef _ (hix hc))
    have hlt : post.idxOf c < r := Nat.lt_of_le_of_ne (hix hc) fun e => hne (hinj hc h.root (e.trans hra.symm))
    have hu := hok.up hlt hi
    have hir := hok.le hu.2
    have hg : post[i]? = some (post[i]'(by omega)) := List.getElem?_eq_getElem (by omega)
    have hgi := idxOf_get h.nodup hg
    refine ⟨_, List.mem_of_getElem? hg, ?_, by rw [hgi]; exact hi, by rw [hgi]; exact hu.1⟩
    unfold immediateDominator
    rw [if_neg hne, if_pos hc, hi]
    exact hg
  have himm : ∀ {c d}, c ∈ post → c ≠ a → d ∈ post → dom (post.idxOf c) = some (post.idxOf d) → post.idxOf c < post.idxOf d →
      ImmediatelyDominates (fun x y => y ∈ nb x) a d c := fun {c d} hc hne hd h1 h2 => by
    refine ⟨fun e => by rw [e] at h2; omega, (h.dominates hl hP hd hc).2 (hfull _ (hix hc) _ (.step h1 .refl)), fun e h3 h4 => ?_⟩
    have he := hsub hc e h4
    have := hix hd
    exact (h.dominates hl hP he hd).2 (hok.on (by omega) h1 _ (fun e' => h3 (hinj he hc e')) ((h.dominates hl hP he hc).1 h4))
  refine ⟨fun d => ?_, ?_⟩
  · by_cases hne : c = a
    · subst hne
      refine ⟨fun h' => ?_, fun h' => absurd (List.mem_singleton.1 (h'.2.1 [c] .here)) h'.1⟩
      unfold immediateDominator at h'
      rw [if_pos rfl] at h'; cases h'
    · obtain ⟨y, y1, y2, y3, y4⟩ := hnext hc hne
      have hy := himm hc hne y1 y3 y4
      rw [y2]
      constructor
      · intro h'; cases h'; exact hy
      · intro hd
        have hdp := hsub hc d hd.2.1
        have g1 := (h.dominates hl hP y1 hdp).1 (hd.2.2 y hy.1 hy.2.1)
        have g2 := (h.dominates hl hP hdp y1).1 (hy.2.2 d hd.1 hd.2.1)
        have g3 := (hok.up_le (hok.covers _ _ (Nat.le_refl _) (hdef _ (hix hdp)) g1) (hdef _ (hix hdp))).1
        have g4 := (hok.up_le (hok.covers _ _ (Nat.le_refl _) (hdef _ (hix y1)) g2) (hdef _ (hix y1))).1
        rw [hinj y1 hdp (Nat.le_antisymm g4 g3)]
  · have key : ∀ (n : Nat) (c : C), c ∈ post → r - post.idxOf c ≤ n → ∃ l, DominatorsOf a post dom c l ∧ l.Nodup ∧
        ∀ e, e ∈ l ↔ e ∈ post ∧ DomUp dom (post.idxOf c) (post.idxOf e) := by
      intro n
      induction n with
      | zero =>
        intro c hc hn
        have e : c = a := hinj hc h.root (by have := hix hc; omega)
        subst e
        refine ⟨[c], .last (if_pos rfl), by simp, fun e => ?_⟩
        rw [List.mem_singleton]
        refine ⟨fun e => (by rw [e]; exact ⟨hc, .refl⟩), fun ⟨h1, h2⟩ => hinj h1 hc ?_⟩
        have := (hok.up_le h2 (hdef _ (hix hc))).1
        have := hix h1
        omega
      | succ n ih =>
        intro c hc hn
        by_cases e : c = a
        · subst e
          exact ih c hc (by omega)
        · obtain ⟨y, y1, y2, y3, y4⟩ := hnext hc e
          obtain ⟨l, l1, l2, l3⟩ := ih y y1 (by omega)
          refine ⟨c :: l, .next y2 l1, List.nodup_cons.2 ⟨fun hcl => ?_, l2⟩, fun x => ?_⟩
          · have := (hok.up_le ((l3 c).1 hcl).2 (hdef _ (hix y1))).1
            omega
          · rw [List.mem_cons, l3]
            constructor
            · rintro (rfl | ⟨h1, h2⟩)
              · exact ⟨hc, .refl⟩
              · exact ⟨h1, .step y3 h2⟩
            · rintro ⟨h1, h2⟩
              by_cases e' : x = c
              · exact .inl e'
              · refine .inr ⟨h1, ?_⟩
                generalize hgi : post.idxOf x = i at h2
                cases h2 with
                | refl => exact absurd (hinj h1 hc hgi) e'
                | step hd hu => rw [y3] at hd; cases hd; exact hu
    obtain ⟨l, l1, l2, l3⟩ := key _ c hc (Nat.le_refl _)
    refine ⟨l, l1, l2, fun e => ?_⟩
    rw [l3]
    constructor
    · rintro ⟨h1, h2⟩
      exact (h.dominates hl hP h1 hc).2 (hfull _ (hix hc) _ h2)
    · intro hd
      have he := hsub hc e hd
      exact ⟨he, hok.covers _ _ (Nat.le_refl _) (hdef _ (hix hc)) ((h.dominates hl hP he hc).1 hd)⟩

theorem DominatorsOf.unique {dom : Nat → Option Nat} {c : C} {l l' : List C} (h : DominatorsOf a post dom c l) :
    DominatorsOf a post dom c l' → l = l' := by
  induction h generalizing l' with
  | last h1 =>
    intro h'
    cases h' with
    | last => rfl
    | next h2 => rw [h1] at h2; cases h2
  | next h1 _ ih =>
    intro h'
    cases h' with
    | last h2 => rw [h1] at h2; cases h2
    | next h2 h3 => rw [h1] at h2; cases h2; rw [ih h3]

theorem Way.congr {R R' : C → C → Prop} (ha : a ∈ nodes) (hR : ∀ {x}, x ∈ nodes → ∀ y, R x y ↔ R' x y) (hin : ∀ {x y}, x ∈ nodes → R x y → y ∈ nodes)
    {l : List C} {v : C} (h : Way R a l v) : Way R' a l v ∧ v ∈ nodes := by
  induction h with
  | here => exact ⟨.here, ha⟩
  | step _ h ih => exact ⟨.step ih.1 ((hR ih.2 _).1 h), hin ih.2 h⟩

/-- `simple_fast` runs, whatever order the sets of predecessors come in, and every result is right. -/
theorem dominating_spec (hT : Roams T nodes Ok nb Vis) {R : C → C → Prop} (hR : ∀ {x}, x ∈ nodes → ∀ y, y ∈ nb x ↔ R x y)
    (hin : ∀ {c y}, c ∈ nodes → y ∈ nb c → y ∈ nodes) (ha : a ∈ nodes) :
    (∃ post d f r, PostTo T T.neighbors [a] T.visitMap T.visitMap post d f ∧ post.length = r + 1 ∧ (∃ P, DomPreds T.neighbors post P) ∧
      ∀ P, DomPreds T.neighbors post P → ∃ dom, DomLoop P r (tset (fun _ => none) r (some r)) dom) ∧
    ∀ post dom, Dominating T a post dom → post.Nodup ∧ (∀ c, c ∈ post ↔ ∃ l, Way R a l c) ∧
      ∀ c ∈ post, (∀ d, immediateDominator a post dom c = some d ↔ ImmediatelyDominates R a d c) ∧
        ∃ l, (∀ l', DominatorsOf a post dom c l' ↔ l' = l) ∧ l.Nodup ∧ ∀ e, e ∈ l ↔ Dominates R a e c := by
  obtain ⟨post, d, f, k1, k2, k3, k4⟩ := post_facts hT hin ha
  have hnb : ∀ {c}, c ∈ nodes → ∀ {l}, T.neighbors c l ↔ l = nb c := fun {c} hc {l} =>
    ⟨fun h => hT.uniqueN h (hT.neighbors hc), fun h => h ▸ hT.neighbors hc⟩
  have hlen : post.length = post.length - 1 + 1 := by
    have := List.length_pos_of_mem k2.root
    omega
  have hway : ∀ l v, Way (fun x y => y ∈ nb x) a l v ↔ Way R a l v := fun l v =>
    ⟨fun h => (h.congr ha (fun hx y => hR hx y) hin).1, fun h => (h.congr ha (fun hx y => (hR hx y).symm) fun hx h => hin hx ((hR hx _).2 h)).1⟩
  have hdom : ∀ e v, Dominates (fun x y => y ∈ nb x) a e v ↔ Dominates R a e v := fun e v =>
    ⟨fun h l hl => h l ((hway l v).2 hl), fun h l hl => h l ((hway l v).1 hl)⟩
  have hreach : ∀ c ∈ post, ∃ l, Way (fun x y => y ∈ nb x) a l c := fun c hc => by
    have := (k3 c).1 hc
    clear hc
    induction this with
    | refl => exact ⟨[a], .here⟩
    | step _ hy ih =>
      obtain ⟨l, hl⟩ := ih
      exact ⟨_, .step hl (mem_within.1 hy).1⟩
  refine ⟨⟨post, d, f, _, k1, hlen, ?_, fun P hP => ?_⟩, fun post' dom hd => ?_⟩
  · refine ⟨fun i => (List.range post.length).filter fun j => (post[j]?).any fun p => (post[i]?).any fun c => decide (c ∈ nb p), fun p hp =>
      ⟨_, hT.neighbors (k2.node hp)⟩, fun i c hi => ⟨List.nodup_range.filter _, fun j => ?_⟩⟩
    rw [List.mem_filter, List.mem_range]
    constructor
    · rintro ⟨h1, h2⟩
      rw [List.getElem?_eq_getElem h1, Option.any_some, hi, Option.any_some] at h2
      exact ⟨_, _, List.getElem?_eq_getElem h1, hT.neighbors (k2.node (List.getElem_mem h1)), of_decide_eq_true h2⟩
    · rintro ⟨p, l, h1, h2, h3⟩
      refine ⟨(List.getElem?_eq_some_iff.1 h1).1, ?_⟩
      rw [h1, Option.any_some, hi, Option.any_some]
      rw [(hnb (k2.node (List.mem_of_getElem? h1))).1 h2] at h3
      exact decide_eq_true h3
  · obtain ⟨h1, h2, h3⟩ := k2.preds hnb hlen hP
    obtain ⟨dom, h4, -⟩ := domLoop_start h3 h2
    exact ⟨dom, h4⟩
  · obtain ⟨d', f', P, r, g1, g2, g3, g4⟩ := hd
    cases k4 _ _ _ g1
    obtain ⟨h1, h2, h3⟩ := k2.preds hnb g3 g2
    obtain ⟨dom', -, h5, h6, h7, h8⟩ := domLoop_start h3 h2
    cases h5 _ g4
    refine ⟨k2.nodup, fun c => ⟨fun hc => ?_, fun ⟨l, hl⟩ => (k2.way g3 h1 ((hway l c).2 hl)).2.1⟩, fun c hc => ?_⟩
    · obtain ⟨l, hl⟩ := hreach c hc
      exact ⟨l, (hway l c).1 hl⟩
    · obtain ⟨q1, l, q2, q3, q4⟩ := k2.right g3 h1 hreach h6 h7 h8 hc
      refine ⟨fun d => (q1 d).trans ?_, l, fun l' => ⟨fun h => DominatorsOf.unique h q2, fun h => h ▸ q2⟩, q3, fun e => (q4 e).trans (hdom e c)⟩
      unfold ImmediatelyDominates
      simp only [hdom]
end

section
variable {C : Type} {R : C → C → Prop} {a : C}

theorem Way.first {l : List C} {v : C} (h : Way R a l v) : a ∈ l := by
  induction h with
  | here => simp
  | step _ _ ih => exact List.mem_cons_of_mem _ ih

theorem Way.last {l : List C} {v : C} (h : Way R a l v) : v ∈ l := by cases h <;> simp

theorem Ways.way {v : C} (h : Ways R a v) : ∃ l, Way R a l v := by
  induction h with
  | nil => exact ⟨_, .here⟩
  | step _ h ih =>
    obtain ⟨l, hl⟩ := ih
    exact ⟨_, .step hl h⟩

/-- To be on every way is to separate. -/
theorem dominates_around {d v : C} (h1 : d ≠ a) : Dominates R a d v ↔ ¬ Ways (Around R d) a v := by
  constructor
  · intro h hw
    have : ∃ l, Way R a l v ∧ d ∉ l := by
      clear h
      induction hw with
      | nil => exact ⟨[a], .here, by simpa using h1⟩
      | step _ hr ih =>
        obtain ⟨l, g1, g2⟩ := ih
        exact ⟨_, .step g1 hr.1, fun hm => (List.mem_cons.1 hm).elim (fun e => hr.2.2 e.symm) g2⟩
    obtain ⟨l, g1, g2⟩ := this
    exact g2 (h l g1)
  · intro h l hw
    refine Classical.byContradiction fun hd => h ?_
    clear h
    induction hw with
    | here => exact .nil
    | @step l x y hw hr ih =>
      have hl : d ∉ l := fun h => hd (List.mem_cons_of_mem _ h)
      exact (ih hl).step ⟨hr, fun e => hl (e ▸ hw.last), fun e => hd (by simp [e])⟩

/-- Where nothing else separates, the root is the immediate dominator. -/
theorem immediately_root {v : C} (hv : v ≠ a) (hR : ∀ e, e ≠ a → e ≠ v → Ways (Around R e) a v) : ImmediatelyDominates R a a v := by
  refine ⟨fun e => hv e.symm, fun _ h => h.first, fun e h1 h2 => ?_⟩
  by_cases e1 : e = a
  · rw [e1]; exact fun _ h => h.first
  · exact absurd (hR e e1 h1) ((dominates_around e1).1 h2)
end
end LG
