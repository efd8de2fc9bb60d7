import Verif.Lemmas.Bipartite
import Verif.Model.Scc
/- Depth-first searches that share a visit map, in pre-order and in post-order, over any graph whose methods behave. -/
set_option linter.unusedSectionVars false
namespace LG
section
variable {C M : Type} [DecidableEq C] {T : Rovable C M}

/-- The methods behave: a visit map is a set of nodes (`Vis m S`: map `m` holds the set `S`), to which coordinates outside the graph
are never new; `neighbors`, and `neighbors_directed` whatever the direction, lists `nb`, coordinates (`Ok`) the map can be asked
about. -/
structure Roams (T : Rovable C M) (nodes : List C) (Ok : C → Prop) (nb : C → List C) (Vis : M → (C → Bool) → Prop) : Prop where
  nodup : nodes.Nodup
  node_ok : ∀ {c}, c ∈ nodes → Ok c
  only : ∀ {m S c}, Vis m S → S c = true → c ∈ nodes
  new : Vis T.visitMap (fun _ => false)
  reset : ∀ {m S}, Vis m S → Vis (T.resetMap m) (fun _ => false)
  visit : ∀ {m S c}, Vis m S → c ∈ nodes → ∃ m', T.visit m c = .ok (!S c, m') ∧ Vis m' (fun x => if x = c then true else S x)
  visitOff : ∀ {m S c}, Vis m S → Ok c → c ∉ nodes → ∃ m', T.visit m c = .ok (false, m') ∧ Vis m' S
  isVisited : ∀ {m S c}, Vis m S → Ok c → T.isVisited m c = .ok (S c)
  neighbors : ∀ {c}, c ∈ nodes → T.neighbors c (nb c)
  incoming : ∀ {c}, c ∈ nodes → T.incoming c (nb c)
  uniqueN : ∀ {c l l'}, T.neighbors c l → T.neighbors c l' → l = l'
  uniqueI : ∀ {c l l'}, T.incoming c l → T.incoming c l' → l = l'
  stays : ∀ {c y}, c ∈ nodes → y ∈ nb c → Ok y
  ids : T.nodeIds nodes
  uniqueIds : ∀ {l l'}, T.nodeIds l → T.nodeIds l' → l = l'

/-- The neighbours inside the graph. -/
def within (nodes : List C) (nb : C → List C) (c : C) : List C := (nb c).filter (· ∈ nodes)

theorem mem_within {nodes : List C} {nb : C → List C} {c y : C} : y ∈ within nodes nb c ↔ y ∈ nb c ∧ y ∈ nodes := by
  simp [within]

theorem Reached.trans {nb : C → List C} {a b c : C} (h : Reached nb a b) (h' : Reached nb b c) : Reached nb a c := by
  induction h' with
  | refl => exact h
  | step _ hy ih => exact .step ih hy

theorem Reached.head {nb : C → List C} {a b c : C} (h : b ∈ nb a) (h' : Reached nb b c) : Reached nb a c :=
  Reached.trans (.step .refl h) h'

theorem Reached.inside {nodes : List C} {nb : C → List C} {a c : C} (ha : a ∈ nodes) (h : Reached (within nodes nb) a c) : c ∈ nodes := by
  cases h with
  | refl => exact ha
  | step _ h => exact (mem_within.1 h).2

/-- A set that nothing leads out of holds all that is reached from its members. -/
theorem Reached.closed {nb : C → List C} {P : C → Prop} (hP : ∀ x, P x → ∀ y ∈ nb x, P y) {a c : C} (ha : P a) (h : Reached nb a c) : P c := by
  induction h with
  | refl => exact ha
  | step _ hy ih => exact hP _ ih _ hy

variable {nodes : List C} {Ok : C → Prop} {nb : C → List C} {Vis : M → (C → Bool) → Prop} {nbr : C → List C → Prop}

theorem pushNew_eq (hT : Roams T nodes Ok nb Vis) {d : M} {S : C → Bool} (hv : Vis d S) : ∀ (l : List C), (∀ y ∈ l, Ok y) → ∀ st,
    pushNew T d l st = .ok ((l.filter fun y => !S y).reverse ++ st)
  | [], _, st => rfl
  | y :: l, hl, st => by
    rw [pushNew, hT.isVisited hv (hl y (by simp))]
    have ih := pushNew_eq hT hv l (fun z hz => hl z (by simp [hz]))
    cases h : S y with
    | true => simp only [bind, Except.bind, if_true, ih, List.filter_cons, h, Bool.not_true, Bool.false_eq_true, if_false]
    | false =>
      simp only [bind, Except.bind, Bool.false_eq_true, if_false, ih, List.filter_cons, h, Bool.not_false, if_true, List.reverse_cons]
      simp

/-- Nodes not in the set. -/
def left (nodes : List C) (S : C → Bool) : Nat := nodes.countP fun x => !S x

theorem left_lt {S : C → Bool} {c : C} (hc : c ∈ nodes) (h : S c = false) :
    left nodes (fun x => if x = c then true else S x) < left nodes S :=
  countP_lt (fun x _ hx => by
    simp only at hx ⊢
    by_cases e : x = c
    · subst e; rw [h]; rfl
    · rwa [if_neg e] at hx) ⟨c, hc, by rw [h]; rfl, by simp⟩

/-! ### Pre-order -/

theorem dfs_to (hT : Roams T nodes Ok nb Vis) (hnb : ∀ {c}, c ∈ nodes → nbr c (nb c)) (st : List C) (S : C → Bool) (d : M) (hv : Vis d S)
    (hst : ∀ x ∈ st, Ok x) :
    ∃ l d' S', DfsTo T nbr st d l d' ∧ Vis d' S' ∧ (∀ c, S' c = true ↔ S c = true ∨ c ∈ l) ∧ l.Nodup ∧
      (∀ c ∈ l, S c = false ∧ c ∈ nodes ∧ ∃ x ∈ st, x ∈ nodes ∧ Reached (within nodes nb) x c) ∧
      (∀ x ∈ st, x ∈ nodes → S' x = true) ∧ ∀ c ∈ l, ∀ y ∈ within nodes nb c, S' y = true := by
  match st with
  | [] => exact ⟨[], d, S, .done, hv, by simp, .nil, by simp, by simp, by simp⟩
  | c :: st =>
    by_cases hc : c ∈ nodes
    · obtain ⟨d1, h1, hv1⟩ := hT.visit hv hc
      cases hS : S c with
      | true =>
        have hS1 : (fun x => if x = c then true else S x) = S := by
          funext x; by_cases e : x = c
          · subst e; simp [hS]
          · simp [e]
        rw [hS1] at hv1
        rw [hS] at h1
        obtain ⟨l, d', S', k1, k2, k3, k4, k5, k6, k7⟩ := dfs_to hT hnb st S d1 hv1 (fun x hx => hst x (by simp [hx]))
        refine ⟨l, d', S', .skip h1 k1, k2, k3, k4, fun x hx => ?_, ?_, k7⟩
        · obtain ⟨a1, a2, y, a3, a4, a5⟩ := k5 x hx
          exact ⟨a1, a2, y, by simp [a3], a4, a5⟩
        · intro x hx hn
          rcases List.mem_cons.1 hx with rfl | hx
          · exact (k3 x).2 (.inl hS)
          · exact k6 x hx hn
      | false =>
        rw [hS] at h1
        have hp := pushNew_eq hT hv1 (nb c) (fun y hy => hT.stays hc hy) st
        have hdec := left_lt hc hS
        obtain ⟨l, d', S', k1, k2, k3, k4, k5, k6, k7⟩ := dfs_to hT hnb (S := fun x => if x = c then true else S x) (d := d1) hv1
          (st := ((nb c).filter fun y => !(if y = c then true else S y)).reverse ++ st) (by
            intro x hx
            simp only [List.mem_append, List.mem_reverse, List.mem_filter] at hx
            rcases hx with ⟨hx, -⟩ | hx
            · exact hT.stays hc hx
            · exact hst x (by simp [hx]))
        have hcS' : S' c = true := (k3 c).2 (.inl (by simp))
        refine ⟨c :: l, d', S', .next h1 (hnb hc) hp k1, k2, fun x => ?_, ?_, ?_, ?_, ?_⟩
        · rw [k3 x]
          by_cases e : x = c
          · simp [e]
          · simp [e]
        · refine List.nodup_cons.2 ⟨fun hm => ?_, k4⟩
          have := (k5 c hm).1
          simp at this
        · intro x hx
          rcases List.mem_cons.1 hx with rfl | hx
          · exact ⟨hS, hc, x, by simp, hc, .refl⟩
          · obtain ⟨a1, a2, y, a3, a4, a5⟩ := k5 x hx
            have hxc : x ≠ c := by rintro rfl; simp at a1
            refine ⟨by simpa [hxc] using a1, a2, ?_⟩
            simp only [List.mem_append, List.mem_reverse, List.mem_filter] at a3
            rcases a3 with ⟨a3, -⟩ | a3
            · exact ⟨c, by simp, hc, .head (mem_within.2 ⟨a3, a4⟩) a5⟩
            · exact ⟨y, by simp [a3], a4, a5⟩
        · intro x hx hn
          rcases List.mem_cons.1 hx with rfl | hx
          · exact hcS'
          · exact k6 x (by simp [hx]) hn
        · intro x hx y hy
          rcases List.mem_cons.1 hx with rfl | hx
          · have hy' := mem_within.1 hy
            by_cases hyS : (if y = x then true else S y) = true
            · exact (k3 y).2 (.inl hyS)
            · refine k6 y ?_ hy'.2
              simp only [List.mem_append, List.mem_reverse, List.mem_filter]
              exact .inl ⟨hy'.1, by simpa using hyS⟩
          · exact k7 x hx y hy
    · obtain ⟨d1, h1, hv1⟩ := hT.visitOff hv (hst c (by simp)) hc
      obtain ⟨l, d', S', k1, k2, k3, k4, k5, k6, k7⟩ := dfs_to hT hnb st S d1 hv1 (fun x hx => hst x (by simp [hx]))
      refine ⟨l, d', S', .skip h1 k1, k2, k3, k4, fun x hx => ?_, ?_, k7⟩
      · obtain ⟨a1, a2, y, a3, a4, a5⟩ := k5 x hx
        exact ⟨a1, a2, y, by simp [a3], a4, a5⟩
      · intro x hx hn
        rcases List.mem_cons.1 hx with rfl | hx
        · exact absurd hn hc
        · exact k6 x hx hn
termination_by (left nodes S, st.length)
decreasing_by
  all_goals first
    | (subst_vars; exact Prod.Lex.left _ _ (by assumption))
    | (subst_vars; exact Prod.Lex.right _ (by simp))

theorem DfsTo.unique (hu : ∀ {c l l'}, nbr c l → nbr c l' → l = l') {st l : List C} {d d2 : M} (h : DfsTo T nbr st d l d2) :
    ∀ {l' d2'}, DfsTo T nbr st d l' d2' → l = l' ∧ d2 = d2' := by
  induction h with
  | done => intro l' d2' h'; cases h'; exact ⟨rfl, rfl⟩
  | skip h1 _ ih =>
    intro l' d2' h'
    cases h' with
    | skip h1' h2' => rw [h1] at h1'; cases h1'; exact ih h2'
    | next h1' => rw [h1] at h1'; cases h1'
  | next h1 h2 h3 _ ih =>
    intro l' d2' h'
    cases h' with
    | skip h1' h2' => rw [h1] at h1'; cases h1'
    | next h1' h2' h3' h4' =>
      rw [h1] at h1'; cases h1'
      cases hu h2 h2'
      rw [h3] at h3'; cases h3'
      obtain ⟨rfl, rfl⟩ := ih h4'
      exact ⟨rfl, rfl⟩

/-- A set of nodes that nothing inside the graph leads out of. -/
def Saturated (nodes : List C) (nb : C → List C) (S : C → Bool) : Prop := ∀ x, S x = true → ∀ y ∈ within nodes nb x, S y = true

/-- A search from `a`, the set of what is discovered being closed: it returns `a` and then the rest of what is within reach and not
discovered, each once. -/
theorem dfs_from (hT : Roams T nodes Ok nb Vis) (hnb : ∀ {c}, c ∈ nodes → nbr c (nb c)) {S : C → Bool} {d : M} (hv : Vis d S)
    (hcl : Saturated nodes nb S) {a : C} (ha : a ∈ nodes) (hS : S a = false) :
    ∃ l d' S', DfsTo T nbr [a] d l d' ∧ Vis d' S' ∧ Saturated nodes nb S' ∧ (∀ c, S' c = true ↔ S c = true ∨ c ∈ l) ∧ l.Nodup ∧
      l.head? = some a ∧ ∀ c, c ∈ l ↔ Reached (within nodes nb) a c ∧ S c = false := by
  obtain ⟨l, d', S', k1, k2, k3, k4, k5, k6, k7⟩ := dfs_to hT hnb [a] S d hv (by simpa using hT.node_ok ha)
  have hcl' : Saturated nodes nb S' := by
    intro x hx y hy
    rcases (k3 x).1 hx with h | h
    · exact (k3 y).2 (.inl (hcl x h y hy))
    · exact k7 x h y hy
  refine ⟨l, d', S', k1, k2, hcl', k3, k4, ?_, fun c => ⟨fun hc => ?_, fun ⟨hr, hc⟩ => ?_⟩⟩
  · obtain ⟨d1, h1, -⟩ := hT.visit hv ha
    rw [hS] at h1
    cases k1 with
    | skip h => rw [h1] at h; cases h
    | next => rfl
  · obtain ⟨a1, -, x, a3, -, a5⟩ := k5 c hc
    simp only [List.mem_singleton] at a3
    subst a3
    exact ⟨a5, a1⟩
  · have : S' c = true := hr.closed (P := fun x => S' x = true) hcl' (k6 a (by simp) ha)
    rcases (k3 c).1 this with h | h
    · rw [hc] at h; cases h
    · exact h

/-! ### Post-order -/

theorem upd_same {S : C → Bool} {c : C} (h : S c = true) : (fun x => if x = c then true else S x) = S := by
  funext x; by_cases e : x = c
  · subst e; simp [h]
  · simp [e]

theorem post_to (hT : Roams T nodes Ok nb Vis) (hnb : ∀ {c}, c ∈ nodes → nbr c (nb c)) (st : List C) (S F : C → Bool) (d f : M)
    (hv : Vis d S) (hf : Vis f F) (hFS : ∀ x, F x = true → S x = true) (hst : ∀ x ∈ st, Ok x) :
    ∃ out d' f' S' F', PostTo T nbr st d f out d' f' ∧ Vis d' S' ∧ Vis f' F' ∧ (∀ c, F' c = true ↔ F c = true ∨ c ∈ out) ∧ out.Nodup ∧
      (∀ x, F' x = true → S' x = true) ∧ (∀ x, S x = true → S' x = true) ∧ (∀ x, S' x = true → S x = true ∨ F' x = true) ∧
      (∀ c ∈ out, F c = false ∧ c ∈ nodes ∧ ∃ x ∈ st, x ∈ nodes ∧ Reached (within nodes nb) x c) ∧
      (∀ x ∈ st, x ∈ nodes → F' x = true) ∧
      ∀ x, S' x = true → S x = false → ∀ y ∈ within nodes nb x, S' y = true := by
  match st with
  | [] =>
    refine ⟨[], d, f, S, F, .done, hv, hf, by simp, .nil, hFS, fun _ h => h, fun _ h => .inl h, by simp, by simp, fun x h h' => ?_⟩
    rw [h] at h'; cases h'
  | c :: st =>
    by_cases hc : c ∈ nodes
    · obtain ⟨d1, h1, hv1⟩ := hT.visit hv hc
      cases hS : S c with
      | true =>
        rw [upd_same hS] at hv1
        rw [hS] at h1
        obtain ⟨f1, h2, hf1⟩ := hT.visit hf hc
        cases hF : F c with
        | true =>
          rw [upd_same hF] at hf1
          rw [hF] at h2
          obtain ⟨out, d', f', S', F', k1, k2, k3, k4, k5, k6, k7, k8, k9, k10, k11⟩ :=
            post_to hT hnb st S F d1 f1 hv1 hf1 hFS (fun x hx => hst x (by simp [hx]))
          refine ⟨out, d', f', S', F', .again h1 h2 k1, k2, k3, k4, k5, k6, k7, k8, fun x hx => ?_, ?_, k11⟩
          · obtain ⟨a1, a2, y, a3, a4, a5⟩ := k9 x hx
            exact ⟨a1, a2, y, by simp [a3], a4, a5⟩
          · intro x hx hn
            rcases List.mem_cons.1 hx with rfl | hx
            · exact (k4 x).2 (.inl hF)
            · exact k10 x hx hn
        | false =>
          rw [hF] at h2
          have hFS1 : ∀ x, (if x = c then true else F x) = true → S x = true := by
            intro x hx
            by_cases e : x = c
            · rw [e]; exact hS
            · rw [if_neg e] at hx; exact hFS x hx
          obtain ⟨out, d', f', S', F', k1, k2, k3, k4, k5, k6, k7, k8, k9, k10, k11⟩ :=
            post_to hT hnb st S (fun x => if x = c then true else F x) d1 f1 hv1 hf1 hFS1 (fun x hx => hst x (by simp [hx]))
          have hcF : F' c = true := (k4 c).2 (.inl (by simp))
          refine ⟨c :: out, d', f', S', F', .leave h1 h2 k1, k2, k3, fun x => ?_, ?_, k6, k7, k8, fun x hx => ?_, ?_, k11⟩
          · rw [k4 x]
            by_cases e : x = c
            · simp [e]
            · simp [e]
          · refine List.nodup_cons.2 ⟨fun hm => ?_, k5⟩
            have := (k9 c hm).1
            simp at this
          · rcases List.mem_cons.1 hx with rfl | hx
            · exact ⟨hF, hc, x, by simp, hc, .refl⟩
            · obtain ⟨a1, a2, y, a3, a4, a5⟩ := k9 x hx
              have hxc : x ≠ c := by rintro rfl; simp at a1
              exact ⟨by simpa [hxc] using a1, a2, y, by simp [a3], a4, a5⟩
          · intro x hx hn
            rcases List.mem_cons.1 hx with rfl | hx
            · exact hcF
            · exact k10 x hx hn
      | false =>
        rw [hS] at h1
        have hp := pushNew_eq hT hv1 (nb c) (fun y hy => hT.stays hc hy) (c :: st)
        have hdec := left_lt hc hS
        obtain ⟨out, d', f', S', F', k1, k2, k3, k4, k5, k6, k7, k8, k9, k10, k11⟩ :=
          post_to hT hnb (S := fun x => if x = c then true else S x) (F := F) (d := d1) (f := f) hv1 hf
            (fun x hx => by
              by_cases e : x = c
              · simp [e]
              · rw [if_neg e]; exact hFS x hx)
          (st := ((nb c).filter fun y => !(if y = c then true else S y)).reverse ++ c :: st) (by
            intro x hx
            simp only [List.mem_append, List.mem_reverse, List.mem_filter] at hx
            rcases hx with ⟨hx, -⟩ | hx
            · exact hT.stays hc hx
            · exact hst x hx)
        refine ⟨out, d', f', S', F', .enter h1 (hnb hc) hp k1, k2, k3, k4, k5, k6, fun x hx => ?_, fun x hx => ?_, fun x hx => ?_,
          fun x hx hn => k10 x (by simp only [List.mem_append]; exact .inr hx) hn, fun x hx hx0 y hy => ?_⟩
        · refine k7 x ?_
          by_cases e : x = c
          · simp [e]
          · rw [if_neg e]; exact hx
        · rcases k8 x hx with h | h
          · by_cases e : x = c
            · exact .inr (e ▸ k10 c (by simp) hc)
            · rw [if_neg e] at h; exact .inl h
          · exact .inr h
        · obtain ⟨a1, a2, y, a3, a4, a5⟩ := k9 x hx
          refine ⟨a1, a2, ?_⟩
          simp only [List.mem_append, List.mem_reverse, List.mem_filter] at a3
          rcases a3 with ⟨a3, -⟩ | a3
          · exact ⟨c, by simp, hc, .head (mem_within.2 ⟨a3, a4⟩) a5⟩
          · exact ⟨y, a3, a4, a5⟩
        · by_cases e : x = c
          · subst e
            have hy' := mem_within.1 hy
            by_cases hyS : (if y = x then true else S y) = true
            · exact k7 y hyS
            · refine k6 y (k10 y ?_ hy'.2)
              simp only [List.mem_append, List.mem_reverse, List.mem_filter]
              exact .inl ⟨hy'.1, by simpa using hyS⟩
          · exact k11 x hx (by rw [if_neg e]; exact hx0) y hy
    · obtain ⟨d1, h1, hv1⟩ := hT.visitOff hv (hst c (by simp)) hc
      obtain ⟨f1, h2, hf1⟩ := hT.visitOff hf (hst c (by simp)) hc
      obtain ⟨out, d', f', S', F', k1, k2, k3, k4, k5, k6, k7, k8, k9, k10, k11⟩ :=
        post_to hT hnb st S F d1 f1 hv1 hf1 hFS (fun x hx => hst x (by simp [hx]))
      refine ⟨out, d', f', S', F', .again h1 h2 k1, k2, k3, k4, k5, k6, k7, k8, fun x hx => ?_, ?_, k11⟩
      · obtain ⟨a1, a2, y, a3, a4, a5⟩ := k9 x hx
        exact ⟨a1, a2, y, by simp [a3], a4, a5⟩
      · intro x hx hn
        rcases List.mem_cons.1 hx with rfl | hx
        · exact absurd hn hc
        · exact k10 x hx hn
termination_by (left nodes S, st.length)
decreasing_by
  all_goals first
    | (subst_vars; exact Prod.Lex.left _ _ (by assumption))
    | (subst_vars; exact Prod.Lex.right _ (by simp))

theorem PostTo.unique (hu : ∀ {c l l'}, nbr c l → nbr c l' → l = l') {st out : List C} {d f d2 f2 : M}
    (h : PostTo T nbr st d f out d2 f2) :
    ∀ {out' d2' f2'}, PostTo T nbr st d f out' d2' f2' → out = out' ∧ d2 = d2' ∧ f2 = f2' := by
  induction h with
  | done => intro _ _ _ h'; cases h'; exact ⟨rfl, rfl, rfl⟩
  | enter h1 h2 h3 _ ih =>
    intro _ _ _ h'
    cases h' with
    | enter h1' h2' h3' h4' =>
      rw [h1] at h1'; cases h1'
      cases hu h2 h2'
      rw [h3] at h3'; cases h3'
      exact ih h4'
    | leave h1' => rw [h1] at h1'; cases h1'
    | again h1' => rw [h1] at h1'; cases h1'
  | leave h1 h2 _ ih =>
    intro _ _ _ h'
    cases h' with
    | enter h1' => rw [h1] at h1'; cases h1'
    | leave h1' h2' h3' =>
      rw [h1] at h1'; cases h1'
      rw [h2] at h2'; cases h2'
      obtain ⟨rfl, rfl, rfl⟩ := ih h3'
      exact ⟨rfl, rfl, rfl⟩
    | again h1' h2' => rw [h2] at h2'; cases h2'
  | again h1 h2 _ ih =>
    intro _ _ _ h'
    cases h' with
    | enter h1' => rw [h1] at h1'; cases h1'
    | leave h1' h2' => rw [h2] at h2'; cases h2'
    | again h1' h2' h3' =>
      rw [h1] at h1'; cases h1'
      rw [h2] at h2'; cases h2'
      exact ih h3'

/-- The nodes that were entered and not left are on the stack; what lies above the topmost place of such a node is within its
reach, and its neighbours are discovered or lie there; those of a node that was left are discovered. -/
structure PostInv (nodes : List C) (nb : C → List C) (Ok : C → Prop) (st : List C) (S F : C → Bool) : Prop where
  ok : ∀ x ∈ st, Ok x
  sub : ∀ x, F x = true → S x = true
  mem : ∀ x, S x = true → F x = false → x ∈ st
  above : ∀ x, S x = true → F x = false → ∀ z ∈ st.takeWhile (fun w => decide (w ≠ x)), z ∈ nodes → Reached (within nodes nb) x z
  nbrs : ∀ x, S x = true → F x = false → ∀ y ∈ within nodes nb x, S y = true ∨ y ∈ st.takeWhile (fun w => decide (w ≠ x))
  fin : ∀ x, F x = true → ∀ y ∈ within nodes nb x, S y = true

/-- Dropping a node that is discovered, and not open afterwards. -/
theorem PostInv.pop {st : List C} {c : C} {S F F' : C → Bool} (h : PostInv nodes nb Ok (c :: st) S F) (hc : c ∈ nodes → S c = true)
    (hF : ∀ x, F x = true → F' x = true) (hF' : ∀ x, F' x = true → S x = true) (hn : S c = true → F' c = true)
    (hfin : ∀ x, F' x = true → ∀ y ∈ within nodes nb x, S y = true) :
    PostInv nodes nb Ok st S F' := by
  have old : ∀ x, F' x = false → F x = false := fun x hx => by
    cases hFx : F x with
    | false => rfl
    | true => rw [hF x hFx] at hx; cases hx
  have ne : ∀ x, S x = true → F' x = false → c ≠ x := fun x h1 h2 e => by rw [← e] at h1 h2; rw [hn h1] at h2; cases h2
  refine ⟨fun x hx => h.ok x (by simp [hx]), hF', fun x h1 h2 => ?_, fun x h1 h2 z hz => ?_, fun x h1 h2 y hy => ?_, hfin⟩
  · exact (List.mem_cons.1 (h.mem x h1 (old x h2))).resolve_left fun e => ne x h1 h2 e.symm
  · refine h.above x h1 (old x h2) z ?_
    rw [List.takeWhile_cons, if_pos (by simp [ne x h1 h2])]
    exact List.mem_cons_of_mem _ hz
  · have := h.nbrs x h1 (old x h2) y hy
    rw [List.takeWhile_cons, if_pos (by simp [ne x h1 h2]), List.mem_cons] at this
    rcases this with h' | rfl | h'
    · exact .inl h'
    · exact .inl (hc (mem_within.1 hy).2)
    · exact .inr h'

/-- Returned before `c` (or finished from the start). -/
def Before (F : C → Bool) (o1 : List C) (y : C) : Prop := y ∈ o1 ∨ F y = true

/-- When `c` is returned each of its neighbours was returned before, or leads back to `c`. And all that is within reach of `c` was
returned before, unless some other node that `c` leads to and that leads back to `c` was not. -/
theorem post_order (hT : Roams T nodes Ok nb Vis) (hnb : ∀ {c l}, c ∈ nodes → nbr c l → l = nb c) {st out : List C} {d f d2 f2 : M}
    (h : PostTo T nbr st d f out d2 f2) : ∀ {S F : C → Bool}, Vis d S → Vis f F → PostInv nodes nb Ok st S F →
    ∀ {o1 o2 : List C} {c y : C}, out = o1 ++ c :: o2 →
      (y ∈ within nodes nb c → Before F o1 y ∨ Reached (within nodes nb) y c) ∧
      (Reached (within nodes nb) c y → Before F o1 y ∨ y = c ∨
        ∃ z, ¬ Before F o1 z ∧ z ≠ c ∧ Reached (within nodes nb) c z ∧ Reached (within nodes nb) z c) := by
  induction h with
  | done => intro S F _ _ _ o1 o2 c y e; simp at e
  | @enter c st st' nbs out d d' f d2 f2 h1 h2 h3 _ ih =>
    intro S F hv hf hi
    by_cases hc : c ∈ nodes
    · cases hnb hc h2
      obtain ⟨m, h, hv1⟩ := hT.visit hv hc
      rw [h1] at h
      simp only [Except.ok.injEq, Prod.mk.injEq] at h
      obtain ⟨hSc, rfl⟩ := h
      have hSc : S c = false := by simpa using hSc.symm
      rw [pushNew_eq hT hv1 (nb c) (fun y hy => hT.stays hc hy) (c :: st)] at h3
      cases h3
      refine ih hv1 hf ?_
      have hnew : ∀ x, (if x = c then true else S x) = true →
          ∀ z ∈ ((nb c).filter fun y => !(if y = c then true else S y)).reverse, z ≠ x := by
        rintro x hx z hz rfl
        simp only [List.mem_reverse, List.mem_filter] at hz
        rw [hx] at hz; simp at hz
      have htop : ∀ x, (if x = c then true else S x) = true →
          (((nb c).filter fun y => !(if y = c then true else S y)).reverse ++ c :: st).takeWhile (fun w => decide (w ≠ x)) =
          ((nb c).filter fun y => !(if y = c then true else S y)).reverse ++ (c :: st).takeWhile (fun w => decide (w ≠ x)) := by
        intro x hx
        rw [List.takeWhile_append_of_pos fun z hz => by simpa using hnew x hx z hz]
      refine ⟨fun x hx => ?_, fun x hx => ?_, fun x hx hFx => ?_, fun x hx hFx z hz hzn => ?_, fun x hx hFx y hy => ?_,
        fun x hx y hy => ?_⟩
      · simp only [List.mem_append, List.mem_reverse, List.mem_filter] at hx
        rcases hx with ⟨hx, -⟩ | hx
        · exact hT.stays hc hx
        · exact hi.ok x hx
      · by_cases e : x = c
        · simp [e]
        · rw [if_neg e]; exact hi.sub x hx
      · by_cases e : x = c
        · simp [e]
        · rw [if_neg e] at hx
          exact List.mem_append_right _ (hi.mem x hx hFx)
      · rw [htop x hx, List.mem_append] at hz
        have hxc : Reached (within nodes nb) x c := by
          by_cases e : x = c
          · rw [e]; exact .refl
          · rw [if_neg e] at hx
            refine hi.above x hx hFx c ?_ hc
            rw [List.takeWhile_cons, if_pos (by simpa using fun h => e h.symm)]
            simp
        rcases hz with hz | hz
        · simp only [List.mem_reverse, List.mem_filter] at hz
          exact .step hxc (mem_within.2 ⟨hz.1, hzn⟩)
        · by_cases e : x = c
          · subst e; simp at hz
          · rw [if_neg e] at hx
            exact hi.above x hx hFx z hz hzn
      · rw [htop x hx, List.mem_append]
        by_cases e : x = c
        · subst e
          by_cases hyS : (if y = x then true else S y) = true
          · exact .inl hyS
          · refine .inr (.inl ?_)
            simp only [List.mem_reverse, List.mem_filter]
            exact ⟨(mem_within.1 hy).1, by simpa using hyS⟩
        · rw [if_neg e] at hx
          rcases hi.nbrs x hx hFx y hy with h | h
          · refine .inl ?_
            by_cases e' : y = c
            · simp [e']
            · rw [if_neg e']; exact h
          · exact .inr (.inr h)
      · by_cases e : y = c
        · simp [e]
        · rw [if_neg e]; exact hi.fin x hx y hy
    · obtain ⟨m, h, -⟩ := hT.visitOff hv (hi.ok c (by simp)) hc
      rw [h1] at h; cases h
  | @leave c st out d d' f f' d2 f2 h1 h2 h3 ih =>
    intro S F hv hf hi o1 o2 c' y e
    by_cases hc : c ∈ nodes
    · obtain ⟨m, h, hv1⟩ := hT.visit hv hc
      obtain ⟨m', h', hf1⟩ := hT.visit hf hc
      rw [h1] at h
      rw [h2] at h'
      simp only [Except.ok.injEq, Prod.mk.injEq] at h h'
      obtain ⟨hSc, rfl⟩ := h
      obtain ⟨hFc, rfl⟩ := h'
      have hSc : S c = true := by simpa using hSc.symm
      have hFc : F c = false := by simpa using hFc.symm
      rw [upd_same hSc] at hv1
      have hnbS : ∀ y ∈ within nodes nb c, S y = true := by
        intro y hy
        rcases hi.nbrs c hSc hFc y hy with h | h
        · exact h
        · simp at h
      have hback : ∀ y, S y = true → F y = false → Reached (within nodes nb) y c := by
        intro y hSy hFy
        by_cases e : y = c
        · rw [e]; exact .refl
        · refine hi.above y hSy hFy c ?_ hc
          rw [List.takeWhile_cons, if_pos (by simpa using fun h => e h.symm)]
          simp
      have hi' : PostInv nodes nb Ok st S (fun x => if x = c then true else F x) := by
        refine hi.pop (fun _ => hSc) (fun x hx => ?_) (fun x hx => ?_) (fun _ => by simp) (fun x hx => ?_)
        · by_cases e : x = c
          · simp [e]
          · rw [if_neg e]; exact hx
        · by_cases e : x = c
          · rw [e]; exact hSc
          · rw [if_neg e] at hx; exact hi.sub x hx
        · by_cases e : x = c
          · rw [e]; exact hnbS
          · rw [if_neg e] at hx; exact hi.fin x hx
      cases o1 with
      | nil =>
        simp only [List.nil_append, List.cons.injEq] at e
        obtain ⟨rfl, rfl⟩ := e
        refine ⟨fun hy => ?_, fun hr => ?_⟩
        · cases hFy : F y with
          | true => exact .inl (.inr hFy)
          | false => exact .inr (hback y (hnbS y hy) hFy)
        · by_cases hz : ∃ z, F z = false ∧ z ≠ c ∧ Reached (within nodes nb) c z ∧ Reached (within nodes nb) z c
          · obtain ⟨z, z1, z2, z3⟩ := hz
            exact .inr (.inr ⟨z, by simp [Before, z1], z2, z3⟩)
          · have := hr.closed (P := fun x => (F x = true ∨ x = c) ∧ Reached (within nodes nb) c x) (by
              rintro x ⟨hx, hcx⟩ y hy
              have hcy : Reached (within nodes nb) c y := .step hcx hy
              refine ⟨?_, hcy⟩
              have hSy : S y = true := by
                rcases hx with hx | rfl
                · exact hi.fin x hx y hy
                · exact hnbS y hy
              cases hFy : F y with
              | true => exact .inl rfl
              | false =>
                refine .inr (Classical.byContradiction fun hne => hz ⟨y, hFy, hne, hcy, hback y hSy hFy⟩)) ⟨.inr rfl, .refl⟩
            rcases this.1 with h | h
            · exact .inl (.inr h)
            · exact .inr (.inl h)
      | cons z o1 =>
        simp only [List.cons_append, List.cons.injEq] at e
        obtain ⟨rfl, rfl⟩ := e
        have hB : ∀ x, Before (fun x => if x = c then true else F x) o1 x ↔ Before F (c :: o1) x := by
          intro x
          unfold Before
          by_cases e : x = c
          · simp [e]
          · simp [e]
        have := ih hv1 hf1 hi' (o1 := o1) (c := c') (y := y) rfl
        simp only [hB] at this
        exact this
    · obtain ⟨m, h, -⟩ := hT.visitOff hf (hi.ok c (by simp)) hc
      rw [h2] at h; cases h
  | @again c st out d d' f f' d2 f2 h1 h2 h3 ih =>
    intro S F hv hf hi
    by_cases hc : c ∈ nodes
    · obtain ⟨m, h, hv1⟩ := hT.visit hv hc
      obtain ⟨m', h', hf1⟩ := hT.visit hf hc
      rw [h1] at h
      rw [h2] at h'
      simp only [Except.ok.injEq, Prod.mk.injEq] at h h'
      obtain ⟨hSc, rfl⟩ := h
      obtain ⟨hFc, rfl⟩ := h'
      have hSc : S c = true := by simpa using hSc.symm
      have hFc : F c = true := by simpa using hFc.symm
      rw [upd_same hSc] at hv1
      rw [upd_same hFc] at hf1
      exact ih hv1 hf1 (hi.pop (fun _ => hSc) (fun _ h => h) hi.sub (fun _ => hFc) hi.fin)
    · obtain ⟨m, h, hv1⟩ := hT.visitOff hv (hi.ok c (by simp)) hc
      obtain ⟨m', h', hf1⟩ := hT.visitOff hf (hi.ok c (by simp)) hc
      rw [h1] at h
      rw [h2] at h'
      simp only [Except.ok.injEq, Prod.mk.injEq] at h h'
      obtain ⟨-, rfl⟩ := h
      obtain ⟨-, rfl⟩ := h'
      exact ih hv1 hf1 (hi.pop (fun h => absurd h hc) (fun _ h => h) hi.sub (fun h => absurd (hT.only hv h) hc) hi.fin)

/-- A search in post-order from `a`, what is discovered being finished and closed: it returns what is within reach of `a` and not
discovered, each once. -/
theorem post_from (hT : Roams T nodes Ok nb Vis) (hnb : ∀ {c}, c ∈ nodes → nbr c (nb c)) (hu : ∀ {c l l'}, nbr c l → nbr c l' → l = l')
    {S : C → Bool} {d f : M} (hv : Vis d S) (hf : Vis f S) (hcl : Saturated nodes nb S) {a : C} (ha : a ∈ nodes) (hS : S a = false) :
    ∃ out d' f' S', PostTo T nbr [a] d f out d' f' ∧ Vis d' S' ∧ Vis f' S' ∧ Saturated nodes nb S' ∧
      (∀ c, S' c = true ↔ S c = true ∨ c ∈ out) ∧ out.Nodup ∧
      (∀ c, c ∈ out ↔ Reached (within nodes nb) a c ∧ S c = false) ∧
      ∀ {o1 o2 : List C} {c y : C}, out = o1 ++ c :: o2 →
        (y ∈ within nodes nb c → Before S o1 y ∨ Reached (within nodes nb) y c) ∧
        (Reached (within nodes nb) c y → Before S o1 y ∨ y = c ∨
          ∃ z, ¬ Before S o1 z ∧ z ≠ c ∧ Reached (within nodes nb) c z ∧ Reached (within nodes nb) z c) := by
  obtain ⟨out, d', f', S', F', k1, k2, k3, k4, k5, k6, k7, k8, k9, k10, k11⟩ :=
    post_to hT hnb [a] S S d f hv hf (fun _ h => h) (by simpa using hT.node_ok ha)
  have hFS : F' = S' := by
    funext x
    cases hx : S' x with
    | true =>
      rcases k8 x hx with h | h
      · exact (k4 x).2 (.inl h)
      · exact h
    | false =>
      cases hy : F' x with
      | false => rfl
      | true => rw [k6 x hy] at hx; cases hx
  subst hFS
  have hcl' : Saturated nodes nb F' := by
    intro x hx y hy
    cases hx0 : S x with
    | true => exact k7 y (hcl x hx0 y hy)
    | false => exact k11 x hx hx0 y hy
  have hu' : ∀ {c l}, c ∈ nodes → nbr c l → l = nb c := fun hc h => hu h (hnb hc)
  refine ⟨out, d', f', F', k1, k2, k3, hcl', k4, k5, fun c => ⟨fun hc => ?_, fun ⟨hr, hc⟩ => ?_⟩, fun {o1 o2 c y} e => ?_⟩
  · obtain ⟨a1, -, x, a3, -, a5⟩ := k9 c hc
    simp only [List.mem_singleton] at a3
    subst a3
    exact ⟨a5, a1⟩
  · have : F' c = true := hr.closed (P := fun x => F' x = true) hcl' (k10 a (by simp) ha)
    rcases (k4 c).1 this with h | h
    · rw [hc] at h; cases h
    · exact h
  · refine post_order hT hu' k1 hv hf ⟨by simpa using hT.node_ok ha, fun _ h => h, ?_, ?_, ?_, hcl⟩ e <;>
      · intro x h1 h2; rw [h1] at h2; cases h2

/-! ### All of them -/

/-- The searches of the first phase, from a set that is closed. -/
theorem finish_all (hT : Roams T nodes Ok nb Vis) (hnb : ∀ {c}, c ∈ nodes → nbr c (nb c)) (hu : ∀ {c l l'}, nbr c l → nbr c l' → l = l') :
    ∀ (is : List C), (∀ i ∈ is, i ∈ nodes) → ∀ {S : C → Bool} {d f : M}, Vis d S → Vis f S → Saturated nodes nb S →
    ∃ fo d' S', FinishAll T nbr is d f fo d' ∧ Vis d' S' ∧ (∀ c, S' c = true ↔ S c = true ∨ c ∈ fo) ∧ fo.Nodup ∧
      (∀ c ∈ fo, S c = false ∧ c ∈ nodes) ∧ (∀ i ∈ is, S' i = true) ∧
      ∀ {o1 o2 : List C} {c y : C}, fo = o1 ++ c :: o2 →
        (y ∈ within nodes nb c → Before S o1 y ∨ Reached (within nodes nb) y c) ∧
        (Reached (within nodes nb) c y → Before S o1 y ∨ y = c ∨
          ∃ z, ¬ Before S o1 z ∧ z ≠ c ∧ Reached (within nodes nb) c z ∧ Reached (within nodes nb) z c)
  | [], _, S, d, f, hv, _, _ => ⟨[], d, S, .done, hv, by simp, .nil, by simp, by simp, by simp⟩
  | i :: is, his, S, d, f, hv, hf, hcl => by
    have hi : i ∈ nodes := his i (by simp)
    have his' : ∀ j ∈ is, j ∈ nodes := fun j hj => his j (by simp [hj])
    have hvis := hT.isVisited hv (hT.node_ok hi)
    cases hS : S i with
    | true =>
      rw [hS] at hvis
      obtain ⟨fo, d', S', k1, k2, k3, k4, k5, k6, k7⟩ := finish_all hT hnb hu is his' hv hf hcl
      refine ⟨fo, d', S', .seen hvis k1, k2, k3, k4, k5, ?_, k7⟩
      intro j hj
      rcases List.mem_cons.1 hj with rfl | hj
      · exact (k3 j).2 (.inl hS)
      · exact k6 j hj
    | false =>
      rw [hS] at hvis
      obtain ⟨out, d1, f1, S1, p1, p2, p3, p4, p5, p6, p8, p9⟩ := post_from hT hnb hu hv hf hcl hi hS
      obtain ⟨fo, d', S', k1, k2, k3, k4, k5, k6, k7⟩ := finish_all hT hnb hu is his' p2 p3 p4
      have hS1 : S1 i = true := (p5 i).2 (.inr ((p8 i).2 ⟨.refl, hS⟩))
      have old : ∀ x, S1 x = false → S x = false ∧ x ∉ out := by
        intro x hx
        refine ⟨?_, fun h => ?_⟩
        · cases h : S x with
          | false => rfl
          | true => rw [(p5 x).2 (.inl h)] at hx; cases hx
        · rw [(p5 x).2 (.inr h)] at hx; cases hx
      refine ⟨out ++ fo, d', S', .root hvis p1 k1, k2, fun c => ?_, ?_, ?_, ?_, ?_⟩
      · rw [k3 c, p5 c, List.mem_append, or_assoc]
      · exact List.nodup_append.2 ⟨p6, k4, fun x hx y hy e => (old y (k5 y hy).1).2 (e ▸ hx)⟩
      · intro c hc
        rcases List.mem_append.1 hc with h | h
        · have := (p8 c).1 h
          exact ⟨this.2, this.1.inside hi⟩
        · exact ⟨(old c (k5 c h).1).1, (k5 c h).2⟩
      · intro j hj
        rcases List.mem_cons.1 hj with rfl | hj
        · exact (k3 j).2 (.inl hS1)
        · exact k6 j hj
      · intro o1 o2 c y e
        rcases List.append_eq_append_iff.1 e with ⟨t, e1, e2⟩ | ⟨t, e1, e2⟩
        · have hB : ∀ x, Before S1 t x ↔ Before S o1 x := by
            intro x
            rw [Before, Before, p5 x, e1, List.mem_append]
            constructor
            · rintro (h | h | h)
              · exact .inl (.inr h)
              · exact .inr h
              · exact .inl (.inl h)
            · rintro ((h | h) | h)
              · exact .inr (.inr h)
              · exact .inl h
              · exact .inr (.inl h)
          have := k7 (c := c) (y := y) e2
          simp only [hB] at this
          exact this
        · cases t with
          | nil =>
            simp only [List.append_nil] at e1
            have hB : ∀ x, Before S1 [] x ↔ Before S o1 x := by
              intro x
              rw [Before, Before, p5 x, e1]
              constructor
              · rintro (h | h | h)
                · simp at h
                · exact .inr h
                · exact .inl h
              · rintro (h | h)
                · exact .inr (.inr h)
                · exact .inr (.inl h)
            have := k7 (o1 := []) (c := c) (y := y) (by simpa using e2.symm)
            simp only [hB] at this
            exact this
          | cons z t =>
            simp only [List.cons_append, List.cons.injEq] at e2
            obtain ⟨rfl, -⟩ := e2
            exact p9 e1

theorem FinishAll.unique (hu : ∀ {c l l'}, nbr c l → nbr c l' → l = l') {is fo : List C} {d f d2 : M} (h : FinishAll T nbr is d f fo d2) :
    ∀ {fo' d2'}, FinishAll T nbr is d f fo' d2' → fo = fo' ∧ d2 = d2' := by
  induction h with
  | done => intro _ _ h'; cases h'; exact ⟨rfl, rfl⟩
  | seen h1 _ ih =>
    intro _ _ h'
    cases h' with
    | seen _ h2' => exact ih h2'
    | root h1' => rw [h1] at h1'; cases h1'
  | root h1 h2 _ ih =>
    intro _ _ h'
    cases h' with
    | seen h1' => rw [h1] at h1'; cases h1'
    | root _ h2' h3' =>
      obtain ⟨rfl, rfl, rfl⟩ := h2.unique (nbr := nbr) hu h2'
      obtain ⟨rfl, rfl⟩ := ih h3'
      exact ⟨rfl, rfl⟩

/-- Each group is what can be walked to from its first node and is in no earlier one. -/
def GroupsAre (nodes : List C) (nb : C → List C) : (C → Bool) → List (List C) → Prop
  | _, [] => True
  | S, l :: gs => (∃ a, l.head? = some a ∧ ∀ c, c ∈ l ↔ Reached (within nodes nb) a c ∧ S c = false) ∧
    GroupsAre nodes nb (fun x => S x || decide (x ∈ l)) gs

/-- The searches of the second phase. -/
theorem groups (hT : Roams T nodes Ok nb Vis) (hnb : ∀ {c}, c ∈ nodes → nbr c (nb c)) :
    ∀ (is : List C), (∀ i ∈ is, i ∈ nodes) → ∀ {S : C → Bool} {d : M}, Vis d S → Saturated nodes nb S →
    ∃ gs, Groups T nbr is d gs ∧ gs.flatten.Nodup ∧ (∀ c ∈ gs.flatten, S c = false ∧ c ∈ nodes) ∧
      (∀ i ∈ is, S i = true ∨ i ∈ gs.flatten) ∧ GroupsAre nodes nb S gs ∧ (∀ l ∈ gs, l ≠ []) ∧
      ∀ i is', is = i :: is' → S i = false → ∃ l gs', gs = l :: gs' ∧ l.head? = some i
  | [], _, S, d, hv, _ => ⟨[], .done, by simp, by simp, by simp, trivial, by simp, by simp⟩
  | i :: is, his, S, d, hv, hcl => by
    have hi : i ∈ nodes := his i (by simp)
    have his' : ∀ j ∈ is, j ∈ nodes := fun j hj => his j (by simp [hj])
    have hvis := hT.isVisited hv (hT.node_ok hi)
    cases hS : S i with
    | true =>
      rw [hS] at hvis
      obtain ⟨gs, k1, k2, k3, k4, k5, k6, -⟩ := groups hT hnb is his' hv hcl
      refine ⟨gs, .seen hvis k1, k2, k3, ?_, k5, k6, ?_⟩
      · intro j hj
        rcases List.mem_cons.1 hj with rfl | hj
        · exact .inl hS
        · exact k4 j hj
      · intro j js e h
        cases e; rw [hS] at h; cases h
    | false =>
      rw [hS] at hvis
      obtain ⟨l, d1, S1, p1, p2, p3, p4, p5, p6, p7⟩ := dfs_from hT hnb hv hcl hi hS
      obtain ⟨gs, k1, k2, k3, k4, k5, k6, -⟩ := groups hT hnb is his' p2 p3
      have hl : l ≠ [] := by rintro rfl; cases p6
      have hS1 : S1 = fun x => S x || decide (x ∈ l) := by
        funext x
        have := p4 x
        cases h : S1 x with
        | true => rcases this.1 h with h' | h' <;> simp [h']
        | false =>
          rw [h] at this
          have : ¬ (S x = true ∨ x ∈ l) := fun h' => by cases this.2 h'
          simp only [not_or] at this
          simp [this.1, this.2]
      refine ⟨l :: gs, .root hvis p1 k1, ?_, ?_, ?_, ⟨⟨i, p6, p7⟩, hS1 ▸ k5⟩, ?_, ?_⟩
      · rw [List.flatten_cons]
        refine List.nodup_append.2 ⟨p5, k2, fun x hx y hy e => ?_⟩
        subst e
        have := (k3 x hy).1
        rw [(p4 x).2 (.inr hx)] at this; cases this
      · intro c hc
        rw [List.flatten_cons] at hc
        rcases List.mem_append.1 hc with h | h
        · have := (p7 c).1 h
          exact ⟨this.2, this.1.inside hi⟩
        · obtain ⟨a1, a2⟩ := k3 c h
          refine ⟨?_, a2⟩
          cases hc : S c with
          | false => rfl
          | true => rw [(p4 c).2 (.inl hc)] at a1; cases a1
      · intro j hj
        rw [List.flatten_cons]
        rcases List.mem_cons.1 hj with rfl | hj
        · exact .inr (List.mem_append_left _ ((p7 j).2 ⟨.refl, hS⟩))
        · rcases k4 j hj with h | h
          · rcases (p4 j).1 h with h | h
            · exact .inl h
            · exact .inr (List.mem_append_left _ h)
          · exact .inr (List.mem_append_right _ h)
      · intro x hx
        rcases List.mem_cons.1 hx with rfl | hx
        · exact hl
        · exact k6 x hx
      · intro j js e _
        cases e
        exact ⟨l, gs, rfl, p6⟩

theorem Groups.unique (hu : ∀ {c l l'}, nbr c l → nbr c l' → l = l') {is : List C} {d : M} {gs : List (List C)} (h : Groups T nbr is d gs) :
    ∀ {gs'}, Groups T nbr is d gs' → gs = gs' := by
  induction h with
  | done => intro _ h'; cases h'; rfl
  | seen h1 _ ih =>
    intro _ h'
    cases h' with
    | seen _ h2' => exact ih h2'
    | root h1' => rw [h1] at h1'; cases h1'
  | root h1 h2 _ ih =>
    intro _ h'
    cases h' with
    | seen h1' => rw [h1] at h1'; cases h1'
    | root _ h2' h3' =>
      obtain ⟨rfl, rfl⟩ := h2.unique (nbr := nbr) hu h2'
      rw [ih h3']

end
end LG
