import Verif.Model.Filtered
import Verif.Lemmas.Astar
import Verif.Lemmas.Topo
/- Filtered iterators, and what the searches find through them. -/
set_option linter.unusedSectionVars false
namespace LG
section
variable {σ α : Type} {next : σ → Res (Option α × σ)} {p : α → Res Bool} {q : α → Bool}

theorem FindsNext.unique {s s1 s2 : σ} {o1 o2 : Option α} (h1 : FindsNext next p s o1 s1) (h2 : FindsNext next p s o2 s2) :
    o1 = o2 ∧ s1 = s2 := by
  induction h1 with
  | none e => cases h2 with
    | none e' => rw [e] at e'; cases e'; exact ⟨rfl, rfl⟩
    | hit e' _ => rw [e] at e'; cases e'
    | miss e' _ _ => rw [e] at e'; cases e'
  | hit e hp => cases h2 with
    | none e' => rw [e] at e'; cases e'
    | hit e' _ => rw [e] at e'; cases e'; exact ⟨rfl, rfl⟩
    | miss e' hp' _ => rw [e] at e'; cases e'; rw [hp] at hp'; cases hp'
  | miss e hp _ ih => cases h2 with
    | none e' => rw [e] at e'; cases e'
    | hit e' hp' => rw [e] at e'; cases e'; rw [hp] at hp'; cases hp'
    | miss e' _ h => rw [e] at e'; cases e'; exact ih h

theorem Filters.unique {s : σ} {l1 l2 : List α} (h1 : Filters next p s l1) (h2 : Filters next p s l2) : l1 = l2 := by
  induction h1 generalizing l2 with
  | done e => cases h2 with
    | done _ => rfl
    | step e' _ => cases (e.unique e').1
  | step e _ ih => cases h2 with
    | done e' => cases (e.unique e').1
    | step e' h =>
      obtain ⟨e1, e2⟩ := e.unique e'
      cases e1; cases e2
      rw [ih h]

theorem Filters.miss {s s' : σ} {x : α} {l : List α} (h : next s = .ok (some x, s')) (hp : p x = .ok false) (hf : Filters next p s' l) :
    Filters next p s l := by
  cases hf with
  | done e => exact .done (.miss h hp e)
  | step e hf => exact .step (.miss h hp e) hf

/-- Filtering an iterator filters what it yields. -/
theorem Yields.filters {s : σ} {l : List α} (hy : Yields next s l) (hp : ∀ x ∈ l, p x = .ok (q x)) : Filters next p s (l.filter q) := by
  induction hy with
  | done e => exact .done (.none e)
  | @step s s' a l e _ ih =>
    have ih := ih fun x hx => hp x (List.mem_cons_of_mem _ hx)
    have ha := hp a List.mem_cons_self
    rw [List.filter_cons]
    cases hq : q a with
    | true => rw [hq] at ha; exact .step (.hit e ha) ih
    | false => rw [hq] at ha; exact ih.miss e ha

theorem filters_iff {s : σ} {l l' : List α} (hy : Yields next s l) (hp : ∀ x ∈ l, p x = .ok (q x)) :
    Filters next p s l' ↔ l' = l.filter q :=
  ⟨fun h => h.unique (hy.filters hp), fun e => e ▸ hy.filters hp⟩

theorem openNeighbors_iff {σ C : Type} {next : σ → Res (Option C × σ)} {f : C → Bool} {c : C} {s : σ} {l l' : List C}
    (hy : Yields next s l) : OpenNeighbors f c next s l' ↔ l' = if f c then l.filter f else [] := by
  unfold OpenNeighbors
  split
  · exact filters_iff hy fun _ _ => rfl
  · exact Iff.rfl

theorem OpenNeighbors.unique {σ C : Type} {next : σ → Res (Option C × σ)} {f : C → Bool} {c : C} {s : σ} {l l' : List C}
    (h : OpenNeighbors f c next s l) (h' : OpenNeighbors f c next s l') : l = l' := by
  unfold OpenNeighbors at h h'
  split at h
  · rename_i hf; rw [if_pos hf] at h'; exact Filters.unique h h'
  · rename_i hf; rw [if_neg hf] at h'; rw [h, h']
end

/-! ### Searches along `neighbors` -/

section
variable {C M : Type} [DecidableEq C] {T : Rovable C M}
variable {nodes : List C} {Ok : C → Prop} {nb : C → List C} {Vis : M → (C → Bool) → Prop}

/-- The open part of a graph whose methods behave is one. -/
theorem Roams.opened (hT : Roams T nodes Ok nb Vis) (f : C → Bool) {T' : Rovable C M} (hm : T'.visitMap = T.visitMap)
    (hr : T'.resetMap = T.resetMap) (hv : T'.visit = T.visit) (hi : T'.isVisited = T.isVisited)
    (hn : ∀ {c}, c ∈ nodes → T'.neighbors c (if f c then (nb c).filter f else []))
    (hc : ∀ {c}, c ∈ nodes → T'.incoming c (if f c then (nb c).filter f else []))
    (un : ∀ {c l l'}, T'.neighbors c l → T'.neighbors c l' → l = l') (ui : ∀ {c l l'}, T'.incoming c l → T'.incoming c l' → l = l')
    (ids : T'.nodeIds (nodes.filter f)) (uids : ∀ {l l'}, T'.nodeIds l → T'.nodeIds l' → l = l') :
    Roams T' (nodes.filter f) (fun c => Ok c ∧ f c = true) (fun c => (nb c).filter f)
      (fun m S => Vis m S ∧ ∀ c, S c = true → f c = true) where
  nodup := hT.nodup.filter _
  node_ok := fun h => ⟨hT.node_ok (List.mem_filter.1 h).1, (List.mem_filter.1 h).2⟩
  only := fun hv h => List.mem_filter.2 ⟨hT.only hv.1 h, hv.2 _ h⟩
  new := ⟨hm ▸ hT.new, fun _ h => nomatch h⟩
  reset := fun h => ⟨hr ▸ hT.reset h.1, fun _ h => nomatch h⟩
  visit := fun {m S c} hv' h => by
    obtain ⟨h1, h2⟩ := List.mem_filter.1 h
    obtain ⟨m', h3, h4⟩ := hT.visit hv'.1 h1
    refine ⟨m', hv ▸ h3, h4, fun x hx => ?_⟩
    by_cases e : x = c
    · rw [e]; exact h2
    · simp only [e, if_false] at hx; exact hv'.2 x hx
  visitOff := fun {m S c} hv' ho h => by
    obtain ⟨m', h1, h2⟩ := hT.visitOff hv'.1 ho.1 fun hc => h (List.mem_filter.2 ⟨hc, ho.2⟩)
    exact ⟨m', hv ▸ h1, h2, hv'.2⟩
  isVisited := fun h ho => hi ▸ hT.isVisited h.1 ho.1
  neighbors := fun {c} h => by
    have := hn (List.mem_filter.1 h).1
    rwa [if_pos (List.mem_filter.1 h).2] at this
  incoming := fun {c} h => by
    have := hc (List.mem_filter.1 h).1
    rwa [if_pos (List.mem_filter.1 h).2] at this
  uniqueN := un
  uniqueI := ui
  stays := fun h hy => ⟨hT.stays (List.mem_filter.1 h).1 (List.mem_filter.1 hy).1, (List.mem_filter.1 hy).2⟩
  ids := ids
  uniqueIds := uids

/-- A search that starts where there is nowhere to go finds the start. -/
theorem hasPath_alone (hT : Roams T nodes Ok nb Vis) {T' : Rovable C M} (hm : T'.visitMap = T.visitMap)
    (hr : T'.resetMap = T.resetMap) (hv : T'.visit = T.visit) {a : C} (ha : a ∈ nodes)
    (hn : ∀ {l}, T'.neighbors a l ↔ l = []) (b : C) (r : Bool) : HasPath T' a b r ↔ (r = true ↔ b = a) := by
  obtain ⟨d, h1, -⟩ := hT.visit (hT.reset hT.new) ha
  have h1 : T'.visit (T'.resetMap T'.visitMap) a = .ok (true, d) := by rw [hv, hr, hm]; exact h1
  have hd : ∀ {d r}, DfsFinds T' b [] d r ↔ r = false := by
    intro d r
    constructor
    · intro h; cases h; rfl
    · rintro rfl; exact .done
  unfold HasPath
  constructor
  · intro h
    cases h with
    | skip e _ => rw [h1] at e; cases e
    | found => simp
    | next e hnb hp hne hrest =>
      rw [h1] at e; cases e
      rw [hn.1 hnb] at hp
      cases hp
      rw [hd.1 hrest]
      simpa using fun e => hne e.symm
  · intro h
    by_cases e : b = a
    · rw [h.2 e, e]
      exact .found h1 (hn.2 rfl) rfl
    · have : r = false := by
        cases hr : r with
        | false => rfl
        | true => exact absurd (h.1 hr) e
      rw [this]
      exact .next h1 (hn.2 rfl) rfl (fun e' => e e'.symm) .done

end

/-! ### Searches along `edges` -/

section
variable {V : Type} [DecidableEq V] {ex : V → List (V × Nat) → Prop} {P : V → Prop} {nodes : List V} {F : V → V → Nat → Prop}

/-- Walks along links, with their total cost. -/
inductive LinkWalk (F : V → V → Nat → Prop) : V → V → Nat → Prop where
  | nil {u : V} : LinkWalk F u u 0
  | cons {u x t : V} {w n : Nat} : F u x w → LinkWalk F x t n → LinkWalk F u t (w + n)

/-- What is expected of `astar` on a graph of which `edges` is `ex` and the links are `F`, from `a`: no run is infinite; each can
be completed without a fault; `None` is returned exactly if no goal can be walked to; otherwise the cost of a walk to a goal with a
path that costs no more; and if the estimate never exceeds the cost of a walk to a goal, the cost returned is the least there is,
and the path costs as much. -/
structure AstarRight (ex : V → List (V × Nat) → Prop) (F : V → V → Nat → Prop) (P : V → Prop) (h : V → Nat) (goal : V → Bool)
    (a : V) : Prop where
  ends : ∀ run : Nat → Ast V, run 0 = astNew h a → ¬ ∀ i, AstStep ex h goal (run i) (run (i + 1))
  completes : ∀ st, AstSteps ex h goal (astNew h a) st → ∃ st' o, AstSteps ex h goal st st' ∧ AstReturns goal st' o
  none_iff : ∀ o, AstOutcome ex h goal a o → (o = none ↔ ∀ t n, goal t = true → ¬ LinkWalk F a t n)
  path : ∀ n p, AstOutcome ex h goal a (some (n, p)) → ∃ t m, goal t = true ∧ LinkWalk F a t n ∧ p.head? = some a ∧
    p.getLast? = some t ∧ PathOf F p m ∧ m ≤ n
  least : (∀ x t n, P x → goal t = true → LinkWalk F x t n → h x ≤ n) → ∀ n p, AstOutcome ex h goal a (some (n, p)) →
    PathOf F p n ∧ ∀ t m, goal t = true → LinkWalk F a t m → n ≤ m

theorem linkWalk_iff (hg : AstGraph ex P nodes) (hF : ∀ u t w, P u → (Leads ex u t w ↔ F u t w)) {a t : V} {n : Nat} (ha : P a) :
    AWalk ex a t n ↔ LinkWalk F a t n := by
  constructor
  · intro h
    induction h with
    | nil => exact .nil
    | cons e _ ih => exact .cons ((hF _ _ _ ha).1 e) (ih (hg.node _ _ _ ha e))
  · intro h
    induction h with
    | nil => exact .nil
    | cons e _ ih =>
      have e := (hF _ _ _ ha).2 e
      exact .cons e (ih (hg.node _ _ _ ha e))

theorem pathOf_links (hg : AstGraph ex P nodes) (hF : ∀ u t w, P u → (Leads ex u t w ↔ F u t w)) {p : List V} {n : Nat}
    (hp : PathOf (Leads ex) p n) : ∀ {a}, p.head? = some a → P a → PathOf F p n := by
  induction hp with
  | one => exact fun _ _ => .one
  | cons e _ ih =>
    intro a h1 ha
    cases h1
    exact .cons ((hF _ _ _ ha).1 e) (ih rfl (hg.node _ _ _ ha e))

theorem astarRight (hg : AstGraph ex P nodes) (hF : ∀ u t w, P u → (Leads ex u t w ↔ F u t w)) {a : V} (ha : P a) (h : V → Nat)
    (goal : V → Bool) : AstarRight ex F P h goal a := by
  have hpath : ∀ n p, AstOutcome ex h goal a (some (n, p)) → ∃ t m, goal t = true ∧ LinkWalk F a t n ∧ p.head? = some a ∧
      p.getLast? = some t ∧ PathOf F p m ∧ m ≤ n := fun n p ho => by
    obtain ⟨t, m, h1, h2, h3, h4, h5, h6⟩ := (ast_result hg ha ho).2 n p rfl
    exact ⟨t, m, h1, (linkWalk_iff hg hF ha).1 h2, h3, h4, pathOf_links hg hF h5 h3 ha, h6⟩
  refine ⟨fun run h0 => ast_ends hg ha run h0, fun _ h1 => ast_completes hg ha h1, fun o ho => ?_, hpath, fun hadm n p ho => ?_⟩
  · constructor
    · exact fun e t n hgt hw => (ast_result hg ha ho).1 e t n hgt ((linkWalk_iff hg hF ha).2 hw)
    · intro hno
      match o, ho with
      | none, _ => rfl
      | some (n, p), ho =>
        obtain ⟨t, m, h1, h2, -⟩ := hpath n p ho
        exact absurd h2 (hno t n h1)
  · obtain ⟨h1, h2⟩ := ast_least hg ha (fun x t n hx hgt hw => hadm x t n hx hgt ((linkWalk_iff hg hF hx).1 hw)) ho
    obtain ⟨t, m, -, -, h3, -⟩ := hpath n p ho
    exact ⟨pathOf_links hg hF h1 h3 ha, fun t m hgt hw => h2 t m hgt ((linkWalk_iff hg hF ha).2 hw)⟩

/-- A graph given by the lists `edges` yields. -/
theorem AstGraph.of_list {out : V → List (V × Nat)} (hex : ∀ c l, P c → (ex c l ↔ l = out c)) (hnode : ∀ c, P c → ∀ e ∈ out c, P e.1)
    (hmem : ∀ c, P c → c ∈ nodes) : AstGraph ex P nodes where
  total := fun c hc => ⟨_, (hex c _ hc).2 rfl⟩
  one := fun c l l' hc h h' => by rw [(hex c l hc).1 h, (hex c l' hc).1 h']
  node := fun c t w hc ⟨l, h1, h2⟩ => hnode c hc (t, w) ((hex c l hc).1 h1 ▸ h2)
  mem := hmem

theorem leads_of_list {out : V → List (V × Nat)} (hex : ∀ c l, P c → (ex c l ↔ l = out c)) {u t : V} {w : Nat} (hu : P u) :
    Leads ex u t w ↔ (t, w) ∈ out u :=
  ⟨fun ⟨l, h1, h2⟩ => (hex u l hu).1 h1 ▸ h2, fun h => ⟨_, (hex u _ hu).2 rfl, h⟩⟩

/-- Fewer links, fewer walks. -/
theorem LinkWalk.mono {F G : V → V → Nat → Prop} (hFG : ∀ u t w, F u t w → G u t w) {a t : V} {n : Nat} (h : LinkWalk F a t n) :
    LinkWalk G a t n := by
  induction h with
  | nil => exact .nil
  | cons e _ ih => exact .cons (hFG _ _ _ e) ih
end
end LG
