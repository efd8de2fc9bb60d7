import Verif.Lemmas.Topo
import Verif.Model.Tarjan
/- `tarjan_scc` over any graph whose methods behave: it returns the strongly connected components, each after those it leads to. -/
set_option linter.unusedSectionVars false
namespace LG

/-- The nodes have the numbers `idx`, below `bound`. -/
structure Numbered {C : Type} (ix : C → Res Nat) (nodes : List C) (idx : C → Nat) (bound : Nat) : Prop where
  eq : ∀ {c}, c ∈ nodes → ix c = .ok (idx c)
  inj : ∀ {c d}, c ∈ nodes → d ∈ nodes → idx c = idx d → c = d
  lt : ∀ {c}, c ∈ nodes → idx c < bound

/-- The table has the entries `r`. -/
def RootsAre {C : Type} (nodes : List C) (idx : C → Nat) (bound : Nat) (roots : List Nat) (r : C → Nat) : Prop :=
  roots.length = bound ∧ ∀ c ∈ nodes, roots[idx c]? = some (r c)

section
variable {C : Type} [DecidableEq C] {ix : C → Res Nat} {nodes : List C} {idx : C → Nat} {bound max : Nat}
variable {nbr : C → List C → Prop} {nb : C → List C}

theorem rootAt_eq (hn : Numbered ix nodes idx bound) {roots : List Nat} {r : C → Nat} (hr : RootsAre nodes idx bound roots r) {c : C}
    (hc : c ∈ nodes) : rootAt ix roots c = .ok (r c) := by
  simp only [rootAt, hn.eq hc, bind, Except.bind, hr.2 c hc]

theorem setRoot_eq (hn : Numbered ix nodes idx bound) {roots : List Nat} {r : C → Nat} (hr : RootsAre nodes idx bound roots r) {c : C}
    (hc : c ∈ nodes) (x : Nat) : ∃ roots', setRoot ix roots c x = .ok roots' ∧
      RootsAre nodes idx bound roots' (fun y => if y = c then x else r y) := by
  refine ⟨roots.set (idx c) x, ?_, ?_, fun d hd => ?_⟩
  · simp only [setRoot, hn.eq hc, bind, Except.bind]
    rw [if_pos (by rw [hr.1]; exact hn.lt hc)]
  · rw [List.length_set, hr.1]
  · by_cases e : d = c
    · subst e
      rw [List.getElem?_set_self (by rw [hr.1]; exact hn.lt hc)]
      simp only [if_true]
    · rw [List.getElem?_set_ne (fun h => e (hn.inj hd hc h.symm)), hr.2 d hd]
      simp only [if_neg e]

theorem tarLower_eq (hn : Numbered ix nodes idx bound) {roots : List Nat} {r : C → Nat} (hr : RootsAre nodes idx bound roots r) {v w : C}
    (hv : v ∈ nodes) (hw : w ∈ nodes) (b : Bool) : ∃ roots', tarLower ix v w b roots = .ok (b && decide (r v ≤ r w), roots') ∧
      RootsAre nodes idx bound roots' (fun y => if y = v then min (r v) (r w) else r y) := by
  simp only [tarLower, rootAt_eq hn hr hv, rootAt_eq hn hr hw, bind, Except.bind]
  by_cases h : r w < r v
  · obtain ⟨roots', h1, h2⟩ := setRoot_eq hn hr hv (r w)
    rw [if_pos h, h1]
    refine ⟨roots', ?_, ?_⟩
    · rw [decide_eq_false (by omega), Bool.and_false]
    · rwa [Nat.min_eq_right (by omega)]
  · rw [if_neg h]
    refine ⟨roots, ?_, ?_⟩
    · rw [decide_eq_true (by omega), Bool.and_true]
    · rw [Nat.min_eq_left (by omega)]
      have : (fun y => if y = v then r v else r y) = r := by
        funext y; by_cases e : y = v <;> simp [e]
      rwa [this]

/-- What is popped: the nodes on top of the stack whose entries are at least that of `v`. -/
theorem tarPop_eq (hn : Numbered ix nodes idx bound) {v : C} (hv : v ∈ nodes) {c : Nat} {S : List C} : ∀ (N : List C) {roots : List Nat} {r : C → Nat},
    RootsAre nodes idx bound roots r → (∀ x ∈ N, x ∈ nodes ∧ x ≠ v ∧ r v ≤ r x) → N.Nodup → (∀ x ∈ S, x ∈ nodes ∧ r x < r v ∧ x ∉ N) →
    ∃ roots', tarPop ix v c (N ++ S) roots = .ok (N, S, roots') ∧
      RootsAre nodes idx bound roots' (fun y => if y ∈ N then c else r y)
  | [], roots, r, hr, _, _, hS => by
    refine ⟨roots, ?_, by simpa using hr⟩
    cases S with
    | nil => rfl
    | cons s S =>
      have := hS s List.mem_cons_self
      simp only [List.nil_append, tarPop, rootAt_eq hn hr hv, rootAt_eq hn hr this.1, bind, Except.bind]
      rw [if_pos this.2.1]
  | w :: N, roots, r, hr, hN, hnd, hS => by
    have hw := hN w List.mem_cons_self
    obtain ⟨roots1, h1, h2⟩ := setRoot_eq hn hr hw.1 c
    have hnd' := List.nodup_cons.1 hnd
    have hvw : (if v = w then c else r v) = r v := if_neg (Ne.symm hw.2.1)
    obtain ⟨roots2, h3, h4⟩ := tarPop_eq hn hv (c := c) (S := S) N h2 (fun x hx => by
      have := hN x (List.mem_cons_of_mem _ hx)
      have e : x ≠ w := fun e => hnd'.1 (e ▸ hx)
      simp only [if_neg e, hvw]
      exact this) hnd'.2 (fun x hx => by
      have := hS x hx
      have e : x ≠ w := fun e => this.2.2 (e ▸ List.mem_cons_self)
      simp only [if_neg e, hvw]
      exact ⟨this.1, this.2.1, fun h => this.2.2 (List.mem_cons_of_mem _ h)⟩)
    refine ⟨roots2, ?_, h4.1, fun y hy => ?_⟩
    · simp only [List.cons_append, tarPop, rootAt_eq hn hr hv, rootAt_eq hn hr hw.1, bind, Except.bind]
      rw [if_neg (by omega)]
      simp only [h1, h3]
    · rw [h4.2 y hy]
      by_cases e : y = w
      · subst e; simp [hnd'.1]
      · simp [e]

/-! ### The invariant -/

/-- What is said of the components handed out so far: the nodes of one lead to each other, and their neighbours are in it or in an
earlier one. -/
def OutOk (nb : C → List C) (out : List (List C)) : Prop :=
  ∀ a l b, out = a ++ l :: b → (∀ x ∈ l, ∀ y ∈ l, Reached nb x y) ∧ ∀ x ∈ l, ∀ y ∈ nb x, y ∈ l ∨ y ∈ a.flatten

theorem OutOk.snoc {out : List (List C)} (h : OutOk nb out) {l : List C} (h1 : ∀ x ∈ l, ∀ y ∈ l, Reached nb x y)
    (h2 : ∀ x ∈ l, ∀ y ∈ nb x, y ∈ l ∨ y ∈ out.flatten) : OutOk nb (out ++ [l]) := by
  intro a l' b he
  rcases List.eq_nil_or_concat b with rfl | ⟨b', z, rfl⟩
  · have := List.append_inj' he rfl
    obtain ⟨rfl, e⟩ := this
    cases e
    exact ⟨h1, h2⟩
  · rw [List.concat_eq_append, ← List.cons_append, ← List.append_assoc] at he
    have := List.append_inj' he rfl
    exact h a l' b' this.1

theorem OutOk.closed {out : List (List C)} (h : OutOk nb out) {x y : C} (hx : x ∈ out.flatten) (hy : y ∈ nb x) : y ∈ out.flatten := by
  obtain ⟨l, hl, hxl⟩ := List.mem_flatten.1 hx
  obtain ⟨a, b, rfl⟩ := List.append_of_mem hl
  rcases (h a l b rfl).2 x hxl y hy with h | h
  · exact List.mem_flatten.2 ⟨l, hl, h⟩
  · obtain ⟨l', hl', hy'⟩ := List.mem_flatten.1 h
    exact List.mem_flatten.2 ⟨l', List.mem_append_left _ hl', hy'⟩

/-- The state between two steps: `P` are the nodes whose calls are under way, `r` the entries of the table and `num` the value `index` had
when a node was entered. -/
structure TarInv (nodes : List C) (nb : C → List C) (idx : C → Nat) (bound max : Nat) (P : List C) (st : TarSt C) (r num : C → Nat) : Prop where
  roots : RootsAre nodes idx bound st.roots r
  nodup : (P ++ (st.stack ++ st.out.flatten)).Nodup
  sub : ∀ x ∈ P ++ (st.stack ++ st.out.flatten), x ∈ nodes
  zero : ∀ x ∈ nodes, r x = 0 ↔ x ∉ P ++ (st.stack ++ st.out.flatten)
  index : st.index = 1 + (P.length + st.stack.length)
  cc : st.cc + st.out.length = max
  ne : ∀ l ∈ st.out, l ≠ []
  label : ∀ x ∈ st.out.flatten, st.cc < r x
  num_lt : ∀ x, x ∈ P ∨ x ∈ st.stack → num x < st.index
  low : ∀ x, x ∈ P ∨ x ∈ st.stack → r x ≤ num x ∧ ∃ y, (y ∈ P ∨ y ∈ st.stack) ∧ Reached nb x y ∧ num y = r x
  inj : ∀ x y, x ∈ P ∨ x ∈ st.stack → y ∈ P ∨ y ∈ st.stack → num x = num y → x = y
  closed : ∀ x ∈ st.stack, r x < num x ∧ ∀ y ∈ nb x, y ∈ st.out.flatten ∨ (y ∈ P ∨ y ∈ st.stack) ∧ r x ≤ num y
  out : OutOk nb st.out

theorem flatten_length {α : Type} : ∀ {l : List (List α)}, (∀ x ∈ l, x ≠ []) → l.length ≤ l.flatten.length
  | [], _ => Nat.le_refl _
  | x :: l, h => by
    have h1 := flatten_length (l := l) fun y hy => h y (List.mem_cons_of_mem _ hy)
    have h2 := h x List.mem_cons_self
    have : 0 < x.length := List.length_pos_iff.2 h2
    simp only [List.length_cons, List.flatten_cons, List.length_append]
    omega

variable {v : C} {P : List C} {st : TarSt C} {r num : C → Nat}

theorem TarInv.count (h : TarInv nodes nb idx bound max P st r num) :
    P.length + st.stack.length + st.out.length ≤ nodes.length := by
  have h1 := h.nodup.length_le_of_subset (fun x hx => h.sub x hx)
  have h2 := flatten_length h.ne
  simp only [List.length_append] at h1
  omega

/-- A node whose component was handed out has a larger entry than one under way or on the stack. -/
theorem TarInv.below (h : TarInv nodes nb idx bound max P st r num) (hm : nodes.length ≤ max) {x y : C} (hx : x ∈ st.out.flatten)
    (hy : y ∈ P ∨ y ∈ st.stack) : r y < r x := by
  have h1 := h.label x hx
  have h2 := h.num_lt y hy
  have h3 := (h.low y hy).1
  have h4 := h.count
  have h5 := h.cc
  have h6 := h.index
  omega

/-- Entering a node. -/
theorem TarInv.enter (h : TarInv nodes nb idx bound max P st r num) (hv : v ∈ nodes) (hz : r v = 0) {roots : List Nat}
    (hr : RootsAre nodes idx bound roots (fun y => if y = v then st.index else r y)) :
    TarInv nodes nb idx bound max (v :: P) { st with index := st.index + 1, roots := roots }
      (fun y => if y = v then st.index else r y) (fun y => if y = v then st.index else num y) := by
  have hnew := (h.zero v hv).1 hz
  have hP : v ∉ P := fun e => hnew (List.mem_append_left _ e)
  have hS : v ∉ st.stack := fun e => hnew (List.mem_append_right _ (List.mem_append_left _ e))
  have hD : v ∉ st.out.flatten := fun e => hnew (List.mem_append_right _ (List.mem_append_right _ e))
  have hne : ∀ {x}, x ∈ P ∨ x ∈ st.stack → x ≠ v := by
    rintro x (hx | hx) rfl
    · exact hP hx
    · exact hS hx
  have hact : ∀ {x}, x ∈ v :: P ∨ x ∈ st.stack → x = v ∨ x ∈ P ∨ x ∈ st.stack := by
    rintro x (hx | hx)
    · rcases List.mem_cons.1 hx with e | e
      · exact .inl e
      · exact .inr (.inl e)
    · exact .inr (.inr hx)
  have hact' : ∀ {x}, x ∈ P ∨ x ∈ st.stack → x ∈ v :: P ∨ x ∈ st.stack := fun hx => hx.imp (List.mem_cons_of_mem _) id
  refine ⟨hr, List.nodup_cons.2 ⟨hnew, h.nodup⟩, ?_, ?_, ?_, h.cc, h.ne, ?_, ?_, ?_, ?_, ?_, h.out⟩
  · intro x hx
    rcases List.mem_cons.1 hx with rfl | hx
    · exact hv
    · exact h.sub x hx
  · intro x hx
    have hi := h.index
    by_cases e : x = v
    · subst e
      simp only [if_true]
      exact ⟨fun h0 => by omega, fun h0 => absurd List.mem_cons_self h0⟩
    · simp only [if_neg e]
      rw [h.zero x hx]
      constructor
      · intro h1 h2
        rcases List.mem_cons.1 h2 with h2 | h2
        · exact e h2
        · exact h1 h2
      · exact fun h1 h2 => h1 (List.mem_cons_of_mem _ h2)
  · have := h.index
    show st.index + 1 = _
    simp only [List.length_cons]
    omega
  · intro x hx
    have e : x ≠ v := fun e => hD (e ▸ hx)
    simp only [if_neg e]
    exact h.label x hx
  · intro x hx
    show _ < st.index + 1
    rcases hact hx with rfl | hx
    · simp
    · simp only [if_neg (hne hx)]
      have := h.num_lt x hx
      omega
  · intro x hx
    rcases hact hx with rfl | hx
    · simp only [if_true]
      exact ⟨Nat.le_refl _, x, .inl List.mem_cons_self, .refl, by simp⟩
    · obtain ⟨h1, y, h2, h3, h4⟩ := h.low x hx
      simp only [if_neg (hne hx)]
      exact ⟨h1, y, hact' h2, h3, by simp only [if_neg (hne h2)]; exact h4⟩
  · intro x y hx hy hxy
    rcases hact hx with e | hx' <;> rcases hact hy with e' | hy'
    · rw [e, e']
    · simp only [if_pos e, if_neg (hne hy')] at hxy
      have := h.num_lt y hy'
      omega
    · simp only [if_pos e', if_neg (hne hx')] at hxy
      have := h.num_lt x hx'
      omega
    · simp only [if_neg (hne hx'), if_neg (hne hy')] at hxy
      exact h.inj x y hx' hy' hxy
  · intro x hx
    obtain ⟨h1, h2⟩ := h.closed x hx
    simp only [if_neg (hne (.inr hx))]
    refine ⟨h1, fun y hy => (h2 y hy).imp id fun h3 => ⟨hact' h3.1, ?_⟩⟩
    simp only [if_neg (hne h3.1)]
    exact h3.2

/-- Looking at a neighbour that has been entered. -/
theorem TarInv.lower (h : TarInv nodes nb idx bound max (v :: P) st r num) (hm : nodes.length ≤ max) {w : C} (hw : w ∈ nodes)
    (hz : r w ≠ 0) (hvw : w ∈ nb v) {roots : List Nat}
    (hr : RootsAre nodes idx bound roots (fun y => if y = v then min (r v) (r w) else r y)) :
    TarInv nodes nb idx bound max (v :: P) { st with roots := roots } (fun y => if y = v then min (r v) (r w) else r y) num ∧
      (w ∈ st.out.flatten ∨ (w ∈ v :: P ∨ w ∈ st.stack) ∧ min (r v) (r w) ≤ num w) := by
  have hnd := List.nodup_cons.1 h.nodup
  have hS : v ∉ st.stack := fun e => hnd.1 (List.mem_append_right _ (List.mem_append_left _ e))
  have hD : v ∉ st.out.flatten := fun e => hnd.1 (List.mem_append_right _ (List.mem_append_right _ e))
  have hvin : v ∈ v :: P ∨ v ∈ st.stack := .inl List.mem_cons_self
  have hwin : w ∈ st.out.flatten ∨ (w ∈ v :: P ∨ w ∈ st.stack) := by
    have : w ∈ (v :: P) ++ (st.stack ++ st.out.flatten) := Classical.not_not.1 fun e => hz ((h.zero w hw).2 e)
    rcases List.mem_append.1 this with e | e
    · exact .inr (.inl e)
    · rcases List.mem_append.1 e with e | e
      · exact .inr (.inr e)
      · exact .inl e
  have hmin : min (r v) (r w) ≤ r v := Nat.min_le_left _ _
  have hvpos : r v ≠ 0 := fun e => (h.zero v (h.sub v List.mem_cons_self)).1 e List.mem_cons_self
  refine ⟨⟨hr, h.nodup, h.sub, ?_, h.index, h.cc, h.ne, ?_, h.num_lt, ?_, h.inj, ?_, h.out⟩, hwin.imp id fun e => ⟨e, ?_⟩⟩
  · intro x hx
    by_cases e : x = v
    · subst e
      simp only [if_true]
      exact ⟨fun h0 => by omega, fun h0 => absurd List.mem_cons_self h0⟩
    · simp only [if_neg e]
      exact h.zero x hx
  · intro x hx
    have e : x ≠ v := fun e => hD (e ▸ hx)
    simp only [if_neg e]
    exact h.label x hx
  · intro x hx
    by_cases e : x = v
    · subst e
      simp only [if_true]
      obtain ⟨h1, y, h2, h3, h4⟩ := h.low x hvin
      refine ⟨by omega, ?_⟩
      by_cases hlt : r w < r x
      · rcases hwin with hw' | hw'
        · have := h.below hm hw' hvin
          omega
        · obtain ⟨h5, z, h6, h7, h8⟩ := h.low w hw'
          exact ⟨z, h6, .head hvw h7, by omega⟩
      · exact ⟨y, h2, h3, by omega⟩
    · simp only [if_neg e]
      exact h.low x hx
  · intro x hx
    have e : x ≠ v := fun e => hS (e ▸ hx)
    simp only [if_neg e]
    exact h.closed x hx
  · have := (h.low w e).1
    omega

/-- The end of a call that is not a root. -/
theorem TarInv.shelve (h : TarInv nodes nb idx bound max (v :: P) st r num) (hlow : r v < num v)
    (hnb : ∀ y ∈ nb v, y ∈ st.out.flatten ∨ (y ∈ v :: P ∨ y ∈ st.stack) ∧ r v ≤ num y) :
    TarInv nodes nb idx bound max P { st with stack := v :: st.stack } r num := by
  have hact : ∀ {x}, x ∈ P ∨ x ∈ v :: st.stack ↔ x ∈ v :: P ∨ x ∈ st.stack := by
    intro x; simp only [List.mem_cons]; grind
  have hmem : ∀ {x}, x ∈ P ++ ((v :: st.stack) ++ st.out.flatten) ↔ x ∈ (v :: P) ++ (st.stack ++ st.out.flatten) := by
    intro x; simp only [List.mem_append, List.mem_cons]; grind
  refine ⟨h.roots, ?_, ?_, ?_, ?_, h.cc, h.ne, h.label, ?_, ?_, ?_, ?_, h.out⟩
  · have := h.nodup
    refine (List.Perm.nodup_iff ?_).1 this
    exact List.perm_middle.symm
  · exact fun x hx => h.sub x (hmem.1 hx)
  · exact fun x hx => (h.zero x hx).trans (not_congr hmem.symm)
  · have := h.index
    simp only [List.length_cons] at this ⊢
    omega
  · exact fun x hx => h.num_lt x (hact.1 hx)
  · intro x hx
    obtain ⟨h1, y, h2, h3⟩ := h.low x (hact.1 hx)
    exact ⟨h1, y, hact.2 h2, h3⟩
  · exact fun x y hx hy => h.inj x y (hact.1 hx) (hact.1 hy)
  · intro x hx
    rcases List.mem_cons.1 hx with rfl | hx
    · exact ⟨hlow, fun y hy => (hnb y hy).imp id fun e => ⟨hact.2 e.1, e.2⟩⟩
    · obtain ⟨h1, h2⟩ := h.closed x hx
      exact ⟨h1, fun y hy => (h2 y hy).imp id fun e => ⟨hact.2 e.1, e.2⟩⟩

/-- What a call has on top of the stack, compared with the node it is for. -/
structure TarTop (nb : C → List C) (v : C) (N : List C) (r num : C → Nat) (i : Nat) : Prop where
  from_v : ∀ x ∈ N, Reached nb v x
  ge : ∀ x ∈ N, r v ≤ r x
  num_ge : ∀ x ∈ N, i ≤ num x

theorem TarTop.nil {v : C} {r num : C → Nat} {i : Nat} : TarTop nb v [] r num i :=
  ⟨fun _ h => (nomatch h), fun _ h => (nomatch h), fun _ h => (nomatch h)⟩

/-- The end of a call that is a root. -/
theorem TarInv.emit {S N : List C} (h : TarInv nodes nb idx bound max (v :: P) st r num) (hm : nodes.length ≤ max) (hroot : r v = num v)
    (hst : st.stack = N ++ S) (hnum : num v = 1 + (P.length + S.length)) (hold : ∀ x, x ∈ P ∨ x ∈ S → num x < num v)
    (ht : TarTop nb v N r num (num v)) (hnb : ∀ y ∈ nb v, y ∈ st.out.flatten ∨ (y ∈ v :: P ∨ y ∈ st.stack) ∧ r v ≤ num y) {roots : List Nat}
    (hr : RootsAre nodes idx bound roots (fun y => if y = v then st.cc else if y ∈ N then st.cc else r y)) :
    TarInv nodes nb idx bound max P ⟨st.index - (1 + N.length), st.cc - 1, roots, S, st.out ++ [N.reverse ++ [v]]⟩
      (fun y => if y = v then st.cc else if y ∈ N then st.cc else r y) num := by
  have hcount := h.count
  have hcc := h.cc
  have hidx := h.index
  rw [hst] at hcount hidx
  simp only [List.length_append, List.length_cons] at hcount hidx
  have hcpos : 1 ≤ st.cc := by omega
  have hnd := h.nodup
  rw [hst] at hnd
  have hmem : ∀ {x}, x ∈ P ++ (S ++ (st.out ++ [N.reverse ++ [v]]).flatten) ↔ x ∈ (v :: P) ++ (st.stack ++ st.out.flatten) := by
    intro x; rw [hst]; simp only [List.mem_append, List.mem_cons, List.flatten_append, List.flatten_cons, List.flatten_nil, List.append_nil, List.mem_reverse]; grind
  have hnew : ∀ {x}, x ∈ P ∨ x ∈ S → x ≠ v ∧ x ∉ N := by
    intro x hx
    have h1 := hold x hx
    refine ⟨fun e => by rw [e] at h1; omega, fun e => ?_⟩
    have := ht.num_ge x e
    omega
  have hr' : ∀ {x}, x ∈ P ∨ x ∈ S → (if x = v then st.cc else if x ∈ N then st.cc else r x) = r x := by
    intro x hx
    rw [if_neg (hnew hx).1, if_neg (hnew hx).2]
  have hact : ∀ {x}, x ∈ P ∨ x ∈ S → x ∈ v :: P ∨ x ∈ st.stack := by
    intro x hx
    rw [hst]
    exact hx.imp (List.mem_cons_of_mem _) (List.mem_append_right _)
  have hsplit : ∀ {x}, x ∈ v :: P ∨ x ∈ st.stack → (x = v ∨ x ∈ N) ∨ (x ∈ P ∨ x ∈ S) := by
    intro x hx
    rw [hst] at hx
    simp only [List.mem_append, List.mem_cons] at hx; grind
  have hcomp : ∀ {x}, x ∈ N.reverse ++ [v] ↔ x = v ∨ x ∈ N := by
    intro x; simp only [List.mem_append, List.mem_reverse, List.mem_singleton]; exact Or.comm
  -- every node of the component leads to `v`
  have hback : ∀ n x, num x ≤ n → x = v ∨ x ∈ N → Reached nb x v := by
    intro n
    induction n with
    | zero =>
      intro x hx hxN
      rcases hxN with rfl | hxN
      · exact .refl
      · have := ht.num_ge x hxN
        omega
    | succ n ih =>
      intro x hx hxN
      rcases hxN with rfl | hxN
      · exact .refl
      · have hxs : x ∈ st.stack := by rw [hst]; exact List.mem_append_left _ hxN
        obtain ⟨h1, y, h2, h3, h4⟩ := h.low x (.inr hxs)
        have h5 := (h.closed x hxs).1
        have h6 := ht.ge x hxN
        rcases hsplit h2 with hy | hy
        · exact h3.trans (ih y (by omega) hy)
        · have := hold y hy
          omega
  have hgood : OutOk nb (st.out ++ [N.reverse ++ [v]]) := by
    refine h.out.snoc (fun x hx y hy => ?_) (fun x hx y hy => ?_)
    · refine (hback _ x (Nat.le_refl _) (hcomp.1 hx)).trans ?_
      rcases hcomp.1 hy with rfl | hy
      · exact .refl
      · exact ht.from_v y hy
    · have key : y ∈ st.out.flatten ∨ (y ∈ v :: P ∨ y ∈ st.stack) ∧ num v ≤ num y := by
        rcases hcomp.1 hx with rfl | hx
        · rw [← hroot]; exact hnb y hy
        · have hxs : x ∈ st.stack := by rw [hst]; exact List.mem_append_left _ hx
          refine ((h.closed x hxs).2 y hy).imp id fun e => ⟨e.1, ?_⟩
          have := ht.ge x hx
          omega
      rcases key with key | ⟨k1, k2⟩
      · exact .inr key
      · rcases hsplit k1 with hy | hy
        · exact .inl (hcomp.2 hy)
        · have := hold y hy
          omega
  refine ⟨hr, ?_, fun x hx => h.sub x (hmem.1 hx), ?_, ?_, ?_, ?_, ?_, ?_, ?_, ?_, ?_, hgood⟩
  · refine (List.Perm.nodup_iff ?_).1 hnd
    simp only [List.flatten_append, List.flatten_cons, List.flatten_nil, List.append_nil]
    refine List.perm_iff_count.2 fun x => ?_
    simp only [List.count_append, List.count_cons, List.count_reverse, List.count_nil]
    omega
  · intro x hx
    rw [hmem, ← h.zero x hx]
    by_cases e : x = v
    · subst e
      simp only [if_true]
      have : r x ≠ 0 := fun e => (h.zero x hx).1 e List.mem_cons_self
      omega
    · by_cases e' : x ∈ N
      · simp only [if_neg e, if_pos e']
        have : r x ≠ 0 := fun e => (h.zero x hx).1 e (by rw [hst]; simp [e'])
        omega
      · simp only [if_neg e, if_neg e']
  · show st.index - (1 + N.length) = 1 + (P.length + S.length)
    omega
  · simp only [List.length_append, List.length_singleton]
    omega
  · intro l hl
    rcases List.mem_append.1 hl with hl | hl
    · exact h.ne l hl
    · rw [List.mem_singleton.1 hl]; simp
  · intro x hx
    show st.cc - 1 < _
    by_cases e : x = v
    · simp only [if_pos e]; omega
    · by_cases e' : x ∈ N
      · simp only [if_neg e, if_pos e']; omega
      · simp only [if_neg e, if_neg e']
        have : x ∈ st.out.flatten := by
          simp only [List.flatten_append, List.flatten_cons, List.flatten_nil, List.append_nil, List.mem_append, List.mem_reverse,
            List.mem_singleton] at hx
          rcases hx with hx | hx | hx
          · exact hx
          · exact absurd hx e'
          · exact absurd hx e
        have := h.label x this
        omega
  · intro x hx
    have := hold x hx
    show _ < st.index - (1 + N.length)
    omega
  · intro x hx
    simp only [hr' hx]
    obtain ⟨h1, y, h2, h3, h4⟩ := h.low x (hact hx)
    refine ⟨h1, y, ?_, h3, h4⟩
    rcases hsplit h2 with hy | hy
    · have := hold x hx
      rcases hy with rfl | hy
      · omega
      · have := ht.num_ge y hy
        omega
    · exact hy
  · exact fun x y hx hy => h.inj x y (hact hx) (hact hy)
  · intro x hx
    simp only [hr' (.inr hx)]
    obtain ⟨h1, h2⟩ := h.closed x (by rw [hst]; exact List.mem_append_right _ hx)
    refine ⟨h1, fun y hy => ?_⟩
    simp only [List.flatten_append, List.flatten_cons, List.flatten_nil, List.append_nil, List.mem_append]
    rcases h2 y hy with h3 | ⟨h3, h4⟩
    · exact .inl (.inl h3)
    · rcases hsplit h3 with h5 | h5
      · exact .inl (.inr (List.mem_append.1 (hcomp.2 h5)))
      · exact .inr ⟨h5, h4⟩

/-- What a call leaves behind: what was there before is as it was, and what is new on the stack is reached from the node. -/
structure TarPost (nodes : List C) (nb : C → List C) (idx : C → Nat) (bound max : Nat) (P S : List C) (out : List (List C)) (i : Nat) (v : C)
    (r num : C → Nat) (st : TarSt C) (r' num' : C → Nat) : Prop where
  inv : TarInv nodes nb idx bound max P st r' num'
  same : ∀ x, x ∈ P ∨ x ∈ S ∨ x ∈ out.flatten → r' x = r x ∧ num' x = num x
  top : ∃ N, st.stack = N ++ S ∧ TarTop nb v N r' num' i
  seen : r' v ≠ 0
  more : ∃ m, st.out = out ++ m

/-- The end of a call. -/
theorem TarInv.finish {S N : List C} {i : Nat} (h : TarInv nodes nb idx bound max (v :: P) st r num) (hn : Numbered ix nodes idx bound)
    (hm : nodes.length ≤ max) (hst : st.stack = N ++ S) (hi : num v = i)
    (hnum : num v = 1 + (P.length + S.length)) (hold : ∀ x, x ∈ P ∨ x ∈ S → num x < num v) (ht : TarTop nb v N r num (num v))
    (hnb : ∀ y ∈ nb v, y ∈ st.out.flatten ∨ (y ∈ v :: P ∨ y ∈ st.stack) ∧ r v ≤ num y) :
    ∃ st' r' num', tarClose ix v (decide (r v = num v)) st = .ok st' ∧ TarPost nodes nb idx bound max P S st.out i v r num st' r' num' := by
  have hv : v ∈ nodes := h.sub v List.mem_cons_self
  have hlow := (h.low v (.inl List.mem_cons_self)).1
  by_cases hroot : r v = num v
  · have hnd := h.nodup
    rw [hst] at hnd
    have hnd' : v ∉ P ++ ((N ++ S) ++ st.out.flatten) ∧ (P ++ ((N ++ S) ++ st.out.flatten)).Nodup := List.nodup_cons.1 hnd
    have hN : ∀ x ∈ N, x ∈ nodes ∧ x ≠ v ∧ r v ≤ r x := fun x hx =>
      ⟨h.sub x (by rw [hst]; simp [hx]), fun e => hnd'.1 (by rw [← e]; simp [hx]), ht.ge x hx⟩
    have hnew : ∀ {x}, x ∈ P ∨ x ∈ S → x ≠ v ∧ x ∉ N := by
      intro x hx
      have h1 := hold x hx
      refine ⟨fun e => by rw [e] at h1; omega, fun e => ?_⟩
      have := ht.num_ge x e
      omega
    have hS : ∀ x ∈ S, x ∈ nodes ∧ r x < r v ∧ x ∉ N := fun x hx => by
      have h1 := (h.low x (.inr (by rw [hst]; exact List.mem_append_right _ hx))).1
      have h2 := hold x (.inr hx)
      exact ⟨h.sub x (by rw [hst]; simp [hx]), by omega, (hnew (.inr hx)).2⟩
    have hNnd : N.Nodup := by
      have := (List.nodup_append.1 hnd'.2).2.1
      rw [List.append_assoc] at this
      exact (List.nodup_append.1 this).1
    obtain ⟨roots1, h1, h2⟩ := tarPop_eq hn hv (c := st.cc) N h.roots hN hNnd hS
    obtain ⟨roots2, h3, h4⟩ := setRoot_eq hn h2 hv st.cc
    have hcount := h.count
    have hcc := h.cc
    have hidx := h.index
    rw [hst] at hcount hidx
    simp only [List.length_append, List.length_cons] at hcount hidx
    refine ⟨_, _, _, ?_, h.emit hm hroot hst hnum hold ht hnb h4, ?_, ⟨[], rfl, .nil⟩, ?_, ⟨_, rfl⟩⟩
    · simp only [tarClose, decide_eq_true hroot, if_true, hst, h1, h3, bind, Except.bind]
      rw [if_pos (by omega)]
    · intro x hx
      refine ⟨?_, rfl⟩
      have hx' : x ≠ v ∧ x ∉ N := by
        rcases hx with hx | hx | hx
        · exact hnew (.inl hx)
        · exact hnew (.inr hx)
        · refine ⟨fun e => hnd'.1 (by rw [← e]; simp only [List.mem_append]; exact .inr (.inr hx)), fun e => ?_⟩
          have := (List.nodup_append.1 (List.nodup_append.1 hnd'.2).2.1).2.2 x (List.mem_append_left _ e) x hx
          exact this rfl
      simp only [if_neg hx'.1, if_neg hx'.2]
    · simp only [if_true]
      omega
  · refine ⟨{ st with stack := v :: st.stack }, r, num, ?_, h.shelve (by omega) hnb, fun x _ => ⟨rfl, rfl⟩, ⟨v :: N, ?_, ?_, ?_, ?_⟩, ?_, ⟨[], ?_⟩⟩
    · simp only [tarClose, decide_eq_false hroot, Bool.false_eq_true, if_false]
    · show v :: st.stack = _
      rw [hst]; rfl
    · intro x hx
      rcases List.mem_cons.1 hx with rfl | hx
      · exact .refl
      · exact ht.from_v x hx
    · intro x hx
      rcases List.mem_cons.1 hx with rfl | hx
      · exact Nat.le_refl _
      · exact ht.ge x hx
    · intro x hx
      rcases List.mem_cons.1 hx with rfl | hx
      · omega
      · have := ht.num_ge x hx
        omega
    · exact fun e => (h.zero v hv).1 e List.mem_cons_self
    · exact (List.append_nil _).symm

theorem TarInv.visited (h : TarInv nodes nb idx bound max P st r num) {x : C} (hx : x ∈ nodes) :
    r x ≠ 0 ↔ x ∈ P ∨ x ∈ st.stack ∨ x ∈ st.out.flatten := by
  rw [ne_eq, h.zero x hx, Classical.not_not, List.mem_append, List.mem_append]

/-- A call ends, and keeps the invariant. -/
theorem tar_visit (hn : Numbered ix nodes idx bound) (hm : nodes.length + 1 ≤ max) (hnbr : ∀ {c}, c ∈ nodes → nbr c (nb c))
    (hin : ∀ {c y}, c ∈ nodes → y ∈ nb c → y ∈ nodes) : ∀ (n : Nat) (P : List C) (st : TarSt C) (r num : C → Nat) (v : C),
    left nodes (fun x => decide (r x ≠ 0)) ≤ n → TarInv nodes nb idx bound max P st r num → v ∈ nodes → r v = 0 →
    ∃ st' r' num', TarRun ix nbr max (.visit v) st st' ∧ TarPost nodes nb idx bound max P st.stack st.out st.index v r num st' r' num' := by
  intro n
  induction n with
  | zero =>
    intro P st r num v hl h hv hz
    have := left_lt (S := fun x => decide (r x ≠ 0)) hv (by simp [hz])
    omega
  | succ n ih =>
    intro P0 st0 r0 num0 v hl h0 hv hz
    have hleft : ∀ {r r' : C → Nat}, (∀ x ∈ nodes, r x ≠ 0 → r' x ≠ 0) → left nodes (fun x => decide (r' x ≠ 0)) ≤ left nodes (fun x => decide (r x ≠ 0)) := by
      intro r r' h
      refine List.countP_mono_left fun x hx hx' => ?_
      have := h x hx
      simp only [Bool.not_eq_true', decide_eq_false_iff_not] at hx' ⊢
      exact fun e => hx' (this e)
    have scan : ∀ (ws : List C) (st : TarSt C) (r num : C → Nat) (N S : List C), left nodes (fun x => decide (r x ≠ 0)) ≤ n →
        TarInv nodes nb idx bound max (v :: P0) st r num → st.stack = N ++ S → num v = 1 + (P0.length + S.length) →
        (∀ x, x ∈ P0 ∨ x ∈ S → num x < num v) → TarTop nb v N r num (num v) → (∀ w ∈ ws, w ∈ nb v) →
        (∀ y ∈ nb v, y ∈ ws ∨ y ∈ st.out.flatten ∨ (y ∈ v :: P0 ∨ y ∈ st.stack) ∧ r v ≤ num y) →
        ∃ st' r' num', TarRun ix nbr max (.scan v ws (decide (r v = num v))) st st' ∧
          TarPost nodes nb idx bound max P0 S st.out (num v) v r num st' r' num' := by
      intro ws
      induction ws with
      | nil =>
        intro st r num N S _ h hst hnum hold ht _ hsc
        obtain ⟨st', r', num', h1, h2⟩ := h.finish hn (by omega) hst rfl hnum hold ht fun y hy => (hsc y hy).resolve_left (nomatch ·)
        exact ⟨st', r', num', .close h1, h2⟩
      | cons w ws ihw =>
        intro st r num N S hl h hst hnum hold ht hws hsc
        have hwv := hws w List.mem_cons_self
        have hwn := hin hv hwv
        -- the rest of the loop, from a state in which `w` has been entered
        have rest : ∀ (st1 : TarSt C) (r1 num1 : C → Nat) (N1 : List C), TarInv nodes nb idx bound max (v :: P0) st1 r1 num1 →
            (∀ x, x ∈ v :: P0 ∨ x ∈ st.stack ∨ x ∈ st.out.flatten → r1 x = r x ∧ num1 x = num x) → st1.stack = N1 ++ (N ++ S) →
            TarTop nb w N1 r1 num1 (num v) → r1 w ≠ 0 → (∃ m, st1.out = st.out ++ m) →
            ∃ b' roots st' r' num', tarLower ix v w (decide (r v = num v)) st1.roots = .ok (b', roots) ∧
              TarRun ix nbr max (.scan v ws b') { st1 with roots := roots } st' ∧
              TarPost nodes nb idx bound max P0 S st.out (num v) v r num st' r' num' := by
          intro st1 r1 num1 N1 k1 k2 k3 k4 k5 k6
          have hv1 := k2 v (.inl List.mem_cons_self)
          obtain ⟨roots, l1, l2⟩ := tarLower_eq hn k1.roots hv hwn (decide (r v = num v))
          obtain ⟨l3, l4⟩ := k1.lower (by omega) hwn k5 hwv l2
          obtain ⟨m, k6⟩ := k6
          have hlow1 := (k1.low v (.inl List.mem_cons_self)).1
          have hvn : v ∉ N1 ++ (N ++ S) := fun e => (List.nodup_cons.1 k1.nodup).1 (by rw [k3]; exact List.mem_append_right _ (List.mem_append_left _ e))
          obtain ⟨st', r', num', m1, m2⟩ := ihw { st1 with roots := roots } (fun y => if y = v then min (r1 v) (r1 w) else r1 y) num1 (N1 ++ N) S
            (by
              refine Nat.le_trans (hleft fun x hx hx0 => ?_) hl
              have := k2 x (by
                rcases (h.visited hx).1 hx0 with e | e | e
                · exact .inl e
                · exact .inr (.inl e)
                · exact .inr (.inr e))
              by_cases e : x = v
              · subst e
                simp only [if_true]
                omega
              · simp only [if_neg e]
                omega) l3 (by simp only [k3, List.append_assoc]) (by rw [hv1.2, hnum])
            (fun x hx => by
              have := k2 x (by
                rcases hx with e | e
                · exact .inl (List.mem_cons_of_mem _ e)
                · exact .inr (.inl (by rw [hst]; exact List.mem_append_right _ e)))
              rw [this.2, hv1.2]
              exact hold x hx)
            (by
              have hd : ∀ x ∈ N1 ++ N, x ≠ v := fun x hx e => hvn (by
                rw [← e, ← List.append_assoc]; exact List.mem_append_left _ hx)
              refine ⟨fun x hx => ?_, fun x hx => ?_, fun x hx => ?_⟩
              · rcases List.mem_append.1 hx with hx | hx
                · exact .head hwv (k4.from_v x hx)
                · exact ht.from_v x hx
              · simp only [if_neg (hd x hx), if_true]
                rcases List.mem_append.1 hx with hx | hx
                · have := k4.ge x hx
                  omega
                · have h1 := ht.ge x hx
                  have h2 := k2 x (.inr (.inl (by rw [hst]; exact List.mem_append_left _ hx)))
                  omega
              · rw [hv1.2]
                rcases List.mem_append.1 hx with hx | hx
                · exact k4.num_ge x hx
                · have h1 := ht.num_ge x hx
                  have h2 := k2 x (.inr (.inl (by rw [hst]; exact List.mem_append_left _ hx)))
                  omega)
            (fun x hx => hws x (List.mem_cons_of_mem _ hx))
            (fun y hy => by
              simp only [if_true]
              rcases hsc y hy with e | e | ⟨e, e'⟩
              · rcases List.mem_cons.1 e with rfl | e
                · exact .inr l4
                · exact .inl e
              · refine .inr (.inl ?_)
                rw [k6, List.flatten_append]
                exact List.mem_append_left _ e
              · refine .inr (.inr ⟨e.imp id fun e => ?_, ?_⟩)
                · rw [k3, ← hst]
                  exact List.mem_append_right _ e
                · have := k2 y (e.imp id .inl)
                  omega)
          refine ⟨_, roots, st', r', num', l1, ?_, m2.inv, fun x hx => ?_, ?_, m2.seen, ?_⟩
          · have e : (decide (r v = num v) && decide (r1 v ≤ r1 w)) = decide ((if v = v then min (r1 v) (r1 w) else r1 v) = num1 v) := by
              rw [if_pos rfl, ← Bool.decide_and]
              refine decide_eq_decide.2 ?_
              omega
            rw [e]
            exact m1
          · have h1 := m2.same x (by
              refine hx.imp id (fun h => h.imp id fun h => ?_)
              show x ∈ st1.out.flatten
              rw [k6, List.flatten_append]
              exact List.mem_append_left _ h)
            have h2 := k2 x (by
              rcases hx with e | e | e
              · exact .inl (List.mem_cons_of_mem _ e)
              · exact .inr (.inl (by rw [hst]; exact List.mem_append_right _ e))
              · exact .inr (.inr e))
            have e : x ≠ v := by
              intro e
              have hnd : v ∉ P0 ++ (st.stack ++ st.out.flatten) := (List.nodup_cons.1 h.nodup).1
              rw [hst] at hnd
              apply hnd
              rw [← e]
              simp only [List.mem_append]
              rcases hx with e | e | e
              · exact .inl e
              · exact .inr (.inl (.inr e))
              · exact .inr (.inr e)
            rw [h1.1, h1.2, if_neg e]
            exact h2
          · obtain ⟨N', n1, n2⟩ := m2.top
            rw [hv1.2] at n2
            exact ⟨N', n1, n2⟩
          · obtain ⟨m', e⟩ := m2.more
            refine ⟨m ++ m', ?_⟩
            rw [e]
            show st1.out ++ m' = _
            rw [k6, List.append_assoc]
        by_cases hw0 : r w = 0
        · obtain ⟨st1, r1, num1, h1, h2⟩ := ih (v :: P0) st r num w hl h hwn hw0
          obtain ⟨N1, h3, h4⟩ := h2.top
          have hidx := h.index
          rw [hst] at hidx
          simp only [List.length_append, List.length_cons] at hidx
          obtain ⟨b', roots, st', r', num', l1, l2, l3⟩ := rest st1 r1 num1 N1 h2.inv h2.same (by rw [h3, hst])
            ⟨h4.from_v, h4.ge, fun x hx => by have := h4.num_ge x hx; omega⟩ h2.seen h2.more
          exact ⟨st', r', num', .fresh (by rw [rootAt_eq hn h.roots hwn, hw0]) h1 l1 l2, l3⟩
        · obtain ⟨b', roots, st', r', num', l1, l2, l3⟩ := rest st r num [] h (fun _ _ => ⟨rfl, rfl⟩) (by rw [hst]; rfl)
            .nil hw0 ⟨[], (List.append_nil _).symm⟩
          exact ⟨st', r', num', .known (r := r w - 1) (by rw [rootAt_eq hn h.roots hwn]; congr 1; omega) l1 l2, l3⟩
    obtain ⟨roots, h1, h2⟩ := setRoot_eq hn h0.roots hv st0.index
    have hinv := h0.enter hv hz h2
    have hnew := (h0.zero v hv).1 hz
    have hne : ∀ {x}, x ∈ P0 ∨ x ∈ st0.stack ∨ x ∈ st0.out.flatten → x ≠ v := by
      intro x hx e
      apply hnew
      rw [← e]
      simpa only [List.mem_append] using hx
    have hcount := hinv.count
    simp only [List.length_cons] at hcount
    have hidx := h0.index
    obtain ⟨st', r', num', k1, k2⟩ := scan (nb v) _ _ _ [] st0.stack (by
        refine Nat.le_trans ?_ (Nat.le_of_lt_succ (Nat.lt_of_lt_of_le (left_lt (S := fun x => decide (r0 x ≠ 0)) hv (by simp [hz])) hl))
        refine List.countP_mono_left fun x hx hx' => ?_
        by_cases e : x = v
        · subst e
          simp only [if_true] at hx'
          simp at hx'
          omega
        · simp only [if_neg e] at hx' ⊢
          exact hx') hinv rfl (by simp only [if_true]; exact hidx) (fun x hx => by
        simp only [if_true]
        rw [if_neg (hne (hx.imp id .inl))]
        exact h0.num_lt x hx)
      .nil (fun _ h => h) (fun _ h => .inl h)
    simp only [if_true, decide_true] at k1 k2
    refine ⟨st', r', num', .visit (by rw [rootAt_eq hn h0.roots hv, hz]) h1 (by omega) (hnbr hv) k1, k2.inv, fun x hx => ?_, k2.top, k2.seen, k2.more⟩
    have := k2.same x hx
    simp only [if_neg (hne hx)] at this
    exact this

/-- With no call under way the stack is empty. -/
theorem TarInv.empty (h : TarInv nodes nb idx bound max [] st r num) : st.stack = [] := by
  cases e : st.stack with
  | nil => rfl
  | cons x l =>
    exfalso
    have key : ∀ n x, num x ≤ n → x ∈ st.stack → False := by
      intro n
      induction n with
      | zero =>
        intro x hx hxs
        have := (h.closed x hxs).1
        omega
      | succ n ih =>
        intro x hx hxs
        have h1 := (h.closed x hxs).1
        obtain ⟨-, y, h2, -, h3⟩ := h.low x (.inr hxs)
        exact ih y (by omega) (h2.resolve_left (nomatch ·))
    exact key _ x (Nat.le_refl _) (by rw [e]; exact List.mem_cons_self)

/-- The loop over the nodes. -/
theorem tar_all (hn : Numbered ix nodes idx bound) (hm : nodes.length + 1 ≤ max) (hnbr : ∀ {c}, c ∈ nodes → nbr c (nb c))
    (hin : ∀ {c y}, c ∈ nodes → y ∈ nb c → y ∈ nodes) : ∀ (is : List C), (∀ i ∈ is, i ∈ nodes) → ∀ {st : TarSt C} {r num : C → Nat},
    TarInv nodes nb idx bound max [] st r num → ∃ st' r' num', TarAll ix nbr max is st st'.out ∧ TarInv nodes nb idx bound max [] st' r' num' ∧
      (∀ x ∈ st.out.flatten, x ∈ st'.out.flatten) ∧ ∀ i ∈ is, i ∈ st'.out.flatten
  | [], _, st, r, num, h => ⟨st, r, num, .done h.empty, h, fun _ h => h, fun _ h => (nomatch h)⟩
  | i :: is, hi, st, r, num, h => by
    have hin' := hi i List.mem_cons_self
    have his := fun j hj => hi j (List.mem_cons_of_mem _ hj)
    by_cases hz : r i = 0
    · obtain ⟨st1, r1, num1, h1, h2⟩ := tar_visit hn hm hnbr hin _ [] st r num i (Nat.le_refl _) h hin' hz
      obtain ⟨st', r', num', h3, h4, h5, h6⟩ := tar_all hn hm hnbr hin is his h2.inv
      obtain ⟨m, e⟩ := h2.more
      refine ⟨st', r', num', .next (by rw [rootAt_eq hn h.roots hin', hz]) h1 h3, h4, fun x hx => h5 x ?_, fun j hj => ?_⟩
      · rw [e, List.flatten_append]
        exact List.mem_append_left _ hx
      · rcases List.mem_cons.1 hj with rfl | hj
        · have := (h2.inv.visited hin').1 h2.seen
          rw [h2.inv.empty] at this
          exact h5 j ((this.resolve_left (nomatch ·)).resolve_left (nomatch ·))
        · exact h6 j hj
    · obtain ⟨st', r', num', h3, h4, h5, h6⟩ := tar_all hn hm hnbr hin is his h
      refine ⟨st', r', num', .seen (r := r i - 1) (by rw [rootAt_eq hn h.roots hin']; congr 1; omega) h3, h4, h5, fun j hj => ?_⟩
      rcases List.mem_cons.1 hj with rfl | hj
      · have := (h.visited hin').1 hz
        rw [h.empty] at this
        exact h5 j ((this.resolve_left (nomatch ·)).resolve_left (nomatch ·))
      · exact h6 j hj

theorem TarRun.unique (hu : ∀ {c l l'}, nbr c l → nbr c l' → l = l') {j : TarJob C} {st st' : TarSt C} (h : TarRun ix nbr max j st st') :
    ∀ {st''}, TarRun ix nbr max j st st'' → st'' = st' := by
  induction h with
  | visit h1 h2 h3 h4 _ ih =>
    intro st'' h
    cases h with
    | visit k1 k2 k3 k4 k5 =>
      rw [h2] at k2; cases k2
      obtain rfl := hu h4 k4
      exact ih k5
  | fresh h1 _ h3 _ ih1 ih2 =>
    intro st'' h
    cases h with
    | fresh k1 k2 k3 k4 =>
      obtain rfl := ih1 k2
      rw [h3] at k3; cases k3
      exact ih2 k4
    | known k1 => rw [h1] at k1; cases k1
  | known h1 h2 _ ih =>
    intro st'' h
    cases h with
    | fresh k1 => rw [h1] at k1; cases k1
    | known k1 k2 k3 =>
      rw [h2] at k2; cases k2
      exact ih k3
  | close h1 =>
    intro st'' h
    cases h with
    | close k1 => rw [h1] at k1; cases k1; rfl

theorem TarAll.unique (hu : ∀ {c l l'}, nbr c l → nbr c l' → l = l') {is : List C} {st : TarSt C} {o : List (List C)}
    (h : TarAll ix nbr max is st o) : ∀ {o'}, TarAll ix nbr max is st o' → o' = o := by
  induction h with
  | done => intro o' h; cases h; rfl
  | seen h1 _ ih =>
    intro o' h
    cases h with
    | seen _ k => exact ih k
    | next k1 => rw [h1] at k1; cases k1
  | next h1 h2 _ ih =>
    intro o' h
    cases h with
    | seen k1 => rw [h1] at k1; cases k1
    | next _ k2 k3 =>
      obtain rfl := h2.unique @hu k2
      exact ih k3

theorem OutOk.reach {out : List (List C)} (h : OutOk nb out) {a b : List (List C)} {l : List C} (he : out = a ++ l :: b) {x y : C}
    (hx : x ∈ l ∨ x ∈ a.flatten) (hr : Reached nb x y) : y ∈ l ∨ y ∈ a.flatten := by
  have ha : OutOk nb a := by
    rintro a' l' b' rfl
    exact h a' l' (b' ++ l :: b) (by rw [he]; simp)
  refine Reached.closed (P := fun z => z ∈ l ∨ z ∈ a.flatten) (fun z hz w hw => ?_) hx hr
  rcases hz with hz | hz
  · exact (h a l b he).2 z hz w hw
  · exact .inr (ha.closed hz hw)

/-- `tarjan_scc` ends with one result: every node in exactly one group, the groups are the strongly connected components, and no group
leads to a later one. -/
theorem tarjan_spec (hn : Numbered ix nodes idx bound) (hm : nodes.length + 1 ≤ max) (hnbr : ∀ {c}, c ∈ nodes → nbr c (nb c))
    (hin : ∀ {c y}, c ∈ nodes → y ∈ nb c → y ∈ nodes) (hu : ∀ {c l l'}, nbr c l → nbr c l' → l = l') {ids : List C → Prop} (hids : ids nodes)
    (huids : ∀ {l l'}, ids l → ids l' → l = l') :
    ∃ sccs, (∀ gs, TarjanScc ix nbr max ids bound gs ↔ gs = sccs) ∧ sccs.flatten.Nodup ∧ (∀ c, c ∈ sccs.flatten ↔ c ∈ nodes) ∧
      (∀ l ∈ sccs, l ≠ []) ∧ AreSccs nodes nb sccs ∧
      ∀ a l b, sccs = a ++ l :: b → ∀ x ∈ l, ∀ y, Reached (within nodes nb) x y → y ∈ l ∨ y ∈ a.flatten := by
  have hinit : TarInv nodes nb idx bound max [] (⟨1, max, List.replicate bound 0, [], []⟩ : TarSt C) (fun _ => 0) (fun _ => 0) := by
    refine ⟨⟨List.length_replicate, fun c hc => ?_⟩, ?_, ?_, ?_, rfl, rfl, fun _ h => (nomatch h), fun _ h => (nomatch h), ?_, ?_, ?_,
      fun _ h => (nomatch h), ?_⟩
    · rw [List.getElem?_replicate, if_pos (hn.lt hc)]
    · simp
    · simp
    · simp
    · rintro x (h | h) <;> cases h
    · rintro x (h | h) <;> cases h
    · rintro x y (h | h) <;> cases h
    · intro a l b h
      simp at h
  obtain ⟨st', r', num', h1, h2, -, h4⟩ := tar_all hn hm hnbr hin nodes (fun _ h => h) hinit
  have hmem : ∀ c, c ∈ st'.out.flatten ↔ c ∈ nodes := fun c =>
    ⟨fun h => h2.sub c (List.mem_append_right _ (List.mem_append_right _ h)), h4 c⟩
  have hw : ∀ {x}, x ∈ nodes → ∀ {y}, Reached (within nodes nb) x y ↔ Reached nb x y := by
    intro x hx y
    constructor
    · intro h
      induction h with
      | refl => exact .refl
      | step _ h ih => exact ih.step (mem_within.1 h).1
    · intro h
      induction h with
      | refl => exact .refl
      | @step z y _ h ih => exact ih.step (mem_within.2 ⟨h, hin (ih.inside hx) h⟩)
  have hlater : ∀ a l b, st'.out = a ++ l :: b → ∀ x ∈ l, ∀ y, Reached (within nodes nb) x y → y ∈ l ∨ y ∈ a.flatten := by
    intro a l b he x hx y hr
    have hxn : x ∈ nodes := (hmem x).1 (List.mem_flatten.2 ⟨l, by rw [he]; simp, hx⟩)
    exact h2.out.reach he (.inl hx) ((hw hxn).1 hr)
  refine ⟨st'.out, fun gs => ⟨?_, ?_⟩, ?_, hmem, h2.ne, ?_, hlater⟩
  · rintro ⟨l, k1, k2⟩
    obtain rfl := huids hids k1
    exact h1.unique @hu k2
  · rintro rfl
    exact ⟨nodes, hids, h1⟩
  · exact (List.nodup_append.1 (List.nodup_append.1 h2.nodup).2.1).2.1
  · have hnd := (List.nodup_append.1 (List.nodup_append.1 h2.nodup).2.1).2.1
    intro x hx y hy
    rw [hw hx, hw hy]
    constructor
    · rintro ⟨l, hl, hxl, hyl⟩
      obtain ⟨a, b, e⟩ := List.append_of_mem hl
      have := (h2.out a l b e).1
      exact ⟨this x hxl y hyl, this y hyl x hxl⟩
    · rintro ⟨h5, h6⟩
      obtain ⟨l, hl, hxl⟩ := List.mem_flatten.1 ((hmem x).2 hx)
      obtain ⟨a, b, e⟩ := List.append_of_mem hl
      rcases h2.out.reach e (.inl hxl) h5 with h7 | h7
      · exact ⟨l, hl, hxl, h7⟩
      · exfalso
        obtain ⟨l', hl', hyl'⟩ := List.mem_flatten.1 h7
        obtain ⟨a', b', e'⟩ := List.append_of_mem hl'
        have := h2.out.reach (a := a') (l := l') (b := b' ++ l :: b) (by rw [e, e']; simp) (.inl hyl') h6
        have hxa : x ∈ a.flatten := by
          rw [e']
          simp only [List.flatten_append, List.flatten_cons, List.mem_append]
          rcases this with h | h
          · exact .inr (.inl h)
          · exact .inl h
        rw [e, List.flatten_append, List.flatten_cons] at hnd
        exact (List.nodup_append.1 hnd).2.2 x hxa x (List.mem_append_left _ hxl) rfl

/-! ### Neighbours outside the graph -/

/-- Entries are written for such nodes only, and such nodes only are on the stack. -/
def TarFine (nodes : List C) (idx : C → Nat) (Good : C → Prop) (roots : List Nat) (stack : List C) : Prop :=
  (∀ c ∈ nodes, ∀ k, roots[idx c]? = some (k + 1) → Good c) ∧ ∀ c ∈ stack, c ∈ nodes ∧ Good c

theorem setRoot_fine (hn : Numbered ix nodes idx bound) {Good : C → Prop} {roots roots' : List Nat} {stack : List C} {c : C} {x : Nat}
    (h : TarFine nodes idx Good roots stack) (hc : c ∈ nodes) (hg : Good c) (hs : setRoot ix roots c x = .ok roots') :
    TarFine nodes idx Good roots' stack := by
  simp only [setRoot, hn.eq hc, bind, Except.bind] at hs
  by_cases hl : idx c < roots.length
  · rw [if_pos hl] at hs
    cases hs
    refine ⟨fun d hd k hk => ?_, h.2⟩
    by_cases e : d = c
    · rw [e]; exact hg
    · rw [List.getElem?_set_ne (fun h => e (hn.inj hd hc h.symm))] at hk
      exact h.1 d hd k hk
  · rw [if_neg hl] at hs
    cases hs

theorem tarPop_fine (hn : Numbered ix nodes idx bound) {Good : C → Prop} {v : C} {c : Nat} : ∀ {stack : List C} {roots roots' : List Nat} {p rest : List C},
    TarFine nodes idx Good roots stack → tarPop ix v c stack roots = .ok (p, rest, roots') → TarFine nodes idx Good roots' rest
  | [], roots, roots', p, rest, h, e => by
    simp only [tarPop] at e
    cases e
    exact h
  | w :: st, roots, roots', p, rest, h, e => by
    simp only [tarPop, bind, Except.bind] at e
    split at e
    · cases e
    · split at e
      · cases e
      · split at e
        · cases e
          exact h
        · split at e
          · cases e
          · rename_i h1
            split at e
            · cases e
            · rename_i h2
              cases e
              have hw := h.2 w List.mem_cons_self
              have := setRoot_fine hn h hw.1 hw.2 h1
              exact tarPop_fine hn ⟨this.1, fun c hc => h.2 c (List.mem_cons_of_mem _ hc)⟩ h2

/-- Every neighbour looked at has a number. -/
theorem TarRun.numbers {j : TarJob C} {st st' : TarSt C} (h : TarRun ix nbr max j st st') : ∀ {v ws b}, j = .scan v ws b →
    ∀ w ∈ ws, ∃ i, ix w = .ok i := by
  have hix : ∀ {roots : List Nat} {w : C} {r : Nat}, rootAt ix roots w = .ok r → ∃ i, ix w = .ok i := by
    intro roots w r h
    cases e : ix w with
    | ok i => exact ⟨i, rfl⟩
    | error _ => simp only [rootAt, e, bind, Except.bind] at h; cases h
  induction h with
  | visit => intro _ _ _ e; cases e
  | fresh h1 _ _ _ _ ih =>
    intro _ _ _ e; cases e
    intro w hw
    rcases List.mem_cons.1 hw with rfl | hw
    · exact hix h1
    · exact ih rfl w hw
  | known h1 _ _ ih =>
    intro _ _ _ e; cases e
    intro w hw
    rcases List.mem_cons.1 hw with rfl | hw
    · exact hix h1
    · exact ih rfl w hw
  | close => intro _ _ _ e; cases e; exact fun _ h => nomatch h

/-- The nodes a job is about. -/
def TarJob.fine (nodes : List C) (Good : C → Prop) : TarJob C → Prop
  | .visit v => v ∈ nodes
  | .scan v ws _ => v ∈ nodes ∧ Good v ∧ ∀ w ∈ ws, w ∈ nodes

theorem TarRun.fine (hn : Numbered ix nodes idx bound) (hnbr : ∀ {c l}, c ∈ nodes → nbr c l → l = nb c)
    (hoff : ∀ {c y i}, c ∈ nodes → y ∈ nb c → ix y = .ok i → y ∈ nodes) {j : TarJob C} {st st' : TarSt C} (h : TarRun ix nbr max j st st') :
    j.fine nodes (fun c => ∀ y ∈ nb c, y ∈ nodes) → TarFine nodes idx (fun c => ∀ y ∈ nb c, y ∈ nodes) st.roots st.stack →
    TarFine nodes idx (fun c => ∀ y ∈ nb c, y ∈ nodes) st'.roots st'.stack ∧ ∀ v, j = .visit v → ∀ y ∈ nb v, y ∈ nodes := by
  have hlow : ∀ {v w : C} {b b' : Bool} {roots roots' : List Nat} {stack : List C}, v ∈ nodes → (∀ y ∈ nb v, y ∈ nodes) →
      TarFine nodes idx (fun c => ∀ y ∈ nb c, y ∈ nodes) roots stack → tarLower ix v w b roots = .ok (b', roots') →
      TarFine nodes idx (fun c => ∀ y ∈ nb c, y ∈ nodes) roots' stack := by
    intro v w b b' roots roots' stack hv hg hf e
    simp only [tarLower, bind, Except.bind] at e
    split at e
    · cases e
    · split at e
      · cases e
      · split at e
        · split at e
          · cases e
          · rename_i h1
            cases e
            exact setRoot_fine hn hf hv hg h1
        · cases e
          exact hf
  induction h with
  | @visit v nbs st st' roots h1 h2 h3 h4 h5 ih =>
    intro hv hf
    have hv : v ∈ nodes := hv
    obtain rfl := hnbr hv h4
    have hg : ∀ y ∈ nb v, y ∈ nodes := fun y hy => by
      obtain ⟨i, hi⟩ := h5.numbers rfl y hy
      exact hoff hv hy hi
    refine ⟨(ih ⟨hv, hg, hg⟩ (setRoot_fine hn hf hv hg h2)).1, fun v' e => ?_⟩
    cases e
    exact hg
  | fresh h1 _ h3 _ ih1 ih2 =>
    intro hj hf
    obtain ⟨hv, hg, hws⟩ := hj
    have k1 := (ih1 (hws _ List.mem_cons_self) hf).1
    exact ⟨(ih2 ⟨hv, hg, fun w hw => hws w (List.mem_cons_of_mem _ hw)⟩ (hlow hv hg k1 h3)).1, fun _ e => nomatch e⟩
  | known h1 h2 _ ih =>
    intro hj hf
    obtain ⟨hv, hg, hws⟩ := hj
    exact ⟨(ih ⟨hv, hg, fun w hw => hws w (List.mem_cons_of_mem _ hw)⟩ (hlow hv hg hf h2)).1, fun _ e => nomatch e⟩
  | @close v b st st' h1 =>
    intro hj hf
    obtain ⟨hv, hg, -⟩ := hj
    refine ⟨?_, fun _ e => nomatch e⟩
    cases b with
    | true =>
      simp only [tarClose, if_true, bind, Except.bind] at h1
      split at h1
      · cases h1
      · rename_i h2
        split at h1
        · cases h1
        · rename_i h3
          split at h1
          · cases h1
            have := tarPop_fine hn hf h2
            exact setRoot_fine hn this hv hg h3
          · cases h1
    | false =>
      simp only [tarClose, Bool.false_eq_true, if_false] at h1
      cases h1
      refine ⟨hf.1, fun c hc => ?_⟩
      rcases List.mem_cons.1 hc with rfl | hc
      · exact ⟨hv, hg⟩
      · exact hf.2 c hc

/-- If some node has a neighbour without a number then `tarjan_scc` faults. -/
theorem tarjan_off (hn : Numbered ix nodes idx bound) (hnbr : ∀ {c l}, c ∈ nodes → nbr c l → l = nb c)
    (hoff : ∀ {c y i}, c ∈ nodes → y ∈ nb c → ix y = .ok i → y ∈ nodes) {ids : List C → Prop} (huids : ∀ {l}, ids l → l = nodes)
    {sccs : List (List C)} (h : TarjanScc ix nbr max ids bound sccs) : ∀ c ∈ nodes, ∀ y ∈ nb c, y ∈ nodes := by
  obtain ⟨l, h1, h2⟩ := h
  obtain rfl := huids h1
  have key : ∀ {is : List C} {st : TarSt C} {o : List (List C)}, TarAll ix nbr max is st o → (∀ i ∈ is, i ∈ l) →
      TarFine l idx (fun c => ∀ y ∈ nb c, y ∈ l) st.roots st.stack → ∀ c ∈ is, ∀ y ∈ nb c, y ∈ l := by
    intro is st o h
    induction h with
    | done => exact fun _ _ _ h => nomatch h
    | @seen n ns st r _ h1 _ ih =>
      intro hi hf c hc
      rcases List.mem_cons.1 hc with rfl | hc
      · have hcn := hi c List.mem_cons_self
        simp only [rootAt, hn.eq hcn, bind, Except.bind] at h1
        split at h1
        · rename_i h2
          cases h1
          exact hf.1 c hcn r h2
        · cases h1
      · exact ih (fun i h => hi i (List.mem_cons_of_mem _ h)) hf c hc
    | @next n ns st st1 _ h1 h2 _ ih =>
      intro hi hf c hc
      obtain ⟨k1, k2⟩ := h2.fine hn hnbr hoff (hi n List.mem_cons_self) hf
      rcases List.mem_cons.1 hc with rfl | hc
      · exact k2 c rfl
      · exact ih (fun i h => hi i (List.mem_cons_of_mem _ h)) k1 c hc
  refine key h2 (fun _ h => h) ⟨fun c hc k hk => ?_, fun _ h => nomatch h⟩
  rw [List.getElem?_replicate] at hk
  split at hk <;> cases hk
end
end LG
