import Verif.Model.Bellman
import Verif.Lemmas.Indexed
/- `bellman_ford` on any graph whose nodes are numbered: it reports a negative cycle exactly if there is one within reach, and otherwise
finds the least costs and a tree of cheapest ways. -/
namespace LG

/-- Walks of so many steps and such a cost along the edges `R`. -/
inductive ZWalk {V : Type} (R : V → V → Int → Prop) (a : V) : V → Nat → Int → Prop where
  | nil : ZWalk R a a 0 0
  | snoc {b c : V} {k : Nat} {x w : Int} : ZWalk R a b k x → R b c w → ZWalk R a c (k + 1) (x + w)

section
variable {V : Type} {R : V → V → Int → Prop}

theorem ZWalk.trans {a b c : V} {k j : Nat} {x y : Int} (h1 : ZWalk R a b k x) (h2 : ZWalk R b c j y) : ZWalk R a c (k + j) (x + y) := by
  induction h2 with
  | nil => simpa using h1
  | snoc _ he ih => rw [← Int.add_assoc, ← Nat.add_assoc]; exact ih.snoc he

/-- `x` is the least cost of a walk. -/
def ZLeast (R : V → V → Int → Prop) (a b : V) (x : Int) : Prop := (∃ k, ZWalk R a b k x) ∧ ∀ k y, ZWalk R a b k y → x ≤ y

/-- Some node within reach is on a closed walk of negative cost. -/
def NegCycle (R : V → V → Int → Prop) (a : V) : Prop := ∃ b k x j y, ZWalk R a b k x ∧ ZWalk R b b j y ∧ y < 0

/-- Walks with the nodes passed, the last one first. -/
inductive ZPath (R : V → V → Int → Prop) (a : V) : V → List V → Int → Prop where
  | nil : ZPath R a a [a] 0
  | snoc {b c : V} {p : List V} {x w : Int} : ZPath R a b p x → R b c w → ZPath R a c (c :: p) (x + w)

theorem ZPath.walk {a b : V} {p : List V} {x : Int} (h : ZPath R a b p x) : ∃ k, ZWalk R a b k x ∧ p.length = k + 1 := by
  induction h with
  | nil => exact ⟨0, .nil, rfl⟩
  | snoc _ he ih =>
    obtain ⟨k, h1, h2⟩ := ih
    exact ⟨k + 1, h1.snoc he, by rw [List.length_cons, h2]⟩

theorem ZWalk.path {a b : V} {k : Nat} {x : Int} (h : ZWalk R a b k x) : ∃ p, ZPath R a b p x := by
  induction h with
  | nil => exact ⟨_, .nil⟩
  | snoc _ he ih =>
    obtain ⟨p, h1⟩ := ih
    exact ⟨_, h1.snoc he⟩

theorem ZPath.split {a b : V} {p : List V} {x : Int} (h : ZPath R a b p x) {v : V} (hv : v ∈ p) :
    ∃ p1 x1 j x2, ZPath R a v p1 x1 ∧ ZWalk R v b j x2 ∧ x = x1 + x2 ∧ p1.Sublist p := by
  induction h with
  | nil =>
    cases List.mem_singleton.1 hv
    exact ⟨_, _, _, _, .nil, .nil, rfl, List.Sublist.refl _⟩
  | @snoc b c p x w hp he ih =>
    rcases List.mem_cons.1 hv with rfl | hv
    · exact ⟨_, _, _, _, hp.snoc he, .nil, by rw [Int.add_zero], List.Sublist.refl _⟩
    · obtain ⟨p1, x1, j, x2, h1, h2, h3, h4⟩ := ih hv
      exact ⟨p1, x1, _, _, h1, h2.snoc he, by rw [h3, Int.add_assoc], h4.cons _⟩

/-- Without negative cycles a walk can be made simple without becoming dearer. -/
theorem ZPath.simple {a b : V} {p : List V} {x : Int} (hn : ¬ NegCycle R a) (h : ZPath R a b p x) :
    ∃ p' x', ZPath R a b p' x' ∧ p'.Nodup ∧ x' ≤ x := by
  induction h with
  | nil => exact ⟨_, _, .nil, by simp, Int.le_refl _⟩
  | @snoc b c p x w hp he ih =>
    obtain ⟨p', x', h1, h2, h3⟩ := ih
    by_cases hc : c ∈ p'
    · obtain ⟨p1, x1, j, x2, h4, h5, h6, h7⟩ := h1.split hc
      refine ⟨p1, x1, h4, h2.sublist h7, ?_⟩
      obtain ⟨k, hk, -⟩ := h4.walk
      have : ¬ x2 + w < 0 := fun hlt => hn ⟨c, k, x1, _, _, hk, h5.snoc he, hlt⟩
      omega
    · exact ⟨_, _, h1.snoc he, List.nodup_cons.2 ⟨hc, h2⟩, by omega⟩

theorem ZPath.mem {P : V → Prop} (hR : ∀ u t w, P u → R u t w → P t) {a b : V} {p : List V} {x : Int} (ha : P a) (h : ZPath R a b p x) :
    P b ∧ ∀ v ∈ p, P v := by
  induction h with
  | nil => exact ⟨ha, fun v hv => by cases List.mem_singleton.1 hv; exact ha⟩
  | snoc _ he ih =>
    have := hR _ _ _ ih.1 he
    refine ⟨this, fun v hv => ?_⟩
    rcases List.mem_cons.1 hv with rfl | hv
    · exact this
    · exact ih.2 v hv

/-- Without negative cycles the walks of fewer than `n` steps suffice, `n` being the number of nodes. -/
theorem ZWalk.short {P : V → Prop} (hR : ∀ u t w, P u → R u t w → P t) {vs : List V} (hvs : ∀ v, P v → v ∈ vs) {a b : V} (ha : P a)
    (hn : ¬ NegCycle R a) {k : Nat} {x : Int} (h : ZWalk R a b k x) : ∃ j y, ZWalk R a b j y ∧ j ≤ vs.length - 1 ∧ y ≤ x := by
  obtain ⟨p, hp⟩ := h.path
  obtain ⟨p', x', h1, h2, h3⟩ := hp.simple hn
  obtain ⟨j, h4, h5⟩ := h1.walk
  have := List.Nodup.length_le_of_subset h2 fun v hv => hvs v ((h1.mem hR ha).2 v hv)
  exact ⟨j, x', h4, by omega, h3⟩
end

section
variable {V : Type} {P : V → Prop} {idx : V → Nat} {ix : V → Res Nat} {n : Nat} {R : V → V → Int → Prop}

/-- The distance recorded for a node. -/
def Bell.d (idx : V → Nat) (st : Bell V) (v : V) : Option Int := st.dist[idx v]?.join

/-- The predecessor recorded for a node. -/
def Bell.p (idx : V → Nat) (st : Bell V) (v : V) : Option V := st.pred[idx v]?.join

/-- Both vectors have an entry per node. -/
def Bell.Len (n : Nat) (st : Bell V) : Prop := st.dist.length = n ∧ st.pred.length = n

/-- An improvement along the edge of weight `w` from `i` to `j`. -/
structure Improved (P : V → Prop) (idx : V → Nat) (st : Bell V) (i j : V) (w : Int) (st' : Bell V) : Prop where
  was : ∃ x, st.d idx i = some x ∧ st'.d idx j = some (x + w) ∧ ∀ y, st.d idx j = some y → x + w < y
  pred : st'.p idx j = some i
  rest : ∀ v, P v → v ≠ j → st'.d idx v = st.d idx v ∧ st'.p idx v = st.p idx v

theorem Bell.at_eq {st : Bell V} (hl : st.Len n) {v : V} (hv : idx v < n) : st.at (idx v) = .ok (st.d idx v) := by
  have : idx v < st.dist.length := by rw [hl.1]; exact hv
  unfold Bell.at Bell.d
  rw [List.getElem?_eq_getElem this]
  rfl

theorem shorter_iff {x y : Option Int} {w : Int} : shorter x w y = true ↔ ∃ a, x = some a ∧ ∀ b, y = some b → a + w < b := by
  unfold shorter
  cases x with
  | none => simp
  | some a => cases y <;> simp

theorem bfEdge_spec (hi : Indexed P idx n) (hix : ∀ v, P v → ix v = .ok (idx v)) {st : Bell V} (hl : st.Len n) {i j : V} (pi : P i) (pj : P j)
    (w : Int) : ∃ st' b, bfEdge ix i j w st = .ok (st', b) ∧ st'.Len n ∧
      (b = false → st' = st ∧ ∀ x, st.d idx i = some x → ∃ y, st.d idx j = some y ∧ y ≤ x + w) ∧ (b = true → Improved P idx st i j w st') := by
  unfold bfEdge
  rw [hix i pi, hix j pj]
  simp only [bind, Except.bind]
  rw [Bell.at_eq hl (hi.lt pi), Bell.at_eq hl (hi.lt pj)]
  simp only []
  by_cases hsh : shorter (st.d idx i) w (st.d idx j) = true
  · have hb : idx j < st.pred.length := by rw [hl.2]; exact hi.lt pj
    have hd : idx j < st.dist.length := by rw [hl.1]; exact hi.lt pj
    rw [if_pos hsh, if_pos hb]
    refine ⟨_, _, rfl, ⟨by rw [List.length_set]; exact hl.1, by rw [List.length_set]; exact hl.2⟩, (fun h => nomatch h), fun _ => ?_⟩
    obtain ⟨a, h1, h2⟩ := shorter_iff.1 hsh
    refine ⟨⟨a, h1, ?_, h2⟩, ?_, fun v hv hne => ?_⟩
    · unfold Bell.d at h1 ⊢
      rw [List.getElem?_set_self hd, h1]; rfl
    · unfold Bell.p
      rw [List.getElem?_set_self hb]; rfl
    · have : idx j ≠ idx v := fun e => hne (hi.inj hv pj e.symm)
      unfold Bell.d Bell.p
      simp only [List.getElem?_set_ne this, and_self]
  · rw [if_neg hsh]
    refine ⟨st, false, rfl, hl, fun _ => ⟨rfl, fun x hx => ?_⟩, (fun h => nomatch h)⟩
    cases hy : st.d idx j with
    | none => exact absurd (shorter_iff.2 ⟨x, hx, fun b hb => by rw [hy] at hb; cases hb⟩) hsh
    | some y =>
      refine ⟨y, rfl, ?_⟩
      by_cases hlt : x + w < y
      · exact absurd (shorter_iff.2 ⟨x, hx, fun b hb => by rw [hy] at hb; cases hb; exact hlt⟩) hsh
      · omega

/-- No distance has become longer. -/
def Bell.Le (P : V → Prop) (idx : V → Nat) (st' st : Bell V) : Prop :=
  ∀ v, P v → ∀ x, st.d idx v = some x → ∃ y, st'.d idx v = some y ∧ y ≤ x

theorem Bell.Le.refl (st : Bell V) : Bell.Le P idx st st := fun _ _ x hx => ⟨x, hx, Int.le_refl _⟩

theorem Bell.Le.trans {s1 s2 s3 : Bell V} (h1 : Bell.Le P idx s2 s1) (h2 : Bell.Le P idx s3 s2) : Bell.Le P idx s3 s1 := fun v hv x hx => by
  obtain ⟨y, h3, h4⟩ := h1 v hv x hx
  obtain ⟨z, h5, h6⟩ := h2 v hv y h3
  exact ⟨z, h5, by omega⟩

theorem Improved.le {st st' : Bell V} {i j : V} {w : Int} (h : Improved P idx st i j w st') : Bell.Le P idx st' st := fun v hv x hx => by
  by_cases e : v = j
  · subst e
    obtain ⟨a, -, h2, h3⟩ := h.was
    exact ⟨_, h2, Int.le_of_lt (h3 x hx)⟩
  · exact ⟨x, by rw [(h.rest v hv e).1]; exact hx, Int.le_refl _⟩

/-- A property that improvements along edges keep. -/
def Kept (P : V → Prop) (idx : V → Nat) (R : V → V → Int → Prop) (I : Bell V → Prop) : Prop :=
  ∀ i j w st st', P i → P j → R i j w → Improved P idx st i j w st' → I st → I st'

theorem bfSweep_spec (hi : Indexed P idx n) (hix : ∀ v, P v → ix v = .ok (idx v)) : ∀ (l : List (V × V × Int)) (st : Bell V) (did : Bool),
    st.Len n → (∀ e ∈ l, P e.1 ∧ P e.2.1 ∧ R e.1 e.2.1 e.2.2) → ∃ st' b, bfSweep ix l st did = .ok (st', b) ∧ st'.Len n ∧
      Bell.Le P idx st' st ∧ (∀ e ∈ l, ∀ x, st.d idx e.1 = some x → ∃ y, st'.d idx e.2.1 = some y ∧ y ≤ x + e.2.2) ∧
      (b = false → did = false ∧ st' = st) ∧ ∀ I, Kept P idx R I → I st → I st'
  | [], st, did, hl, _ => ⟨st, did, rfl, hl, .refl _, (fun _ h => nomatch h), fun h => ⟨h, rfl⟩, fun _ _ h => h⟩
  | (i, j, w) :: l, st, did, hl, hR => by
    obtain ⟨h1, h2, h3⟩ := hR _ List.mem_cons_self
    obtain ⟨s1, b1, e1, l1, f1, t1⟩ := bfEdge_spec hi hix hl h1 h2 w
    obtain ⟨s2, b2, e2, l2, le2, ed2, f2, k2⟩ := bfSweep_spec hi hix l s1 (did || b1) l1 fun e he => hR e (List.mem_cons_of_mem _ he)
    have le1 : Bell.Le P idx s1 st := by
      cases b1 with
      | false => rw [(f1 rfl).1]; exact .refl _
      | true => exact (t1 rfl).le
    refine ⟨s2, b2, ?_, l2, le1.trans le2, ?_, ?_, ?_⟩
    · simp only [bfSweep, e1, bind, Except.bind]
      exact e2
    · intro e he x hx
      rcases List.mem_cons.1 he with rfl | he
      · have : ∃ y, s1.d idx j = some y ∧ y ≤ x + w := by
          cases b1 with
          | false => rw [(f1 rfl).1]; exact (f1 rfl).2 x hx
          | true =>
            obtain ⟨a, g1, g2, -⟩ := (t1 rfl).was
            simp only [] at hx
            rw [g1] at hx; cases hx
            exact ⟨_, g2, Int.le_refl _⟩
        obtain ⟨y, g1, g2⟩ := this
        obtain ⟨z, g3, g4⟩ := le2 j h2 y g1
        exact ⟨z, g3, by simp only []; omega⟩
      · obtain ⟨z, g3, g4⟩ := le1 e.1 (hR e (List.mem_cons_of_mem _ he)).1 x hx
        obtain ⟨y, g5, g6⟩ := ed2 e he z g3
        exact ⟨y, g5, by omega⟩
    · intro hb
      obtain ⟨g1, g2⟩ := f2 hb
      rw [Bool.or_eq_false_iff] at g1
      exact ⟨g1.1, by rw [g2, (f1 g1.2).1]⟩
    · intro I hI hst
      refine k2 I hI ?_
      cases b1 with
      | false => rw [(f1 rfl).1]; exact hst
      | true => exact hI _ _ _ _ _ h1 h2 h3 (t1 rfl) hst

/-- No edge can improve a distance. -/
def Bell.Stable (idx : V → Nat) (l : List (V × V × Int)) (st : Bell V) : Prop :=
  ∀ e ∈ l, ∀ x, st.d idx e.1 = some x → ∃ y, st.d idx e.2.1 = some y ∧ y ≤ x + e.2.2

theorem bfCheck_spec (hi : Indexed P idx n) (hix : ∀ v, P v → ix v = .ok (idx v)) {st : Bell V} (hl : st.Len n) : ∀ (l : List (V × V × Int)),
    (∀ e ∈ l, P e.1 ∧ P e.2.1) → ∃ b, bfCheck ix l st = .ok b ∧ (b = false ↔ st.Stable idx l)
  | [], _ => ⟨false, rfl, by simp [Bell.Stable]⟩
  | (i, j, w) :: l, h => by
    obtain ⟨pi, pj⟩ := h _ List.mem_cons_self
    simp only [] at pi pj
    obtain ⟨b, h1, h2⟩ := bfCheck_spec hi hix hl l fun e he => h e (List.mem_cons_of_mem _ he)
    unfold bfCheck
    rw [hix i pi, hix j pj]
    simp only [bind, Except.bind]
    rw [Bell.at_eq hl (hi.lt pi), Bell.at_eq hl (hi.lt pj)]
    simp only []
    by_cases hsh : shorter (st.d idx i) w (st.d idx j) = true
    · rw [if_pos hsh]
      refine ⟨true, rfl, ⟨(fun e => nomatch e), fun hst => ?_⟩⟩
      obtain ⟨a, g1, g2⟩ := shorter_iff.1 hsh
      obtain ⟨y, g3, g4⟩ := hst _ List.mem_cons_self a g1
      have := g2 y g3
      simp only [] at g4
      omega
    · rw [if_neg hsh]
      refine ⟨b, h1, h2.trans ⟨fun hst e he x hx => ?_, fun hst e he => hst e (List.mem_cons_of_mem _ he)⟩⟩
      rcases List.mem_cons.1 he with rfl | he
      · simp only [] at hx ⊢
        cases hy : st.d idx j with
        | none => exact absurd (shorter_iff.2 ⟨x, hx, fun b hb => by rw [hy] at hb; cases hb⟩) hsh
        | some y =>
          refine ⟨y, rfl, ?_⟩
          by_cases hlt : x + w < y
          · exact absurd (shorter_iff.2 ⟨x, hx, fun b hb => by rw [hy] at hb; cases hb; exact hlt⟩) hsh
          · omega
      · exact hst e he x hx

theorem swept_iff {ex : V → List (V × Int) → Prop} {out : V → List (V × Int)} : ∀ (ids : List V), (∀ v ∈ ids, ∀ l, ex v l ↔ l = out v) →
    ∀ a, Swept ex ids a ↔ a = ids.flatMap fun i => (out i).map fun e => (i, e.1, e.2)
  | [], _, a => ⟨fun h => by cases h; rfl, fun h => by rw [h]; exact .nil⟩
  | i :: is, hex, a => by
    have ih := swept_iff is fun v hv => hex v (List.mem_cons_of_mem _ hv)
    constructor
    · intro h
      cases h with
      | cons h1 h2 => rw [(hex i List.mem_cons_self _).1 h1, (ih _).1 h2]; rfl
    · rintro rfl
      exact .cons ((hex i List.mem_cons_self _).2 rfl) ((ih _).2 rfl)

/-- At least as good as all walks of at most `m` steps. -/
def Bell.Upto (R : V → V → Int → Prop) (idx : V → Nat) (src : V) (m : Nat) (st : Bell V) : Prop :=
  ∀ v k x, k ≤ m → ZWalk R src v k x → ∃ y, st.d idx v = some y ∧ y ≤ x

theorem bfRounds_spec (hi : Indexed P idx n) (hix : ∀ v, P v → ix v = .ok (idx v)) {sw : List (V × V × Int) → Prop} {l : List (V × V × Int)}
    (hsw : ∀ a, sw a ↔ a = l) (hl : ∀ e, e ∈ l ↔ P e.1 ∧ R e.1 e.2.1 e.2.2) (hR : ∀ u t w, P u → R u t w → P t) {src : V} (hsrc : P src) :
    ∀ (k m : Nat) (st : Bell V), st.Len n → st.Upto R idx src m → ∃ st', BfRounds ix sw k st st' ∧ (∀ s, BfRounds ix sw k st s → s = st') ∧
      st'.Len n ∧ (st'.Stable idx l ∨ st'.Upto R idx src (m + k)) ∧ ∀ I, Kept P idx R I → I st → I st'
  | 0, m, st, hlen, hm => ⟨st, .zero, fun s hs => by cases hs; rfl, hlen, .inr hm, fun _ _ h => h⟩
  | k + 1, m, st, hlen, hm => by
    obtain ⟨s1, b, e1, l1, le1, ed1, f1, k1⟩ := bfSweep_spec (R := R) hi hix l st false hlen fun e he =>
      ⟨((hl e).1 he).1, hR _ _ _ ((hl e).1 he).1 ((hl e).1 he).2, ((hl e).1 he).2⟩
    cases b with
    | false =>
      refine ⟨s1, .stop ((hsw l).2 rfl) e1, fun s hs => ?_, l1, .inl fun e he x hx => ?_, k1⟩
      · cases hs with
        | stop h1 h2 => rw [(hsw _).1 h1, e1] at h2; cases h2; rfl
        | more h1 h2 => rw [(hsw _).1 h1, e1] at h2; cases h2
      · exact ed1 e he x (by rw [← (f1 rfl).2]; exact hx)
    | true =>
      have hup : s1.Upto R idx src (m + 1) := by
        intro v j x hj hw
        by_cases e : j ≤ m
        · obtain ⟨y, h1, h2⟩ := hm v j x e hw
          have pv : P v := (hw.path.choose_spec.mem hR hsrc).1
          obtain ⟨z, h3, h4⟩ := le1 v pv y h1
          exact ⟨z, h3, by omega⟩
        · cases hw with
          | nil => omega
          | @snoc u _ j' x' w hw he =>
            obtain ⟨y, h1, h2⟩ := hm u j' x' (by omega) hw
            have pu : P u := (hw.path.choose_spec.mem hR hsrc).1
            obtain ⟨z, h3, h4⟩ := ed1 (u, v, w) ((hl _).2 ⟨pu, he⟩) y h1
            exact ⟨z, h3, by simp only [] at h4; omega⟩
      obtain ⟨s2, r1, r2, r3, r4, r5⟩ := bfRounds_spec hi hix hsw hl hR hsrc k (m + 1) s1 l1 hup
      refine ⟨s2, .more ((hsw l).2 rfl) e1 r1, fun s hs => ?_, r3, ?_, fun I hI h => r5 I hI (k1 I hI h)⟩
      · cases hs with
        | stop h1 h2 => rw [(hsw _).1 h1, e1] at h2; cases h2
        | more h1 h2 h3 => rw [(hsw _).1 h1, e1] at h2; cases h2; exact r2 _ h3
      · rwa [show m + (k + 1) = m + 1 + k by omega]

/-- Every recorded distance is the cost of a walk. -/
def Bell.Real (P : V → Prop) (R : V → V → Int → Prop) (idx : V → Nat) (src : V) (st : Bell V) : Prop :=
  ∀ v, P v → ∀ x, st.d idx v = some x → ∃ k, ZWalk R src v k x

theorem real_kept {src : V} : Kept P idx R (Bell.Real P R idx src) := by
  intro i j w st st' pi pj hR h hI v pv x hx
  by_cases e : v = j
  · subst e
    obtain ⟨a, h1, h2, -⟩ := h.was
    rw [h2] at hx; cases hx
    obtain ⟨k, hk⟩ := hI i pi a h1
    exact ⟨_, hk.snoc hR⟩
  · rw [(h.rest v pv e).1] at hx
    exact hI v pv x hx

/-- The predecessors form a tree whose root is the source, and every node in it is at most as near as its edge says. -/
structure Bell.Tree (P : V → Prop) (R : V → V → Int → Prop) (idx : V → Nat) (src : V) (st : Bell V) : Prop where
  real : st.Real P R idx src
  root : st.d idx src = some 0 ∧ st.p idx src = none
  arc : ∀ v, P v → v ≠ src → ∀ x, st.d idx v = some x → ∃ u w y, P u ∧ st.p idx v = some u ∧ R u v w ∧ st.d idx u = some y ∧ y + w ≤ x
  none : ∀ v, P v → st.d idx v = none → st.p idx v = none
  rooted : ∀ v, P v → ∃ p, Rebuilt (st.p idx) v p

theorem Bell.Tree.pred_node {src : V} {st : Bell V} (h : st.Tree P R idx src) {v u : V} (pv : P v) (hu : st.p idx v = some u) : P u := by
  cases hd : st.d idx v with
  | none => rw [h.none v pv hd] at hu; cases hu
  | some x =>
    by_cases e : v = src
    · subst e; rw [h.root.2] at hu; cases hu
    · obtain ⟨u', w, y, h1, h2, -⟩ := h.arc v pv e x hd
      rw [hu] at h2; cases h2; exact h1

/-- The nodes on the way back lead to the node. -/
theorem Bell.Tree.back {src : V} {st : Bell V} (h : st.Tree P R idx src) {v : V} {p : List V} (hp : Rebuilt (st.p idx) v p) : P v →
    ∀ {x : Int}, st.d idx v = some x → ∀ {j : V}, j ∈ p → ∃ y k c, st.d idx j = some y ∧ ZWalk R j v k c ∧ y + c ≤ x := by
  induction hp with
  | root hv =>
    intro _ x hx j hj
    cases List.mem_singleton.1 hj
    exact ⟨x, _, _, hx, .nil, by omega⟩
  | @step v u p hv _ ih =>
    intro pv x hx j hj
    rcases List.mem_append.1 hj with hj | hj
    · have hne : v ≠ src := fun e => by subst e; rw [h.root.2] at hv; cases hv
      obtain ⟨u', w, y, h1, h2, h3, h4, h5⟩ := h.arc v pv hne x hx
      rw [hv] at h2; cases h2
      obtain ⟨z, k, c, g1, g2, g3⟩ := ih h1 h4 hj
      exact ⟨z, _, _, g1, g2.snoc h3, by omega⟩
    · cases List.mem_singleton.1 hj
      exact ⟨x, _, _, hx, .nil, by omega⟩

theorem rebuilt_other {pr pr' : V → Option V} {j : V} {v : V} {p : List V} (h : Rebuilt pr v p) (hP : ∀ v u, P v → pr v = some u → P u)
    (hpr : ∀ v, P v → v ≠ j → pr' v = pr v) : P v → j ∉ p → Rebuilt pr' v p := by
  induction h with
  | @root v hv =>
    intro pv hj
    exact .root (by rw [hpr v pv fun e => hj (by subst e; simp)]; exact hv)
  | @step v u p hv _ ih =>
    intro pv hj
    refine .step (by rw [hpr v pv fun e => hj (by subst e; simp)]; exact hv) (ih (hP v u pv hv) fun hm => hj (List.mem_append.2 (.inl hm)))

theorem tree_kept {src : V} (ps : P src) (hneg : ¬ NegCycle R src) : Kept P idx R (Bell.Tree P R idx src) := by
  intro i j w st st' pi pj hR h hI
  obtain ⟨a, h1, h2, h3⟩ := h.was
  obtain ⟨ki, hki⟩ := hI.real i pi a h1
  have hj : j ≠ src := by
    intro e
    subst e
    have := h3 0 hI.root.1
    exact hneg ⟨j, 0, 0, _, _, .nil, hki.snoc hR, this⟩
  have hout : ∀ {p}, Rebuilt (st.p idx) i p → j ∉ p := by
    intro p hp hm
    obtain ⟨y, k, c, g1, g2, g3⟩ := hI.back hp pi h1 hm
    have := h3 y g1
    obtain ⟨kj, hkj⟩ := hI.real j pj y g1
    exact hneg ⟨j, kj, y, _, _, hkj, g2.snoc hR, by omega⟩
  have hij : i ≠ j := by
    intro e
    obtain ⟨p, hp⟩ := hI.rooted i pi
    refine hout hp ?_
    subst e
    cases hp <;> simp
  have hle := h.le
  refine ⟨real_kept i j w st st' pi pj hR h hI.real, ⟨?_, ?_⟩, ?_, ?_, ?_⟩
  · rw [(h.rest src ps hj.symm).1]; exact hI.root.1
  · rw [(h.rest src ps hj.symm).2]; exact hI.root.2
  · intro v pv hv x hx
    by_cases e : v = j
    · subst e
      rw [h2] at hx; cases hx
      exact ⟨i, w, a, pi, h.pred, hR, by rw [(h.rest i pi hij).1]; exact h1, Int.le_refl _⟩
    · rw [(h.rest v pv e).1] at hx
      obtain ⟨u, w', y, g1, g2, g3, g4, g5⟩ := hI.arc v pv hv x hx
      obtain ⟨z, g6, g7⟩ := hle u g1 y g4
      exact ⟨u, w', z, g1, by rw [(h.rest v pv e).2]; exact g2, g3, g6, by omega⟩
  · intro v pv hv
    by_cases e : v = j
    · subst e; rw [h2] at hv; cases hv
    · rw [(h.rest v pv e).1] at hv
      rw [(h.rest v pv e).2]; exact hI.none v pv hv
  · intro v pv
    have hnew : ∃ p, Rebuilt (st'.p idx) j p := by
      obtain ⟨p, hp⟩ := hI.rooted i pi
      exact ⟨_, .step h.pred (rebuilt_other hp (fun v u pv hu => hI.pred_node pv hu) (fun v pv e => (h.rest v pv e).2) pi (hout hp))⟩
    obtain ⟨p, hp⟩ := hI.rooted v pv
    clear hout hij
    induction hp with
    | @root v hv =>
      by_cases e : v = j
      · rw [e]; exact hnew
      · exact ⟨_, .root (by rw [(h.rest v pv e).2]; exact hv)⟩
    | @step v u p hv _ ih =>
      by_cases e : v = j
      · rw [e]; exact hnew
      · obtain ⟨q, hq⟩ := ih (hI.pred_node pv hv)
        exact ⟨_, .step (by rw [(h.rest v pv e).2]; exact hv) hq⟩

/-- What a result of `bellman_ford` says: `Err` exactly if a negative cycle is within reach; otherwise the least costs, infinite exactly for
the nodes out of reach, and for every other node its predecessor on a cheapest way, the source and the nodes out of reach having none. -/
structure BfRight (P : V → Prop) (R : V → V → Int → Prop) (idx : V → Nat) (n : Nat) (src : V) (r : Option (Bell V)) : Prop where
  neg : r = none ↔ NegCycle R src
  len : ∀ st, r = some st → st.Len n
  dist : ∀ st, r = some st → ∀ v, P v → ∀ x, st.d idx v = some x ↔ ZLeast R src v x
  inf : ∀ st, r = some st → ∀ v, P v → (st.d idx v = none ↔ ∀ k y, ¬ ZWalk R src v k y)
  tree : ∀ st, r = some st → st.Tree P R idx src

theorem Stable.upto {l : List (V × V × Int)} (hl : ∀ e, e ∈ l ↔ P e.1 ∧ R e.1 e.2.1 e.2.2) (hR : ∀ u t w, P u → R u t w → P t) {st : Bell V}
    (hst : st.Stable idx l) {a : V} (pa : P a) {x : Int} (hx : st.d idx a = some x) {v : V} {k : Nat} {c : Int} (hw : ZWalk R a v k c) :
    P v ∧ ∃ y, st.d idx v = some y ∧ y ≤ x + c := by
  induction hw with
  | nil => exact ⟨pa, x, hx, by omega⟩
  | snoc _ he ih =>
    obtain ⟨h1, y, h2, h3⟩ := ih
    obtain ⟨z, h4, h5⟩ := hst (_, _, _) ((hl _).2 ⟨h1, he⟩) y h2
    exact ⟨hR _ _ _ h1 he, z, h4, by simp only [] at h5; omega⟩

theorem bellman_spec (hi : Indexed P idx n) (hix : ∀ v, P v → ix v = .ok (idx v)) {sw : List (V × V × Int) → Prop} {l : List (V × V × Int)}
    (hsw : ∀ a, sw a ↔ a = l) (hl : ∀ e, e ∈ l ↔ P e.1 ∧ R e.1 e.2.1 e.2.2) (hR : ∀ u t w, P u → R u t w → P t) {vs : List V}
    (hvs : ∀ v, P v → v ∈ vs) (hn : vs.length = n) {src : V} (hsrc : P src) :
    ∃ r, BellmanFord ix sw n n src r ∧ (∀ r', BellmanFord ix sw n n src r' → r' = r) ∧ BfRight P R idx n src r := by
  have hlt := hi.lt hsrc
  have hlen0 : (⟨(List.replicate n none).set (idx src) (some 0), List.replicate n none⟩ : Bell V).Len n := by
    refine ⟨?_, ?_⟩ <;> simp
  have hd0 : ∀ v, P v → ∀ x, Bell.d idx (⟨(List.replicate n none).set (idx src) (some 0), List.replicate n none⟩ : Bell V) v = some x ↔
      v = src ∧ x = 0 := by
    intro v pv x
    unfold Bell.d
    by_cases e : v = src
    · subst e
      rw [List.getElem?_set_self (by simpa using hlt)]
      simp [eq_comm]
    · have : idx src ≠ idx v := fun h => e (hi.inj pv hsrc h.symm)
      simp only [List.getElem?_set_ne this]
      rw [List.getElem?_replicate]
      simp [hi.lt pv, e]
  have hp0 : ∀ v, P v → Bell.p idx (⟨(List.replicate n none).set (idx src) (some 0), List.replicate n none⟩ : Bell V) v = none := by
    intro v pv
    unfold Bell.p
    simp only [List.getElem?_replicate, hi.lt pv, if_true]
    rfl
  obtain ⟨s0, hs0⟩ : ∃ s0, s0 = (⟨(List.replicate n none).set (idx src) (some 0), List.replicate n none⟩ : Bell V) := ⟨_, rfl⟩
  rw [← hs0] at hlen0 hd0 hp0
  have hup0 : s0.Upto R idx src 0 := by
    intro v k x hk hw
    cases hw with
    | nil => exact ⟨0, (hd0 src hsrc 0).2 ⟨rfl, rfl⟩, Int.le_refl _⟩
    | snoc => omega
  obtain ⟨st, r1, r2, r3, r4, r5⟩ := bfRounds_spec hi hix hsw hl hR hsrc (n - 1) 0 s0 hlen0 hup0
  obtain ⟨b, c1, c2⟩ := bfCheck_spec hi hix r3 l fun e he => ⟨((hl e).1 he).1, hR _ _ _ ((hl e).1 he).1 ((hl e).1 he).2⟩
  have hreal0 : s0.Real P R idx src := by
    intro v pv x hx
    obtain ⟨rfl, rfl⟩ := (hd0 v pv x).1 hx
    exact ⟨_, .nil⟩
  have hreal := r5 _ real_kept hreal0
  obtain ⟨y0, hy0, hy0'⟩ := r5 (fun s => ∃ y, s.d idx src = some y ∧ y ≤ 0) (by
    rintro i j w s s' - - - himp ⟨y, h1, h2⟩
    obtain ⟨z, h3, h4⟩ := himp.le src hsrc y h1
    exact ⟨z, h3, by omega⟩) ⟨0, (hd0 src hsrc 0).2 ⟨rfl, rfl⟩, Int.le_refl _⟩
  have hstable : st.Stable idx l ↔ ¬ NegCycle R src := by
    constructor
    · rintro hst ⟨v, k, x, j, y, hw, hc, hlt'⟩
      obtain ⟨pv, z, h1, -⟩ := Stable.upto hl hR hst hsrc hy0 hw
      obtain ⟨-, z', h2, h3⟩ := Stable.upto hl hR hst pv h1 hc
      rw [h1] at h2; cases h2
      omega
    · intro hneg
      rcases r4 with hst | hup
      · exact hst
      · intro e he x hx
        obtain ⟨h1, h2⟩ := (hl e).1 he
        obtain ⟨k, hk⟩ := hreal e.1 h1 x hx
        obtain ⟨j, y, h3, h4, h5⟩ := (hk.snoc h2).short hR hvs hsrc hneg
        obtain ⟨z, h6, h7⟩ := hup e.2.1 j y (by omega) h3
        exact ⟨z, h6, by omega⟩
  have hb : b = false ↔ ¬ NegCycle R src := c2.trans hstable
  refine ⟨if b then none else some st, ⟨idx src, st, l, b, hix src hsrc, hlt, by rw [← hs0]; exact r1, (hsw l).2 rfl, c1, rfl⟩, ?_, ?_⟩
  · rintro r' ⟨i, st', a, b', h1, h2, h3, h4, h5, rfl⟩
    rw [hix src hsrc] at h1; cases h1
    rw [← hs0] at h3
    rw [r2 _ h3] at h5 ⊢
    rw [(hsw a).1 h4, c1] at h5; cases h5; rfl
  · have hsome : ∀ s, (if b then none else some st) = some s → s = st ∧ ¬ NegCycle R src ∧ st.Stable idx l := by
      intro s hs
      cases b with
      | true => cases hs
      | false => cases hs; exact ⟨rfl, hb.1 rfl, c2.1 rfl⟩
    have hdist : ¬ NegCycle R src → st.Stable idx l → y0 = 0 := by
      intro hneg _
      obtain ⟨k, hk⟩ := hreal src hsrc y0 hy0
      have : ¬ y0 < 0 := fun hlt' => hneg ⟨src, 0, 0, _, _, .nil, hk, hlt'⟩
      omega
    have hbest : ¬ NegCycle R src → st.Stable idx l → ∀ {v k y}, ZWalk R src v k y → ∃ x, st.d idx v = some x ∧ x ≤ y := by
      intro hneg hst v k y hw
      obtain ⟨-, x, h1, h2⟩ := Stable.upto hl hR hst hsrc hy0 hw
      exact ⟨x, h1, by have := hdist hneg hst; omega⟩
    refine ⟨?_, ?_, ?_, ?_, ?_⟩
    · cases b with
      | true => exact ⟨fun _ => Classical.byContradiction fun h => (nomatch hb.2 h), fun _ => rfl⟩
      | false => exact ⟨(fun h => nomatch h), fun h => absurd h (hb.1 rfl)⟩
    · intro s hs
      rw [(hsome s hs).1]; exact r3
    · intro s hs v pv x
      obtain ⟨rfl, hneg, hst⟩ := hsome s hs
      constructor
      · intro hx
        refine ⟨hreal v pv x hx, fun k y hw => ?_⟩
        obtain ⟨z, h1, h2⟩ := hbest hneg hst hw
        rw [hx] at h1; cases h1; exact h2
      · rintro ⟨⟨k, hw⟩, hmin⟩
        obtain ⟨z, h1, h2⟩ := hbest hneg hst hw
        obtain ⟨j, hj⟩ := hreal v pv z h1
        have := hmin j z hj
        rw [h1, show z = x by omega]
    · intro s hs v pv
      obtain ⟨rfl, hneg, hst⟩ := hsome s hs
      constructor
      · intro hx k y hw
        obtain ⟨z, h1, -⟩ := hbest hneg hst hw
        rw [hx] at h1; cases h1
      · intro hno
        cases hd : s.d idx v with
        | none => rfl
        | some x => obtain ⟨k, hk⟩ := hreal v pv x hd; exact absurd hk (hno k x)
    · intro s hs
      obtain ⟨rfl, hneg, hst⟩ := hsome s hs
      refine r5 _ (tree_kept hsrc hneg) ⟨hreal0, ⟨(hd0 src hsrc 0).2 ⟨rfl, rfl⟩, hp0 src hsrc⟩, ?_, fun v pv _ => hp0 v pv,
        fun v pv => ⟨_, .root (hp0 v pv)⟩⟩
      intro v pv hv x hx
      exact absurd ((hd0 v pv x).1 hx).1 hv

/-- Following the predecessors leads from the source to the node at the least cost. -/
theorem BfRight.way {src : V} {r : Option (Bell V)} (h : BfRight P R idx n src r) {st : Bell V} (hr : r = some st) {v : V} (pv : P v) {x : Int}
    (hx : st.d idx v = some x) : ∃ p, Rebuilt (st.p idx) v p ∧ p.head? = some src ∧ ZPath R src v p.reverse x := by
  have ht := h.tree st hr
  obtain ⟨p, hp⟩ := ht.rooted v pv
  refine ⟨p, hp, ?_⟩
  induction hp generalizing x with
  | @root v hv =>
    by_cases e : v = src
    · subst e
      have := ht.root.1
      rw [hx] at this; cases this
      exact ⟨rfl, .nil⟩
    · obtain ⟨u, w, y, -, g2, -⟩ := ht.arc v pv e x hx
      rw [hv] at g2; cases g2
  | @step v u p hv _ ih =>
    have hne : v ≠ src := fun e => by subst e; rw [ht.root.2] at hv; cases hv
    obtain ⟨u', w, y, g1, g2, g3, g4, g5⟩ := ht.arc v pv hne x hx
    rw [hv] at g2; cases g2
    obtain ⟨h1, h2⟩ := ih g1 g4
    refine ⟨by cases p with | nil => cases h1 | cons => exact h1, ?_⟩
    have h3 := h2.snoc g3
    obtain ⟨k, hk, -⟩ := h3.walk
    have := ((h.dist st hr v pv x).1 hx).2 k _ hk
    rw [List.reverse_append, show x = y + w by omega]
    exact h3
end
end LG
