import Verif.Model.Dominators
import Verif.Lemmas.Articulation
/- `simple_fast`: by number of node. -/
namespace LG

/-- A way from the root to a node, the last node first. -/
inductive DomWay (P : Nat → List Nat) (r : Nat) : List Nat → Nat → Prop where
  | root : DomWay P r [r] r
  | step {l : List Nat} {x y : Nat} : DomWay P r l x → y ≤ r → x ∈ P y → DomWay P r (y :: l) y

/-- `e` is on every way from the root to `v`. -/
def DomOn (P : Nat → List Nat) (r : Nat) (e v : Nat) : Prop := ∀ l, DomWay P r l v → e ∈ l

/-- `x` is `v` or further up in the table. -/
inductive DomUp (dom : Nat → Option Nat) : Nat → Nat → Prop where
  | refl {v : Nat} : DomUp dom v v
  | step {v d x : Nat} : dom v = some d → DomUp dom d x → DomUp dom v x

theorem DomUp.trans {dom : Nat → Option Nat} {a b c : Nat} (h : DomUp dom a b) (h' : DomUp dom b c) : DomUp dom a c := by
  induction h with
  | refl => exact h'
  | step h _ ih => exact .step h (ih h')

/-- What holds of the table at all times. -/
structure DomOk (P : Nat → List Nat) (r : Nat) (dom : Nat → Option Nat) : Prop where
  root : dom r = some r
  le : ∀ {i}, dom i ≠ none → i ≤ r
  up : ∀ {i d}, i < r → dom i = some d → i < d ∧ dom d ≠ none
  on : ∀ {i d}, i < r → dom i = some d → ∀ e, e ≠ i → DomOn P r e i → DomOn P r e d

section
variable {P : Nat → List Nat} {r : Nat} {dom : Nat → Option Nat}

theorem domOn_root {e : Nat} (h : DomOn P r e r) : e = r := by simpa using h [r] .root

theorem DomOk.edge (h : DomOk P r dom) {i d : Nat} (hd : dom i = some d) : i ≤ d ∧ dom d ≠ none := by
  by_cases e : i = r
  · subst e
    rw [h.root] at hd; cases hd
    exact ⟨Nat.le_refl _, by rw [h.root]; simp⟩
  · have hi : i ≤ r := h.le (by rw [hd]; simp)
    have := h.up (by omega) hd
    exact ⟨Nat.le_of_lt this.1, this.2⟩

theorem DomOk.up_le (h : DomOk P r dom) {v x : Nat} (hu : DomUp dom v x) (hv : dom v ≠ none) : v ≤ x ∧ dom x ≠ none := by
  induction hu with
  | refl => exact ⟨Nat.le_refl _, hv⟩
  | step hd _ ih =>
    have h1 := h.edge hd
    have h2 := ih h1.2
    exact ⟨Nat.le_trans h1.1 h2.1, h2.2⟩

/-- What is on every way to a node is above it in the table. -/
theorem DomOk.covers (h : DomOk P r dom) : ∀ (n v : Nat), r - v ≤ n → dom v ≠ none → ∀ {e}, DomOn P r e v → DomUp dom v e
  | n, v, hn, hv, e, he => by
    by_cases e1 : e = v
    · rw [e1]; exact .refl
    · have hvr : v ≤ r := h.le hv
      by_cases e2 : v = r
      · subst e2; exact absurd (domOn_root he) e1
      · obtain ⟨d, hd⟩ := Option.ne_none_iff_exists'.1 hv
        have hu := h.up (by omega) hd
        have := h.le hu.2
        match n with
        | 0 => omega
        | n + 1 => exact .step hd (h.covers n d (by omega) hu.2 (h.on (by omega) hd e e1 he))

theorem domMeet_unique {x y z z' : Nat} (h : DomMeet dom x y z) : DomMeet dom x y z' → z = z' := by
  induction h with
  | equal =>
    intro h'
    cases h' with
    | equal => rfl
    | less h => omega
    | greater h => omega
  | less h1 h2 _ ih =>
    intro h'
    cases h' with
    | equal => omega
    | less _ h4 h5 => rw [h2] at h4; cases h4; exact ih h5
    | greater h => omega
  | greater h1 h2 _ ih =>
    intro h'
    cases h' with
    | equal => omega
    | less h => omega
    | greater _ h4 h5 => rw [h2] at h4; cases h4; exact ih h5

theorem domFold_unique {x z z' : Nat} {ps : List Nat} (h : DomFold dom x ps z) : DomFold dom x ps z' → z = z' := by
  induction h with
  | nil => intro h'; cases h'; rfl
  | cons h1 _ ih =>
    intro h'
    cases h' with
    | cons h3 h4 => cases domMeet_unique h1 h3; exact ih h4

theorem DomOk.meet (h : DomOk P r dom) : ∀ (n x y : Nat), (r - x) + (r - y) ≤ n → dom x ≠ none → dom y ≠ none →
    ∃ z, DomMeet dom x y z ∧ DomUp dom x z ∧ DomUp dom y z ∧ dom z ≠ none ∧ ∀ e, DomOn P r e x → DomOn P r e y → DomOn P r e z
  | n, x, y, hn, hx, hy => by
    have hxr := h.le hx
    have hyr := h.le hy
    rcases Nat.lt_trichotomy x y with hlt | rfl | hlt
    · obtain ⟨d, hd⟩ := Option.ne_none_iff_exists'.1 hx
      have hu := h.up (by omega) hd
      have := h.le hu.2
      match n with
      | 0 => omega
      | n + 1 =>
        obtain ⟨z, z1, z2, z3, z4, z5⟩ := h.meet n d y (by omega) hu.2 hy
        refine ⟨z, .less hlt hd z1, .step hd z2, z3, z4, fun e h1 h2 => z5 e (h.on (by omega) hd e ?_ h1) h2⟩
        have := (h.up_le (h.covers _ y (Nat.le_refl _) hy h2) hy).1
        omega
    · exact ⟨x, .equal, .refl, .refl, hx, fun _ h _ => h⟩
    · obtain ⟨d, hd⟩ := Option.ne_none_iff_exists'.1 hy
      have hu := h.up (by omega) hd
      have := h.le hu.2
      match n with
      | 0 => omega
      | n + 1 =>
        obtain ⟨z, z1, z2, z3, z4, z5⟩ := h.meet n x d (by omega) hx hu.2
        refine ⟨z, .greater hlt hd z1, z2, .step hd z3, z4, fun e h1 h2 => z5 e h1 (h.on (by omega) hd e ?_ h2)⟩
        have := (h.up_le (h.covers _ x (Nat.le_refl _) hx h1) hx).1
        omega

theorem DomOk.fold (h : DomOk P r dom) : ∀ (ps : List Nat) (x : Nat), dom x ≠ none → (∀ p ∈ ps, dom p ≠ none) →
    ∃ z, DomFold dom x ps z ∧ DomUp dom x z ∧ (∀ p ∈ ps, DomUp dom p z) ∧ dom z ≠ none ∧
      ∀ e, DomOn P r e x → (∀ p ∈ ps, DomOn P r e p) → DomOn P r e z
  | [], x, hx, _ => ⟨x, .nil, .refl, by simp, hx, fun _ h _ => h⟩
  | p :: ps, x, hx, hps => by
    obtain ⟨y, y1, y2, y3, y4, y5⟩ := h.meet _ x p (Nat.le_refl _) hx (hps p (by simp))
    obtain ⟨z, z1, z2, z3, z4, z5⟩ := h.fold ps y y4 fun q hq => hps q (by simp [hq])
    refine ⟨z, .cons y1 z1, y2.trans z2, fun q hq => ?_, z4, fun e h1 h2 => z5 e (y5 e h1 (h2 p (by simp))) fun q hq => h2 q (by simp [hq])⟩
    rcases List.mem_cons.1 hq with rfl | hq
    · exact y3.trans z2
    · exact z3 q hq

theorem DomWay.le {l : List Nat} {v : Nat} (h : DomWay P r l v) : v ≤ r := by
  cases h with
  | root => exact Nat.le_refl _
  | step _ h _ => exact h

/-- What the new entry of node `k` is. -/
theorem DomOk.entry (h : DomOk P r dom) (hpar : ∀ i, i < r → ∃ j ∈ P i, i < j ∧ j ≤ r) {k : Nat} (hk : k < r) (hdef : ∀ i, k < i → i ≤ r → dom i ≠ none) :
    ∃ x ps z, (P k).filter (fun p => (dom p).isSome) = x :: ps ∧ DomFold dom x ps z ∧ k < z ∧ dom z ≠ none ∧
      (∀ p ∈ P k, dom p ≠ none → DomUp dom p z) ∧ ∀ e, e ≠ k → DomOn P r e k → DomOn P r e z := by
  have hmem : ∀ p, p ∈ (P k).filter (fun p => (dom p).isSome) ↔ p ∈ P k ∧ dom p ≠ none := fun p => by
    rw [List.mem_filter, Option.isSome_iff_ne_none]
  obtain ⟨j, j1, j2, j3⟩ := hpar k hk
  have hj := (hmem j).2 ⟨j1, hdef j j2 j3⟩
  cases hl : (P k).filter (fun p => (dom p).isSome) with
  | nil => rw [hl] at hj; cases hj
  | cons x ps =>
    rw [hl] at hj
    have hmem' : ∀ p, p = x ∨ p ∈ ps ↔ p ∈ P k ∧ dom p ≠ none := fun p => by rw [← hmem, hl, List.mem_cons]
    obtain ⟨z, z1, z2, z3, z4, z5⟩ := h.fold ps x ((hmem' x).1 (.inl rfl)).2 fun p hp => ((hmem' p).1 (.inr hp)).2
    have hall : ∀ p ∈ P k, dom p ≠ none → DomUp dom p z := fun p h1 h2 => by
      rcases (hmem' p).2 ⟨h1, h2⟩ with rfl | hp
      · exact z2
      · exact z3 p hp
    have hon : ∀ e, e ≠ k → DomOn P r e k → ∀ p ∈ P k, DomOn P r e p := fun e h1 h2 p hp l hl => by
      have := h2 (k :: l) (.step hl (by omega) hp)
      exact (List.mem_cons.1 this).resolve_left h1
    refine ⟨x, ps, z, rfl, z1, ?_, z4, hall, fun e h1 h2 => z5 e (hon e h1 h2 x ((hmem' x).1 (.inl rfl)).1)
      fun p hp => hon e h1 h2 p ((hmem' p).1 (.inr hp)).1⟩
    have := (h.up_le (hall j j1 (hdef j j2 j3)) (hdef j j2 j3)).1
    omega

theorem DomOk.set (h : DomOk P r dom) {k z : Nat} (hk : k < r) (hkz : k < z) (hz : dom z ≠ none)
    (hon : ∀ e, e ≠ k → DomOn P r e k → DomOn P r e z) : DomOk P r (tset dom k (some z)) := by
  have hdef : ∀ {i}, dom i ≠ none → tset dom k (some z) i ≠ none := fun {i} hi => by
    by_cases e : i = k
    · rw [e, tset_same]; simp
    · rw [tset_ne _ _ e]; exact hi
  refine ⟨by rw [tset_ne _ _ (by omega)]; exact h.root, fun {i} hi => ?_, fun {i d} hi hd => ?_, fun {i d} hi hd => ?_⟩
  · by_cases e : i = k
    · omega
    · rw [tset_ne _ _ e] at hi; exact h.le hi
  · by_cases e : i = k
    · subst e
      rw [tset_same] at hd; cases hd
      exact ⟨hkz, hdef hz⟩
    · rw [tset_ne _ _ e] at hd
      exact ⟨(h.up hi hd).1, hdef (h.up hi hd).2⟩
  · by_cases e : i = k
    · subst e
      rw [tset_same] at hd; cases hd
      exact hon
    · rw [tset_ne _ _ e] at hd
      exact h.on hi hd

theorem tset_self {k z : Nat} (h : dom k = some z) : tset dom k (some z) = dom := by
  funext i
  by_cases e : i = k
  · rw [e, tset_same, h]
  · rw [tset_ne _ _ e]

/-- Ways of at most `m` nodes, and for the nodes from `s` on of one more, have on them all that is above their end in the table. -/
def DomShort (P : Nat → List Nat) (r : Nat) (m s : Nat) (dom : Nat → Option Nat) : Prop :=
  ∀ l v, DomWay P r l v → l.length ≤ m ∨ (l.length ≤ m + 1 ∧ s ≤ v) → ∀ x, DomUp dom v x → x ∈ l

theorem domUp_set (h : DomOk P r dom) {k z : Nat} (hk : k < r) (hkz : k < z) (hz : dom z ≠ none) {v x : Nat}
    (hu : DomUp (tset dom k (some z)) v x) : DomUp dom v x ∨ (DomUp dom v k ∧ DomUp dom z x) := by
  induction hu with
  | refl => exact .inl .refl
  | @step v d x hd _ ih =>
    by_cases e : v = k
    · subst e
      rw [tset_same] at hd; cases hd
      refine .inr ⟨.refl, ih.elim id fun h' => ?_⟩
      have := (h.up_le h'.1 hz).1
      omega
    · rw [tset_ne _ _ e] at hd
      exact ih.imp (.step hd) fun h' => ⟨.step hd h'.1, h'.2⟩

/-- The part of a way up to a node on it. -/
theorem DomWay.part {l : List Nat} {v : Nat} (h : DomWay P r l v) : ∀ {k}, k ∈ l → k ≠ r →
    ∃ l' p, DomWay P r l' p ∧ p ∈ P k ∧ k ≤ r ∧ (∀ x ∈ l', x ∈ l) ∧ l'.length < l.length := by
  induction h with
  | root => intro k hk hne; exact absurd (by simpa using hk) hne
  | @step l x y hw hy hx ih =>
    intro k hk hne
    rcases List.mem_cons.1 hk with rfl | hk
    · exact ⟨l, x, hw, hx, hy, fun _ h => by simp [h], by simp⟩
    · obtain ⟨l', p, h1, h2, h3, h4, h5⟩ := ih hk hne
      exact ⟨l', p, h1, h2, h3, fun q hq => by simp [h4 q hq], by simp only [List.length_cons]; omega⟩

theorem DomShort.set (h : DomOk P r dom) {m k z : Nat} (hsh : DomShort P r m (k + 1) dom) (hk : k < r) (hkz : k < z) (hz : dom z ≠ none)
    (hall : ∀ p ∈ P k, DomUp dom p z) : DomShort P r m k (tset dom k (some z)) := by
  intro l v hw hlen x hu
  have key : k ∈ l → l.length ≤ m + 1 → DomUp dom z x → x ∈ l := fun hkl hl hzx => by
    obtain ⟨l', p, h1, h2, -, h4, h5⟩ := hw.part hkl (by omega)
    exact h4 x (hsh l' p h1 (.inl (by omega)) x ((hall p h2).trans hzx))
  have hl1 : l.length ≤ m + 1 := by omega
  have hvl : v ∈ l := by cases hw <;> simp
  by_cases hold : l.length ≤ m ∨ (l.length ≤ m + 1 ∧ k + 1 ≤ v)
  · rcases domUp_set h hk hkz hz hu with h' | ⟨h', h''⟩
    · exact hsh l v hw hold x h'
    · exact key (hsh l v hw hold k h') hl1 h''
  · have : v = k := by omega
    subst this
    cases hu with
    | refl => exact hvl
    | step hd hu =>
      rw [tset_same] at hd; cases hd
      rcases domUp_set h hk hkz hz hu with h' | ⟨h', h''⟩
      · exact key hvl hl1 h'
      · have := (h.up_le h' hz).1
        omega

/-- Nothing is above a node in the table but what is on every way to it. -/
def DomFull (P : Nat → List Nat) (r : Nat) (dom : Nat → Option Nat) : Prop := ∀ v, v ≤ r → ∀ x, DomUp dom v x → DomOn P r x v

/-- In such a table no entry changes any more. -/
theorem DomFull.same (hf : DomFull P r dom) (h : DomOk P r dom) (hle : ∀ i, i < r → ∀ j ∈ P i, j ≤ r) (hdef : ∀ i, i ≤ r → dom i ≠ none) {k z : Nat}
    (hk : k < r) (hkz : k < z) (hz : dom z ≠ none) (hall : ∀ p ∈ P k, DomUp dom p z) (hon : ∀ e, e ≠ k → DomOn P r e k → DomOn P r e z) :
    dom k = some z := by
  obtain ⟨d, hd⟩ := Option.ne_none_iff_exists'.1 (hdef k (by omega))
  have hu := h.up hk hd
  have h1 : DomOn P r d z := hon d (by omega) (hf k (by omega) d (.step hd .refl))
  have h2 : DomOn P r z k := fun l hl => by
    cases hl with
    | root => omega
    | step hw _ hp => exact List.mem_cons_of_mem _ (hf _ (hle k hk _ hp) z (hall _ hp) _ hw)
  have h3 := h.on hk hd z (by omega) h2
  have h4 := (h.up_le (h.covers _ z (Nat.le_refl _) hz h1) hz).1
  have h5 := (h.up_le (h.covers _ d (Nat.le_refl _) hu.2 h3) hu.2).1
  rw [hd, Nat.le_antisymm h4 h5]

/-- One pass: it runs, there is one result, and it keeps what holds of the table. -/
theorem domPass (hpar : ∀ i, i < r → ∃ j ∈ P i, i < j ∧ j ≤ r) (hle : ∀ i, i < r → ∀ j ∈ P i, j ≤ r) : ∀ (k : Nat), k ≤ r → ∀ {dom : Nat → Option Nat} (ch : Bool), DomOk P r dom →
    (∀ i, k ≤ i → i ≤ r → dom i ≠ none) → ∃ dom' ch', DomPass P k dom ch dom' ch' ∧
      (∀ dom2 ch2, DomPass P k dom ch dom2 ch2 → dom2 = dom' ∧ ch2 = ch') ∧ DomOk P r dom' ∧ (∀ i, i ≤ r → dom' i ≠ none) ∧
      (∀ m, (∀ i, i ≤ r → dom i ≠ none) → DomShort P r m k dom → DomShort P r m 0 dom') ∧ (ch = true → ch' = true) ∧
      (ch' = false → dom' = dom) ∧ ((∀ i, i ≤ r → dom i ≠ none) → DomFull P r dom → ch' = ch)
  | 0, _, dom, ch, hok, hdef => ⟨dom, ch, .done, fun _ _ h => (by cases h; exact ⟨rfl, rfl⟩), hok, fun i hi => hdef i (by omega) hi,
      fun _ _ h => h, id, fun _ => rfl, fun _ _ => rfl⟩
  | k + 1, hk, dom, ch, hok, hdef => by
    obtain ⟨x, ps, z, z1, z2, z3, z4, z5, z6⟩ := hok.entry hpar (k := k) (by omega) fun i h1 h2 => hdef i h1 h2
    have hok' := hok.set (by omega) z3 z4 z6
    have hdef' : ∀ i, k ≤ i → i ≤ r → tset dom k (some z) i ≠ none := fun i h1 h2 => by
      by_cases e : i = k
      · rw [e, tset_same]; simp
      · rw [tset_ne _ _ e]; exact hdef i (by omega) h2
    have hsame : ∀ {dom2 ch2}, DomPass P (k + 1) dom ch dom2 ch2 ↔
        DomPass P k (tset dom k (some z)) (if dom k = some z then ch else true) dom2 ch2 := fun {dom2 ch2} => by
      constructor
      · intro h
        cases h with
        | same h1 h2 h3 h4 =>
          rw [z1] at h1; cases h1
          cases domFold_unique z2 h2
          rw [tset_self h3, if_pos h3]; exact h4
        | change h1 h2 h3 h4 =>
          rw [z1] at h1; cases h1
          cases domFold_unique z2 h2
          rw [if_neg h3]; exact h4
      · intro h
        by_cases e : dom k = some z
        · rw [tset_self e, if_pos e] at h; exact .same z1 z2 e h
        · rw [if_neg e] at h; exact .change z1 z2 e h
    obtain ⟨dom', ch', k1, k2, k3, k4, k5, k6, k7, k8⟩ := domPass hpar hle k (by omega) (if dom k = some z then ch else true) hok' hdef'
    refine ⟨dom', ch', hsame.2 k1, fun _ _ h => k2 _ _ (hsame.1 h), k3, k4, fun m hd hs => k5 m (fun i hi => ?_)
      (DomShort.set hok hs (by omega) z3 z4 fun p hp => ?_), fun h => k6 ?_, fun h => ?_, fun hd hF => ?_⟩
    · by_cases e : i = k
      · rw [e, tset_same]; simp
      · rw [tset_ne _ _ e]; exact hd i hi
    · exact z5 p hp (hd p (hle k (by omega) p hp))
    · split
      · exact h
      · rfl
    · by_cases e : dom k = some z
      · rw [k7 h, tset_self e]
      · rw [k6 (if_neg e)] at h; cases h
    · have e := hF.same hok hle hd (by omega) z3 z4 (fun p hp => z5 p hp (hd p (hle k (by omega) p hp))) z6
      have := k8
      rw [tset_self e, if_pos e] at this
      exact this hd hF

theorem DomWay.length_pos {l : List Nat} {v : Nat} (h : DomWay P r l v) : 0 < l.length := by cases h <;> simp

/-- The part of a way up to a node on it, that node included. -/
theorem DomWay.upto {l : List Nat} {v : Nat} (h : DomWay P r l v) : ∀ {k}, k ∈ l → ∃ l', DomWay P r l' k ∧ l'.Sublist l := by
  induction h with
  | root =>
    intro k hk
    have : k = r := by simpa using hk
    subst this
    exact ⟨[k], .root, List.Sublist.refl _⟩
  | @step l x y hw hy hx ih =>
    intro k hk
    rcases List.mem_cons.1 hk with rfl | hk
    · exact ⟨k :: l, .step hw hy hx, List.Sublist.refl _⟩
    · obtain ⟨l', h1, h2⟩ := ih hk
      exact ⟨l', h1, h2.cons _⟩

/-- A way can be cut short to one that comes to no node twice. -/
theorem DomWay.simple {l : List Nat} {v : Nat} (h : DomWay P r l v) : ∃ l', DomWay P r l' v ∧ l'.Nodup ∧ (∀ x ∈ l', x ∈ l) ∧ ∀ x ∈ l', x ≤ r := by
  induction h with
  | root => exact ⟨[r], .root, by simp, fun _ h => h, by simp⟩
  | @step l x y hw hy hx ih =>
    obtain ⟨l', h1, h2, h3, h4⟩ := ih
    by_cases hm : y ∈ l'
    · obtain ⟨l2, g1, g2⟩ := h1.upto hm
      exact ⟨l2, g1, g2.nodup h2, fun q hq => List.mem_cons_of_mem _ (h3 q (g2.subset hq)), fun q hq => h4 q (g2.subset hq)⟩
    · exact ⟨y :: l', .step h1 hy hx, List.nodup_cons.2 ⟨hm, h2⟩, fun q hq => by
        rcases List.mem_cons.1 hq with rfl | hq
        · simp
        · simp [h3 q hq], fun q hq => by
        rcases List.mem_cons.1 hq with rfl | hq
        · exact hy
        · exact h4 q hq⟩

theorem domShort_one (h : DomOk P r dom) : DomShort P r 1 (r + 1) dom := by
  intro l v hw hlen x hu
  have hl : l.length ≤ 1 := by have := hw.le; omega
  cases hw with
  | root =>
    have : x = r := by
      have hd : dom r ≠ none := by rw [h.root]; simp
      have := h.up_le hu hd
      have := h.le this.2
      omega
    simp [this]
  | step hw _ _ =>
    have := hw.length_pos
    simp only [List.length_cons] at hl; omega

theorem DomShort.succ {m : Nat} (h : DomShort P r m 0 dom) : DomShort P r (m + 1) (r + 1) dom := by
  intro l v hw hlen
  exact h l v hw (.inr ⟨by have := hw.le; omega, Nat.zero_le _⟩)

theorem DomShort.full {m : Nat} (h : DomShort P r m (r + 1) dom) (hm : r + 1 ≤ m) : DomFull P r dom := by
  intro v hv x hu l hl
  obtain ⟨l', h1, h2, h3, h4⟩ := hl.simple
  refine h3 x (h l' v h1 (.inl (Nat.le_trans ?_ hm)) x hu)
  have := List.Nodup.length_le_of_subset (l₂ := List.range (r + 1)) h2 fun q hq => List.mem_range.2 (by have := h4 q hq; omega)
  simpa using this

theorem DomShort.widen {m k : Nat} (h : DomShort P r m (r + 1) dom) (hk : k = r) (hr : dom r = some r) (hok : DomOk P r dom) :
    DomShort P r m k dom := by
  intro l v hw hlen x hu
  by_cases e : v = r
  · subst e
    have hd : dom v ≠ none := by rw [hr]; simp
    have h1 := hok.up_le hu hd
    have h2 := hok.le h1.2
    have : x = v := by omega
    subst this
    cases hw <;> simp
  · exact h l v hw (by have := hw.le; omega) x hu

/-- The loop stops, whatever the table it begins with, and in the end it is as it should be. -/
theorem domLoop (hpar : ∀ i, i < r → ∃ j ∈ P i, i < j ∧ j ≤ r) (hle : ∀ i, i < r → ∀ j ∈ P i, j ≤ r) :
    ∀ (n m : Nat), r + 1 ≤ m + n → ∀ {dom : Nat → Option Nat}, DomOk P r dom → (∀ i, i ≤ r → dom i ≠ none) → DomShort P r m (r + 1) dom →
    ∃ dom', DomLoop P r dom dom' ∧ (∀ dom2, DomLoop P r dom dom2 → dom2 = dom') ∧ DomOk P r dom' ∧ (∀ i, i ≤ r → dom' i ≠ none) ∧ DomFull P r dom'
  | n, m, hn, dom, hok, hdef, hs => by
    obtain ⟨dom1, ch, k1, k2, k3, k4, k5, -, k7, k8⟩ := domPass hpar hle r (Nat.le_refl _) false hok fun i _ h => hdef i h
    cases ch with
    | false =>
      cases k7 rfl
      have hall : ∀ j, DomShort P r (m + j) (r + 1) dom := fun j => by
        induction j with
        | zero => exact hs
        | succ j ih => exact (k5 (m + j) hdef (ih.widen rfl hok.root hok)).succ
      refine ⟨dom, .stop k1, fun dom2 h => ?_, hok, hdef, (hall (r + 1)).full (by omega)⟩
      cases h with
      | stop h => exact (k2 _ _ h).1
      | again h _ => cases (k2 _ _ h).2
    | true =>
      match n with
      | 0 => cases k8 hdef (hs.full hn)
      | n + 1 =>
        obtain ⟨dom', j1, j2, j3⟩ := domLoop hpar hle n (m + 1) (by omega) k3 k4 (k5 m hdef (hs.widen rfl hok.root hok)).succ
        refine ⟨dom', .again k1 j1, fun dom2 h => ?_, j3⟩
        cases h with
        | stop h => cases (k2 _ _ h).2
        | again h h' => cases (k2 _ _ h).1; exact j2 _ h'

/-- From the table with the root only. -/
theorem domLoop_start (hpar : ∀ i, i < r → ∃ j ∈ P i, i < j ∧ j ≤ r) (hle : ∀ i, i < r → ∀ j ∈ P i, j ≤ r) :
    ∃ dom', DomLoop P r (tset (fun _ => none) r (some r)) dom' ∧ (∀ dom2, DomLoop P r (tset (fun _ => none) r (some r)) dom2 → dom2 = dom') ∧
      DomOk P r dom' ∧ (∀ i, i ≤ r → dom' i ≠ none) ∧ DomFull P r dom' := by
  have hne : ∀ i, i ≠ r → tset (fun _ => none) r (some r) i = none := fun i hi => tset_ne _ _ hi
  have hok : DomOk P r (tset (fun _ => none) r (some r)) := by
    refine ⟨tset_same _ _ _, fun {i} hi => ?_, fun {i d} hi hd => ?_, fun {i d} hi hd => ?_⟩
    · by_cases e : i = r
      · omega
      · exact absurd (hne i e) hi
    · rw [hne i (by omega)] at hd; cases hd
    · rw [hne i (by omega)] at hd; cases hd
  obtain ⟨dom1, ch, k1, k2, k3, k4, k5, -, k7, k8⟩ := domPass hpar hle r (Nat.le_refl _) false hok fun i h1 h2 => by
    have : i = r := by omega
    rw [this, tset_same]; simp
  cases ch with
  | false =>
    cases k7 rfl
    exact domLoop hpar hle (r + 1) 1 (by omega) hok k4 (domShort_one hok)
  | true =>
    obtain ⟨dom', j1, j2, j3⟩ := domLoop hpar hle (r + 1) 1 (by omega) k3 k4 (domShort_one k3)
    refine ⟨dom', .again k1 j1, fun dom2 h => ?_, j3⟩
    cases h with
    | stop h => cases (k2 _ _ h).2
    | again h h' => cases (k2 _ _ h).1; exact j2 _ h'
end
end LG
