import Verif.Model.Bipartite
/- `is_bipartite_undirected` over any visit map and neighbour iterator that behave: it decides two-colourability. -/
set_option linter.unusedSectionVars false
namespace LG
section
variable {C M : Type} [DecidableEq C] {T : Traversable C M}

/-- The methods behave: the map is a set of nodes (`Vis m S`: map `m` holds the set `S`), `neighbors` lists `nb`. -/
structure Behaves (T : Traversable C M) (Node : C → Prop) (nb : C → List C) (Vis : M → (C → Bool) → Prop) : Prop where
  new : Vis T.visitMap (fun _ => false)
  visit : ∀ {m S c}, Vis m S → Node c → ∃ m', T.visit m c = .ok (!S c, m') ∧ Vis m' (fun x => if x = c then true else S x)
  isVisited : ∀ {m S c}, Vis m S → Node c → T.isVisited m c = .ok (S c)
  neighbors : ∀ {c}, Node c → T.neighbors c (nb c)
  unique : ∀ {c l l'}, T.neighbors c l → T.neighbors c l' → l = l'
  stays : ∀ {c y}, Node c → y ∈ nb c → Node y

/-- What can be reached from `a`. -/
inductive Reached (nb : C → List C) (a : C) : C → Prop where
  | refl : Reached nb a a
  | step {x y : C} : Reached nb a x → y ∈ nb x → Reached nb a y

/-- The part of the graph that `a` belongs to has a two-colouring: neighbours never have the same colour. -/
def TwoColourable (nb : C → List C) (a : C) : Prop := ∃ f : C → Bool, ∀ x, Reached nb a x → ∀ y ∈ nb x, f x ≠ f y

/-- The loop on colours alone. -/
def paint (col : Bool) : (C → Option Bool) → List C → Option (List C × (C → Option Bool))
  | S, [] => some ([], S)
  | S, c :: l => match S c with
    | some b => if b = col then none else paint col S l
    | none => (paint col (fun x => if x = c then some (!col) else S x) l).map fun (q, S') => (c :: q, S')

theorem paint_none {col : Bool} : ∀ {l : List C} {S : C → Option Bool}, (∃ y ∈ l, S y = some col) → paint col S l = none
  | [], _, ⟨_, h, _⟩ => by simp at h
  | c :: l, S, ⟨y, hy, hc⟩ => by
    rw [paint]
    cases hS : S c with
    | some b =>
      simp only
      by_cases hb : b = col
      · rw [if_pos hb]
      · rw [if_neg hb]
        refine paint_none ⟨y, ?_, hc⟩
        rcases List.mem_cons.1 hy with rfl | h
        · rw [hS] at hc; exact absurd (Option.some.inj hc) hb
        · exact h
    | none =>
      simp only
      rw [paint_none ⟨y, ?_, ?_⟩]; rfl
      · rcases List.mem_cons.1 hy with rfl | h
        · rw [hS] at hc; cases hc
        · exact h
      · rw [if_neg, hc]
        rintro rfl; rw [hS] at hc; cases hc

theorem countP_lt {p p' : C → Bool} : ∀ {l : List C}, (∀ x ∈ l, p' x = true → p x = true) → (∃ c ∈ l, p c = true ∧ p' c = false) →
    l.countP p' < l.countP p
  | [], _, ⟨_, h, _⟩ => by simp at h
  | x :: l, h, ⟨c, hc, h1, h2⟩ => by
    have hle : l.countP p' ≤ l.countP p := List.countP_mono_left fun y hy => h y (by simp [hy])
    rw [List.countP_cons, List.countP_cons]
    rcases List.mem_cons.1 hc with rfl | hm
    · simp only [h1, h2, if_true, Bool.false_eq_true, if_false]; omega
    · have := countP_lt (fun y hy => h y (by simp [hy])) ⟨c, hm, h1, h2⟩
      cases hp : p' x with
      | true => simp only [h x (by simp) hp, if_true]; omega
      | false => simp only [Bool.false_eq_true, if_false]; split <;> omega

/-- Nodes without a colour. -/
def plain (nodes : List C) (S : C → Option Bool) : Nat := nodes.countP fun x => (S x).isNone

theorem paint_some {nodes : List C} {col : Bool} : ∀ {l : List C} {S : C → Option Bool}, (∀ y ∈ l, S y ≠ some col) → (∀ y ∈ l, y ∈ nodes) →
    ∃ q S', paint col S l = some (q, S') ∧ (∀ x, x ∈ q ↔ x ∈ l ∧ S x = none) ∧
      (∀ x, S' x = if x ∈ l then some (!col) else S x) ∧ plain nodes S' + q.length ≤ plain nodes S
  | [], S, _, _ => ⟨[], S, rfl, by simp, by simp, by simp⟩
  | c :: l, S, h, hn => by
    rw [paint]
    cases hS : S c with
    | some b =>
      have hb : b ≠ col := fun e => h c (by simp) (by rw [hS, e])
      obtain ⟨q, S', h1, h2, h3, h4⟩ := paint_some (l := l) (S := S) (fun y hy => h y (by simp [hy])) (fun y hy => hn y (by simp [hy]))
      refine ⟨q, S', by simp only [if_neg hb, h1], fun x => ?_, fun x => ?_, h4⟩
      · rw [h2, List.mem_cons]
        constructor
        · exact fun ⟨a, b⟩ => ⟨.inr a, b⟩
        · rintro ⟨rfl | a, b⟩
          · rw [hS] at b; cases b
          · exact ⟨a, b⟩
      · rw [h3]
        by_cases hx : x = c
        · subst hx
          rw [if_pos List.mem_cons_self]
          split
          · rfl
          · rw [hS]; cases b <;> cases col <;> simp at hb ⊢
        · simp [hx]
    | none =>
      have hpre : ∀ y ∈ l, (if y = c then some (!col) else S y) ≠ some col := by
        intro y hy
        split
        · cases col <;> simp
        · exact h y (by simp [hy])
      obtain ⟨q, S', h1, h2, h3, h4⟩ := paint_some (l := l) (S := fun x => if x = c then some (!col) else S x) hpre
        (fun y hy => hn y (by simp [hy]))
      refine ⟨c :: q, S', by simp only [h1]; rfl, fun x => ?_, fun x => ?_, ?_⟩
      · rw [List.mem_cons, h2, List.mem_cons]
        by_cases hx : x = c
        · subst hx; simp [hS]
        · simp [hx]
      · rw [h3]
        by_cases hx : x = c
        · simp [hx]
        · simp [hx]
      · have : plain nodes (fun x => if x = c then some (!col) else S x) < plain nodes S := by
          apply countP_lt
          · intro x _ hx
            by_cases he : x = c
            · subst he; rw [hS]; rfl
            · simpa [he] using hx
          · exact ⟨c, hn c (by simp), by rw [hS]; rfl, by simp⟩
        rw [List.length_cons]; omega

variable {Node : C → Prop} {nb : C → List C} {Vis : M → (C → Bool) → Prop}

/-- The two maps hold the red and the blue nodes. -/
def Maps (Vis : M → (C → Bool) → Prop) (red blue : M) (S : C → Option Bool) : Prop :=
  Vis red (fun x => S x == some true) ∧ Vis blue (fun x => S x == some false)

theorem bipLoop_eq (hT : Behaves T Node nb Vis) {col : Bool} : ∀ {l : List C} {red blue : M} {S : C → Option Bool},
    Maps Vis red blue S → (∀ x ∈ l, Node x) →
    (paint col S l = none → bipLoop T col (!col) red blue l = .ok none) ∧
    (∀ q S', paint col S l = some (q, S') → ∃ red' blue', bipLoop T col (!col) red blue l = .ok (some (q, red', blue')) ∧ Maps Vis red' blue' S')
  | [], red, blue, S, hm, _ => by
    refine ⟨fun h => by simp [paint] at h, fun q S' h => ?_⟩
    simp only [paint, Option.some.injEq, Prod.mk.injEq] at h
    obtain ⟨rfl, rfl⟩ := h
    exact ⟨red, blue, rfl, hm⟩
  | c :: l, red, blue, S, hm, hl => by
    have hc : Node c := hl c (by simp)
    have hl' : ∀ x ∈ l, Node x := fun x hx => hl x (by simp [hx])
    rw [paint]
    unfold bipLoop
    simp only [hT.isVisited hm.1 hc, hT.isVisited hm.2 hc, bind, Except.bind]
    cases hS : S c with
    | some b =>
      have ih := bipLoop_eq hT (col := col) hm hl'
      by_cases hb : b = col
      · subst hb
        simp only [if_true]
        rw [if_pos (by cases b <;> rfl)]
        exact ⟨fun _ => rfl, fun q S' h => nomatch h⟩
      · simp only [if_neg hb]
        rw [if_neg (by cases b <;> cases col <;> simp at hb ⊢), if_neg (by cases b <;> simp)]
        exact ih
    | none =>
      rw [if_neg (by cases col <;> decide), if_pos (by decide)]
      cases col with
      | true =>
        obtain ⟨m', h1, h2⟩ := hT.visit hm.2 hc
        have hm' : Maps Vis red m' (fun x => if x = c then some (!true) else S x) := by
          refine ⟨?_, ?_⟩
          · have : (fun x => (if x = c then some (!true) else S x) == some true) = fun x => S x == some true := by
              funext x; by_cases he : x = c
              · subst he; simp [hS]
              · simp [he]
            rw [this]; exact hm.1
          · have : (fun x => (if x = c then some (!true) else S x) == some false) = fun x => if x = c then true else S x == some false := by
              funext x; by_cases he : x = c
              · simp [he]
              · simp [he]
            rw [this]; exact h2
        obtain ⟨ih1, ih2⟩ := bipLoop_eq hT (col := true) hm' hl'
        simp only [h1, Bool.not_true]
        constructor
        · intro h
          have hp := Option.map_eq_none_iff.1 h
          rw [show bipLoop T true false red m' l = .ok none from ih1 hp]; rfl
        · intro q S' h
          obtain ⟨⟨q', S''⟩, hp, he⟩ := Option.map_eq_some_iff.1 h
          obtain ⟨r', b', h3, h4⟩ := ih2 q' S'' hp
          simp only [Prod.mk.injEq] at he
          obtain ⟨rfl, rfl⟩ := he
          rw [show bipLoop T true false red m' l = _ from h3]
          exact ⟨r', b', rfl, h4⟩
      | false =>
        obtain ⟨m', h1, h2⟩ := hT.visit hm.1 hc
        have hm' : Maps Vis m' blue (fun x => if x = c then some (!false) else S x) := by
          refine ⟨?_, ?_⟩
          · have : (fun x => (if x = c then some (!false) else S x) == some true) = fun x => if x = c then true else S x == some true := by
              funext x; by_cases he : x = c
              · simp [he]
              · simp [he]
            rw [this]; exact h2
          · have : (fun x => (if x = c then some (!false) else S x) == some false) = fun x => S x == some false := by
              funext x; by_cases he : x = c
              · subst he; simp [hS]
              · simp [he]
            rw [this]; exact hm.2
        obtain ⟨ih1, ih2⟩ := bipLoop_eq hT (col := false) hm' hl'
        simp only [h1, Bool.not_false]
        constructor
        · intro h
          have hp := Option.map_eq_none_iff.1 h
          rw [show bipLoop T false true m' blue l = .ok none from ih1 hp]; rfl
        · intro q S' h
          obtain ⟨⟨q', S''⟩, hp, he⟩ := Option.map_eq_some_iff.1 h
          obtain ⟨r', b', h3, h4⟩ := ih2 q' S'' hp
          simp only [Prod.mk.injEq] at he
          obtain ⟨rfl, rfl⟩ := he
          rw [show bipLoop T false true m' blue l = _ from h3]
          exact ⟨r', b', rfl, h4⟩

/-- The invariant of the loop over the queue. -/
structure BipInv (Node : C → Prop) (nb : C → List C) (a : C) (S : C → Option Bool) (q : List C) : Prop where
  start : S a = some true
  reached : ∀ {x}, S x ≠ none → Node x ∧ Reached nb a x
  queue : ∀ x ∈ q, S x ≠ none
  closed : ∀ {x col}, S x = some col → x ∉ q → ∀ y ∈ nb x, S y = some (!col)
  forced : ∀ {f : C → Bool}, (∀ x, Reached nb a x → ∀ y ∈ nb x, f x ≠ f y) → ∀ {x b}, S x = some b → f x = (f a == b)

theorem bip_run (hT : Behaves T Node nb Vis) {nodes : List C} (hn : ∀ x, Node x → x ∈ nodes) {a : C} :
    ∀ (n : Nat) {q : List C} {red blue : M} {S : C → Option Bool}, plain nodes S + q.length ≤ n → Maps Vis red blue S →
    BipInv Node nb a S q → ∃ b, BipRun T q red blue b ∧ (b = true ↔ TwoColourable nb a) := by
  intro n
  induction n with
  | zero =>
    intro q red blue S hle hm hi
    have : q = [] := List.length_eq_zero_iff.1 (by omega)
    subst this
    exact ⟨true, .done, ⟨fun _ => bip_end hi, fun _ => rfl⟩⟩
  | succ n ih =>
    intro q red blue S hle hm hi
    cases q with
    | nil => exact ⟨true, .done, ⟨fun _ => bip_end hi, fun _ => rfl⟩⟩
    | cons c q =>
      obtain ⟨col, hcol⟩ := Option.ne_none_iff_exists'.1 (hi.queue c (by simp))
      obtain ⟨hcn, hcr⟩ := hi.reached (by rw [hcol]; simp)
      have hnb : ∀ x ∈ nb c, Node x := fun x hx => hT.stays hcn hx
      obtain ⟨l1, l2⟩ := bipLoop_eq hT (col := col) (l := nb c) hm hnb
      have hr : T.isVisited red c = .ok col := by
        rw [hT.isVisited hm.1 hcn, hcol]; cases col <;> rfl
      have hbl : T.isVisited blue c = .ok (!col) := by
        rw [hT.isVisited hm.2 hcn, hcol]; cases col <;> rfl
      have hx : (col ^^ !col) = true := by cases col <;> rfl
      by_cases hbad : ∃ y ∈ nb c, S y = some col
      · refine ⟨false, .odd hr hbl hx (hT.neighbors hcn) (l1 (paint_none hbad)), ⟨(fun h => nomatch h), ?_⟩⟩
        rintro ⟨f, hf⟩
        obtain ⟨y, hy, hyc⟩ := hbad
        exact absurd ((hi.forced hf hcol).trans (hi.forced hf hyc).symm) (hf c hcr y hy)
      · have hno : ∀ y ∈ nb c, S y ≠ some col := fun y hy h => hbad ⟨y, hy, h⟩
        obtain ⟨new, S', hp, hq, hS', hcnt⟩ := paint_some (nodes := nodes) hno (fun y hy => hn y (hnb y hy))
        obtain ⟨red', blue', h3, h4⟩ := l2 new S' hp
        have hinv : BipInv Node nb a S' (q ++ new) := by
          have old : ∀ {x b}, S x = some b → S' x = some b := by
            intro x b hx
            rw [hS']
            split
            · rename_i hmem
              have := hno x hmem
              rw [hx] at this
              cases b <;> cases col <;> simp at this ⊢ <;> exact hx
            · exact hx
          refine ⟨old hi.start, ?_, ?_, ?_, ?_⟩
          · intro x hx
            rw [hS'] at hx
            split at hx
            · rename_i hmem
              exact ⟨hnb x hmem, hcr.step hmem⟩
            · exact hi.reached hx
          · intro x hx
            rcases List.mem_append.1 hx with h | h
            · obtain ⟨b, hb⟩ := Option.ne_none_iff_exists'.1 (hi.queue x (by simp [h]))
              rw [old hb]; simp
            · rw [hS', if_pos ((hq x).1 h).1]; simp
          · intro x b hxb hxq y hy
            have hxq' : x ∉ q ∧ x ∉ new := ⟨fun h => hxq (List.mem_append.2 (.inl h)), fun h => hxq (List.mem_append.2 (.inr h))⟩
            by_cases hxc : x = c
            · subst hxc
              have : b = col := by
                have := old hcol; rw [hxb] at this; exact Option.some.inj this
              subst this
              rw [hS', if_pos hy]
            · have hSx : S x = some b := by
                cases hsx : S x with
                | some b' => rw [old hsx] at hxb; exact hxb
                | none =>
                  exfalso
                  rw [hS'] at hxb
                  split at hxb
                  · rename_i hmem; exact hxq'.2 ((hq x).2 ⟨hmem, hsx⟩)
                  · rw [hsx] at hxb; cases hxb
              exact old (hi.closed hSx (by simp [hxc, hxq'.1]) y hy)
          · intro f hf x b hxb
            rw [hS'] at hxb
            split at hxb
            · rename_i hmem
              have h1 := hi.forced hf hcol
              have h2 := hf c hcr x hmem
              have h3 := Option.some.inj hxb
              subst h3
              revert h1 h2
              cases f c <;> cases f x <;> cases f a <;> cases col <;> simp
            · exact hi.forced hf hxb
        obtain ⟨b, hb1, hb2⟩ := ih (by rw [List.length_append]; rw [List.length_cons] at hle; omega) h4 hinv
        exact ⟨b, .next hr hbl hx (hT.neighbors hcn) h3 hb1, hb2⟩
where
  bip_end {a : C} {S : C → Option Bool} (hi : BipInv Node nb a S []) : TwoColourable nb a := by
    have hall : ∀ x, Reached nb a x → ∃ b, S x = some b := by
      intro x hx
      induction hx with
      | refl => exact ⟨true, hi.start⟩
      | step _ hy ih => obtain ⟨b, hb⟩ := ih; exact ⟨_, hi.closed hb (by simp) _ hy⟩
    refine ⟨fun x => S x == some true, fun x hx y hy => ?_⟩
    obtain ⟨b, hb⟩ := hall x hx
    simp only [hb, hi.closed hb (by simp) y hy]
    cases b <;> simp

theorem BipRun.unique (hT : Behaves T Node nb Vis) {q : List C} {red blue : M} {b b' : Bool} (h : BipRun T q red blue b)
    (h' : BipRun T q red blue b') : b = b' := by
  induction h with
  | done => cases h'; rfl
  | odd h1 h2 _ h4 h5 =>
    cases h' with
    | odd => rfl
    | next k1 k2 _ k4 k5 _ =>
      rw [h1] at k1; rw [h2] at k2; cases k1; cases k2
      cases hT.unique h4 k4
      rw [h5] at k5; cases k5
  | next h1 h2 _ h4 h5 _ ih =>
    cases h' with
    | odd k1 k2 _ k4 k5 =>
      rw [h1] at k1; rw [h2] at k2; cases k1; cases k2
      cases hT.unique h4 k4
      rw [h5] at k5; cases k5
    | next k1 k2 _ k4 k5 k6 =>
      rw [h1] at k1; rw [h2] at k2; cases k1; cases k2
      cases hT.unique h4 k4
      rw [h5] at k5; cases k5
      exact ih k6

/-- From every node the algorithm ends with exactly one answer: whether the part of the graph around it is two-colourable. -/
theorem bipartite_spec (hT : Behaves T Node nb Vis) {nodes : List C} (hn : ∀ x, Node x → x ∈ nodes) {a : C} (ha : Node a) (b : Bool) :
    IsBipartite T a b ↔ (b = true ↔ TwoColourable nb a) := by
  obtain ⟨red, h1, h2⟩ := hT.visit hT.new ha
  have hm : Maps Vis red T.visitMap (fun x => if x = a then some true else none) := by
    refine ⟨?_, ?_⟩
    · have : (fun x => (if x = a then some true else none) == some true) = fun x => if x = a then true else false := by
        funext x; by_cases he : x = a <;> simp [he]
      rw [this]; exact h2
    · have : (fun x => (if x = a then some true else none) == some false) = fun _ => false := by
        funext x; by_cases he : x = a <;> simp [he]
      rw [this]; exact hT.new
  have hi : BipInv Node nb a (fun x => if x = a then some true else none) [a] := by
    refine ⟨by simp, ?_, by simp, ?_, ?_⟩
    · intro x hx
      by_cases he : x = a
      · subst he; exact ⟨ha, .refl⟩
      · simp [he] at hx
    · intro x col hx hxa
      rw [if_neg (by simpa using hxa)] at hx; cases hx
    · intro f _ x b hx
      by_cases he : x = a
      · subst he
        rw [if_pos rfl] at hx
        cases hx
        cases f x <;> rfl
      · rw [if_neg he] at hx; cases hx
  obtain ⟨b', hb1, hb2⟩ := bip_run hT hn _ (Nat.le_refl _) hm hi
  constructor
  · rintro ⟨nw, r, e1, e2⟩
    rw [h1] at e1; cases e1
    rw [e2.unique hT hb1]; exact hb2
  · intro h
    refine ⟨_, red, h1, ?_⟩
    have : b = b' := by
      cases b <;> cases b' <;> simp_all
    rw [this]; exact hb1

end
end LG
