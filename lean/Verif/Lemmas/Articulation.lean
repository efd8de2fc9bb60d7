import Verif.Model.Articulation
import Verif.Lemmas.Indexed
import Verif.Lemmas.Components
import Verif.Lemmas.Cut
/- `articulation_points` over the numbers below `n`. -/
namespace LG

section
variable {nb : Nat → List Nat} {n : Nat} {at_ : Nat → List Nat → Prop}

/-- What the search needs of the graph: `edges` of each node can be listed in one way, and every step can be gone back. -/
structure ApGraph (at_ : Nat → List Nat → Prop) (nb : Nat → List Nat) (n : Nat) : Prop where
  lists : ∀ i, i < n → ∀ l, at_ i l ↔ l = nb i
  lt : ∀ i, i < n → ∀ j ∈ nb i, j < n
  symm : ∀ i, i < n → ∀ j ∈ nb i, i ∈ nb j

/-- A step. -/
def Nb (nb : Nat → List Nat) (n i j : Nat) : Prop := i < n ∧ j ∈ nb i

/-- Two nodes that are joined are not without `x`. -/
def CutAt (nb : Nat → List Nat) (n x : Nat) : Prop :=
  ∃ a b, a ≠ x ∧ b ≠ x ∧ Joined (Nb nb n) a b ∧ ¬ Joined (Around (Nb nb n) x) a b

/-- A step within `W`. -/
def Inside (nb : Nat → List Nat) (n : Nat) (W : List Nat) (i j : Nat) : Prop := Nb nb n i j ∧ i ∈ W ∧ j ∈ W

/-- What a search from a neighbor `p.1` of `x` has found: `p.2`. `A` is the path to `x`. -/
structure Kid (nb : Nat → List Nat) (n x : Nat) (A : List Nat) (p : Nat × List Nat) : Prop where
  mem : p.1 ∈ p.2
  adj : p.1 ∈ nb x
  lt : ∀ u ∈ p.2, u < n
  joined : ∀ u ∈ p.2, Joined (Inside nb n p.2) p.1 u
  nbrs : ∀ u ∈ p.2, ∀ w ∈ nb u, w ∈ p.2 ∨ w = x ∨ w ∈ A

/-- Each node of the list is a neighbor of the next. -/
def ApPath (nb : Nat → List Nat) : List Nat → Prop
  | v :: w :: l => v ∈ nb w ∧ ApPath nb (w :: l)
  | _ => True

theorem joined_iff_of {R : Nat → Nat → Prop} {P : Nat → Prop} (h : ∀ i j, R i j → (P i ↔ P j)) {a b : Nat} (hj : Joined R a b) : P a ↔ P b := by
  induction hj with
  | refl => exact Iff.rfl
  | edge e => exact h _ _ e
  | symm _ ih => exact ih.symm
  | trans _ _ ih1 ih2 => exact ih1.trans ih2

theorem joined_around_ne {R : Nat → Nat → Prop} {x a b : Nat} (ha : a ≠ x) (hj : Joined (Around R x) a b) : b ≠ x :=
  (joined_iff_of (P := fun y => y ≠ x) (fun _ _ h => ⟨fun _ => h.2.2, fun _ => h.2.1⟩) hj).1 ha

/-- If all neighbors of `x` are joined without it, it does not cut. -/
theorem not_cut_of_hub (hg : ApGraph at_ nb n) {x v : Nat} (hv : v ≠ x) (h : ∀ w ∈ nb x, w = x ∨ Joined (Around (Nb nb n) x) v w) :
    ¬ CutAt nb n x := by
  rintro ⟨a, b, ha, hb, hj, hn⟩
  have hsym : ∀ {i j}, Nb nb n i j → Nb nb n j i := fun h => ⟨hg.lt _ h.1 _ h.2, hg.symm _ h.1 _ h.2⟩
  have hP : ∀ i j, Nb nb n i j → (i = x ∨ Joined (Around (Nb nb n) x) v i) → (j = x ∨ Joined (Around (Nb nb n) x) v j) := by
    intro i j hij hi
    by_cases hix : i = x
    · subst hix; exact h j hij.2
    · by_cases hjx : j = x
      · exact .inl hjx
      · exact .inr ((hi.resolve_left hix).trans (.edge ⟨hij, hix, hjx⟩))
  have hPi : ∀ i j, Nb nb n i j → ((i = x ∨ Joined (Around (Nb nb n) x) v i) ↔ (j = x ∨ Joined (Around (Nb nb n) x) v j)) :=
    fun i j hij => ⟨hP i j hij, hP j i (hsym hij)⟩
  by_cases hPa : a = x ∨ Joined (Around (Nb nb n) x) v a
  · have hPb := (joined_iff_of (P := fun y => y = x ∨ Joined (Around (Nb nb n) x) v y) hPi hj).1 hPa
    exact hn ((hPa.resolve_left ha).symm.trans (hPb.resolve_left hb))
  · have hQ : ∀ i j, Nb nb n i j → (Joined (Around (Nb nb n) x) a i ∧ ¬ (i = x ∨ Joined (Around (Nb nb n) x) v i)) →
        (Joined (Around (Nb nb n) x) a j ∧ ¬ (j = x ∨ Joined (Around (Nb nb n) x) v j)) := by
      intro i j hij ⟨h1, h2⟩
      have h3 : ¬ (j = x ∨ Joined (Around (Nb nb n) x) v j) := fun h => h2 ((hPi i j hij).2 h)
      exact ⟨h1.trans (.edge ⟨hij, fun e => h2 (.inl e), fun e => h3 (.inl e)⟩), h3⟩
    exact hn ((joined_iff_of (P := fun y => Joined (Around (Nb nb n) x) a y ∧ ¬ (y = x ∨ Joined (Around (Nb nb n) x) v y))
      (fun i j hij => ⟨hQ i j hij, hQ j i (hsym hij)⟩) hj).1 ⟨.refl, hPa⟩).1

/-- If some nodes can be left only by way of `x`, it cuts. -/
theorem cut_of_closed (hg : ApGraph at_ nb n) {x a b : Nat} {S : List Nat} (hS : ∀ u ∈ S, ∀ w ∈ nb u, w ∈ S ∨ w = x) (ha : a ∈ S)
    (hb : b ∉ S) (hax : a ≠ x) (hbx : b ≠ x) (hj : Joined (Nb nb n) a b) : CutAt nb n x := by
  refine ⟨a, b, hax, hbx, hj, fun h => hb ?_⟩
  refine (joined_iff_of (P := fun y => y ∈ S) (fun i j hij => ⟨fun hi => (hS i hi j hij.1.2).resolve_right hij.2.2, fun hj => ?_⟩) h).1 ha
  exact (hS j hj i (hg.symm _ hij.1.1 _ hij.1.2)).resolve_right hij.2.1

theorem path_joined {x : Nat} : ∀ {A : List Nat} {v : Nat}, ApPath nb (v :: A) → (∀ a ∈ v :: A, a < n) → x ∉ v :: A →
    ∀ a ∈ v :: A, Joined (Around (Nb nb n) x) v a
  | [], v, _, _, _, a, ha => by cases List.mem_singleton.1 ha; exact .refl
  | w :: A, v, h, hl, hx, a, ha => by
    rcases List.mem_cons.1 ha with rfl | ha
    · exact .refl
    · have h1 := path_joined (A := A) (v := w) h.2 (fun b hb => hl b (List.mem_cons_of_mem _ hb)) (fun h => hx (List.mem_cons_of_mem _ h)) a ha
      refine .trans (.symm (.edge ⟨⟨hl w (by simp), h.1⟩, ?_, ?_⟩)) h1
      · exact fun e => hx (by rw [← e]; simp)
      · exact fun e => hx (by rw [← e]; simp)

/-- What `articulation_points` tests tells whether `x` cuts. -/
theorem cut_iff (hg : ApGraph at_ nb n) {x : Nat} (hx : x < n) {A : List Nat} {kids : List (Nat × List Nat)} (hk : ∀ p ∈ kids, Kid nb n x A p)
    (hpath : ApPath nb (x :: A)) (hA : ∀ a ∈ A, a < n) (hxA : x ∉ A) (hxk : ∀ p ∈ kids, x ∉ p.2) (hAk : ∀ p ∈ kids, ∀ a ∈ A, a ∉ p.2)
    (hpw : kids.Pairwise fun p q => ∀ u ∈ p.2, u ∉ q.2) (hnb : ∀ w ∈ nb x, w = x ∨ w ∈ A ∨ ∃ p ∈ kids, w ∈ p.2) :
    CutAt nb n x ↔ (A ≠ [] ∧ ∃ p ∈ kids, ∀ u ∈ p.2, ∀ w ∈ nb u, w ∈ p.2 ∨ w = x) ∨ (A = [] ∧ 1 < kids.length) := by
  have hin : ∀ p ∈ kids, ∀ u ∈ p.2, Joined (Around (Nb nb n) x) p.1 u := fun p hp u hu =>
    ((hk p hp).joined u hu).mono fun i j h => ⟨h.1, fun e => hxk p hp (e ▸ h.2.1), fun e => hxk p hp (e ▸ h.2.2)⟩
  constructor
  · intro hc
    refine Classical.byContradiction fun hno => ?_
    cases A with
    | nil =>
      match kids, hk, hpw, hnb, hxk, hin, hno with
      | [], _, _, hnb, _, _, _ =>
        refine not_cut_of_hub hg (x := x) (v := x + 1) (by omega) (fun w hw => ?_) hc
        rcases hnb w hw with h | h | ⟨p, hp, -⟩
        · exact .inl h
        · cases h
        · cases hp
      | [p], hk, _, hnb, hxk, hin, _ =>
        refine not_cut_of_hub hg (x := x) (v := p.1) (fun e => hxk p (by simp) (e ▸ (hk p (by simp)).mem)) (fun w hw => ?_) hc
        rcases hnb w hw with h | h | ⟨q, hq, h⟩
        · exact .inl h
        · cases h
        · cases List.mem_singleton.1 hq
          exact .inr (hin p (by simp) w h)
      | p :: q :: l, _, _, _, _, _, hno => exact hno (.inr ⟨rfl, by simp⟩)
    | cons v A =>
      have hv : v ≠ x := fun e => hxA (by rw [e]; simp)
      have h1 : ∀ a ∈ v :: A, Joined (Around (Nb nb n) x) v a := path_joined hpath.2 hA hxA
      refine not_cut_of_hub hg hv (fun w hw => ?_) hc
      rcases hnb w hw with h | h | ⟨p, hp, h⟩
      · exact .inl h
      · exact .inr (h1 w h)
      · refine .inr ?_
        have : ∃ u ∈ p.2, ∃ w ∈ nb u, ¬ (w ∈ p.2 ∨ w = x) := by
          refine Classical.byContradiction fun hn' => hno (.inl ⟨by simp, p, hp, fun u hu w hw => ?_⟩)
          exact Classical.byContradiction fun h => hn' ⟨u, hu, w, hw, h⟩
        obtain ⟨u, hu, w', hw', hn'⟩ := this
        have hwA : w' ∈ v :: A := by
          rcases (hk p hp).nbrs u hu w' hw' with h | h | h
          · exact absurd (.inl h) hn'
          · exact absurd (.inr h) hn'
          · exact h
        have he : Joined (Around (Nb nb n) x) u w' :=
          .edge ⟨⟨(hk p hp).lt u hu, hw'⟩, fun e => hxk p hp (e ▸ hu), fun e => hn' (.inr e)⟩
        exact (h1 w' hwA).trans (he.symm.trans ((hin p hp u hu).symm.trans (hin p hp w h)))
  · rintro (⟨hne, p, hp, h⟩ | ⟨rfl, hlen⟩)
    · cases A with
      | nil => exact absurd rfl hne
      | cons v A =>
        refine cut_of_closed hg h (hk p hp).mem (hAk p hp v (by simp)) (fun e => hxk p hp (e ▸ (hk p hp).mem))
          (fun e => hxA (by rw [e]; simp)) ?_
        exact .trans (.symm (.edge ⟨hx, (hk p hp).adj⟩)) (.symm (.edge ⟨hA v (by simp), hpath.1⟩))
    · match kids, hk, hpw, hxk, hlen with
      | p :: q :: l, hk, hpw, hxk, _ =>
        have hkp := hk p (by simp)
        have hkq := hk q (by simp)
        refine cut_of_closed hg (S := p.2) (a := p.1) (b := q.1) (fun u hu w hw => ?_) hkp.mem (fun h => ?_)
          (fun e => hxk p (by simp) (e ▸ hkp.mem)) (fun e => hxk q (by simp) (e ▸ hkq.mem)) ?_
        · rcases hkp.nbrs u hu w hw with h | h | h
          · exact .inl h
          · exact .inr h
          · cases h
        · exact (List.pairwise_cons.1 hpw).1 q (by simp) _ h hkq.mem
        · exact .trans (.symm (.edge ⟨hx, hkp.adj⟩)) (.edge ⟨hx, hkq.adj⟩)
      | [p], _, _, _, h => exact absurd h (by simp)
      | [], _, _, _, h => exact absurd h (by simp)

/-- Any number of turns. -/
inductive ApSteps (at_ : Nat → List Nat → Prop) (m : Nat) : ApSt → ApSt → Prop where
  | refl {st : ApSt} : ApSteps at_ m st st
  | head {st st' st'' : ApSt} : ApStep at_ m st (.ok st') → ApSteps at_ m st' st'' → ApSteps at_ m st st''

theorem ApSteps.trans {m : Nat} {st st' st'' : ApSt} (h1 : ApSteps at_ m st st') (h2 : ApSteps at_ m st' st'') : ApSteps at_ m st st'' := by
  induction h1 with
  | refl => exact h2
  | head h _ ih => exact .head h (ih h2)

/-- Before the search from `c`, with `A` the path to it. -/
structure ApPre (nb : Nat → List Nat) (n : Nat) (st : ApSt) (c : Nat) (A : List Nat) : Prop where
  lt : ∀ u ∈ st.visited, u < n
  nodup : st.visited.Nodup
  path : ∀ a ∈ A, a ∈ st.visited
  chain : ApPath nb (c :: A)
  fin : ∀ u ∈ st.visited, u ∉ A → ∀ w ∈ nb u, w ∈ st.visited
  time : ∀ u ∈ st.visited, st.disc u < st.time
  par : ∀ y z, y ≠ c → st.parent y = some z → y ∈ st.visited
  parv : ∀ y z, st.parent y = some z → z ∈ st.visited
  parc : st.parent c = A.head?

/-- After the search from `c`, which has found `W`. -/
structure ApPost (nb : Nat → List Nat) (n : Nat) (st : ApSt) (c : Nat) (A : List Nat) (st' : ApSt) (W : List Nat) : Prop where
  vis : st'.visited = W ++ st.visited
  nodup : st'.visited.Nodup
  lt : ∀ u ∈ W, u < n
  mem : c ∈ W
  joined : ∀ u ∈ W, Joined (Inside nb n W) c u
  nbrs : ∀ u ∈ W, ∀ w ∈ nb u, w ∈ W ∨ w ∈ A
  disc : ∀ u ∈ st.visited, st'.disc u = st.disc u
  low : ∀ u ∈ st.visited, st'.low u = st.low u
  new : ∀ u ∈ W, st.time ≤ st'.disc u
  time : ∀ u ∈ st'.visited, st'.disc u < st'.time
  mono : st.time ≤ st'.time
  lowc : ∀ t, t ≤ st.time → (st'.low c < t ↔ ∃ u ∈ W, ∃ w ∈ nb u, w ∈ A ∧ st.disc w < t ∧ ¬ (u = c ∧ A.head? = some w))
  par : ∀ y, y ∉ W ∨ y = c → st'.parent y = st.parent y
  parW : ∀ y ∈ W, y ≠ c → ∃ z ∈ W, st'.parent y = some z
  aps : ∀ y, y ∈ st'.aps ↔ y ∈ st.aps ∨ (y ∈ W ∧ CutAt nb n y)

/-- While the neighbors of `x` are taken up: `done` have been, and searches from some have found `kids`. -/
structure ApMid (nb : Nat → List Nat) (n : Nat) (st0 : ApSt) (x : Nat) (A : List Nat) (st : ApSt) (kids : List (Nat × List Nat))
    (done : List Nat) : Prop where
  vis : st.visited = kids.flatMap Prod.snd ++ (x :: st0.visited)
  nodup : st.visited.Nodup
  kid : ∀ p ∈ kids, Kid nb n x A p
  pw : kids.Pairwise fun p q => ∀ u ∈ p.2, u ∉ q.2
  took : ∀ w ∈ done, w ∈ st.visited
  disc : ∀ u ∈ st0.visited, st.disc u = st0.disc u
  low : ∀ u ∈ st0.visited, st.low u = st0.low u
  discx : st.disc x = st0.time
  new : ∀ p ∈ kids, ∀ u ∈ p.2, st0.time ≤ st.disc u
  time : ∀ u ∈ st.visited, st.disc u < st.time
  mono : st0.time < st.time
  lowx : ∀ t, t ≤ st0.time → (st.low x < t ↔ (∃ p ∈ kids, ∃ u ∈ p.2, ∃ w ∈ nb u, w ∈ A ∧ st0.disc w < t) ∨
    ∃ w ∈ done, w ∈ A ∧ st0.disc w < t ∧ A.head? ≠ some w)
  par : ∀ y, y ∉ kids.flatMap Prod.snd → st.parent y = st0.parent y
  parK : ∀ y ∈ kids.flatMap Prod.snd, ∃ z, st.parent y = some z ∧ (z = x ∨ z ∈ kids.flatMap Prod.snd)
  parx : ∀ y, st.parent y = some x ↔ y ∈ kids.map Prod.fst
  aps : ∀ y, y ∈ st.aps ↔ y ∈ st0.aps ∨ (∃ p ∈ kids, y ∈ p.2 ∧ CutAt nb n y) ∨
    (y = x ∧ A ≠ [] ∧ ∃ p ∈ kids, ∀ u ∈ p.2, ∀ w ∈ nb u, w ∈ p.2 ∨ w = x)

theorem tset_same {α : Type} (f : Nat → α) (i : Nat) (a : α) : tset f i a i = a := if_pos rfl
theorem tset_ne {α : Type} (f : Nat → α) {i j : Nat} (a : α) (h : j ≠ i) : tset f i a j = f j := if_neg h

theorem ApMid.mem_vis {st0 st : ApSt} {x : Nat} {A done : List Nat} {kids : List (Nat × List Nat)} (hm : ApMid nb n st0 x A st kids done)
    {u : Nat} : u ∈ st.visited ↔ (∃ p ∈ kids, u ∈ p.2) ∨ u = x ∨ u ∈ st0.visited := by
  rw [hm.vis, List.mem_append, List.mem_flatMap, List.mem_cons]

theorem ApMid.disjoint {st0 st : ApSt} {x : Nat} {A done : List Nat} {kids : List (Nat × List Nat)} (hm : ApMid nb n st0 x A st kids done)
    {p : Nat × List Nat} (hp : p ∈ kids) {u : Nat} (hu : u ∈ p.2) : u ≠ x ∧ u ∉ st0.visited := by
  have h := hm.nodup
  rw [hm.vis] at h
  have := (List.nodup_append.1 h).2.2 u (List.mem_flatMap.2 ⟨p, hp, hu⟩)
  exact ⟨this x List.mem_cons_self, fun h => this u (List.mem_cons_of_mem _ h) rfl⟩

theorem ApMid.x_new {st0 st : ApSt} {x : Nat} {A done : List Nat} {kids : List (Nat × List Nat)} (hm : ApMid nb n st0 x A st kids done) :
    x ∉ st0.visited := by
  have h := hm.nodup
  rw [hm.vis] at h
  exact (List.nodup_cons.1 (List.nodup_append.1 h).2.1).1

/-- The first turn. -/
theorem ApMid.start {st : ApSt} {x : Nat} {A : List Nat} (hx : x ∉ st.visited) (hp : ApPre nb n st x A)
    (stack : List ApItem) :
    ApMid nb n st x A { st with
      visited := x :: st.visited, disc := tset st.disc x st.time, low := tset st.low x st.time, time := st.time + 1, stack := stack } [] [] where
  vis := rfl
  nodup := List.nodup_cons.2 ⟨hx, hp.nodup⟩
  kid := fun _ h => nomatch h
  pw := .nil
  took := fun _ h => nomatch h
  disc := fun u hu => tset_ne _ _ fun e => hx (e ▸ hu)
  low := fun u hu => tset_ne _ _ fun e => hx (e ▸ hu)
  discx := tset_same _ _ _
  new := fun _ h => nomatch h
  time := fun u hu => by
    show tset st.disc x st.time u < st.time + 1
    rcases List.mem_cons.1 hu with rfl | hu
    · rw [tset_same]; omega
    · rw [tset_ne _ _ fun e : u = x => hx (e ▸ hu)]
      have := hp.time u hu; omega
  mono := Nat.lt_succ_self _
  lowx := fun t ht => by
    show tset st.low x st.time x < t ↔ _
    rw [tset_same]
    constructor
    · intro h; omega
    · rintro (⟨_, h, -⟩ | ⟨_, h, -⟩) <;> cases h
  par := fun _ _ => rfl
  parK := fun _ h => nomatch h
  parx := fun y => ⟨fun h => absurd (hp.parv y x h) hx, fun h => nomatch h⟩
  aps := fun y => ⟨.inl, by rintro (h | ⟨_, h, -⟩ | ⟨-, -, _, h, -⟩)
                            · exact h
                            · cases h
                            · cases h⟩

/-- A neighbor visited before. -/
theorem ApMid.old (hg : ApGraph at_ nb n) {st0 st : ApSt} {x c : Nat} {A done : List Nat} {kids : List (Nat × List Nat)} {K : List ApItem}
    (hxn : x < n) (hp : ApPre nb n st0 x A) (hm : ApMid nb n st0 x A st kids done) (hs : st.stack = .child x c :: K) (hc : c ∈ nb x)
    (hv : c ∈ st.visited) :
    ∃ st', ApStep at_ n st (.ok st') ∧ st'.stack = K ∧ ApMid nb n st0 x A st' kids (c :: done) := by
  have hpx : st.parent x = A.head? := by
    rw [hm.par x fun h => ?_, hp.parc]
    obtain ⟨p, hp', h⟩ := List.mem_flatMap.1 h
    exact (hm.disjoint hp' h).1 rfl
  -- what was visited before is on the path
  have hcA : c ∈ st0.visited → c ∈ A := fun h => Classical.byContradiction fun hn =>
    hm.x_new (hp.fin c h hn x (hg.symm x hxn c hc))
  have hdc : ∀ t, t ≤ st0.time → (st.disc c < t ↔ c ∈ A ∧ st0.disc c < t) := fun t ht => by
    rcases hm.mem_vis.1 hv with ⟨p, hp', h⟩ | rfl | h
    · have h1 := hm.new p hp' c h
      exact ⟨fun h => by omega, fun h' => absurd (hp.path c h'.1) (hm.disjoint hp' h).2⟩
    · have h1 := hm.discx
      exact ⟨fun h => by omega, fun h' => absurd (hp.path c h'.1) hm.x_new⟩
    · rw [hm.disc c h]
      exact ⟨fun h' => ⟨hcA h, h'⟩, fun h' => h'.2⟩
  have hdone : ∀ w ∈ c :: done, w ∈ st.visited := fun w hw => by
    rcases List.mem_cons.1 hw with rfl | hw
    · exact hv
    · exact hm.took w hw
  by_cases hpar : st.parent x = some c
  · refine ⟨_, .childParent hs hv hpar, rfl, ⟨hm.vis, hm.nodup, hm.kid, hm.pw, hdone, hm.disc, hm.low, hm.discx, hm.new, hm.time, hm.mono,
      fun t ht => (hm.lowx t ht).trans (or_congr Iff.rfl ⟨?_, ?_⟩), hm.par, hm.parK, hm.parx, hm.aps⟩⟩
    · rintro ⟨w, h1, h2⟩
      exact ⟨w, List.mem_cons_of_mem _ h1, h2⟩
    · rintro ⟨w, h1, h2, h3, h4⟩
      rcases List.mem_cons.1 h1 with rfl | h1
      · exact absurd (hpx.symm.trans hpar) h4
      · exact ⟨w, h1, h2, h3, h4⟩
  · refine ⟨_, .childOld hs hv hpar, rfl, ⟨hm.vis, hm.nodup, hm.kid, hm.pw, hdone, hm.disc, fun u hu => ?_, hm.discx, hm.new, hm.time,
      hm.mono, fun t ht => ?_, hm.par, hm.parK, hm.parx, hm.aps⟩⟩
    · show tset st.low x _ u = _
      rw [tset_ne _ _ fun e : u = x => hm.x_new (e ▸ hu)]
      exact hm.low u hu
    · show tset st.low x _ x < t ↔ _
      rw [tset_same]
      have e : min (st.low x) (st.disc c) < t ↔ st.low x < t ∨ st.disc c < t := by omega
      rw [e, hm.lowx t ht, hdc t ht]
      constructor
      · rintro ((h | ⟨w, h1, h2⟩) | ⟨h1, h2⟩)
        · exact .inl h
        · exact .inr ⟨w, List.mem_cons_of_mem _ h1, h2⟩
        · exact .inr ⟨c, List.mem_cons_self, h1, h2, fun e => hpar (hpx.trans e)⟩
      · rintro (h | ⟨w, h1, h2, h3, h4⟩)
        · exact .inl (.inl h)
        · rcases List.mem_cons.1 h1 with rfl | h1
          · exact .inr ⟨h2, h3⟩
          · exact .inl (.inr ⟨w, h1, h2, h3, h4⟩)

/-- Before the search from a neighbor not visited. -/
theorem ApMid.pre {st0 st : ApSt} {x c : Nat} {A done : List Nat} {kids : List (Nat × List Nat)}
    (hxn : x < n) (hp : ApPre nb n st0 x A) (hm : ApMid nb n st0 x A st kids done) (hc : c ∈ nb x) (stack : List ApItem) :
    ApPre nb n { st with parent := tset st.parent c (some x), stack := stack } c (x :: A) where
  lt := fun u hu => by
    rcases hm.mem_vis.1 hu with ⟨p, hp', h⟩ | rfl | h
    · exact (hm.kid p hp').lt u h
    · exact hxn
    · exact hp.lt u h
  nodup := hm.nodup
  path := fun a ha => by
    rcases List.mem_cons.1 ha with rfl | ha
    · exact hm.mem_vis.2 (.inr (.inl rfl))
    · exact hm.mem_vis.2 (.inr (.inr (hp.path a ha)))
  chain := ⟨hc, hp.chain⟩
  fin := fun u hu hn w hw => by
    rcases hm.mem_vis.1 hu with ⟨p, hp', h⟩ | rfl | h
    · rcases (hm.kid p hp').nbrs u h w hw with h | h | h
      · exact hm.mem_vis.2 (.inl ⟨p, hp', h⟩)
      · exact hm.mem_vis.2 (.inr (.inl h))
      · exact hm.mem_vis.2 (.inr (.inr (hp.path w h)))
    · exact absurd List.mem_cons_self hn
    · exact hm.mem_vis.2 (.inr (.inr (hp.fin u h (fun h => hn (List.mem_cons_of_mem _ h)) w hw)))
  time := hm.time
  par := fun y z hy h => by
    have h : tset st.parent c (some x) y = some z := h
    rw [tset_ne _ _ hy] at h
    by_cases hk : y ∈ kids.flatMap Prod.snd
    · exact hm.mem_vis.2 (.inl (List.mem_flatMap.1 hk))
    · rw [hm.par y hk] at h
      by_cases e : y = x
      · exact hm.mem_vis.2 (.inr (.inl e))
      · exact hm.mem_vis.2 (.inr (.inr (hp.par y z e h)))
  parv := fun y z h => by
    have h : tset st.parent c (some x) y = some z := h
    by_cases hy : y = c
    · rw [hy, tset_same] at h
      cases h
      exact hm.mem_vis.2 (.inr (.inl rfl))
    · rw [tset_ne _ _ hy] at h
      by_cases hk : y ∈ kids.flatMap Prod.snd
      · obtain ⟨z', h1, h2⟩ := hm.parK y hk
        rw [h] at h1; cases h1
        rcases h2 with h2 | h2
        · exact hm.mem_vis.2 (.inr (.inl h2))
        · exact hm.mem_vis.2 (.inl (List.mem_flatMap.1 h2))
      · rw [hm.par y hk] at h
        exact hm.mem_vis.2 (.inr (.inr (hp.parv y z h)))
  parc := by
    show tset st.parent c (some x) c = _
    rw [tset_same]; rfl

/-- After the search from a neighbor. -/
theorem ApMid.new_kid {st0 st st' : ApSt} {x c : Nat} {A done : List Nat} {kids : List (Nat × List Nat)} {W : List Nat}
    {stack K : List ApItem} (hxn : x < n) (hp : ApPre nb n st0 x A) (hm : ApMid nb n st0 x A st kids done) (hc : c ∈ nb x) (hv : c ∉ st.visited)
    (hpost : ApPost nb n { st with parent := tset st.parent c (some x), stack := stack } c (x :: A) st' W) (hs : st'.stack = .noBack x c :: K) :
    ∃ st'', ApStep at_ n st' (.ok st'') ∧ st''.stack = K ∧ ApMid nb n st0 x A st'' ((c, W) :: kids) (c :: done) := by
  have hvis : st'.visited = W ++ st.visited := hpost.vis
  have hxv : x ∈ st.visited := hm.mem_vis.2 (.inr (.inl rfl))
  have h0v : ∀ u ∈ st0.visited, u ∈ st.visited := fun u hu => hm.mem_vis.2 (.inr (.inr hu))
  have hkv : ∀ p ∈ kids, ∀ u ∈ p.2, u ∈ st.visited := fun p hp u hu => hm.mem_vis.2 (.inl ⟨p, hp, hu⟩)
  have hWd : ∀ u ∈ W, u ∉ st.visited := fun u hu h => by
    have hn := hpost.nodup
    rw [hvis] at hn
    exact (List.nodup_append.1 hn).2.2 u hu u h rfl
  have hpx : st'.parent x = A.head? := by
    rw [hpost.par x (.inl fun h => hWd x h hxv)]
    show tset st.parent c (some x) x = _
    rw [tset_ne _ _ fun e : x = c => hv (e ▸ hxv), hm.par x fun h => ?_, hp.parc]
    obtain ⟨p, hp', h⟩ := List.mem_flatMap.1 h
    exact (hm.disjoint hp' h).1 rfl
  have hdx : st'.disc x = st0.time := (hpost.disc x hxv).trans hm.discx
  have hlx : st'.low x = st.low x := hpost.low x hxv
  have hlc : ∀ t, t ≤ st0.time → (st'.low c < t ↔ ∃ u ∈ W, ∃ w ∈ nb u, w ∈ A ∧ st0.disc w < t) := fun t ht => by
    refine (hpost.lowc t (Nat.le_trans ht (Nat.le_of_lt hm.mono))).trans ⟨?_, ?_⟩
    · rintro ⟨u, hu, w, hw, h1, h2, h3⟩
      have h2 : st.disc w < t := h2
      rcases List.mem_cons.1 h1 with rfl | h1
      · have := hm.discx; omega
      · exact ⟨u, hu, w, hw, h1, by rw [← hm.disc w (hp.path w h1)]; exact h2⟩
    · rintro ⟨u, hu, w, hw, h1, h2⟩
      refine ⟨u, hu, w, hw, List.mem_cons_of_mem _ h1, ?_, fun ⟨_, e⟩ => ?_⟩
      · show st.disc w < t
        rw [hm.disc w (hp.path w h1)]; exact h2
      · have e : x = w := Option.some.inj e
        exact hm.x_new (e ▸ hp.path w h1)
  have hcond : ((st'.parent x).isSome = true ∧ st'.disc x ≤ st'.low c) ↔ A ≠ [] ∧ ∀ u ∈ W, ∀ w ∈ nb u, w ∈ W ∨ w = x := by
    rw [hpx, hdx]
    refine and_congr ?_ ?_
    · cases A <;> simp
    · rw [← Nat.not_lt, hlc _ (Nat.le_refl _)]
      constructor
      · intro h u hu w hw
        rcases hpost.nbrs u hu w hw with h1 | h1
        · exact .inl h1
        · rcases List.mem_cons.1 h1 with h1 | h1
          · exact .inr h1
          · exact absurd ⟨u, hu, w, hw, h1, hp.time w (hp.path w h1)⟩ h
      · rintro h ⟨u, hu, w, hw, h1, -⟩
        have hwv := h0v w (hp.path w h1)
        rcases h u hu w hw with h2 | h2
        · exact hWd w h2 hwv
        · exact hm.x_new (h2 ▸ hp.path w h1)
  have hfm : ∀ y, y ∈ ((c, W) :: kids).flatMap Prod.snd ↔ y ∈ W ∨ y ∈ kids.flatMap Prod.snd := fun y => by
    rw [List.flatMap_cons, List.mem_append]
  refine ⟨_, .noBack hs, rfl, ?_⟩
  refine ⟨?_, hpost.nodup, ?_, ?_, ?_, ?_, ?_, hdx, ?_, hpost.time, ?_, ?_, ?_, ?_, ?_, ?_⟩
  · show st'.visited = _
    rw [hvis, hm.vis, List.flatMap_cons, List.append_assoc]
  · intro p hp'
    rcases List.mem_cons.1 hp' with rfl | hp'
    · exact ⟨hpost.mem, hc, hpost.lt, hpost.joined, fun u hu w hw => by
        rcases hpost.nbrs u hu w hw with h | h
        · exact .inl h
        · exact .inr (List.mem_cons.1 h)⟩
    · exact hm.kid p hp'
  · exact List.pairwise_cons.2 ⟨fun q hq u hu h => hWd u hu (hkv q hq u h), hm.pw⟩
  · intro w hw
    show w ∈ st'.visited
    rw [hvis]
    rcases List.mem_cons.1 hw with rfl | hw
    · exact List.mem_append_left _ hpost.mem
    · exact List.mem_append_right _ (hm.took w hw)
  · exact fun u hu => (hpost.disc u (h0v u hu)).trans (hm.disc u hu)
  · intro u hu
    show tset st'.low x _ u = _
    rw [tset_ne _ _ fun e : u = x => hm.x_new (e ▸ hu)]
    exact (hpost.low u (h0v u hu)).trans (hm.low u hu)
  · intro p hp' u hu
    show st0.time ≤ st'.disc u
    rcases List.mem_cons.1 hp' with rfl | hp'
    · exact Nat.le_trans (Nat.le_of_lt hm.mono) (hpost.new u hu)
    · rw [hpost.disc u (hkv p hp' u hu)]
      exact hm.new p hp' u hu
  · exact Nat.lt_of_lt_of_le hm.mono hpost.mono
  · intro t ht
    show tset st'.low x _ x < t ↔ _
    rw [tset_same]
    have e : min (st'.low x) (st'.low c) < t ↔ st'.low c < t ∨ st'.low x < t := by omega
    rw [e, hlc t ht, hlx, hm.lowx t ht]
    constructor
    · rintro (h | ⟨p, h1, h2⟩ | ⟨w, h1, h2⟩)
      · exact .inl ⟨_, List.mem_cons_self, h⟩
      · exact .inl ⟨p, List.mem_cons_of_mem _ h1, h2⟩
      · exact .inr ⟨w, List.mem_cons_of_mem _ h1, h2⟩
    · rintro (⟨p, h1, h2⟩ | ⟨w, h1, h2, h3, h4⟩)
      · rcases List.mem_cons.1 h1 with rfl | h1
        · exact .inl h2
        · exact .inr (.inl ⟨p, h1, h2⟩)
      · rcases List.mem_cons.1 h1 with rfl | h1
        · exact absurd (h0v w (hp.path w h2)) hv
        · exact .inr (.inr ⟨w, h1, h2, h3, h4⟩)
  · intro y hy
    show st'.parent y = _
    have h1 : y ∉ W := fun h => hy ((hfm y).2 (.inl h))
    rw [hpost.par y (.inl h1)]
    show tset st.parent c (some x) y = _
    rw [tset_ne _ _ fun e : y = c => h1 (e ▸ hpost.mem)]
    exact hm.par y fun h => hy ((hfm y).2 (.inr h))
  · intro y hy
    show ∃ z, st'.parent y = some z ∧ _
    by_cases hyc : y = c
    · refine ⟨x, ?_, .inl rfl⟩
      rw [hpost.par y (.inr hyc)]
      show tset st.parent c (some x) y = _
      rw [hyc, tset_same]
    · by_cases hyW : y ∈ W
      · obtain ⟨z, h1, h2⟩ := hpost.parW y hyW hyc
        exact ⟨z, h2, .inr ((hfm z).2 (.inl h1))⟩
      · obtain ⟨z, h1, h2⟩ := hm.parK y (((hfm y).1 hy).resolve_left hyW)
        refine ⟨z, ?_, h2.imp id fun h => (hfm z).2 (.inr h)⟩
        rw [hpost.par y (.inl hyW)]
        show tset st.parent c (some x) y = _
        rw [tset_ne _ _ hyc]; exact h1
  · intro y
    show st'.parent y = some x ↔ _
    rw [List.map_cons, List.mem_cons]
    by_cases hyc : y = c
    · refine ⟨fun _ => .inl hyc, fun _ => ?_⟩
      rw [hpost.par y (.inr hyc)]
      show tset st.parent c (some x) y = _
      rw [hyc, tset_same]
    · by_cases hyW : y ∈ W
      · obtain ⟨z, h1, h2⟩ := hpost.parW y hyW hyc
        rw [h2]
        constructor
        · intro e
          have e : z = x := Option.some.inj e
          exact absurd hxv (hWd x (e ▸ h1))
        · rintro (h | h)
          · exact absurd h hyc
          · obtain ⟨p, h3, rfl⟩ := List.mem_map.1 h
            exact absurd (hkv p h3 _ (hm.kid p h3).mem) (hWd _ hyW)
      · rw [hpost.par y (.inl hyW)]
        show tset st.parent c (some x) y = some x ↔ _
        rw [tset_ne _ _ hyc, hm.parx y]
        exact ⟨.inr, fun h => h.resolve_left hyc⟩
  · intro y
    show y ∈ (if _ then x :: st'.aps else st'.aps) ↔ _
    have h1 := hpost.aps y
    have h1 : y ∈ st'.aps ↔ y ∈ st.aps ∨ (y ∈ W ∧ CutAt nb n y) := h1
    have h2 := hm.aps y
    have h3 : y ∈ (if (st'.parent x).isSome = true ∧ st'.disc x ≤ st'.low c then x :: st'.aps else st'.aps) ↔
        (y = x ∧ (st'.parent x).isSome = true ∧ st'.disc x ≤ st'.low c) ∨ y ∈ st'.aps := by
      split
      · rename_i h
        rw [List.mem_cons]
        exact or_congr ⟨fun e => ⟨e, h⟩, fun e => e.1⟩ Iff.rfl
      · rename_i h
        exact ⟨.inr, fun h' => h'.resolve_left fun h' => h h'.2⟩
    rw [h3, hcond, h1, h2]
    constructor
    · rintro (⟨e, hA, hW⟩ | (h | ⟨p, hp', h⟩ | ⟨e, hA, p, hp', h⟩) | h)
      · exact .inr (.inr ⟨e, hA, _, List.mem_cons_self, hW⟩)
      · exact .inl h
      · exact .inr (.inl ⟨p, List.mem_cons_of_mem _ hp', h⟩)
      · exact .inr (.inr ⟨e, hA, p, List.mem_cons_of_mem _ hp', h⟩)
      · exact .inr (.inl ⟨_, List.mem_cons_self, h⟩)
    · rintro (h | ⟨p, hp', h⟩ | ⟨e, hA, p, hp', h⟩)
      · exact .inr (.inl (.inl h))
      · rcases List.mem_cons.1 hp' with rfl | hp'
        · exact .inr (.inr h)
        · exact .inr (.inl (.inr (.inl ⟨p, hp', h⟩)))
      · rcases List.mem_cons.1 hp' with rfl | hp'
        · exact .inl ⟨e, hA, h⟩
        · exact .inr (.inl (.inr (.inr ⟨e, hA, p, hp', h⟩)))

/-- The last turn. -/
theorem ApMid.finish (hg : ApGraph at_ nb n) {st0 st : ApSt} {x : Nat} {A done : List Nat} {kids : List (Nat × List Nat)} {K : List ApItem}
    (hxn : x < n) (hp : ApPre nb n st0 x A) (hm : ApMid nb n st0 x A st kids done) (hs : st.stack = .root x :: K) (hd : ∀ w, w ∈ done ↔ w ∈ nb x) :
    ∃ st' W, ApStep at_ n st (.ok st') ∧ st'.stack = K ∧ ApPost nb n st0 x A st' W := by
  have hxk : ∀ p ∈ kids, x ∉ p.2 := fun p hp' h => (hm.disjoint hp' h).1 rfl
  have hpx : st.parent x = A.head? := by
    rw [hm.par x fun h => ?_, hp.parc]
    obtain ⟨p, hp', h⟩ := List.mem_flatMap.1 h
    exact hxk p hp' h
  have hcut : CutAt nb n x ↔ (A ≠ [] ∧ ∃ p ∈ kids, ∀ u ∈ p.2, ∀ w ∈ nb u, w ∈ p.2 ∨ w = x) ∨ (A = [] ∧ 1 < kids.length) := by
    refine cut_iff hg hxn hm.kid hp.chain (fun a ha => hp.lt a (hp.path a ha)) (fun h => hm.x_new (hp.path x h)) hxk
      (fun p hp' a ha h => (hm.disjoint hp' h).2 (hp.path a ha)) hm.pw fun w hw => ?_
    rcases hm.mem_vis.1 (hm.took w ((hd w).2 hw)) with h | h | h
    · exact .inr (.inr h)
    · exact .inl h
    · refine .inr (.inl (Classical.byContradiction fun hn => hm.x_new (hp.fin w h hn x (hg.symm x hxn w hw))))
  -- the children of the root
  have hkn : (kids.map Prod.fst).Nodup := by
    have hpw := hm.pw
    have hk := hm.kid
    clear hcut hxk hm hpx
    induction hpw with
    | nil => exact List.nodup_nil
    | @cons q l h1 _ ih =>
      refine List.nodup_cons.2 ⟨fun h => ?_, ih fun p hp' => hk p (List.mem_cons_of_mem _ hp')⟩
      obtain ⟨p, hp', e⟩ := List.mem_map.1 h
      exact h1 p hp' q.1 (hk q List.mem_cons_self).mem (e ▸ (hk p (List.mem_cons_of_mem _ hp')).mem)
  have hcount : (List.range n).countP (fun i => st.parent i == some x) = kids.length := by
    rw [List.countP_eq_length_filter, ← List.length_map (f := Prod.fst) (as := kids)]
    refine List.Perm.length_eq ((List.perm_ext_iff_of_nodup (List.nodup_range.filter _) hkn).2 fun y => ?_)
    rw [List.mem_filter, List.mem_range, beq_iff_eq, hm.parx y]
    refine ⟨fun h => h.2, fun h => ⟨?_, h⟩⟩
    obtain ⟨p, hp', rfl⟩ := List.mem_map.1 h
    exact (hm.kid p hp').lt _ (hm.kid p hp').mem
  have hW : ∀ u, u ∈ kids.flatMap Prod.snd ++ [x] ↔ (∃ p ∈ kids, u ∈ p.2) ∨ u = x := fun u => by
    rw [List.mem_append, List.mem_flatMap, List.mem_singleton]
  have hvis : st.visited = (kids.flatMap Prod.snd ++ [x]) ++ st0.visited := by rw [hm.vis, List.append_assoc]; rfl
  refine ⟨_, kids.flatMap Prod.snd ++ [x], .root hs, rfl, ?_⟩
  refine ⟨hvis, hm.nodup, ?_, (hW x).2 (.inr rfl), ?_, ?_, hm.disc, hm.low, ?_, hm.time, Nat.le_of_lt hm.mono, ?_, ?_, ?_, ?_⟩
  · intro u hu
    rcases (hW u).1 hu with ⟨p, hp', h⟩ | rfl
    · exact (hm.kid p hp').lt u h
    · exact hxn
  · intro u hu
    rcases (hW u).1 hu with ⟨p, hp', h⟩ | rfl
    · have hk := hm.kid p hp'
      refine Joined.trans (.edge ⟨⟨hxn, hk.adj⟩, (hW x).2 (.inr rfl), (hW _).2 (.inl ⟨p, hp', hk.mem⟩)⟩) ((hk.joined u h).mono fun i j h => ?_)
      exact ⟨h.1, (hW i).2 (.inl ⟨p, hp', h.2.1⟩), (hW j).2 (.inl ⟨p, hp', h.2.2⟩)⟩
    · exact .refl
  · intro u hu w hw
    rcases (hW u).1 hu with ⟨p, hp', h⟩ | rfl
    · rcases (hm.kid p hp').nbrs u h w hw with h | h | h
      · exact .inl ((hW w).2 (.inl ⟨p, hp', h⟩))
      · exact .inl ((hW w).2 (.inr h))
      · exact .inr h
    · rcases hm.mem_vis.1 (hm.took w ((hd w).2 hw)) with h | h | h
      · exact .inl ((hW w).2 (.inl h))
      · exact .inl ((hW w).2 (.inr h))
      · exact .inr (Classical.byContradiction fun hn => hm.x_new (hp.fin w h hn u (hg.symm u hxn w hw)))
  · intro u hu
    rcases (hW u).1 hu with ⟨p, hp', h⟩ | rfl
    · exact hm.new p hp' u h
    · exact Nat.le_of_eq hm.discx.symm
  · intro t ht
    refine (hm.lowx t ht).trans ⟨?_, ?_⟩
    · rintro (⟨p, hp', u, hu, w, hw, h1, h2⟩ | ⟨w, hw, h1, h2, h3⟩)
      · exact ⟨u, (hW u).2 (.inl ⟨p, hp', hu⟩), w, hw, h1, h2, fun e => hxk p hp' (e.1 ▸ hu)⟩
      · exact ⟨x, (hW x).2 (.inr rfl), w, (hd w).1 hw, h1, h2, fun e => h3 e.2⟩
    · rintro ⟨u, hu, w, hw, h1, h2, h3⟩
      rcases (hW u).1 hu with ⟨p, hp', h⟩ | rfl
      · exact .inl ⟨p, hp', u, h, w, hw, h1, h2⟩
      · exact .inr ⟨w, (hd w).2 hw, h1, h2, fun e => h3 ⟨rfl, e⟩⟩
  · intro y hy
    refine hm.par y fun h => ?_
    obtain ⟨p, hp', h⟩ := List.mem_flatMap.1 h
    rcases hy with hy | rfl
    · exact hy ((hW y).2 (.inl ⟨p, hp', h⟩))
    · exact hxk p hp' h
  · intro y hy hyx
    obtain ⟨z, h1, h2⟩ := hm.parK y (List.mem_flatMap.2 (((hW y).1 hy).resolve_right hyx))
    refine ⟨z, (hW z).2 ?_, h1⟩
    rcases h2 with h2 | h2
    · exact .inr h2
    · exact .inl (List.mem_flatMap.1 h2)
  · intro y
    have h3 : y ∈ (if st.parent x = none ∧ 1 < (List.range n).countP (fun i => st.parent i == some x) then x :: st.aps else st.aps) ↔
        (y = x ∧ st.parent x = none ∧ 1 < (List.range n).countP (fun i => st.parent i == some x)) ∨ y ∈ st.aps := by
      split
      · rename_i h
        rw [List.mem_cons]
        exact or_congr ⟨fun e => ⟨e, h⟩, fun e => e.1⟩ Iff.rfl
      · rename_i h
        exact ⟨.inr, fun h' => h'.resolve_left fun h' => h h'.2⟩
    refine h3.trans ?_
    rw [hcount, hpx, List.head?_eq_none_iff, hm.aps y, hW y]
    constructor
    · rintro (⟨rfl, h1, h2⟩ | h | ⟨p, hp', h1, h2⟩ | ⟨rfl, h1, h2⟩)
      · exact .inr ⟨.inr rfl, hcut.2 (.inr ⟨h1, h2⟩)⟩
      · exact .inl h
      · exact .inr ⟨.inl ⟨p, hp', h1⟩, h2⟩
      · exact .inr ⟨.inr rfl, hcut.2 (.inl ⟨h1, h2⟩)⟩
    · rintro (h | ⟨⟨p, hp', h1⟩ | rfl, h2⟩)
      · exact .inr (.inl h)
      · exact .inr (.inr (.inl ⟨p, hp', h1, h2⟩))
      · rcases hcut.1 h2 with h | h
        · exact .inr (.inr (.inr ⟨rfl, h⟩))
        · exact .inl ⟨rfl, h⟩

/-- The whole search from a node. -/
theorem ap_search (hg : ApGraph at_ nb n) : ∀ (k : Nat) {st : ApSt} {x : Nat} {A : List Nat} {K : List ApItem}, n - st.visited.length ≤ k →
    st.stack = .base x :: K → x < n → x ∉ st.visited → ApPre nb n st x A →
    ∃ st' W, ApSteps at_ n st st' ∧ st'.stack = K ∧ ApPost nb n st x A st' W := by
  intro k
  induction k with
  | zero =>
    intro st x A K hk _ hxn hx hp
    have h1 : (x :: st.visited).length ≤ (List.range n).length :=
      (List.nodup_cons.2 ⟨hx, hp.nodup⟩).length_le_of_subset fun u hu => by
        rcases List.mem_cons.1 hu with rfl | hu
        · exact List.mem_range.2 hxn
        · exact List.mem_range.2 (hp.lt u hu)
    rw [List.length_cons, List.length_range] at h1
    omega
  | succ k ih =>
    intro st x A K hk hs hxn hx hp
    -- the neighbors in turn
    have loop : ∀ (cs : List Nat) {st1 : ApSt} {kids : List (Nat × List Nat)} {done : List Nat}, ApMid nb n st x A st1 kids done →
        st1.stack = cs.map (ApItem.child x) ++ .root x :: K → (∀ c ∈ cs, c ∈ nb x) →
        ∃ st2 kids2 done2, ApSteps at_ n st1 st2 ∧ ApMid nb n st x A st2 kids2 done2 ∧ st2.stack = .root x :: K ∧
          ∀ w, w ∈ done2 ↔ w ∈ done ∨ w ∈ cs := by
      intro cs
      induction cs with
      | nil => exact fun {st1 kids done} hm hs1 _ => ⟨st1, kids, done, .refl, hm, hs1, fun w => ⟨.inl, fun h => h.elim id fun h => nomatch h⟩⟩
      | cons c cs ihc =>
        intro st1 kids done hm hs1 hcs
        have hc := hcs c List.mem_cons_self
        have turn : ∃ st2 kids2, ApSteps at_ n st1 st2 ∧ st2.stack = cs.map (ApItem.child x) ++ .root x :: K ∧
            ApMid nb n st x A st2 kids2 (c :: done) := by
          by_cases hv : c ∈ st1.visited
          · obtain ⟨st2, h1, h2, h3⟩ := hm.old hg hxn hp hs1 hc hv
            exact ⟨st2, kids, .head h1 .refl, h2, h3⟩
          · have hstep := ApStep.childNew (at_ := at_) (m := n) hs1 hv (hg.lt x hxn c hc)
            have hlen : n - st1.visited.length ≤ k := by
              rw [hm.vis, List.length_append, List.length_cons]; omega
            obtain ⟨st2, W, h1, h2, h3⟩ := ih (st := { st1 with
              parent := tset st1.parent c (some x), stack := .base c :: .noBack x c :: (cs.map (ApItem.child x) ++ .root x :: K) })
              hlen rfl (hg.lt x hxn c hc) hv (hm.pre hxn hp hc _)
            obtain ⟨st3, h4, h5, h6⟩ := hm.new_kid (at_ := at_) hxn hp hc hv h3 h2
            exact ⟨st3, _, .head hstep (h1.trans (.head h4 .refl)), h5, h6⟩
        obtain ⟨st2, kids2, h1, h2, h3⟩ := turn
        obtain ⟨st3, kids3, done3, h4, h5, h6, h7⟩ := ihc h3 h2 fun c' hc' => hcs c' (List.mem_cons_of_mem _ hc')
        refine ⟨st3, kids3, done3, h1.trans h4, h5, h6, fun w => (h7 w).trans ?_⟩
        rw [List.mem_cons, List.mem_cons]
        constructor
        · rintro ((h | h) | h)
          · exact .inr (.inl h)
          · exact .inl h
          · exact .inr (.inr h)
        · rintro (h | h | h)
          · exact .inl (.inr h)
          · exact .inl (.inl h)
          · exact .inr h
    have hstep := ApStep.base (at_ := at_) (m := n) hs hxn ((hg.lists x hxn _).2 rfl)
    obtain ⟨st2, kids, done, h1, h2, h3, h4⟩ := loop (nb x).reverse
      (ApMid.start hx hp (((nb x).map (ApItem.child x)).reverse ++ .root x :: K)) (by rw [List.map_reverse]) fun c hc => List.mem_reverse.1 hc
    obtain ⟨st3, W, h5, h6, h7⟩ := h2.finish hg hxn hp h3 fun w => by
      rw [h4 w, List.mem_reverse]
      exact ⟨fun h => h.elim (fun h => nomatch h) id, .inr⟩
    exact ⟨st3, W, .head hstep (h1.trans (.head h5 .refl)), h6, h7⟩

/-- A turn goes one way. -/
theorem ApStep.unique (hg : ApGraph at_ nb n) {st : ApSt} {r r' : Res ApSt} (h1 : ApStep at_ n st r) (h2 : ApStep at_ n st r') : r = r' := by
  have hat : ∀ {x l l'}, x < n → at_ x l → at_ x l' → l = l' := fun hx a b => ((hg.lists _ hx _).1 a).trans ((hg.lists _ hx _).1 b).symm
  cases h1 <;> cases h2 <;> simp_all <;> try omega
  rename_i h1 h2 h3 h4 h5 h6
  rw [hat h3 h4 h6]

theorem ApSteps.run {m : Nat} {st st' : ApSt} (h : ApSteps at_ m st st') (he : st'.stack = []) : ApRun at_ m st (.ok st') := by
  induction h with
  | refl => exact .done he
  | head h _ ih => exact .step h (ih he)

theorem ApStep.stack_ne {m : Nat} {st : ApSt} {r : Res ApSt} (h : ApStep at_ m st r) : st.stack ≠ [] := by
  cases h <;> simp_all

theorem ApSteps.run_unique (hg : ApGraph at_ nb n) {st st' : ApSt} (h : ApSteps at_ n st st') (he : st'.stack = []) {r : Res ApSt}
    (hr : ApRun at_ n st r) : r = .ok st' := by
  induction h with
  | refl =>
    cases hr with
    | done _ => rfl
    | step h1 _ => exact absurd he h1.stack_ne
    | fault h1 => exact absurd he h1.stack_ne
  | head h _ ih =>
    cases hr with
    | done h1 => exact absurd h1 h.stack_ne
    | step h1 h2 =>
      have e := Except.ok.inj (h.unique hg h1)
      exact ih he (e ▸ h2)
    | fault h1 => exact nomatch h.unique hg h1

/-- Between the searches. -/
structure ApAll (nb : Nat → List Nat) (n : Nat) (st : ApSt) : Prop where
  lt : ∀ u ∈ st.visited, u < n
  nodup : st.visited.Nodup
  fin : ∀ u ∈ st.visited, ∀ w ∈ nb u, w ∈ st.visited
  time : ∀ u ∈ st.visited, st.disc u < st.time
  par : ∀ y z, st.parent y = some z → y ∈ st.visited ∧ z ∈ st.visited
  aps : ∀ y, y ∈ st.aps ↔ y ∈ st.visited ∧ CutAt nb n y

theorem apInit_all : ApAll nb n apInit where
  lt := fun _ h => nomatch h
  nodup := List.nodup_nil
  fin := fun _ h => nomatch h
  time := fun _ h => nomatch h
  par := fun _ _ h => nomatch h
  aps := fun _ => ⟨fun h => (nomatch h), fun h => (nomatch h.1)⟩

theorem ApAll.search (hg : ApGraph at_ nb n) {st : ApSt} (ha : ApAll nb n st) {i : Nat} (hi : i < n) (hv : i ∉ st.visited) :
    ∃ st', ApSteps at_ n { st with stack := [.base i] } st' ∧ st'.stack = [] ∧ ApAll nb n st' ∧ i ∈ st'.visited ∧
      ∀ u ∈ st.visited, u ∈ st'.visited := by
  have hpi : st.parent i = none := by
    cases h : st.parent i with
    | none => rfl
    | some z => exact absurd (ha.par i z h).1 hv
  obtain ⟨st', W, h1, h2, h3⟩ := ap_search hg _ (st := { st with stack := [.base i] }) (x := i) (A := []) (K := []) (Nat.le_refl _) rfl hi hv
    ⟨ha.lt, ha.nodup, fun _ h => (nomatch h), trivial, fun u hu _ => ha.fin u hu, ha.time, fun y z _ h => (ha.par y z h).1,
      fun y z h => (ha.par y z h).2, hpi⟩
  have hvis : st'.visited = W ++ st.visited := h3.vis
  refine ⟨st', h1, h2, ⟨?_, h3.nodup, ?_, h3.time, ?_, ?_⟩, ?_, ?_⟩
  · intro u hu
    rw [hvis] at hu
    rcases List.mem_append.1 hu with h | h
    · exact h3.lt u h
    · exact ha.lt u h
  · intro u hu w hw
    rw [hvis] at hu ⊢
    rcases List.mem_append.1 hu with h | h
    · rcases h3.nbrs u h w hw with h | h
      · exact List.mem_append_left _ h
      · cases h
    · exact List.mem_append_right _ (ha.fin u h w hw)
  · intro y z h
    rw [hvis]
    by_cases hy : y ∉ W ∨ y = i
    · rw [h3.par y hy] at h
      have := ha.par y z h
      exact ⟨List.mem_append_right _ this.1, List.mem_append_right _ this.2⟩
    · have hyW : y ∈ W := Classical.byContradiction fun h => hy (.inl h)
      obtain ⟨z', h4, h5⟩ := h3.parW y hyW fun e => hy (.inr e)
      rw [h] at h5; cases h5
      exact ⟨List.mem_append_left _ hyW, List.mem_append_left _ h4⟩
  · intro y
    rw [h3.aps y, hvis, List.mem_append]
    have : y ∈ ({ st with stack := [.base i] } : ApSt).aps ↔ y ∈ st.visited ∧ CutAt nb n y := ha.aps y
    rw [this]
    constructor
    · rintro (h | h)
      · exact ⟨.inr h.1, h.2⟩
      · exact ⟨.inl h.1, h.2⟩
    · rintro ⟨h | h, hc⟩
      · exact .inr ⟨h, hc⟩
      · exact .inl ⟨h, hc⟩
  · rw [hvis]; exact List.mem_append_left _ h3.mem
  · intro u hu
    rw [hvis]; exact List.mem_append_right _ hu

/-- The loop over the nodes returns in one way, with the nodes that cut. -/
theorem ap_loop (hg : ApGraph at_ nb n) : ∀ (ids : List Nat) {st : ApSt}, (∀ i ∈ ids, i < n) → ApAll nb n st →
    ∃ st', (∀ r, ApLoop at_ n ids st r ↔ r = .ok st') ∧ ApAll nb n st' ∧ (∀ i ∈ ids, i ∈ st'.visited) ∧ ∀ u ∈ st.visited, u ∈ st'.visited := by
  intro ids
  induction ids with
  | nil =>
    intro st _ ha
    exact ⟨st, fun r => ⟨fun h => by cases h; rfl, fun h => h ▸ .nil⟩, ha, fun _ h => (nomatch h), fun _ h => h⟩
  | cons i ids ih =>
    intro st hids ha
    by_cases hv : i ∈ st.visited
    · obtain ⟨st', h1, h2, h3, h4⟩ := ih (fun j hj => hids j (List.mem_cons_of_mem _ hj)) ha
      refine ⟨st', fun r => ⟨fun h => ?_, fun h => .seen hv ((h1 r).2 h)⟩, h2, fun j hj => ?_, h4⟩
      · cases h with
        | seen _ h => exact (h1 r).1 h
        | run h _ _ => exact absurd hv h
        | fault h _ => exact absurd hv h
      · rcases List.mem_cons.1 hj with rfl | hj
        · exact h4 _ hv
        · exact h3 j hj
    · obtain ⟨st1, h1, h2, h3, h4, h5⟩ := ha.search hg (hids i List.mem_cons_self) hv
      obtain ⟨st', h6, h7, h8, h9⟩ := ih (fun j hj => hids j (List.mem_cons_of_mem _ hj)) h3
      refine ⟨st', fun r => ⟨fun h => ?_, fun h => .run hv (h1.run h2) ((h6 r).2 h)⟩, h7, fun j hj => ?_, fun u hu => h9 u (h5 u hu)⟩
      · cases h with
        | seen h _ => exact absurd h hv
        | run _ h h' =>
          have e := Except.ok.inj (h1.run_unique hg h2 h)
          exact (h6 r).1 (e ▸ h')
        | fault _ h => exact nomatch h1.run_unique hg h2 h
      · rcases List.mem_cons.1 hj with rfl | hj
        · exact h9 _ h4
        · exact h8 j hj

/-- With the nodes numbered `0` to `n - 1`. -/
theorem ap_result (hg : ApGraph at_ nb n) : ∃ st, (∀ r, ApLoop at_ n (List.range' 0 n) apInit r ↔ r = .ok st) ∧
    ∀ y, y ∈ st.aps ↔ y < n ∧ CutAt nb n y := by
  have hr : ∀ i, i ∈ List.range' 0 n ↔ i < n := fun i => by rw [List.mem_range'_1]; omega
  obtain ⟨st, h1, h2, h3, -⟩ := ap_loop hg (List.range' 0 n) (fun i hi => (hr i).1 hi) apInit_all
  exact ⟨st, h1, fun y => (h2.aps y).trans (and_congr ⟨h2.lt y, fun h => h3 y ((hr y).2 h)⟩ Iff.rfl)⟩

/-- With tables that are empty, the first node is out of range. -/
theorem ap_empty {ids : List Nat} (h : ids ≠ []) (r : Res ApSt) : ApLoop at_ 0 ids apInit r ↔ r = .error .panic := by
  obtain ⟨i, ids, rfl⟩ := List.exists_cons_of_ne_nil h
  have hstep : ∀ {r}, ApRun at_ 0 { apInit with stack := [.base i] } r ↔ r = .error .panic := fun {r} => by
    constructor
    · intro h
      cases h with
      | done h => cases h
      | step h _ => cases h <;> simp_all
      | fault h => cases h <;> simp_all
    · rintro rfl
      exact .fault (.basePanic rfl (Nat.not_lt_zero _))
  constructor
  · intro h
    cases h with
    | seen h _ => cases h
    | run _ h _ => exact nomatch hstep.1 h
    | fault _ h => exact hstep.1 h
  · rintro rfl
    exact .fault (fun h => nomatch h) (hstep.2 rfl)

/-- Being joined by numbers is having a way, when steps can be gone back. -/
theorem joined_ways {V : Type} {P : V → Prop} {idx : V → Nat} (hi : Indexed P idx n) {S : Nat → Nat → Prop} {R : V → V → Prop}
    (hS : ∀ i j, S i j → S j i) (hR : ∀ u, P u → ∀ j, S (idx u) j ↔ ∃ t, P t ∧ R u t ∧ idx t = j) (hP : ∀ u t, P u → R u t → P t) {a b : V}
    (ha : P a) (hb : P b) : Joined S (idx a) (idx b) ↔ Ways R a b := by
  constructor
  · intro h
    have hQ : ∀ i j, S i j → (∃ t, P t ∧ idx t = i ∧ Ways R a t) → ∃ t, P t ∧ idx t = j ∧ Ways R a t := by
      rintro i j hij ⟨t, ht, rfl, hw⟩
      obtain ⟨t', h1, h2, h3⟩ := (hR t ht j).1 hij
      exact ⟨t', h1, h3, hw.step h2⟩
    obtain ⟨t, ht, e, hw⟩ := (joined_iff_of (P := fun i => ∃ t, P t ∧ idx t = i ∧ Ways R a t)
      (fun i j h => ⟨hQ i j h, hQ j i (hS i j h)⟩) h).1 ⟨a, ha, rfl, .nil⟩
    rw [← hi.inj ht hb e]
    exact hw
  · intro h
    have key : P b ∧ Joined S (idx a) (idx b) := by
      clear hb
      induction h with
      | nil => exact ⟨ha, .refl⟩
      | step _ h ih =>
        have := hP _ _ ih.1 h
        exact ⟨this, ih.2.trans (.edge ((hR _ ih.1 _).2 ⟨_, this, h, rfl⟩))⟩
    exact key.2

/-- The nodes that cut, by number and themselves. -/
theorem cutAt_iff (hg : ApGraph at_ nb n) {V : Type} {P : V → Prop} {idx : V → Nat} (hi : Indexed P idx n) {R : V → V → Prop}
    (hP : ∀ u t, P u → R u t → P t) (hnb : ∀ u, P u → ∀ j, j ∈ nb (idx u) ↔ ∃ t, R u t ∧ idx t = j) {c : V} (hc : P c) :
    CutAt nb n (idx c) ↔ ∃ a b, P a ∧ P b ∧ a ≠ c ∧ b ≠ c ∧ Ways R a b ∧ ¬ Ways (Around R c) a b := by
  have hsym : ∀ i j, Nb nb n i j → Nb nb n j i := fun i j h => ⟨hg.lt _ h.1 _ h.2, hg.symm _ h.1 _ h.2⟩
  have hne : ∀ {u}, P u → (idx u = idx c ↔ u = c) := fun hu => ⟨hi.inj hu hc, fun e => by rw [e]⟩
  have h1 : ∀ {a b}, P a → P b → (Joined (Nb nb n) (idx a) (idx b) ↔ Ways R a b) := fun ha hb =>
    joined_ways hi hsym (fun u hu j => by
      unfold Nb
      rw [hnb u hu j]
      exact ⟨fun ⟨_, t, h1, h2⟩ => ⟨t, hP u t hu h1, h1, h2⟩, fun ⟨t, _, h1, h2⟩ => ⟨hi.lt hu, t, h1, h2⟩⟩) hP ha hb
  have h2 : ∀ {a b}, P a → P b → (Joined (Around (Nb nb n) (idx c)) (idx a) (idx b) ↔ Ways (Around R c) a b) := fun ha hb =>
    joined_ways hi (fun i j h => ⟨hsym i j h.1, h.2.2, h.2.1⟩) (fun u hu j => by
      unfold Around Nb
      rw [hnb u hu j]
      constructor
      · rintro ⟨⟨-, t, h1, rfl⟩, h2, h3⟩
        have ht := hP u t hu h1
        exact ⟨t, ht, ⟨h1, fun e => h2 ((hne hu).2 e), fun e => h3 ((hne ht).2 e)⟩, rfl⟩
      · rintro ⟨t, ht, ⟨h1, h2, h3⟩, rfl⟩
        exact ⟨⟨hi.lt hu, t, h1, rfl⟩, fun e => h2 ((hne hu).1 e), fun e => h3 ((hne ht).1 e)⟩) (fun u t hu h => hP u t hu h.1) ha hb
  constructor
  · rintro ⟨i, j, hix, hjx, hj, hn⟩
    have hij : i ≠ j := fun e => hn (e ▸ .refl)
    have lt : ∀ {i j}, Joined (Nb nb n) i j → i ≠ j → i < n := fun {i j} hj hij =>
      Classical.byContradiction fun hlt => hij ((joined_iff_of (P := fun y => i = y)
        (fun y z h => ⟨fun e => absurd (e ▸ h.1) hlt, fun e => absurd (e ▸ (hsym _ _ h).1) hlt⟩) hj).1 rfl)
    obtain ⟨a, ha, rfl⟩ := hi.onto (lt hj hij)
    obtain ⟨b, hb, rfl⟩ := hi.onto (lt hj.symm (Ne.symm hij))
    exact ⟨a, b, ha, hb, fun e => hix (by rw [e]), fun e => hjx (by rw [e]), (h1 ha hb).1 hj, fun h => hn ((h2 ha hb).2 h)⟩
  · rintro ⟨a, b, ha, hb, hac, hbc, hw, hn⟩
    exact ⟨idx a, idx b, fun e => hac ((hne ha).1 e), fun e => hbc ((hne hb).1 e), (h1 ha hb).2 hw, fun h => hn ((h2 ha hb).1 h)⟩
end
end LG
