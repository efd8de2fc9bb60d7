import Verif.Model.Search
import Verif.Props.History
import Verif.Props.Distance
/- C64: breadth-first and depth-first search over the crate's graphs. -/
set_option linter.unusedSectionVars false
namespace LG
section
variable {C A D : Type} [DecidableEq C] {L : Lat C A D}

/-! ### Moves inside the graph -/

/-- The moves that stay in the graph. -/
def inner (L : Lat C A D) : Lat C A D := { L with nbr := fun c d => (L.nbr c d).filter (· ∈ L.nodes) }

theorem inner_node {c : C} : (inner L).Node c ↔ L.Node c := Iff.rfl

theorem inner_nbr {c t : C} {d : D} : (inner L).nbr c d = some t ↔ L.nbr c d = some t ∧ L.Node t := by
  simp only [inner, Option.filter_eq_some_iff, decide_eq_true_eq, Lat.mem_nodes]

theorem inner_nbr_node {c t : C} {d : D} (_ : (inner L).Node c) (h : (inner L).nbr c d = some t) : (inner L).Node t :=
  (inner_nbr.1 h).2

theorem inner_nbrs {x c : C} : c ∈ (inner L).nbrs x ↔ c ∈ L.nbrs x ∧ L.Node c := by
  unfold Lat.nbrs
  simp only [List.mem_filterMap, inner_nbr]
  constructor
  · rintro ⟨d, h1, h2, h3⟩; exact ⟨⟨d, h1, h2⟩, h3⟩
  · rintro ⟨⟨d, h1, h2⟩, h3⟩; exact ⟨d, h1, h2, h3⟩

theorem Path.inner_node {a b : C} {n : Nat} (ha : L.Node a) (h : Path (inner L) a n b) : L.Node b := by
  cases h with
  | nil => exact ha
  | step _ hd => exact (inner_nbr.1 hd).2

end

section
variable {C A D N E : Type} [DecidableEq C] [DecidableEq A] [DecidableEq D]
variable {g : Graph C A D N E} {s : Shape C A D} {L : Lat C A D} {rep : C → Prop} {k : Contents C A N E}

/-! ### Distances -/

theorem least_exists {p : Nat → Prop} : ∀ n, p n → ∃ d, p d ∧ ∀ m, p m → d ≤ m := by
  intro n
  induction n using Nat.strongRecOn with
  | ind n ih =>
    intro h
    by_cases hlt : ∃ m, m < n ∧ p m
    · obtain ⟨m, h1, h2⟩ := hlt
      exact ih m h1 h2
    · exact ⟨n, h, fun m hm => Nat.le_of_not_lt fun hlt' => hlt ⟨m, hlt', hm⟩⟩

/-- `δ` is the number of steps from `a` on the coordinates `R`. -/
structure HopDist (L : Lat C A D) (R : C → Prop) (a : C) (δ : C → Nat) : Prop where
  zero : ∀ {c}, R c → δ c = 0 → c = a
  step : ∀ {x y}, R x → y ∈ L.nbrs x → δ y ≤ δ x + 1
  pred : ∀ {y n}, R y → δ y = n + 1 → ∃ x, R x ∧ δ x = n ∧ y ∈ L.nbrs x
  start : δ a = 0
  short : ∀ {c}, R c → Path L a (δ c) c ∧ ∀ n, Path L a n c → δ c ≤ n

theorem hopDist_exists (hs : Sound s L rep) (hb : Built s L g k) {a : C} (ha : L.Node a) : ∃ δ, HopDist L L.Node a δ := by
  have hl := hs.lawful
  have hex : ∀ c, L.Node c → ∃ d, Path L a d c ∧ ∀ n, Path L a n c → d ≤ n := fun c hc => by
    obtain ⟨n, -, hw⟩ := c40_connected hs hb ha hc
    exact least_exists n (hw.path hl hb ha)
  have hall : ∀ c, ∃ d, L.Node c → Path L a d c ∧ ∀ n, Path L a n c → d ≤ n := fun c => by
    by_cases hc : L.Node c
    · obtain ⟨d, h⟩ := hex c hc; exact ⟨d, fun _ => h⟩
    · exact ⟨0, fun h => absurd h hc⟩
  refine ⟨fun c => Classical.choose (hall c), ?_, ?_, ?_, ?_, ?_⟩
  · intro c hc h0
    have := (Classical.choose_spec (hall c) hc).1
    rw [h0] at this
    cases this
    rfl
  · intro x y hx hy
    obtain ⟨d, -, hd⟩ := List.mem_filterMap.1 hy
    exact (Classical.choose_spec (hall y) (hl.laws.nbr_node hx hd)).2 _ (.step (Classical.choose_spec (hall x) hx).1 hd)
  · intro y n hy h1
    have hp := (Classical.choose_spec (hall y) hy).1
    rw [h1] at hp
    cases hp with
    | @step _ x _ d hp hd =>
      have hx := hp.node hl.laws ha
      have hm : y ∈ L.nbrs x := List.mem_filterMap.2 ⟨d, hl.laws.dir.dirs_mem d, hd⟩
      refine ⟨x, hx, ?_, hm⟩
      have e1 := (Classical.choose_spec (hall x) hx).2 _ hp
      have e2 := (Classical.choose_spec (hall y) hy).2 _ (.step (Classical.choose_spec (hall x) hx).1 hd)
      rw [h1] at e2
      omega
  · exact Nat.le_zero.1 ((Classical.choose_spec (hall a) ha).2 _ .nil)
  · intro c hc
    exact Classical.choose_spec (hall c) hc

/-! ### The visit map during a search -/

theorem visit_base (hi : ImplBase s L rep) (hl : LatBase L) {vm : VisMap C A D} {S : C → Bool} (hv : VisInv s L vm S)
    {c : C} (hn : L.Node c) :
    ∃ vm', vm.visit c = .ok (!S c, vm') ∧ VisInv s L vm' (fun c' => if c' = c then true else S c') := by
  obtain ⟨o, vm', h1, h2, h3⟩ := vexec_base hi hl hv (op := .visit c) (.inl hn)
  have hm := Lat.mem_nodes.2 hn
  simp only [vspec, hm, if_true] at h2 h3
  exact ⟨vm', by rw [← h3]; exact h1, h2⟩

/-- A coordinate outside the graph is never new. -/
theorem visit_off (hi : ImplBase s L rep) (hl : LatBase L) {vm : VisMap C A D} {S : C → Bool} (hv : VisInv s L vm S)
    {c : C} (hr : rep c) (hn : ¬ L.Node c) : ∃ vm', vm.visit c = .ok (false, vm') ∧ VisInv s L vm' S := by
  obtain ⟨o, vm', h1, h2, h3⟩ := vexec_base hi hl hv (op := .visit c) (.inr hr)
  have hm : c ∉ L.nodes := fun h => hn (Lat.mem_nodes.1 h)
  simp only [vspec, hm, if_false] at h2 h3
  exact ⟨vm', by rw [← h3]; exact h1, h2⟩

theorem isVisited_base (hi : ImplBase s L rep) (hl : LatBase L) {vm : VisMap C A D} {S : C → Bool} (hv : VisInv s L vm S)
    {c : C} (hn : L.Node c ∨ rep c) : vm.isVisited c = .ok (S c) := by
  obtain ⟨o, vm', h1, -, h3⟩ := vexec_base hi hl hv (op := .isVisited c) hn
  simp only [vspec] at h3
  subst h3
  simp only [vexec, bind, Except.bind] at h1
  split at h1
  · cases h1
  · rename_i h; cases h1; exact h

theorem visit_eq (hs : Lawful s L rep) (hc : Constructible s) {vm : VisMap C A D} {S : C → Bool} (hv : VisInv s L vm S)
    {c : C} (hn : L.Node c) :
    ∃ vm', vm.visit c = .ok (!S c, vm') ∧ VisInv s L vm' (fun c' => if c' = c then true else S c') :=
  visit_base (hs.impl hc).toImplBase hs.laws hv hn

theorem isVisited_eq (hs : Lawful s L rep) (hc : Constructible s) {vm : VisMap C A D} {S : C → Bool} (hv : VisInv s L vm S)
    {c : C} (hn : L.Node c) : vm.isVisited c = .ok (S c) :=
  isVisited_base (hs.impl hc).toImplBase hs.laws hv (.inl hn)

theorem discover_base (hi : ImplBase s L rep) (hb : LatBase L) : ∀ (l : List C) {vm : VisMap C A D} {S : C → Bool},
    VisInv s L vm S → (∀ c ∈ l, L.Node c ∨ rep c) →
    ∃ new vm' S', discover vm l = .ok (new, vm') ∧ VisInv s L vm' S' ∧ new.Nodup ∧
      (∀ c, c ∈ new ↔ (c ∈ l ∧ L.Node c) ∧ S c = false) ∧ (∀ c, S' c = true ↔ S c = true ∨ c ∈ l ∧ L.Node c)
  | [], vm, S, hv, _ => ⟨[], vm, S, rfl, hv, List.nodup_nil, by simp, by simp⟩
  | c :: l, vm, S, hv, hl => by
    by_cases hcn : L.Node c
    · obtain ⟨vm1, h1, h2⟩ := visit_base hi hb hv hcn
      obtain ⟨new, vm2, S', h3, h4, h5, h6, h7⟩ := discover_base hi hb l h2 (fun c h => hl c (List.mem_cons_of_mem _ h))
      refine ⟨if !S c then c :: new else new, vm2, S', ?_, h4, ?_, ?_, ?_⟩
      · simp only [discover, h1, h3, bind, Except.bind]
      · cases hS : S c with
        | true => simpa using h5
        | false =>
          simp only [Bool.not_false, if_true, List.nodup_cons, h5, and_true]
          intro hm
          have := ((h6 c).1 hm).2
          simp at this
      · intro c'
        by_cases he : c' = c
        · subst he
          cases hS : S c' with
          | true => simp [h6]
          | false => simp [hcn]
        · cases hS : S c with
          | true => simp [h6, he]
          | false => simp [h6, he]
      · intro c'
        rw [h7]
        by_cases he : c' = c
        · simp [he, hcn]
        · simp [he]
    · obtain ⟨vm1, h1, h2⟩ := visit_off hi hb hv ((hl c (by simp)).resolve_left hcn) hcn
      obtain ⟨new, vm2, S', h3, h4, h5, h6, h7⟩ := discover_base hi hb l h2 (fun c h => hl c (List.mem_cons_of_mem _ h))
      have e : ∀ c', c' ∈ c :: l ∧ L.Node c' ↔ c' ∈ l ∧ L.Node c' := fun c' => by
        rw [List.mem_cons]
        exact ⟨fun h => ⟨h.1.resolve_left fun he => hcn (he ▸ h.2), h.2⟩, fun h => ⟨.inr h.1, h.2⟩⟩
      refine ⟨new, vm2, S', ?_, h4, h5, fun c' => by rw [h6, e], fun c' => by rw [h7, e]⟩
      simp only [discover, h1, h3, bind, Except.bind, Bool.false_eq_true, if_false]

theorem discover_eq (hs : Lawful s L rep) (hc : Constructible s) (l : List C) {vm : VisMap C A D} {S : C → Bool}
    (hv : VisInv s L vm S) (hl : ∀ c ∈ l, L.Node c) :
    ∃ new vm' S', discover vm l = .ok (new, vm') ∧ VisInv s L vm' S' ∧ new.Nodup ∧
      (∀ c, c ∈ new ↔ c ∈ l ∧ S c = false) ∧ (∀ c, S' c = true ↔ S c = true ∨ c ∈ l) := by
  obtain ⟨new, vm', S', h1, h2, h3, h4, h5⟩ :=
    discover_base (hs.impl hc).toImplBase hs.laws l hv (fun c h => .inl (hl c h))
  have e : ∀ c, c ∈ l ∧ L.Node c ↔ c ∈ l := fun c => ⟨fun h => h.1, fun h => ⟨h, hl c h⟩⟩
  exact ⟨new, vm', S', h1, h2, h3, fun c => by rw [h4, e], fun c => by rw [h5, e]⟩

/-! ### Breadth-first search -/

/-- After returning `O`, with queue `Q` and visited set `S`. -/
structure BfsInv (L : Lat C A D) (R : C → Prop) (a : C) (δ : C → Nat) (O Q : List C) (S : C → Bool) : Prop where
  nodup : (O ++ Q).Nodup
  vis : ∀ c, S c = true ↔ c ∈ O ++ Q
  node : ∀ c ∈ O ++ Q, R c
  closed : ∀ x ∈ O, ∀ y ∈ L.nbrs x, y ∈ O ++ Q
  sorted : (O ++ Q).Pairwise (fun x y => δ x ≤ δ y)
  near : ∀ x q, Q = x :: q → ∀ y ∈ q, δ y ≤ δ x + 1
  start : a ∈ O ++ Q

theorem BfsInv.below {R : C → Prop} {a : C} {δ : C → Nat} (hδ : HopDist L R a δ) {O q : List C} {x : C} {S : C → Bool}
    (hv : BfsInv L R a δ O (x :: q) S) : ∀ n p, R p → δ p = n → n < δ x → p ∈ O := by
  have hO : ∀ p, p ∈ O ++ x :: q → δ p < δ x → p ∈ O := fun p hp hlt => by
    rcases List.mem_append.1 hp with h | h
    · exact h
    · rcases List.mem_cons.1 h with rfl | h
      · omega
      · have := (List.pairwise_append.1 hv.sorted).2.1
        have := (List.pairwise_cons.1 this).1 p h
        omega
  intro n
  induction n with
  | zero =>
    intro p hp h0 hlt
    rw [hδ.zero hp h0]
    exact hO _ hv.start (by rw [hδ.start]; omega)
  | succ n ih =>
    intro p hp h1 hlt
    obtain ⟨y, hy, h2, h3⟩ := hδ.pred hp h1
    exact hO _ (hv.closed y (ih y hy h2 (by omega)) p h3) (by omega)

theorem BfsInv.step {R : C → Prop} {a : C} {δ : C → Nat} (hl : ∀ {c d t}, R c → L.nbr c d = some t → R t) (hδ : HopDist L R a δ) {O q new : List C} {x : C}
    {S S' : C → Bool} (hv : BfsInv L R a δ O (x :: q) S) (hnd : new.Nodup)
    (hnew : ∀ c, c ∈ new ↔ c ∈ L.nbrs x ∧ S c = false) (hS : ∀ c, S' c = true ↔ S c = true ∨ c ∈ L.nbrs x) :
    BfsInv L R a δ (O ++ [x]) (q ++ new) S' := by
  have hx : R x := hv.node x (by simp)
  have hnb : ∀ y ∈ L.nbrs x, R y := fun y hy => by
    obtain ⟨d, -, hd⟩ := List.mem_filterMap.1 hy
    exact hl hx hd
  have hnot : ∀ y ∈ new, y ∉ O ++ x :: q := fun y hy hm => by
    have := (hv.vis y).2 hm
    rw [((hnew y).1 hy).2] at this
    cases this
  have hdist : ∀ y ∈ new, δ y = δ x + 1 := fun y hy => by
    have h1 := hδ.step hx ((hnew y).1 hy).1
    have hyn := hnb y ((hnew y).1 hy).1
    rcases Nat.lt_or_ge (δ x) (δ y) with h | h
    · omega
    · exfalso
      cases hy0 : δ y with
      | zero => exact hnot y hy (hδ.zero hyn hy0 ▸ hv.start)
      | succ n =>
        obtain ⟨p, hp, h2, h3⟩ := hδ.pred hyn hy0
        exact hnot y hy (hv.closed p (hv.below hδ n p hp h2 (by omega)) y h3)
  have hle : ∀ u ∈ O ++ x :: q, δ u ≤ δ x + 1 := fun u hu => by
    rcases List.mem_append.1 hu with h | h
    · have := (List.pairwise_append.1 hv.sorted).2.2 u h x (by simp)
      omega
    · rcases List.mem_cons.1 h with rfl | h
      · omega
      · exact hv.near x q rfl u h
  have heq : (O ++ [x]) ++ (q ++ new) = (O ++ x :: q) ++ new := by simp
  have hmem : ∀ c, c ∈ (O ++ [x]) ++ (q ++ new) ↔ c ∈ O ++ x :: q ∨ c ∈ new := fun c => by
    rw [heq]; exact List.mem_append
  have hin : ∀ y ∈ L.nbrs x, y ∈ O ++ x :: q ∨ y ∈ new := fun y hy => by
    cases hSy : S y with
    | true => exact .inl ((hv.vis y).1 hSy)
    | false => exact .inr ((hnew y).2 ⟨hy, hSy⟩)
  refine ⟨?_, ?_, ?_, ?_, ?_, ?_, ?_⟩
  · rw [heq, List.nodup_append]
    refine ⟨hv.nodup, hnd, ?_⟩
    rintro u hu y hy rfl
    exact hnot u hy hu
  · intro c
    rw [hmem, hS, hv.vis]
    constructor
    · rintro (h | h)
      · exact .inl h
      · exact hin c h
    · rintro (h | h)
      · exact .inl h
      · exact .inr ((hnew c).1 h).1
  · intro c hc
    rcases (hmem c).1 hc with h | h
    · exact hv.node c h
    · exact hnb c ((hnew c).1 h).1
  · intro u hu y hy
    rw [hmem]
    rcases List.mem_append.1 hu with h | h
    · exact .inl (hv.closed u h y hy)
    · rw [List.mem_singleton] at h
      subst h
      exact hin y hy
  · rw [heq, List.pairwise_append]
    refine ⟨hv.sorted, ?_, fun u hu y hy => by rw [hdist y hy]; exact hle u hu⟩
    exact List.pairwise_iff_forall_sublist.2 fun {u v} hsub => by
      rw [hdist u (hsub.subset (by simp)), hdist v (hsub.subset (by simp))]
      exact Nat.le_refl _
  · intro z q' hq y hy
    have hy' : y ∈ q ++ new := by rw [hq]; exact List.mem_cons_of_mem _ hy
    have hyle : δ y ≤ δ x + 1 := by
      rcases List.mem_append.1 hy' with h | h
      · exact hle y (by simp [h])
      · rw [hdist y h]; exact Nat.le_refl _
    have hz : z ∈ q ++ new := by rw [hq]; simp
    have hzge : δ x ≤ δ z := by
      rcases List.mem_append.1 hz with h | h
      · exact (List.pairwise_cons.1 (List.pairwise_append.1 hv.sorted).2.1).1 z h
      · rw [hdist z h]; omega
    omega
  · rw [hmem]
    exact .inl hv.start

theorem BfsInv.all {R : C → Prop} {a : C} {δ : C → Nat} (hδ : HopDist L R a δ) {O : List C} {S : C → Bool}
    (hv : BfsInv L R a δ O [] S) : ∀ n c, R c → δ c = n → c ∈ O := by
  have hst := hv.start
  have hcl := hv.closed
  simp only [List.append_nil] at hst hcl
  intro n
  induction n with
  | zero => intro c hc h0; rw [hδ.zero hc h0]; exact hst
  | succ n ih =>
    intro c hc h1
    obtain ⟨y, hy, h2, h3⟩ := hδ.pred hc h1
    exact hcl y (ih y hy h2) c h3

theorem bfs_run (hs : Lawful s L rep) (hb : Built s L g k) {a : C} {δ : C → Nat} (hδ : HopDist L L.Node a δ) :
    ∀ (n : Nat) (O Q : List C) (vm : VisMap C A D) (S : C → Bool), VisInv s L vm S → BfsInv L L.Node a δ O Q S →
      L.nodes.length ≤ O.length + n →
      ∃ l, BfsRun g ⟨Q, vm⟩ l ∧ (O ++ l).Nodup ∧ (∀ c, c ∈ O ++ l ↔ L.Node c) ∧
        (O ++ l).Pairwise (fun x y => δ x ≤ δ y) := by
  have hg := hb.good hs
  intro n
  induction n with
  | zero =>
    intro O Q vm S hvm hv hlen
    have hsub : (O ++ Q).length ≤ L.nodes.length :=
      hv.nodup.length_le_of_subset fun c hc => Lat.mem_nodes.2 (hv.node c hc)
    rw [List.length_append] at hsub
    have hQ : Q = [] := List.length_eq_zero_iff.1 (by omega)
    subst hQ
    refine ⟨[], .done, hv.nodup, fun c => ⟨hv.node c, fun hc => ?_⟩, hv.sorted⟩
    rw [List.append_nil]
    exact hv.all hδ _ c hc rfl
  | succ n ih =>
    intro O Q vm S hvm hv hlen
    cases Q with
    | nil =>
      refine ⟨[], .done, hv.nodup, fun c => ⟨hv.node c, fun hc => ?_⟩, hv.sorted⟩
      rw [List.append_nil]
      exact hv.all hδ _ c hc rfl
    | cons x q =>
      have hx : L.Node x := hv.node x (by simp)
      have hnb : ∀ y ∈ L.nbrs x, L.Node y := fun y hy => by
        obtain ⟨d, -, hd⟩ := List.mem_filterMap.1 hy
        exact hs.laws.nbr_node hx hd
      obtain ⟨new, vm', S', h1, h2, h3, h4, h5⟩ := discover_eq hs hg.constructible (L.nbrs x) hvm hnb
      have hv' := hv.step hs.laws.nbr_node hδ h3 h4 h5
      obtain ⟨l, h6, h7, h8, h9⟩ := ih (O ++ [x]) (q ++ new) vm' S' h2 hv' (by simp only [List.length_append, List.length_singleton]; omega)
      refine ⟨x :: l, .next (c07_neighbors hs hb hx) h1 h6, ?_, ?_, ?_⟩
      · simpa using h7
      · simpa using h8
      · simpa using h9

theorem BfsRun.unique {b : Bfs C A D} {l l' : List C} (h : BfsRun g b l) (h' : BfsRun g b l') : l = l' := by
  induction h generalizing l' with
  | done => cases h'; rfl
  | next h1 h2 _ ih =>
    cases h' with
    | next h1' h2' h3' =>
      have := h1.unique h1'
      subst this
      rw [h2] at h2'
      cases h2'
      rw [ih h3']

/-- **C64**, breadth first. A breadth-first search from any node runs without fault to its end, returns every node exactly
once, the start first, and in the order of the distance from the start. -/
theorem c64_bfs (hs : Sound s L rep) (hb : Built s L g k) {a : C} (ha : L.Node a) :
    ∃ b l, bfsNew g a = .ok b ∧ (∀ l', BfsRun g b l' ↔ l' = l) ∧ l.Nodup ∧ (∀ c, c ∈ l ↔ L.Node c) ∧ l.head? = some a ∧
      l.Pairwise fun x y => ∃ n m, ShortestWalk g.s a x n ∧ ShortestWalk g.s a y m ∧ n ≤ m := by
  have hl := hs.lawful
  have hg := hb.good hl
  obtain ⟨δ, hδ⟩ := hopDist_exists hs hb ha
  obtain ⟨vm, h1, h2⟩ := visit_eq hl hg.constructible (VisInv.new hl) ha
  have hinv : BfsInv L L.Node a δ [] [a] (fun c' => if c' = a then true else false) := by
    refine ⟨by simp, by simp, ?_, by simp, by simp, ?_, by simp⟩
    · intro c hc; simp at hc; rw [hc]; exact ha
    · intro x q h y hy; simp at h; rw [h.2] at hy; simp at hy
  obtain ⟨l, h3, h4, h5, h6⟩ := bfs_run hl hb hδ L.nodes.length [] [a] vm _ h2 hinv (by simp)
  refine ⟨⟨[a], vm⟩, l, ?_, fun l' => ⟨fun h => h.unique h3, fun h => h ▸ h3⟩, by simpa using h4, by simpa using h5, ?_, ?_⟩
  · simp only [bfsNew, hg.shape, h1, bind, Except.bind]
  · cases h3; rfl
  · simp only [List.nil_append] at h5 h6
    have hw : ∀ c, L.Node c → ShortestWalk g.s a c (δ c) := fun c hc =>
      ⟨(hδ.short hc).1.walk hl hb ha, fun n h => (hδ.short hc).2 n (h.path hl hb ha)⟩
    refine List.Pairwise.imp_of_mem ?_ h6
    intro x y hx hy hxy
    exact ⟨_, _, hw x ((h5 x).1 hx), hw y ((h5 y).1 hy), hxy⟩

/-! ### Depth-first search -/

/-- After returning `O`, with stack `st` and visited set `S`. -/
structure DfsInv (L : Lat C A D) (a : C) (O st : List C) (S : C → Bool) : Prop where
  nodup : O.Nodup
  vis : ∀ c, S c = true ↔ c ∈ O
  node : ∀ c, c ∈ O ∨ c ∈ st → L.Node c
  closed : ∀ x ∈ O, ∀ y ∈ L.nbrs x, y ∈ O ∨ y ∈ st
  start : a ∈ O ∨ a ∈ st

theorem pushUnvisited_eq (hs : Lawful s L rep) (hc : Constructible s) {vm : VisMap C A D} {S : C → Bool}
    (hv : VisInv s L vm S) : ∀ (l st : List C), (∀ c ∈ l, L.Node c) →
    ∃ st', pushUnvisited vm l st = .ok st' ∧ ∀ c, c ∈ st' ↔ c ∈ st ∨ c ∈ l ∧ S c = false
  | [], st, _ => ⟨st, rfl, by simp⟩
  | c :: l, st, hl => by
    have h1 := isVisited_eq hs hc hv (hl c (by simp))
    cases hS : S c with
    | true =>
      obtain ⟨st', h2, h3⟩ := pushUnvisited_eq hs hc hv l st (fun c h => hl c (List.mem_cons_of_mem _ h))
      refine ⟨st', by simp only [pushUnvisited, h1, hS, bind, Except.bind, if_true, h2], fun c' => ?_⟩
      rw [h3]
      by_cases he : c' = c
      · subst he; simp [hS]
      · simp [he]
    | false =>
      obtain ⟨st', h2, h3⟩ := pushUnvisited_eq hs hc hv l (c :: st) (fun c h => hl c (List.mem_cons_of_mem _ h))
      refine ⟨st', by simp only [pushUnvisited, h1, hS, bind, Except.bind, Bool.false_eq_true, if_false, h2], fun c' => ?_⟩
      rw [h3]
      by_cases he : c' = c
      · subst he; simp [hS]
      · simp [he]

theorem DfsInv.all {a : C} {δ : C → Nat} (hδ : HopDist L L.Node a δ) {O : List C} {S : C → Bool}
    (hv : DfsInv L a O [] S) : ∀ n c, L.Node c → δ c = n → c ∈ O := by
  have hst := hv.start
  have hcl := hv.closed
  simp only [List.not_mem_nil, or_false] at hst hcl
  intro n
  induction n with
  | zero => intro c hc h0; rw [hδ.zero hc h0]; exact hst
  | succ n ih =>
    intro c hc h1
    obtain ⟨y, hy, h2, h3⟩ := hδ.pred hc h1
    exact hcl y (ih y hy h2) c h3

theorem dfs_run (hs : Lawful s L rep) (hb : Built s L g k) {a : C} {δ : C → Nat} (hδ : HopDist L L.Node a δ) :
    ∀ (n : Nat) (st O : List C) (vm : VisMap C A D) (S : C → Bool), VisInv s L vm S → DfsInv L a O st S →
      L.nodes.length < O.length + n → ∃ l, DfsRun g ⟨st, vm⟩ l ∧ (O ++ l).Nodup ∧ ∀ c, c ∈ O ++ l ↔ L.Node c := by
  have hg := hb.good hs
  intro n
  induction n with
  | zero =>
    intro st O vm S _ hv hlen
    have := hv.nodup.length_le_of_subset fun c hc => Lat.mem_nodes.2 (hv.node c (.inl hc))
    omega
  | succ n ih =>
    intro st
    induction st with
    | nil =>
      intro O vm S hvm hv hlen
      refine ⟨[], .done, by simpa using hv.nodup, fun c => ⟨fun hc => hv.node c (.inl (by simpa using hc)), fun hc => ?_⟩⟩
      rw [List.append_nil]
      exact hv.all hδ _ c hc rfl
    | cons x st ihst =>
      intro O vm S hvm hv hlen
      have hx : L.Node x := hv.node x (.inr (by simp))
      obtain ⟨vm', h1, h2⟩ := visit_eq hs hg.constructible hvm hx
      cases hS : S x with
      | true =>
        have hxO := (hv.vis x).1 hS
        have hS' : (fun c' => if c' = x then true else S c') = S := by
          funext c'
          by_cases he : c' = x <;> simp [he, hS]
        rw [hS'] at h2
        rw [hS] at h1
        have hv' : DfsInv L a O st S := by
          refine ⟨hv.nodup, hv.vis, fun c hc => hv.node c (hc.imp id (List.mem_cons_of_mem _)), fun u hu y hy => ?_, ?_⟩
          · rcases hv.closed u hu y hy with h | h
            · exact .inl h
            · rcases List.mem_cons.1 h with rfl | h
              · exact .inl hxO
              · exact .inr h
          · rcases hv.start with h | h
            · exact .inl h
            · rcases List.mem_cons.1 h with rfl | h
              · exact .inl hxO
              · exact .inr h
        obtain ⟨l, h3, h4⟩ := ihst O vm' S h2 hv' hlen
        exact ⟨l, .skip h1 h3, h4⟩
      | false =>
        rw [hS] at h1
        have hnb : ∀ y ∈ L.nbrs x, L.Node y := fun y hy => by
          obtain ⟨d, -, hd⟩ := List.mem_filterMap.1 hy
          exact hs.laws.nbr_node hx hd
        have hxO : x ∉ O := fun h => by rw [(hv.vis x).2 h] at hS; cases hS
        obtain ⟨st', h3, h4⟩ := pushUnvisited_eq hs hg.constructible h2 (L.nbrs x) st hnb
        have hv' : DfsInv L a (O ++ [x]) st' (fun c' => if c' = x then true else S c') := by
          refine ⟨?_, ?_, ?_, ?_, ?_⟩
          · rw [List.nodup_append]
            refine ⟨hv.nodup, by simp, ?_⟩
            rintro u hu y hy rfl
            rw [List.mem_singleton] at hy
            exact hxO (hy ▸ hu)
          · intro c
            by_cases he : c = x
            · simp [he]
            · simp [he, hv.vis]
          · intro c hc
            rcases hc with h | h
            · rcases List.mem_append.1 h with h | h
              · exact hv.node c (.inl h)
              · rw [List.mem_singleton] at h; rw [h]; exact hx
            · rcases (h4 c).1 h with h | h
              · exact hv.node c (.inr (List.mem_cons_of_mem _ h))
              · exact hnb c h.1
          · intro u hu y hy
            rcases List.mem_append.1 hu with h | h
            · rcases hv.closed u h y hy with h | h
              · exact .inl (List.mem_append_left _ h)
              · rcases List.mem_cons.1 h with rfl | h
                · exact .inl (by simp)
                · exact .inr ((h4 y).2 (.inl h))
            · rw [List.mem_singleton] at h
              subst h
              by_cases hyu : y = u
              · exact .inl (by simp [hyu])
              · cases hSy : S y with
                | true => exact .inl (List.mem_append_left _ ((hv.vis y).1 hSy))
                | false => exact .inr ((h4 y).2 (.inr ⟨hy, by simp [hyu, hSy]⟩))
          · rcases hv.start with h | h
            · exact .inl (List.mem_append_left _ h)
            · rcases List.mem_cons.1 h with rfl | h
              · exact .inl (by simp)
              · exact .inr ((h4 a).2 (.inl h))
        obtain ⟨l, h5, h6, h7⟩ := ih st' (O ++ [x]) vm' _ h2 hv' (by
          simp only [List.length_append, List.length_singleton]; omega)
        exact ⟨x :: l, .next h1 (c07_neighbors hs hb hx) h3 h5, by simpa using h6, by simpa using h7⟩

theorem DfsRun.unique {b : Dfs C A D} {l l' : List C} (h : DfsRun g b l) (h' : DfsRun g b l') : l = l' := by
  induction h generalizing l' with
  | done => cases h'; rfl
  | skip h1 _ ih =>
    cases h' with
    | skip h1' h2' => rw [h1] at h1'; cases h1'; exact ih h2'
    | next h1' => rw [h1] at h1'; cases h1'
  | next h1 h2 h3 _ ih =>
    cases h' with
    | skip h1' => rw [h1] at h1'; cases h1'
    | next h1' h2' h3' h4' =>
      have := h2.unique h2'
      subst this
      rw [h1] at h1'
      cases h1'
      rw [h3] at h3'
      cases h3'
      rw [ih h4']

/-- **C64**, depth first. A depth-first search from any node runs without fault to its end and returns every node exactly once,
the start first. -/
theorem c64_dfs (hs : Sound s L rep) (hb : Built s L g k) {a : C} (ha : L.Node a) :
    ∃ l, (∀ l', DfsRun g (dfsNew g a) l' ↔ l' = l) ∧ l.Nodup ∧ (∀ c, c ∈ l ↔ L.Node c) ∧ l.head? = some a := by
  have hl := hs.lawful
  have hg := hb.good hl
  obtain ⟨δ, hδ⟩ := hopDist_exists hs hb ha
  have hinv : DfsInv L a [] [a] (fun _ => false) := by
    refine ⟨by simp, by simp, ?_, by simp, by simp⟩
    intro c hc; simp at hc; rw [hc]; exact ha
  obtain ⟨l, h3, h4, h5⟩ := dfs_run hl hb hδ (L.nodes.length + 1) [a] [] (VisMap.new s) _ (VisInv.new hl) hinv (by simp)
  rw [← hg.shape] at h3
  refine ⟨l, fun l' => ⟨fun h => h.unique h3, fun h => h ▸ h3⟩, by simpa using h4, by simpa using h5, ?_⟩
  cases h3 with
  | skip h1 _ =>
    obtain ⟨vm', h1', -⟩ := visit_eq hl hg.constructible (VisInv.new hl) ha
    rw [← hg.shape, h1] at h1'
    cases h1'
  | next => rfl

end

/-- Example: on the 3 × 2 square graph both searches from (1,0) return all six nodes, and the breadth-first one returns (0,0),
one step away, before (2,1), two steps away. -/
example : ∃ g : Graph Offset SquareAxis DSquareAxis Nat Nat, Built (squareShape m64 3 2) (squareLat 3 2) g exK ∧
    (∃ b l, bfsNew g ⟨1, 0⟩ = .ok b ∧ BfsRun g b l ∧ l.Nodup ∧ (⟨2, 1⟩ : Offset) ∈ l) ∧
    ∃ l, DfsRun g (dfsNew g ⟨1, 0⟩) l ∧ (⟨2, 1⟩ : Offset) ∈ l := by
  obtain ⟨g, hb⟩ := exSquare
  have h0 : (squareLat 3 2).Node ⟨1, 0⟩ := ⟨1, 0, by decide, by decide, rfl⟩
  have h1 : (squareLat 3 2).Node ⟨2, 1⟩ := ⟨2, 1, by decide, by decide, rfl⟩
  obtain ⟨b, l, e1, e2, e3, e4, _⟩ := c64_bfs (.square _ _ _) hb h0
  obtain ⟨l', f1, f2, f3, _⟩ := c64_dfs (.square _ _ _) hb h0
  exact ⟨g, hb, ⟨b, l, e1, (e2 l).2 rfl, e3, (e4 _).2 h1⟩, l', (f1 l').2 rfl, (f3 _).2 h1⟩

end LG
