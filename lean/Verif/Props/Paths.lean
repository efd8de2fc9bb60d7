import Verif.Lemmas.Paths
import Verif.Props.Cliques
/- C113: petgraph's `all_simple_paths` on `LatticeGraph`. -/
set_option linter.unusedSectionVars false
namespace LG

/-- How many nodes a path may have between its ends: as asked for, or two fewer than the graph has. -/
def pathLimit (n : Nat) : Option Nat → Nat
  | some l => l
  | none => n - 2

/-- Adding 1 to the limits does not leave `usize`. -/
def LimitsFit (m : Machine) (minI : Nat) (maxI : Option Nat) : Prop := minI + 1 < 2 * m.half ∧ ∀ l, maxI = some l → l + 1 < 2 * m.half

/-- In how many ways one can go from `c` along `l`, choosing a direction for each step. -/
def Lat.routes {C A D : Type} [DecidableEq C] (L : Lat C A D) : C → List C → Nat
  | _, [] => 1
  | c, m :: l => (L.dirs.countP fun d => decide (L.nbr c d = some m)) * L.routes m l

/-- Each node is among the neighbors of the one before. -/
def Linked {C A D N E : Type} [DecidableEq C] (g : Graph C A D N E) : List C → Prop
  | [] => True
  | [_] => True
  | a :: b :: l => Adjacent g a b ∧ Linked g (b :: l)

theorem pathBounds_fit {m : Machine} {n minI : Nat} {maxI : Option Nat} (hn : 1 ≤ n) (hf : LimitsFit m minI maxI) :
    ∃ maxL, pathBounds m (.ok n) minI maxI = .ok (minI + 1, maxL) ∧ maxL - 1 = pathLimit n maxI := by
  have e : uadd m minI 1 = .ok (minI + 1) := if_pos hf.1
  cases maxI with
  | some l =>
    have e2 : uadd m l 1 = .ok (l + 1) := if_pos (hf.2 l rfl)
    exact ⟨l + 1, by simp only [pathBounds, e2, e]; rfl, rfl⟩
  | none =>
    have e2 : usub m n 1 = .ok (n - 1) := if_pos hn
    exact ⟨n - 1, by simp only [pathBounds, bind, Except.bind, e2, e], by simp only [pathLimit]; omega⟩

theorem nbrs_count {C A D : Type} [DecidableEq C] (L : Lat C A D) (u v : C) :
    (L.nbrs u).count v = L.dirs.countP fun x => decide (L.nbr u x = some v) := by
  unfold Lat.nbrs
  rw [List.count_filterMap]
  congr 1
  funext x
  rw [Bool.eq_iff_iff]
  simp only [beq_iff_eq, decide_eq_true_eq]

theorem routes_eq {C A D : Type} [DecidableEq C] (L : Lat C A D) : ∀ (l : List C) (c : C), waysAlong L.nbrs c l = L.routes c l
  | [], _ => rfl
  | m :: l, c => by simp only [waysAlong, Lat.routes, routes_eq L l, nbrs_count]

section
variable {C A D N E : Type} [DecidableEq C] [DecidableEq A] [DecidableEq D]
variable {g : Graph C A D N E} {s : Shape C A D} {L : Lat C A D} {rep : C → Prop} {k : Contents C A N E}

theorem node_count_pos (hs : Lawful s L rep) (hb : Built s L g k) {a : C} (ha : L.Node a) :
    g.nodeBound = .ok (L.width * L.height) ∧ 1 ≤ L.width * L.height := by
  have e := c04_node_count hs hb
  have hg := hb.good hs
  have e1 : s.horizontal * s.vertical = L.width * L.height := by rw [← hg.shape, hg.impl.width, hg.impl.height]
  obtain ⟨x, y, hx, hy, -⟩ := ha
  exact ⟨e1 ▸ e, Nat.mul_pos (by omega) (by omega)⟩

theorem simple_paths_list (hs : Lawful s L rep) (hb : Built s L g k) {a b : C} (ha : L.Node a) {minI : Nat} {maxI : Option Nat}
    (hf : LimitsFit g.s.m minI maxI) (out : List (List C)) :
    SimplePaths g a b minI maxI out ↔ out = spList L.nbrs b (minI + 1) (pathLimit (L.width * L.height) maxI) [a] (L.nbrs a) := by
  obtain ⟨e, hp⟩ := node_count_pos hs hb ha
  obtain ⟨maxL, e2, e3⟩ := pathBounds_fit hp hf
  have run : SpRun (NeighborsIt.next g.s) (fun c => g.neighborsDirected c .outgoing) b (minI + 1) maxL [a] [g.neighborsDirected a .outgoing]
      (spList L.nbrs b (minI + 1) (pathLimit (L.width * L.height) maxI) [a] (L.nbrs a)) := by
    have := spRun_exists (next := NeighborsIt.next g.s) (start := fun c => g.neighborsDirected c .outgoing) (to := b) (minL := minI + 1) (maxL := maxL)
      (nb := L.nbrs) (Q := L.Node) (fun c hc => c07_neighbors_call hs hb hc) (fun c hc x hx => (c07_neighbors_exact hs hc x).2 hx)
      (pathLimit (L.width * L.height) maxI) [a] (L.nbrs a) (g.neighborsDirected a .outgoing) [] [] (by simpa using e3)
      (c07_neighbors_call hs hb ha) (fun x hx => (c07_neighbors_exact hs ha x).2 hx) .done
    simpa using this
  constructor
  · rintro ⟨minL, maxL', h1, h2⟩
    rw [e, e2] at h1
    cases h1
    exact h2.unique run
  · rintro rfl
    exact ⟨_, _, by rw [e]; exact e2, run⟩

/-- **C113.** `all_simple_paths` runs to its end, and always returns the same list. -/
theorem c113_runs (hs : Lawful s L rep) (hb : Built s L g k) {a : C} (ha : L.Node a) (b : C) {minI : Nat} {maxI : Option Nat}
    (hf : LimitsFit g.s.m minI maxI) : ∃ out, SimplePaths g a b minI maxI out ∧ ∀ out', SimplePaths g a b minI maxI out' → out' = out :=
  ⟨_, (simple_paths_list hs hb ha hf _).2 rfl, fun _ h => (simple_paths_list hs hb ha hf _).1 h⟩

/-- **C113.** What it returns: every path from `a` to `b` that repeats no node on the way and has as many nodes between its ends as
asked for, once for each choice of directions along it; nothing else. With `a = b` these are circles. -/
theorem c113_exact (hs : Lawful s L rep) (hb : Built s L g k) {a b : C} (ha : L.Node a) {minI : Nat} {maxI : Option Nat}
    (hf : LimitsFit g.s.m minI maxI) {out : List (List C)} (ho : SimplePaths g a b minI maxI out) :
    (∀ K ∈ out, ∃ mid, K = a :: (mid ++ [b])) ∧
    ∀ mid, out.count (a :: (mid ++ [b])) =
      if (a :: mid).Nodup ∧ b ∉ mid ∧ minI ≤ mid.length ∧ mid.length ≤ pathLimit (L.width * L.height) maxI then L.routes a (mid ++ [b]) else 0 := by
  rw [(simple_paths_list hs hb ha hf out).1 ho]
  refine ⟨fun K hK => ?_, fun mid => ?_⟩
  · obtain ⟨mid, h, -⟩ := (mem_spList _ [a] a K (by simp)).1 hK
    exact ⟨mid, by simpa using h⟩
  · split
    · rename_i h
      obtain ⟨h1, h2, h3, h4⟩ := h
      rw [List.nodup_cons] at h1
      have := count_spList (nb := L.nbrs) (minL := minI + 1) (to := b) (pathLimit (L.width * L.height) maxI) [a] a mid
        (fun m hm e => h1.1 (List.mem_singleton.1 e ▸ hm)) h1.2 h2 (by simp; omega) h4
      rw [routes_eq] at this
      simpa using this
    · rename_i h
      refine List.count_eq_zero.2 fun hK => h ?_
      obtain ⟨mid', e, -, h1, h2, h3, h4, h5⟩ := (mem_spList _ [a] a _ (by simp)).1 hK
      have e : mid = mid' := by
        simp only [List.cons_append, List.nil_append, List.cons.injEq, true_and] at e
        exact List.append_cancel_right e
      subst e
      exact ⟨List.nodup_cons.2 ⟨fun hm => h1 a hm (by simp), h2⟩, h3, by simp at h4; omega, h5⟩

theorem routes_pos (hs : Lawful s L rep) (hb : Built s L g k) : ∀ (l : List C) (c : C), L.Node c → (L.routes c l ≠ 0 ↔ Linked g (c :: l))
  | [], _, _ => by simp [Lat.routes, Linked]
  | m :: l, c, hc => by
    have e : (L.dirs.countP fun d => decide (L.nbr c d = some m)) ≠ 0 ↔ ∃ d, L.nbr c d = some m := by
      rw [Ne, List.countP_eq_zero]
      simp [hs.laws.dir.dirs_mem]
    have e2 := adjacent_nbr hs hb hc m
    simp only [Lat.routes, Linked]
    constructor
    · intro h
      have h1 : (L.dirs.countP fun d => decide (L.nbr c d = some m)) ≠ 0 := fun h0 => h (by rw [h0, Nat.zero_mul])
      have h2 : L.routes m l ≠ 0 := fun h0 => h (by rw [h0, Nat.mul_zero])
      obtain ⟨d, hd⟩ := e.1 h1
      exact ⟨e2.2 ⟨d, hd⟩, (routes_pos hs hb l m (hs.laws.nbr_node hc hd)).1 h2⟩
    · rintro ⟨h1, h2⟩
      obtain ⟨d, hd⟩ := e2.1 h1
      exact Nat.mul_ne_zero (e.2 ⟨d, hd⟩) ((routes_pos hs hb l m (hs.laws.nbr_node hc hd)).2 h2)

theorem Linked.node (hs : Lawful s L rep) (hb : Built s L g k) : ∀ {l : List C} {c : C}, L.Node c → Linked g (c :: l) → ∀ x ∈ c :: l, L.Node x
  | [], c, hc, _ => by simpa using hc
  | m :: l, c, hc, h => by
    obtain ⟨d, hd⟩ := (adjacent_nbr hs hb hc m).1 h.1
    intro x hx
    rcases List.mem_cons.1 hx with rfl | hx
    · exact hc
    · exact Linked.node hs hb (hs.laws.nbr_node hc hd) h.2 x hx

/-- **C113.** The paths returned, up to repetition: those of the right length that go from neighbor to neighbor and meet no node twice. -/
theorem c113_paths (hs : Lawful s L rep) (hb : Built s L g k) {a b : C} (ha : L.Node a) {minI : Nat} {maxI : Option Nat}
    (hf : LimitsFit g.s.m minI maxI) {out : List (List C)} (ho : SimplePaths g a b minI maxI out) (K : List C) :
    K ∈ out ↔ ∃ mid, K = a :: (mid ++ [b]) ∧ Linked g K ∧ (a :: mid).Nodup ∧ b ∉ mid ∧ minI ≤ mid.length ∧
      mid.length ≤ pathLimit (L.width * L.height) maxI := by
  obtain ⟨h1, h2⟩ := c113_exact hs hb ha hf ho
  constructor
  · intro hK
    obtain ⟨mid, rfl⟩ := h1 K hK
    have h3 := h2 mid
    have h4 : 0 < out.count (a :: (mid ++ [b])) := List.count_pos_iff.2 hK
    split at h3
    · rename_i h
      exact ⟨mid, rfl, (routes_pos hs hb _ a ha).1 (by omega), h⟩
    · omega
  · rintro ⟨mid, rfl, h3, h4⟩
    have h5 := h2 mid
    rw [if_pos h4] at h5
    have := (routes_pos hs hb (mid ++ [b]) a ha).2 h3
    exact List.count_pos_iff.1 (by omega)

/-- **C113.** Asked for all lengths it leaves out no path from `a` to another node `b`: the default limit is no restriction. -/
theorem c113_all (hs : Lawful s L rep) (hb : Built s L g k) {a b : C} (ha : L.Node a) (hab : a ≠ b)
    (hf : 1 < 2 * g.s.m.half) {out : List (List C)} (ho : SimplePaths g a b 0 none out) (K : List C) :
    K ∈ out ↔ K.head? = some a ∧ K.getLast? = some b ∧ K.Nodup ∧ Linked g K := by
  rw [c113_paths hs hb ha (minI := 0) (maxI := none) ⟨hf, fun _ e => nomatch e⟩ ho]
  constructor
  · rintro ⟨mid, rfl, h1, h2, h3, -⟩
    refine ⟨rfl, by simp [List.getLast?_cons], ?_, h1⟩
    rw [List.nodup_cons] at h2 ⊢
    refine ⟨?_, ?_⟩
    · simp only [List.mem_append, List.mem_singleton, not_or]
      exact ⟨h2.1, hab⟩
    · rw [List.nodup_append]
      refine ⟨h2.2, by simp, fun x hx y hy e => ?_⟩
      rw [List.mem_singleton] at hy
      exact h3 (hy ▸ e ▸ hx)
  · rintro ⟨h1, h2, h3, h4⟩
    cases K with
    | nil => cases h1
    | cons a' l =>
      cases h1
      have hl : l ≠ [] := by
        rintro rfl
        simp at h2
        exact hab h2
      obtain ⟨mid, rfl⟩ : ∃ mid, l = mid ++ [b] := by
        refine ⟨l.dropLast, ?_⟩
        rw [List.getLast?_cons] at h2
        have h5 := List.dropLast_concat_getLast hl
        rw [List.getLast?_eq_some_getLast hl] at h2
        simp at h2
        rw [← h2]
        exact h5.symm
      refine ⟨mid, rfl, h4, ?_, ?_, Nat.zero_le _, ?_⟩
      · exact List.Nodup.sublist (by simp) h3
      · have := (List.nodup_append.1 (List.nodup_cons.1 h3).2).2.2
        exact fun hm => this b hm b (by simp) rfl
      · have h5 := h3.length_le_of_subset (l₂ := L.nodes) fun c hc => Lat.mem_nodes.2 (Linked.node hs hb ha h4 c hc)
        have h6 : L.nodes.length = L.width * L.height := by simp [Lat.nodes, List.map_const', List.sum_replicate_nat]
        rw [h6] at h5
        simp only [List.length_cons, List.length_append, List.length_nil] at h5
        simp only [pathLimit]
        omega

/-- **C113.** For a circle the default limit is one too low: none that passes through every node is returned. -/
theorem c113_circles (hs : Lawful s L rep) (hb : Built s L g k) {a : C} (ha : L.Node a) (hf : 1 < 2 * g.s.m.half) (h2 : 2 ≤ L.width * L.height)
    {out : List (List C)} (ho : SimplePaths g a a 0 none out) : ∀ K ∈ out, ∃ c, L.Node c ∧ c ∉ K := by
  intro K hK
  obtain ⟨mid, rfl, h3, h4, -, -, h5⟩ := (c113_paths hs hb ha (minI := 0) (maxI := none) ⟨hf, fun _ e => nomatch e⟩ ho K).1 hK
  refine Classical.byContradiction fun hn => ?_
  have h6 : L.nodes.length = L.width * L.height := by simp [Lat.nodes, List.map_const', List.sum_replicate_nat]
  have h7 := (c05_nodes_exact hs hb).1.length_le_of_subset (l₂ := a :: mid) fun c hc => by
    have : c ∈ a :: (mid ++ [a]) := Classical.byContradiction fun h => hn ⟨c, Lat.mem_nodes.1 hc, h⟩
    simp only [List.mem_cons, List.mem_append, List.not_mem_nil, or_false] at this ⊢
    rcases this with h | h | h
    · exact .inl h
    · exact .inr h
    · exact .inl h
  rw [h6] at h7
  simp only [List.length_cons] at h7
  simp only [pathLimit] at h5
  omega

/-- At most one direction leads from a node to another. -/
def OneWay (L : Lat C A D) : Prop := ∀ c d d' b, L.Node c → L.nbr c d = some b → L.nbr c d' = some b → d = d'

/-- **C113.** Where at most one direction leads from a node to another no path is returned twice. -/
theorem c113_once (hs : Lawful s L rep) (hb : Built s L g k) (h1 : OneWay L) {a b : C} (ha : L.Node a) {minI : Nat} {maxI : Option Nat}
    (hf : LimitsFit g.s.m minI maxI) {out : List (List C)} (ho : SimplePaths g a b minI maxI out) : out.Nodup := by
  rw [(simple_paths_list hs hb ha hf out).1 ho]
  exact nodup_spList (Q := L.Node) (fun c hc x hx => (c07_neighbors_exact hs hc x).2 hx)
    (fun c hc => nodup_filterMap_of_inj hs.laws.dir.dirs_nodup fun d _ d' _ y e e' => h1 c d d' y hc e e') _ [a] a ha (by simp)

/-- **C113.** Where two directions lead from a node to its neighbor, the path along them is returned twice or more. -/
theorem c113_twice (hs : Lawful s L rep) (hb : Built s L g k) {a b : C} (ha : L.Node a) {d d' : D} (hd : d ≠ d') (h1 : L.nbr a d = some b)
    (h2 : L.nbr a d' = some b) {maxI : Option Nat} (hf : LimitsFit g.s.m 0 maxI) {out : List (List C)} (ho : SimplePaths g a b 0 maxI out) :
    2 ≤ out.count [a, b] := by
  have h := (c113_exact hs hb ha hf ho).2 []
  rw [if_pos ⟨by simp, by simp, Nat.le_refl _, Nat.zero_le _⟩] at h
  rw [List.nil_append] at h
  rw [h]
  simp only [Lat.routes, Nat.mul_one]
  rw [List.countP_eq_length_filter]
  exact List.Nodup.length_le_of_subset (l₁ := [d, d']) (by simp [hd]) fun x hx => by
    refine List.mem_filter.2 ⟨hs.laws.dir.dirs_mem x, ?_⟩
    simp only [List.mem_cons, List.not_mem_nil, or_false] at hx
    rcases hx with rfl | rfl <;> simp [h1, h2]

/-- **C113.** Overflow checked: a limit of `usize::MAX` panics. -/
theorem c113_panics (hs : Lawful s L rep) (hb : Built s L g k) {a : C} (ha : L.Node a) (b : C) {minI : Nat} {maxI : Option Nat}
    (hm : g.s.m.mode = .debug) (hf : ¬ LimitsFit g.s.m minI maxI) :
    pathBounds g.s.m g.nodeBound minI maxI = .error .panic ∧ ∀ out, ¬ SimplePaths g a b minI maxI out := by
  have key : pathBounds g.s.m g.nodeBound minI maxI = .error .panic := by
    obtain ⟨e, hp⟩ := node_count_pos hs hb ha
    rw [e]
    have over : ∀ x, ¬ x + 1 < 2 * g.s.m.half → uadd g.s.m x 1 = .error .panic := fun x h => by
      rw [uadd, if_neg h, overflow, hm]
    by_cases hmax : ∀ l, maxI = some l → l + 1 < 2 * g.s.m.half
    · have hmin : uadd g.s.m minI 1 = .error .panic := over minI fun h => hf ⟨h, hmax⟩
      cases maxI with
      | some l => simp only [pathBounds, show uadd g.s.m l 1 = .ok (l + 1) from if_pos (hmax l rfl), hmin]; rfl
      | none => simp only [pathBounds, bind, Except.bind, show usub g.s.m (L.width * L.height) 1 = .ok (L.width * L.height - 1) from if_pos hp, hmin]
    · cases maxI with
      | none => exact absurd (fun _ e => nomatch e) hmax
      | some l =>
        have : uadd g.s.m l 1 = .error .panic := over l fun h => hmax fun l' e => by cases e; exact h
        simp only [pathBounds, this]; rfl
  refine ⟨key, fun out ⟨_, _, h, _⟩ => ?_⟩
  rw [key] at h
  cases h

/-- **C113.** Overflow wrapped: asked for at most `usize::MAX` nodes in between, it returns only the paths with none. -/
theorem c113_wraps (hs : Lawful s L rep) (hb : Built s L g k) {a b : C} (ha : L.Node a) (hm : g.s.m.mode = .release) (hh : 1 < g.s.m.half)
    {out : List (List C)} (ho : SimplePaths g a b 0 (some (2 * g.s.m.half - 1)) out) :
    (∀ K ∈ out, K = [a, b]) ∧ SimplePaths g a b 0 (some 0) out := by
  have e1 : uadd g.s.m (2 * g.s.m.half - 1) 1 = .ok 0 := by
    rw [uadd, if_neg (by omega), overflow, hm, show 2 * g.s.m.half - 1 + 1 - 2 * g.s.m.half = 0 by omega]
  have e2 : uadd g.s.m 0 1 = .ok 1 := if_pos (by omega)
  have hf : LimitsFit g.s.m 0 (some 0) := ⟨by omega, fun l e => by cases e; omega⟩
  obtain ⟨minL, maxL, h1, h2⟩ := ho
  simp only [pathBounds, e1, e2] at h1
  cases h1
  have run := spRun_exists (next := NeighborsIt.next g.s) (start := fun c => g.neighborsDirected c .outgoing) (to := b) (minL := 1) (maxL := 0)
      (nb := L.nbrs) (Q := L.Node) (fun c hc => c07_neighbors_call hs hb hc) (fun c hc x hx => (c07_neighbors_exact hs hc x).2 hx)
      0 [a] (L.nbrs a) (g.neighborsDirected a .outgoing) [] [] rfl
      (c07_neighbors_call hs hb ha) (fun x hx => (c07_neighbors_exact hs ha x).2 hx) .done
  have ho : SimplePaths g a b 0 (some 0) out := (simple_paths_list hs hb ha hf out).2 (by rw [h2.unique run]; simp [pathLimit])
  refine ⟨fun K hK => ?_, ho⟩
  obtain ⟨mid, rfl, -, -, -, -, h3⟩ := (c113_paths hs hb ha hf ho K).1 hK
  have : mid = [] := List.eq_nil_of_length_eq_zero (by simpa [pathLimit] using h3)
  simp [this]
end

section
variable {N E : Type} {rep : Offset → Prop} {w h : Nat} {even flat : Bool}

theorem off_ext {a b : Offset} (h1 : a.horizontal = b.horizontal) (h2 : a.vertical = b.vertical) : a = b := by
  cases a; cases b; simp_all

theorem rectNbr_vec {c b : Offset} {v v' : Int × Int} (h1 : rectNbr w h c v = some b) (h2 : rectNbr w h c v' = some b) : v = v' := by
  rw [rectNbr_iff] at h1 h2
  exact Prod.ext (by omega) (by omega)

/-- **C113.** On the square, diagonal, offset and axial maps at most one direction leads from a node to another. -/
theorem c113_one_way : OneWay (squareLat w h) ∧ OneWay (squareLatDirected w h) ∧ OneWay (diagLat w h) ∧ OneWay (diagLatDirected w h) ∧
    OneWay (offLatR even w h) ∧ OneWay (offLatDR even w h) ∧ OneWay (axLatR even flat w h) ∧ OneWay (axLatDR even flat w h) ∧
    OneWay (axLatQ even flat w h) ∧ OneWay (axLatDQ even flat w h) := by
  have sq : ∀ (c : Offset) (d d' : DSquareAxis) (b : Offset), rectNbr w h c d.vec = some b → rectNbr w h c d'.vec = some b → d = d' := by
    intro c d d' b h1 h2
    have := rectNbr_vec h1 h2
    revert this; cases d <;> cases d' <;> decide
  have di : ∀ (c : Offset) (d d' : DDiagAxis) (b : Offset), rectNbr w h c d.vec = some b → rectNbr w h c d'.vec = some b → d = d' := by
    intro c d d' b h1 h2
    have := rectNbr_vec h1 h2
    revert this; cases d <;> cases d' <;> decide
  have of : ∀ (c : Offset) (d d' : AxisDR) (b : Offset), offNbr even w h c d = some b → offNbr even w h c d' = some b → d = d' := by
    intro c d d' b h1 h2
    rw [offNbr_iff] at h1 h2
    have : d.vec = d'.vec := Prod.ext (by omega) (by omega)
    revert this; cases d <;> cases d' <;> decide
  have ax : ∀ (c b : Axial) (v v' : Int × Int), axNbr even flat w h c v = some b → axNbr even flat w h c v' = some b → v = v' := by
    intro c b v v' h1 h2
    unfold axNbr at h1 h2
    split at h1
    · split at h2
      · cases h1
        have h2 := Option.some.inj h2
        rw [Axial.mk.injEq] at h2
        exact Prod.ext (by omega) (by omega)
      · cases h2
    · cases h1
  have axr : ∀ (c : Axial) (d d' : AxisDR) (b : Axial), axNbr even flat w h c d.axial = some b → axNbr even flat w h c d'.axial = some b → d = d' := by
    intro c d d' b h1 h2
    have := ax _ _ _ _ h1 h2
    revert this; cases d <;> cases d' <;> decide
  have axq : ∀ (c : Axial) (d d' : AxisDQ) (b : Axial), axNbr even flat w h c d.axial = some b → axNbr even flat w h c d'.axial = some b → d = d' := by
    intro c d d' b h1 h2
    have := ax _ _ _ _ h1 h2
    revert this; cases d <;> cases d' <;> decide
  exact ⟨fun c d d' b _ => sq c d d' b, fun c d d' b _ => sq c d d' b, fun c d d' b _ => di c d d' b, fun c d d' b _ => di c d d' b,
    fun c d d' b _ => of c d d' b, fun c d d' b _ => of c d d' b, fun c d d' b _ => axr c d d' b, fun c d d' b _ => axr c d d' b,
    fun c d d' b _ => axq c d d' b, fun c d d' b _ => axq c d d' b⟩

/-- **C113.** On a cylinder so it is exactly if the circumference is 3 or more. -/
theorem c113_one_way_cylinder (hw : 1 ≤ w) (hh : 1 ≤ h) : OneWay (offLatRLoop even w h) ↔ 3 ≤ w := by
  constructor
  · intro h1
    refine Decidable.byContradiction fun h3 => ?_
    have hn : (offLatRLoop even w h).Node ⟨0, 0⟩ := ⟨0, 0, hw, hh, rfl⟩
    have : w = 1 ∨ w = 2 := by omega
    rcases this with rfl | rfl
    · have e := h1 ⟨0, 0⟩ .E .W ⟨0, 0⟩ hn
        (offNbrLoop_iff.2 ⟨by simp, hh, ⟨1, by simp [AxisDR.vec]⟩, by simp [AxisDR.vec]⟩)
        (offNbrLoop_iff.2 ⟨by simp, hh, ⟨-1, by simp [AxisDR.vec]⟩, by simp [AxisDR.vec]⟩)
      cases e
    · have e := h1 ⟨0, 0⟩ .E .W ⟨1, 0⟩ hn
        (offNbrLoop_iff.2 ⟨by simp, hh, ⟨0, by simp [AxisDR.vec, offPos]; omega⟩, by simp [AxisDR.vec, offPos]⟩)
        (offNbrLoop_iff.2 ⟨by simp, hh, ⟨-1, by simp [AxisDR.vec, offPos]; omega⟩, by simp [AxisDR.vec, offPos]⟩)
      cases e
  · intro h3 c d d' b _ h1 h2
    obtain ⟨-, -, ⟨k1, e1⟩, e2⟩ := offNbrLoop_iff.1 h1
    obtain ⟨-, -, ⟨k2, e3⟩, e4⟩ := offNbrLoop_iff.1 h2
    have e5 : d.vec.2 = d'.vec.2 := by omega
    have e6 : 2 * (w : Int) * (k1 - k2) = d.vec.1 - d'.vec.1 := by rw [Int.mul_sub]; omega
    have small : -4 ≤ d.vec.1 - d'.vec.1 ∧ d.vec.1 - d'.vec.1 ≤ 4 := by cases d <;> cases d' <;> decide
    have hk : k1 - k2 = 0 := by
      rcases Int.lt_trichotomy (k1 - k2) 0 with hlt | h0 | hgt
      · have := Int.mul_le_mul_of_nonneg_left (show k1 - k2 ≤ -1 by omega) (show 0 ≤ 2 * (w : Int) by omega)
        omega
      · exact h0
      · have := Int.mul_le_mul_of_nonneg_left (show 1 ≤ k1 - k2 by omega) (show 0 ≤ 2 * (w : Int) by omega)
        omega
    rw [hk, Int.mul_zero] at e6
    have : d.vec = d'.vec := Prod.ext (by omega) e5
    revert this; cases d <;> cases d' <;> decide

/-- The distance between two nodes of a square map, in one direction. -/
def gap (x y : Nat) : Nat := (x - y) + (y - x)

theorem square_shortest {A : Type} [DecidableEq A] {L : Lat Offset A DSquareAxis} {s : Shape Offset A DSquareAxis} {g : Graph Offset A DSquareAxis N E}
    {k : Contents Offset A N E} (hs : Lawful s L rep) (hb : Built s L g k) (hw : L.width = w) (hh : L.height = h) (hc : L.coord = fun x y => ⟨x, y⟩)
    (hn : L.nbr = fun c d => rectNbr w h c d.vec) (hd : L.dirs = [.X, .Y, .RX, .RY]) {a b : Offset} (ha : L.Node a) (hb' : L.Node b) {n : Nat}
    (hg : gap a.horizontal b.horizontal + gap a.vertical b.vertical = n + 1) (hf : n + 1 < 2 * g.s.m.half) {out : List (List Offset)}
    (ho : SimplePaths g a b 0 (some n) out) :
    (∀ K ∈ out, K.length = n + 2) ∧
    out.length * (fact (gap a.horizontal b.horizontal) * fact (gap a.vertical b.vertical)) = fact (n + 1) := by
  have hN := rect_nodes_iff hw hh hc
  rw [(simple_paths_list hs hb ha ⟨by omega, fun l e => by cases e; exact hf⟩ out).1 ho]
  have hQ : ∀ c, L.Node c → ∀ x ∈ L.nbrs c, L.Node x := fun c hc x hx => (c07_neighbors_exact hs hc x).2 hx
  have hb2 := (hN b).1 hb'
  have step : ∀ c, L.Node c → ∀ m ∈ L.nbrs c, gap c.horizontal b.horizontal + gap c.vertical b.vertical = gap m.horizontal b.horizontal + gap m.vertical b.vertical + 1 ∨
      gap m.horizontal b.horizontal + gap m.vertical b.vertical = gap c.horizontal b.horizontal + gap c.vertical b.vertical + 1 := by
    intro c hc m hm
    obtain ⟨d, hd⟩ := (c07_neighbors_exact hs hc m).1.1 hm
    rw [hn] at hd
    have hd := rectNbr_iff.1 hd
    unfold gap
    cases d <;> simp only [DSquareAxis.vec] at hd <;> omega
  refine ⟨fun K hK => ?_, ?_⟩
  · have := shortest_length hQ (δ := fun c => gap c.horizontal b.horizontal + gap c.vertical b.vertical) (by simp [gap])
      (fun c hc m hm => by have := step c hc m hm; omega) ha hg hK
    omega
  · change (spList L.nbrs b 1 n [a] (L.nbrs a)).length * _ = _
    rw [length_shortest hQ (δ := fun c => gap c.horizontal b.horizontal + gap c.vertical b.vertical)
      (f := fun c => interleavings (gap c.horizontal b.horizontal) (gap c.vertical b.vertical)) (fun c => ?_) step ?_ (fun c hc hne => ?_) n [a] a ha hg
      (fun v hv => by rw [List.mem_singleton] at hv; rw [hv]; omega) (by simp) (by simp), interleavings_fact, hg]
    · simp [gap, interleavings]
    · unfold gap
      exact ⟨fun e => off_ext (by omega) (by omega), fun e => by subst e; omega⟩
    · -- each direction contributes if it leads nearer
      have term : ∀ d : DSquareAxis, ((rectNbr w h c d.vec).toList.map fun m =>
          if gap m.horizontal b.horizontal + gap m.vertical b.vertical < gap c.horizontal b.horizontal + gap c.vertical b.vertical
          then interleavings (gap m.horizontal b.horizontal) (gap m.vertical b.vertical) else 0).sum =
          match d with
          | .X => if c.horizontal < b.horizontal then interleavings (gap c.horizontal b.horizontal - 1) (gap c.vertical b.vertical) else 0
          | .RX => if b.horizontal < c.horizontal then interleavings (gap c.horizontal b.horizontal - 1) (gap c.vertical b.vertical) else 0
          | .Y => if c.vertical < b.vertical then interleavings (gap c.horizontal b.horizontal) (gap c.vertical b.vertical - 1) else 0
          | .RY => if b.vertical < c.vertical then interleavings (gap c.horizontal b.horizontal) (gap c.vertical b.vertical - 1) else 0 := by
        intro d
        have hc2 := (hN c).1 hc
        rcases e : rectNbr w h c d.vec with _ | m
        · have hno : ∀ x y : Nat, x < w → y < h → ¬ ((x : Int) = c.horizontal + d.vec.1 ∧ (y : Int) = c.vertical + d.vec.2) := fun x y hx hy ⟨h1, h2⟩ => by
            have : rectNbr w h c d.vec = some ⟨x, y⟩ := rectNbr_iff.2 ⟨hx, hy, h1, h2⟩
            rw [e] at this; cases this
          cases d with
          | X =>
            have := hno (c.horizontal + 1) c.vertical
            simp only [DSquareAxis.vec] at this
            show 0 = if _ then _ else _
            rw [if_neg (by omega)]
          | RX =>
            have := hno (c.horizontal - 1) c.vertical
            simp only [DSquareAxis.vec] at this
            show 0 = if _ then _ else _
            rw [if_neg (by omega)]
          | Y =>
            have := hno c.horizontal (c.vertical + 1)
            simp only [DSquareAxis.vec] at this
            show 0 = if _ then _ else _
            rw [if_neg (by omega)]
          | RY =>
            have := hno c.horizontal (c.vertical - 1)
            simp only [DSquareAxis.vec] at this
            show 0 = if _ then _ else _
            rw [if_neg (by omega)]
        · have e := rectNbr_iff.1 e
          simp only [Option.toList_some, List.map_cons, List.map_nil, List.sum_cons, List.sum_nil, Nat.add_zero]
          cases d with
          | X =>
            simp only [DSquareAxis.vec] at e
            by_cases hlt : c.horizontal < b.horizontal
            · rw [if_pos hlt, if_pos (by unfold gap; omega), show gap m.horizontal b.horizontal = gap c.horizontal b.horizontal - 1 by unfold gap; omega,
                show m.vertical = c.vertical by omega]
            · rw [if_neg hlt, if_neg (by unfold gap; omega)]
          | RX =>
            simp only [DSquareAxis.vec] at e
            by_cases hlt : b.horizontal < c.horizontal
            · rw [if_pos hlt, if_pos (by unfold gap; omega), show gap m.horizontal b.horizontal = gap c.horizontal b.horizontal - 1 by unfold gap; omega,
                show m.vertical = c.vertical by omega]
            · rw [if_neg hlt, if_neg (by unfold gap; omega)]
          | Y =>
            simp only [DSquareAxis.vec] at e
            by_cases hlt : c.vertical < b.vertical
            · rw [if_pos hlt, if_pos (by unfold gap; omega), show gap m.vertical b.vertical = gap c.vertical b.vertical - 1 by unfold gap; omega,
                show m.horizontal = c.horizontal by omega]
            · rw [if_neg hlt, if_neg (by unfold gap; omega)]
          | RY =>
            simp only [DSquareAxis.vec] at e
            by_cases hlt : b.vertical < c.vertical
            · rw [if_pos hlt, if_pos (by unfold gap; omega), show gap m.vertical b.vertical = gap c.vertical b.vertical - 1 by unfold gap; omega,
                show m.horizontal = c.horizontal by omega]
            · rw [if_neg hlt, if_neg (by unfold gap; omega)]
      have tX := term .X
      have tY := term .Y
      have tRX := term .RX
      have tRY := term .RY
      simp only [] at tX tY tRX tRY
      have split : ∀ (f : Offset → Nat), ((L.nbrs c).map f).sum = ((rectNbr w h c DSquareAxis.X.vec).toList.map f).sum + ((rectNbr w h c DSquareAxis.Y.vec).toList.map f).sum +
          ((rectNbr w h c DSquareAxis.RX.vec).toList.map f).sum + ((rectNbr w h c DSquareAxis.RY.vec).toList.map f).sum := by
        intro f
        unfold Lat.nbrs
        rw [hd, hn]
        simp only [List.filterMap_cons, List.filterMap_nil]
        cases rectNbr w h c DSquareAxis.X.vec <;> cases rectNbr w h c DSquareAxis.Y.vec <;> cases rectNbr w h c DSquareAxis.RX.vec <;>
          cases rectNbr w h c DSquareAxis.RY.vec <;> simp <;> omega
      rw [split, tX, tY, tRX, tRY]
      have hx : c.horizontal = b.horizontal ∧ gap c.horizontal b.horizontal = 0 ∨ (c.horizontal < b.horizontal ∨ b.horizontal < c.horizontal) ∧
          ∃ x, gap c.horizontal b.horizontal = x + 1 := by
        unfold gap
        by_cases e : c.horizontal = b.horizontal
        · exact .inl (by omega)
        · exact .inr ⟨by omega, c.horizontal - b.horizontal + (b.horizontal - c.horizontal) - 1, by omega⟩
      have hy : c.vertical = b.vertical ∧ gap c.vertical b.vertical = 0 ∨ (c.vertical < b.vertical ∨ b.vertical < c.vertical) ∧
          ∃ y, gap c.vertical b.vertical = y + 1 := by
        unfold gap
        by_cases e : c.vertical = b.vertical
        · exact .inl (by omega)
        · exact .inr ⟨by omega, c.vertical - b.vertical + (b.vertical - c.vertical) - 1, by omega⟩
      rcases hx with ⟨hx, gx⟩ | ⟨hx, x, gx⟩ <;> rcases hy with ⟨hy, gy⟩ | ⟨hy, y, gy⟩
      · exact absurd (off_ext hx hy) hne
      · rw [if_neg (by omega), if_neg (show ¬ b.horizontal < c.horizontal by omega), gx, gy]
        rcases hy with hy | hy
        · rw [if_pos hy, if_neg (by omega)]; simp [interleavings]
        · rw [if_neg (by omega), if_pos hy]; simp [interleavings]
      · rw [if_neg (show ¬ c.vertical < b.vertical by omega), if_neg (show ¬ b.vertical < c.vertical by omega), gx, gy]
        have e : ∀ x, interleavings x 0 = 1 := fun x => by cases x <;> simp [interleavings]
        rcases hx with hx | hx
        · rw [if_pos hx, if_neg (by omega)]; simp [e]
        · rw [if_neg (by omega), if_pos hx]; simp [e]
      · rw [gx, gy]
        have e : interleavings (x + 1) (y + 1) = interleavings x (y + 1) + interleavings (x + 1) y := by rw [interleavings]
        rw [e]
        rcases hx with hx | hx <;> rcases hy with hy | hy
        · rw [if_pos hx, if_pos hy, if_neg (by omega), if_neg (by omega)]; simp
        · rw [if_pos hx, if_neg (by omega), if_neg (by omega), if_pos hy]; simp
        · rw [if_neg (by omega), if_pos hy, if_pos hx, if_neg (by omega)]; simp; omega
        · rw [if_neg (by omega), if_neg (by omega), if_pos hx, if_pos hy]; simp

/-- **C113.** On a square map the shortest paths between two nodes `x` columns and `y` rows apart: asked for no more nodes in between than
needed, it returns `(x + y)! / (x! · y!)` paths, all of `x + y` steps. -/
theorem c113_square_shortest {s : Shape Offset SquareAxis DSquareAxis} {g : Graph Offset SquareAxis DSquareAxis N E} {k : Contents Offset SquareAxis N E}
    (hs : Lawful s (squareLat w h) rep) (hb : Built s (squareLat w h) g k) {a b : Offset} (ha : (squareLat w h).Node a) (hb' : (squareLat w h).Node b)
    {n : Nat} (hg : gap a.horizontal b.horizontal + gap a.vertical b.vertical = n + 1) (hf : n + 1 < 2 * g.s.m.half) {out : List (List Offset)}
    (ho : SimplePaths g a b 0 (some n) out) :
    (∀ K ∈ out, K.length = n + 2) ∧
    out.length * (fact (gap a.horizontal b.horizontal) * fact (gap a.vertical b.vertical)) = fact (n + 1) :=
  square_shortest hs hb rfl rfl rfl rfl rfl ha hb' hg hf ho

/-- **C113.** The same on a directed one. -/
theorem c113_square_shortest_directed {s : Shape Offset DSquareAxis DSquareAxis} {g : Graph Offset DSquareAxis DSquareAxis N E} {k : Contents Offset DSquareAxis N E}
    (hs : Lawful s (squareLatDirected w h) rep) (hb : Built s (squareLatDirected w h) g k) {a b : Offset} (ha : (squareLatDirected w h).Node a)
    (hb' : (squareLatDirected w h).Node b) {n : Nat} (hg : gap a.horizontal b.horizontal + gap a.vertical b.vertical = n + 1)
    (hf : n + 1 < 2 * g.s.m.half) {out : List (List Offset)} (ho : SimplePaths g a b 0 (some n) out) :
    (∀ K ∈ out, K.length = n + 2) ∧
    out.length * (fact (gap a.horizontal b.horizontal) * fact (gap a.vertical b.vertical)) = fact (n + 1) :=
  square_shortest hs hb rfl rfl rfl rfl rfl ha hb' hg hf ho
end

/-- On the 3 × 2 grid from corner to corner: three paths of three steps, one more of five. -/
example : ∃ (g : Graph Offset SquareAxis DSquareAxis Nat Nat) (out : List (List Offset)), Built (squareShape m64 3 2) (squareLat 3 2) g exK ∧
    SimplePaths g ⟨0, 0⟩ ⟨2, 1⟩ 0 none out ∧ out.Nodup ∧ [⟨0, 0⟩, ⟨0, 1⟩, ⟨1, 1⟩, ⟨1, 0⟩, ⟨2, 0⟩, ⟨2, 1⟩] ∈ out ∧
    (∀ K, K ∈ out ↔ K.head? = some ⟨0, 0⟩ ∧ K.getLast? = some ⟨2, 1⟩ ∧ K.Nodup ∧ Linked g K) ∧ out.length = 4 := by
  obtain ⟨g, hb⟩ := exSquare
  have hs := Lawful.square m64 3 2
  have ha : (squareLat 3 2).Node ⟨0, 0⟩ := ⟨0, 0, by decide, by decide, rfl⟩
  have hm : 1 < 2 * g.s.m.half := by rw [(hb.good hs).shape]; decide
  have hf : LimitsFit g.s.m 0 none := ⟨hm, fun _ e => nomatch e⟩
  obtain ⟨out, ho, -⟩ := c113_runs hs hb ha ⟨2, 1⟩ hf
  have h4 : out.length = 4 := by
    rw [(simple_paths_list hs hb ha hf out).1 ho]
    decide
  refine ⟨g, out, hb, ho, c113_once hs hb (c113_one_way (even := true) (flat := true)).1 ha hf ho, ?_, c113_all hs hb ha (by decide) hm ho, h4⟩
  have h1 := (c113_exact hs hb ha hf ho).2 [⟨0, 1⟩, ⟨1, 1⟩, ⟨1, 0⟩, ⟨2, 0⟩]
  rw [if_pos (by decide), show (squareLat 3 2).routes ⟨0, 0⟩ ([⟨0, 1⟩, ⟨1, 1⟩, ⟨1, 0⟩, ⟨2, 0⟩] ++ [⟨2, 1⟩]) = 1 by decide] at h1
  exact List.count_pos_iff.1 (by simp only [List.cons_append, List.nil_append] at h1; omega)
/-- The shortest ones: `3! / (2! · 1!)`. -/
example : ∃ (g : Graph Offset SquareAxis DSquareAxis Nat Nat) (out : List (List Offset)), Built (squareShape m64 3 2) (squareLat 3 2) g exK ∧
    SimplePaths g ⟨0, 0⟩ ⟨2, 1⟩ 0 (some 2) out ∧ out.length * 2 = 6 ∧ ∀ K ∈ out, K.length = 4 := by
  obtain ⟨g, hb⟩ := exSquare
  have hs := Lawful.square m64 3 2
  have ha : (squareLat 3 2).Node ⟨0, 0⟩ := ⟨0, 0, by decide, by decide, rfl⟩
  have e : g.s.m = m64 := by rw [(hb.good hs).shape]; rfl
  have hf : LimitsFit g.s.m 0 (some 2) := by rw [e]; exact ⟨by decide, fun l h => by cases h; decide⟩
  obtain ⟨out, ho, -⟩ := c113_runs hs hb ha ⟨2, 1⟩ hf
  obtain ⟨h1, h2⟩ := c113_square_shortest hs hb ha ⟨2, 1, by decide, by decide, rfl⟩ (n := 2) (by decide) (by rw [e]; decide) ho
  exact ⟨g, out, hb, ho, h2, h1⟩
example : ∃ (g : Graph Offset DSquareAxis DSquareAxis Nat Offset) (k : _) (out : List (List Offset)), Built (squareShapeDirected m64 3 3) (squareLatDirected 3 3) g k ∧
    SimplePaths g ⟨2, 2⟩ ⟨0, 0⟩ 0 (some 3) out ∧ out.length * 4 = 24 := by
  have hs := Lawful.squareDirected m64 3 3
  obtain ⟨g, hb⟩ := hs.exists_built (by decide) (fun u _ => (0, u)) (fun u c _ => (c, u)) ()
  have ha : (squareLatDirected 3 3).Node ⟨2, 2⟩ := ⟨2, 2, by decide, by decide, rfl⟩
  have e : g.s.m = m64 := by rw [(hb.good hs).shape]; rfl
  have hf : LimitsFit g.s.m 0 (some 3) := by rw [e]; exact ⟨by decide, fun l h => by cases h; decide⟩
  obtain ⟨out, ho, -⟩ := c113_runs hs hb ha ⟨0, 0⟩ hf
  exact ⟨g, _, out, hb, ho, (c113_square_shortest_directed hs hb ha ⟨0, 0, by decide, by decide, rfl⟩ (n := 3) (by decide) (by rw [e]; decide) ho).2⟩
/-- Circles: the 2 × 2 grid has one, in two directions, but with the default limit it is missed. -/
example : ∃ (g : Graph Offset SquareAxis DSquareAxis Nat Nat) (k : _) (out out' : List (List Offset)), Built (squareShape m64 2 2) (squareLat 2 2) g k ∧
    SimplePaths g ⟨0, 0⟩ ⟨0, 0⟩ 2 none out ∧ out = [] ∧
    (∀ out, SimplePaths g ⟨0, 0⟩ ⟨0, 0⟩ 0 none out → ∀ K ∈ out, ∃ c, (squareLat 2 2).Node c ∧ c ∉ K) ∧
    SimplePaths g ⟨0, 0⟩ ⟨0, 0⟩ 2 (some 3) out' ∧ [⟨0, 0⟩, ⟨1, 0⟩, ⟨1, 1⟩, ⟨0, 1⟩, ⟨0, 0⟩] ∈ out' := by
  have hs := Lawful.square m64 2 2
  obtain ⟨g, hb⟩ := hs.exists_built (by decide) (fun u _ => (0, u)) (fun u _ _ => (0, u)) ()
  have ha : (squareLat 2 2).Node ⟨0, 0⟩ := ⟨0, 0, by decide, by decide, rfl⟩
  have e : g.s.m = m64 := by rw [(hb.good hs).shape]; rfl
  have hf : LimitsFit g.s.m 2 none := by rw [e]; exact ⟨by decide, fun _ h => nomatch h⟩
  have hf' : LimitsFit g.s.m 2 (some 3) := by rw [e]; exact ⟨by decide, fun l h => by cases h; decide⟩
  obtain ⟨out, ho, -⟩ := c113_runs hs hb ha ⟨0, 0⟩ hf
  obtain ⟨out', ho', -⟩ := c113_runs hs hb ha ⟨0, 0⟩ hf'
  refine ⟨g, _, out, out', hb, ho, ?_, fun out ho => c113_circles hs hb ha (by rw [e]; decide) (by decide) ho, ho', ?_⟩
  · rw [(simple_paths_list hs hb ha hf out).1 ho]; decide
  · have h1 := (c113_exact hs hb ha hf' ho').2 [⟨1, 0⟩, ⟨1, 1⟩, ⟨0, 1⟩]
    rw [if_pos (by decide), show (squareLat 2 2).routes ⟨0, 0⟩ ([⟨1, 0⟩, ⟨1, 1⟩, ⟨0, 1⟩] ++ [⟨0, 0⟩]) = 1 by decide] at h1
    exact List.count_pos_iff.1 (by simp only [List.cons_append, List.nil_append] at h1; omega)
/-- On the cylinder of circumference 2 the step to the other cell is listed twice; from circumference 3 on nothing is. -/
example : ∃ (g : Graph Offset AxisR AxisDR Nat Nat) (k : _) (out : List (List Offset)), Built (hexOffRLew m64 oddR 2 2) (offLatRLoop false 2 2) g k ∧
    SimplePaths g ⟨0, 0⟩ ⟨1, 0⟩ 0 none out ∧ 2 ≤ out.count [⟨0, 0⟩, ⟨1, 0⟩] ∧ ¬ OneWay (offLatRLoop false 2 2) ∧ OneWay (offLatRLoop false 3 2) := by
  have hs := Lawful.hexOffRLew m64 oddR 2 2
  obtain ⟨g, hb⟩ := hs.exists_built (by decide) (fun u _ => (0, u)) (fun u _ _ => (0, u)) ()
  have ha : (offLatRLoop false 2 2).Node ⟨0, 0⟩ := ⟨0, 0, by decide, by decide, rfl⟩
  have e : g.s.m = m64 := by rw [(hb.good hs).shape]; rfl
  have hf : LimitsFit g.s.m 0 none := by rw [e]; exact ⟨by decide, fun _ h => nomatch h⟩
  obtain ⟨out, ho, -⟩ := c113_runs hs hb ha ⟨1, 0⟩ hf
  exact ⟨g, _, out, hb, ho, c113_twice hs hb ha (d := .E) (d' := .W) (by decide) (by decide) (by decide) hf ho,
    fun h => absurd ((c113_one_way_cylinder (by decide) (by decide)).1 h) (by decide), (c113_one_way_cylinder (by decide) (by decide)).2 (by decide)⟩
/-- A limit of `usize::MAX`, with overflow checks and without. -/
example : ∃ g : Graph Offset SquareAxis DSquareAxis Nat Nat, Built (squareShape m64 3 2) (squareLat 3 2) g exK ∧
    ∀ out, ¬ SimplePaths g ⟨0, 0⟩ ⟨2, 1⟩ 0 (some (2 * m64.half - 1)) out := by
  obtain ⟨g, hb⟩ := exSquare
  have hs := Lawful.square m64 3 2
  have e : g.s.m = m64 := by rw [(hb.good hs).shape]; rfl
  exact ⟨g, hb, (c113_panics hs hb ⟨0, 0, by decide, by decide, rfl⟩ ⟨2, 1⟩ (by rw [e]; rfl) fun h => absurd (h.2 _ rfl) (by rw [e]; decide)).2⟩
example : ∃ (g : Graph Offset SquareAxis DSquareAxis Nat Nat) (k : _), Built (squareShape m64r 3 2) (squareLat 3 2) g k ∧
    ∀ out, SimplePaths g ⟨0, 0⟩ ⟨2, 1⟩ 0 (some (2 * m64r.half - 1)) out → out = [] := by
  have hs := Lawful.square m64r 3 2
  obtain ⟨g, hb⟩ := hs.exists_built (by decide) (fun u _ => (0, u)) (fun u _ _ => (0, u)) ()
  have ha : (squareLat 3 2).Node ⟨0, 0⟩ := ⟨0, 0, by decide, by decide, rfl⟩
  have e : g.s.m = m64r := by rw [(hb.good hs).shape]; rfl
  refine ⟨g, _, hb, fun out ho => ?_⟩
  obtain ⟨-, h2⟩ := c113_wraps hs hb ha (by rw [e]; rfl) (by rw [e]; decide) (by rw [e]; exact ho)
  rw [(simple_paths_list hs hb ha (by rw [e]; exact ⟨by decide, fun l h => by cases h; decide⟩) out).1 h2]
  decide
/-- The general statement on paths, used on a hexagonal map. -/
example : ∃ (g : Graph Offset AxisR AxisDR Nat Nat) (k : _) (out : List (List Offset)), Built (hexOffR m64 oddR 4 3) (offLatR false 4 3) g k ∧
    SimplePaths g ⟨0, 0⟩ ⟨3, 2⟩ 1 (some 5) out ∧ ∀ K ∈ out, 3 ≤ K.length ∧ K.length ≤ 7 := by
  have hs := Lawful.hexOffR m64 oddR 4 3
  obtain ⟨g, hb⟩ := hs.exists_built (by decide) (fun u _ => (0, u)) (fun u _ _ => (0, u)) ()
  have ha : (offLatR false 4 3).Node ⟨0, 0⟩ := ⟨0, 0, by decide, by decide, rfl⟩
  have e : g.s.m = m64 := by rw [(hb.good hs).shape]; rfl
  have hf : LimitsFit g.s.m 1 (some 5) := by rw [e]; exact ⟨by decide, fun l h => by cases h; decide⟩
  obtain ⟨out, ho, -⟩ := c113_runs hs hb ha ⟨3, 2⟩ hf
  refine ⟨g, _, out, hb, ho, fun K hK => ?_⟩
  obtain ⟨mid, rfl, -, -, -, h1, h2⟩ := (c113_paths hs hb ha hf ho K).1 hK
  simp only [pathLimit] at h2
  simp only [List.length_cons, List.length_append, List.length_nil]
  omega
end LG
