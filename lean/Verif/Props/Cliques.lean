import Verif.Lemmas.Cliques
import Verif.Props.Distance
import Verif.Props.Search
/- C112: petgraph's `maximal_cliques` on `LatticeGraph`. -/
set_option linter.unusedSectionVars false
namespace LG
section
variable {C A D N E : Type} [DecidableEq C] [DecidableEq A] [DecidableEq D]
variable {g : Graph C A D N E} {s : Shape C A D} {L : Lat C A D} {rep : C → Prop} {k : Contents C A N E}

/-- `neighbors(a)` runs to its end and yields `b` among others. -/
def Adjacent (g : Graph C A D N E) (a b : C) : Prop := ∃ l, Yields (NeighborsIt.next g.s) (g.neighbors a) l ∧ b ∈ l

/-- Nodes of which each is among the neighbors of each other one, and to which no further node can be added. -/
def MaximalClique (g : Graph C A D N E) (Node : C → Prop) (K : List C) : Prop :=
  K.Nodup ∧ (∀ c ∈ K, Node c) ∧ (∀ a ∈ K, ∀ b ∈ K, a ≠ b → Adjacent g a b) ∧ ∀ c, Node c → c ∉ K → ∃ a ∈ K, ¬ Adjacent g a c

theorem maximalClique_iff {Node : C → Prop} {K : List C} : MaximalClique g Node K ↔ IsMaximal Node (Adjacent g) K :=
  ⟨fun ⟨h1, h2, h3, h4⟩ => ⟨⟨h1, h2, h3⟩, h4⟩, fun h => ⟨h.nodup, h.node, h.pair, h.maximal⟩⟩

theorem adjacent_nbr (hs : Lawful s L rep) (hb : Built s L g k) {a : C} (ha : L.Node a) (b : C) :
    Adjacent g a b ↔ ∃ d, L.nbr a d = some b := by
  rw [← (c07_neighbors_exact hs ha b).1]
  exact ⟨fun ⟨l, h1, h2⟩ => by rw [Yields.unique h1 (c07_neighbors_call hs hb ha)] at h2; exact h2, fun h => ⟨_, c07_neighbors_call hs hb ha, h⟩⟩

theorem cliqueGraph (hs : Lawful s L rep) (hb : Built s L g k) : CliqueGraph (latCliques g) L.Node (Adjacent g) where
  symm a b ha hb' h := by
    obtain ⟨d, h⟩ := (adjacent_nbr hs hb ha b).1 h
    exact (adjacent_nbr hs hb hb' a).2 ⟨_, hs.laws.nbr_opp ha h⟩
  nb a ha := ⟨_, c07_neighbors_call hs hb ha⟩
  one a l l' _ h h' := Yields.unique h h'
  mem a l ha h b _ := ⟨fun h' => ⟨l, h, h'⟩, fun ⟨l', h1, h2⟩ => Yields.unique h1 h ▸ h2⟩
  test a b ha _ := ⟨_, c09_is_adjacent hs hb ha b (c07_neighbors hs hb ha)⟩
  exact a b t ha _ h := by
    have h' : g.isAdjacent a b = .ok t := h
    rw [c09_is_adjacent hs hb ha b (c07_neighbors hs hb ha)] at h'
    cases h'
    rw [decide_eq_true_eq, adjacent_nbr hs hb ha b, ← (c07_neighbors_exact hs ha b).1]

/-- **C112.** `maximal_cliques` can always run to its end, whichever orders its hash sets have: every call on a set `p` of nodes
returns, and so does its loop for any part of `p` in any order. -/
theorem c112_runs (hs : Lawful s L rep) (hb : Built s L g k) :
    (∃ out, MaximalCliques g out) ∧
    ∀ p r x, p.Nodup → (∀ c ∈ p, L.Node c) → r.Nodup → x.Nodup → (∃ out, Bron (latCliques g) none r p x out) ∧
      ∀ todo, todo.Nodup → (∀ c ∈ todo, c ∈ p) → ∃ out, Bron (latCliques g) (some todo) r p x out := by
  have hg := cliqueGraph hs hb
  obtain ⟨h1, h2, -⟩ := c05_nodes_exact hs hb
  refine ⟨?_, fun p r x hp hP hr hx => ?_⟩
  · obtain ⟨out, h⟩ := (bron_completes hg _ L.nodes (Nat.le_refl _) h1 fun c hc => (h2 c).1 hc).1 [] [] .nil .nil
    exact ⟨out, L.nodes, c05_node_identifiers hs hb, L.nodes, ⟨h1, fun _ => Iff.rfl⟩, h⟩
  · have := bron_completes hg _ p (Nat.le_refl _) hp hP
    exact ⟨this.1 r x hr hx, fun todo h3 h4 => this.2 todo r x h3 h4 hr hx⟩

theorem cliques_spec (hs : Lawful s L rep) (hb : Built s L g k) {out : List (List C)} (ho : MaximalCliques g out) :
    (∀ K ∈ out, IsMaximal L.Node (Adjacent g) K) ∧ out.Pairwise (fun K K' => ¬ K.Perm K') ∧
    ∀ K, IsMaximal L.Node (Adjacent g) K → ∃ K' ∈ out, K'.Perm K := by
  obtain ⟨nodes, h1, p, hp, h2⟩ := ho
  obtain ⟨-, h4, -⟩ := c05_nodes_exact hs hb
  rw [Yields.unique h1 (c05_node_identifiers hs hb)] at hp
  have hmem : ∀ c, c ∈ p ↔ L.Node c := fun c => (hp.2 c).trans (h4 c)
  have hi : BronInv L.Node (Adjacent g) [] p [] := by
    refine ⟨⟨.nil, (fun _ h => nomatch h), (fun _ h => nomatch h)⟩, hp.1, .nil, (fun _ _ h => nomatch h), fun c => ?_⟩
    rw [hmem]
    simp
  obtain ⟨a1, a2, a3⟩ := bron_sound (cliqueGraph hs hb) h2 hi fun _ e => nomatch e
  refine ⟨fun K hK => (a1 K hK).1.max, a2, fun K hK => a3 K ⟨hK, (fun _ h => nomatch h), fun c hc => .inr ((hmem c).2 (hK.node c hc))⟩
    fun _ e => nomatch e⟩

/-- **C112.** Whatever it returns is the list of the maximal sets of pairwise adjacent nodes, each of them once. -/
theorem c112_exact (hs : Lawful s L rep) (hb : Built s L g k) {out : List (List C)} (ho : MaximalCliques g out) :
    out.Pairwise (fun K K' => ¬ K.Perm K') ∧ (∀ K ∈ out, MaximalClique g L.Node K) ∧
    ∀ K, MaximalClique g L.Node K ↔ ∃ K' ∈ out, K'.Perm K := by
  obtain ⟨h1, h2, h3⟩ := cliques_spec hs hb ho
  refine ⟨h2, fun K hK => maximalClique_iff.2 (h1 K hK), fun K => ⟨fun h => h3 K (maximalClique_iff.1 h), fun ⟨K', hK, hp⟩ => ?_⟩⟩
  have h := h1 K' hK
  exact ⟨hp.nodup_iff.1 h.nodup, fun c hc => h.node c (hp.mem_iff.2 hc), fun a ha b hb => h.pair a (hp.mem_iff.2 ha) b (hp.mem_iff.2 hb),
    fun c hc hn => by
      obtain ⟨a, h4, h5⟩ := h.maximal c hc fun h => hn (hp.mem_iff.1 h)
      exact ⟨a, hp.mem_iff.1 h4, h5⟩⟩

/-- From a cover of all cliques to the result. -/
theorem cliques_cover (hs : Lawful s L rep) (hb : Built s L g k) {I : Type} {keys : List I} {blk : I → List C} (hk : keys.Nodup)
    (h1 : ∀ i ∈ keys, IsClique L.Node (Adjacent g) (blk i)) (h2 : ∀ K, IsClique L.Node (Adjacent g) K → ∃ i ∈ keys, ∀ c ∈ K, c ∈ blk i)
    (h3 : ∀ i ∈ keys, ∀ j ∈ keys, (∀ c ∈ blk i, c ∈ blk j) → i = j) {out : List (List C)} (ho : MaximalCliques g out) :
    out.length = keys.length ∧ ∀ K, (∃ K' ∈ out, K'.Perm K) ↔ ∃ i ∈ keys, K.Perm (blk i) := by
  obtain ⟨a1, a2, a3⟩ := cliques_spec hs hb ho
  have hc := maximal_iff_cover (cliqueGraph hs hb).symm h1 h2 h3
  refine ⟨length_of_perms hk (fun i hi j hj hp => h3 i hi j hj fun c hc => hp.mem_iff.1 hc) a2 (fun K hK => (hc K).1 (a1 K hK))
    fun i hi => a3 _ ((hc _).2 ⟨i, hi, .refl _⟩), fun K => ⟨fun ⟨K', hK, hp⟩ => ?_, fun h => a3 K ((hc K).2 h)⟩⟩
  obtain ⟨i, hi, h⟩ := (hc K').1 (a1 K' hK)
  exact ⟨i, hi, hp.symm.trans h⟩
end

/-! ### What they are on the built-in maps -/

/-- Cells side by side. -/
def SideBySide (a b : Offset) : Prop :=
  (a.vertical = b.vertical ∧ (a.horizontal = b.horizontal + 1 ∨ b.horizontal = a.horizontal + 1)) ∨
  (a.horizontal = b.horizontal ∧ (a.vertical = b.vertical + 1 ∨ b.vertical = a.vertical + 1))

/-- Cells that touch at a side or a corner. -/
def Touching (a b : Offset) : Prop :=
  a ≠ b ∧ a.horizontal ≤ b.horizontal + 1 ∧ b.horizontal ≤ a.horizontal + 1 ∧ a.vertical ≤ b.vertical + 1 ∧ b.vertical ≤ a.vertical + 1

/-- The pair of cells with the left or lower one `(x, y)`. -/
def pairAt : Bool × Nat × Nat → List Offset
  | (false, x, y) => [⟨x, y⟩, ⟨x + 1, y⟩]
  | (true, x, y) => [⟨x, y⟩, ⟨x, y + 1⟩]

def pairKeys (w h : Nat) : List (Bool × Nat × Nat) := (grid (w - 1) h).map (false, ·) ++ (grid w (h - 1)).map (true, ·)

/-- The 2 × 2 block with the lower left cell `(x, y)`. -/
def blockAt : Nat × Nat → List Offset
  | (x, y) => [⟨x, y⟩, ⟨x + 1, y⟩, ⟨x, y + 1⟩, ⟨x + 1, y + 1⟩]

section
variable {w h : Nat} {adj : Offset → Offset → Prop} {P : Offset → Prop}

theorem mem_pairKeys {b : Bool} {x y : Nat} : (b, x, y) ∈ pairKeys w h ↔ if b then x < w ∧ y + 1 < h else x + 1 < w ∧ y < h := by
  unfold pairKeys
  rw [List.mem_append, List.mem_map, List.mem_map]
  cases b
  · simp only [Bool.false_eq_true, if_false]
    constructor
    · rintro (⟨p, hp, e⟩ | ⟨p, hp, e⟩)
      · cases e; have := mem_grid.1 hp; simp only [] at this; omega
      · cases e
    · exact fun hxy => .inl ⟨_, mem_grid.2 (by simp only []; omega), rfl⟩
  · simp only [if_true]
    constructor
    · rintro (⟨p, hp, e⟩ | ⟨p, hp, e⟩)
      · cases e
      · cases e; have := mem_grid.1 hp; simp only [] at this; omega
    · exact fun hxy => .inr ⟨_, mem_grid.2 (by simp only []; omega), rfl⟩

theorem length_pairKeys (w h : Nat) : (pairKeys w h).length = (w - 1) * h + w * (h - 1) := by
  rw [pairKeys, List.length_append, List.length_map, List.length_map, length_grid, length_grid]

theorem nodup_pairKeys (w h : Nat) : (pairKeys w h).Nodup := by
  refine List.pairwise_append.2 ⟨?_, ?_, fun a ha b hb e => ?_⟩
  · exact List.pairwise_map.2 ((nodup_grid _ _).imp fun h e => h (congrArg Prod.snd e))
  · exact List.pairwise_map.2 ((nodup_grid _ _).imp fun h e => h (congrArg Prod.snd e))
  · obtain ⟨_, _, rfl⟩ := List.mem_map.1 ha
    obtain ⟨_, _, rfl⟩ := List.mem_map.1 hb
    cases congrArg Prod.fst e

theorem off_eta (c : Offset) : c = ⟨c.horizontal, c.vertical⟩ := rfl

theorem off_eq {a b : Offset} : a = b ↔ a.horizontal = b.horizontal ∧ a.vertical = b.vertical := by
  cases a; cases b; simp

theorem pair_clique (hP : ∀ c, P c ↔ c.horizontal < w ∧ c.vertical < h) (hadj : ∀ a b, P a → P b → (adj a b ↔ SideBySide a b)) :
    ∀ i ∈ pairKeys w h, IsClique P adj (pairAt i) := by
  rintro ⟨b, x, y⟩ hi
  have hi := mem_pairKeys.1 hi
  have node : ∀ c ∈ pairAt (b, x, y), P c := by
    intro c hc
    rw [hP]
    cases b <;> simp only [Bool.false_eq_true, if_false, if_true] at hi <;> simp only [pairAt, List.mem_cons, List.not_mem_nil, or_false] at hc <;>
      rcases hc with rfl | rfl <;> simp only [] <;> omega
  refine ⟨by cases b <;> simp [pairAt], node, fun a ha c hc hne => (hadj a c (node a ha) (node c hc)).2 ?_⟩
  rw [ne_eq, off_eq] at hne
  cases b <;> simp only [pairAt, List.mem_cons, List.not_mem_nil, or_false] at ha hc <;> rcases ha with rfl | rfl <;> rcases hc with rfl | rfl <;>
    first | (simp [SideBySide]; done) | exact absurd ⟨rfl, rfl⟩ hne

theorem pair_inside {K : List Offset} {a b : Offset} (ha : a.horizontal < w ∧ a.vertical < h) (hb : b.horizontal < w ∧ b.vertical < h)
    (hab : SideBySide a b) (hK : ∀ c ∈ K, c = a ∨ c = b) : ∃ i ∈ pairKeys w h, ∀ c ∈ K, c ∈ pairAt i := by
  obtain ⟨ax, ay⟩ := a
  obtain ⟨bx, by'⟩ := b
  simp only [SideBySide] at hab ha hb
  rcases hab with ⟨e, e' | e'⟩ | ⟨e, e' | e'⟩ <;> subst e e'
  · refine ⟨(false, bx, ay), mem_pairKeys.2 (by simp; omega), fun c hc => ?_⟩
    rcases hK c hc with rfl | rfl <;> simp [pairAt]
  · refine ⟨(false, ax, ay), mem_pairKeys.2 (by simp; omega), fun c hc => ?_⟩
    rcases hK c hc with rfl | rfl <;> simp [pairAt]
  · refine ⟨(true, ax, by'), mem_pairKeys.2 (by simp; omega), fun c hc => ?_⟩
    rcases hK c hc with rfl | rfl <;> simp [pairAt]
  · refine ⟨(true, ax, ay), mem_pairKeys.2 (by simp; omega), fun c hc => ?_⟩
    rcases hK c hc with rfl | rfl <;> simp [pairAt]

theorem pair_cover (hwh : 2 ≤ w * h) (hP : ∀ c, P c ↔ c.horizontal < w ∧ c.vertical < h) (hadj : ∀ a b, P a → P b → (adj a b ↔ SideBySide a b))
    (K : List Offset) (hK : IsClique P adj K) : ∃ i ∈ pairKeys w h, ∀ c ∈ K, c ∈ pairAt i := by
  have hpos : 0 < w ∧ 0 < h ∧ (1 < w ∨ 1 < h) := by
    rcases w with _ | _ | w <;> rcases h with _ | _ | h <;> (try simp at hwh) <;> omega
  have one : ∀ a : Offset, a.horizontal < w ∧ a.vertical < h → ∃ b : Offset, (b.horizontal < w ∧ b.vertical < h) ∧ SideBySide a b := by
    intro a ha
    by_cases h1 : a.horizontal + 1 < w
    · exact ⟨⟨a.horizontal + 1, a.vertical⟩, ⟨h1, ha.2⟩, .inl ⟨rfl, .inr rfl⟩⟩
    · by_cases h2 : a.vertical + 1 < h
      · exact ⟨⟨a.horizontal, a.vertical + 1⟩, ⟨ha.1, h2⟩, .inr ⟨rfl, .inr rfl⟩⟩
      · by_cases h3 : 1 < w
        · exact ⟨⟨a.horizontal - 1, a.vertical⟩, ⟨show a.horizontal - 1 < w by omega, ha.2⟩, .inl ⟨rfl, .inl (show a.horizontal = a.horizontal - 1 + 1 by omega)⟩⟩
        · exact ⟨⟨a.horizontal, a.vertical - 1⟩, ⟨ha.1, show a.vertical - 1 < h by omega⟩, .inr ⟨rfl, .inl (show a.vertical = a.vertical - 1 + 1 by omega)⟩⟩
  match K, hK with
  | [], _ =>
    obtain ⟨b, h1, h2⟩ := one ⟨0, 0⟩ ⟨hpos.1, hpos.2.1⟩
    exact pair_inside ⟨hpos.1, hpos.2.1⟩ h1 h2 fun c hc => nomatch hc
  | [a], hK =>
    have ha := (hP a).1 (hK.node a (by simp))
    obtain ⟨b, h1, h2⟩ := one a ha
    exact pair_inside ha h1 h2 fun c hc => .inl (List.mem_singleton.1 hc)
  | [a, b], hK =>
    have hPa := hK.node a (by simp)
    have hPb := hK.node b (by simp)
    have hn := hK.nodup
    have hne : a ≠ b := fun e => by simp [e] at hn
    exact pair_inside ((hP a).1 hPa) ((hP b).1 hPb) ((hadj a b hPa hPb).1 (hK.pair a (by simp) b (by simp) hne)) fun c hc => by simpa using hc
  | a :: b :: c :: l, hK =>
    have hPa := hK.node a (by simp)
    have hPb := hK.node b (by simp)
    have hPc := hK.node c (by simp)
    have hn := hK.nodup
    simp only [List.nodup_cons, List.mem_cons, not_or] at hn
    have h1 := (hadj a b hPa hPb).1 (hK.pair a (by simp) b (by simp) hn.1.1)
    have h2 := (hadj a c hPa hPc).1 (hK.pair a (by simp) c (by simp) hn.1.2.1)
    have h3 := (hadj b c hPb hPc).1 (hK.pair b (by simp) c (by simp) hn.2.1.1)
    simp only [SideBySide] at h1 h2 h3
    omega

theorem pair_apart : ∀ i ∈ pairKeys w h, ∀ j ∈ pairKeys w h, (∀ c ∈ pairAt i, c ∈ pairAt j) → i = j := by
  rintro ⟨b, x, y⟩ - ⟨b', x', y'⟩ - hsub
  cases b <;> cases b' <;> simp [pairAt] at hsub ⊢ <;> omega

theorem mem_blockAt {p : Nat × Nat} {c : Offset} : c ∈ blockAt p ↔ p.1 ≤ c.horizontal ∧ c.horizontal ≤ p.1 + 1 ∧ p.2 ≤ c.vertical ∧ c.vertical ≤ p.2 + 1 := by
  simp only [blockAt, List.mem_cons, List.not_mem_nil, or_false, off_eq]
  omega

theorem block_clique (hP : ∀ c, P c ↔ c.horizontal < w ∧ c.vertical < h) (hadj : ∀ a b, P a → P b → (adj a b ↔ Touching a b)) :
    ∀ i ∈ grid (w - 1) (h - 1), IsClique P adj (blockAt i) := by
  intro p hp
  have hp := mem_grid.1 hp
  have node : ∀ c ∈ blockAt p, P c := fun c hc => (hP c).2 (by have := mem_blockAt.1 hc; omega)
  refine ⟨by simp [blockAt], node, fun a ha c hc hne => (hadj a c (node a ha) (node c hc)).2 ⟨hne, ?_⟩⟩
  have := mem_blockAt.1 ha
  have := mem_blockAt.1 hc
  omega

theorem block_cover (hw : 2 ≤ w) (hh : 2 ≤ h) (hP : ∀ c, P c ↔ c.horizontal < w ∧ c.vertical < h)
    (hadj : ∀ a b, P a → P b → (adj a b ↔ Touching a b)) (K : List Offset) (hK : IsClique P adj K) :
    ∃ i ∈ grid (w - 1) (h - 1), ∀ c ∈ K, c ∈ blockAt i := by
  have near : ∀ a ∈ K, ∀ b ∈ K, a.horizontal ≤ b.horizontal + 1 ∧ a.vertical ≤ b.vertical + 1 := by
    intro a ha b hb
    by_cases e : a = b
    · subst e; omega
    · have := (hadj a b (hK.node a ha) (hK.node b hb)).1 (hK.pair a ha b hb e)
      exact ⟨this.2.1, this.2.2.2.1⟩
  obtain ⟨x, h1, h2⟩ := window (·.horizontal) (d := 1) (by omega) K (fun c hc => ((hP c).1 (hK.node c hc)).1) fun a ha b hb => (near a ha b hb).1
  obtain ⟨y, h3, h4⟩ := window (·.vertical) (d := 1) (by omega) K (fun c hc => ((hP c).1 (hK.node c hc)).2) fun a ha b hb => (near a ha b hb).2
  refine ⟨(x, y), mem_grid.2 (by simp only []; omega), fun c hc => mem_blockAt.2 ?_⟩
  have := h2 c hc
  have := h4 c hc
  simp only [] at *
  omega

theorem block_apart : ∀ i ∈ grid (w - 1) (h - 1), ∀ j ∈ grid (w - 1) (h - 1), (∀ c ∈ blockAt i, c ∈ blockAt j) → i = j := by
  rintro ⟨x, y⟩ - ⟨x', y'⟩ - hsub
  have h1 := mem_blockAt.1 (hsub ⟨x, y⟩ (by simp [blockAt]))
  have h2 := mem_blockAt.1 (hsub ⟨x + 1, y + 1⟩ (by simp [blockAt]))
  simp only [Prod.mk.injEq] at *
  omega
end

/-- Hexagons that share a side, by their positions in the plane. -/
def HexNear (even : Bool) (a b : Offset) : Prop :=
  ((offPos even b).2 = (offPos even a).2 ∧ ((offPos even b).1 = (offPos even a).1 + 2 ∨ (offPos even a).1 = (offPos even b).1 + 2)) ∨
  (((offPos even b).2 = (offPos even a).2 + 1 ∨ (offPos even a).2 = (offPos even b).2 + 1) ∧
    ((offPos even b).1 = (offPos even a).1 + 1 ∨ (offPos even a).1 = (offPos even b).1 + 1))

/-- The cells of rows `y` and `y + 1` ordered from left to right. -/
def stripCell (even : Bool) (y i : Nat) : Offset := ⟨i / 2, if (i % 2 : Int) = rowShift even y then y else y + 1⟩

/-- Three successive ones of them. -/
def triAt (even : Bool) : Nat × Nat → List Offset
  | (y, i) => [stripCell even y i, stripCell even y (i + 1), stripCell even y (i + 2)]

section
variable {w h : Nat} {even : Bool} {adj : Offset → Offset → Prop} {P : Offset → Prop}

/-- Position within the row in half cells. -/
def hexPos (even : Bool) (c : Offset) : Nat := 2 * c.horizontal + (rowShift even c.vertical).toNat

theorem mem_triAt {p : Nat × Nat} {c : Offset} : c ∈ triAt even p ↔
    (c.vertical = p.1 ∨ c.vertical = p.1 + 1) ∧ p.2 ≤ hexPos even c ∧ hexPos even c ≤ p.2 + 2 := by
  obtain ⟨y, i⟩ := p
  simp only [triAt, stripCell, List.mem_cons, List.not_mem_nil, or_false, off_eq, hexPos]
  cases even <;> simp only [rowShift, Bool.false_eq_true, if_false, if_true] <;> split <;> split <;> split <;> omega

theorem hexPos_lt {c : Offset} (hc : c.horizontal < w) : hexPos even c < 2 * w := by
  have := rowShift_01 even c.vertical
  unfold hexPos
  omega

theorem hexNear_of {a b : Offset} (h1 : a ≠ b) (h2 : a.vertical ≤ b.vertical + 1) (h3 : b.vertical ≤ a.vertical + 1)
    (h4 : hexPos even a ≤ hexPos even b + 2) (h5 : hexPos even b ≤ hexPos even a + 2) : HexNear even a b := by
  rw [ne_eq, off_eq] at h1
  unfold hexPos at h4 h5
  simp only [HexNear, offPos]
  cases even <;> simp only [rowShift, Bool.false_eq_true, if_false, if_true] at * <;> omega

theorem hexNear_le {a b : Offset} (hn : HexNear even a b) : a.vertical ≤ b.vertical + 1 ∧ hexPos even a ≤ hexPos even b + 2 := by
  have := rowShift_01 even a.vertical
  have := rowShift_01 even b.vertical
  simp only [HexNear, offPos, hexPos] at *
  omega

theorem tri_clique (hP : ∀ c, P c ↔ c.horizontal < w ∧ c.vertical < h) (hadj : ∀ a b, P a → P b → (adj a b ↔ HexNear even a b)) :
    ∀ i ∈ grid (h - 1) (2 * w - 2), IsClique P adj (triAt even i) := by
  intro p hp
  have hp := mem_grid.1 hp
  have node : ∀ c ∈ triAt even p, P c := fun c hc => (hP c).2 (by
    have := mem_triAt.1 hc
    unfold hexPos at this
    omega)
  refine ⟨?_, node, fun a ha c hc hne => (hadj a c (node a ha) (node c hc)).2 ?_⟩
  · simp only [triAt, stripCell, List.nodup_cons, List.mem_cons, List.not_mem_nil, or_false, not_or, off_eq, not_false_eq_true, List.nodup_nil, and_true]
    cases even <;> simp only [rowShift, Bool.false_eq_true, if_false, if_true] <;> split <;> split <;> split <;> omega
  · have h1 := mem_triAt.1 ha
    have h2 := mem_triAt.1 hc
    exact hexNear_of hne (by omega) (by omega) (by omega) (by omega)

theorem tri_cover (hw : 2 ≤ w) (hh : 2 ≤ h) (hP : ∀ c, P c ↔ c.horizontal < w ∧ c.vertical < h)
    (hadj : ∀ a b, P a → P b → (adj a b ↔ HexNear even a b)) (K : List Offset) (hK : IsClique P adj K) :
    ∃ i ∈ grid (h - 1) (2 * w - 2), ∀ c ∈ K, c ∈ triAt even i := by
  have near : ∀ a ∈ K, ∀ b ∈ K, a.vertical ≤ b.vertical + 1 ∧ hexPos even a ≤ hexPos even b + 2 := by
    intro a ha b hb
    by_cases e : a = b
    · subst e; omega
    · exact hexNear_le ((hadj a b (hK.node a ha) (hK.node b hb)).1 (hK.pair a ha b hb e))
  obtain ⟨y, h1, h2⟩ := window (·.vertical) (d := 1) (by omega) K (fun c hc => ((hP c).1 (hK.node c hc)).2) fun a ha b hb => (near a ha b hb).1
  obtain ⟨i, h3, h4⟩ := window (hexPos even) (d := 2) (n := 2 * w) (by omega) K (fun c hc => hexPos_lt ((hP c).1 (hK.node c hc)).1)
    fun a ha b hb => (near a ha b hb).2
  refine ⟨(y, i), mem_grid.2 (by simp only []; omega), fun c hc => mem_triAt.2 ?_⟩
  have h5 := h2 c hc
  have h6 := h4 c hc
  simp only [] at *
  omega

theorem tri_apart : ∀ i ∈ grid (h - 1) (2 * w - 2), ∀ j ∈ grid (h - 1) (2 * w - 2), (∀ c ∈ triAt even i, c ∈ triAt even j) → i = j := by
  rintro ⟨y, i⟩ - ⟨y', i'⟩ - hsub
  have h1 := mem_triAt.1 (hsub (stripCell even y i) (by simp [triAt]))
  have h2 := mem_triAt.1 (hsub (stripCell even y (i + 1)) (by simp [triAt]))
  have h3 := mem_triAt.1 (hsub (stripCell even y (i + 2)) (by simp [triAt]))
  simp only [stripCell, hexPos, Prod.mk.injEq] at *
  cases even <;> simp only [rowShift, Bool.false_eq_true, if_false, if_true] at * <;> split at h1 <;> split at h2 <;> split at h3 <;> omega
end

/-! ### Cliques of one graph and of an image of it -/

section
variable {V V' : Type} {P : V → Prop} {adj : V → V → Prop} {P' : V' → Prop} {adj' : V' → V' → Prop} {f : V → V'}

theorem clique_map (hinj : ∀ a b, P a → P b → f a = f b → a = b) (hP : ∀ v, P' v ↔ ∃ c, P c ∧ v = f c)
    (hadj : ∀ a b, P a → P b → (adj' (f a) (f b) ↔ adj a b)) {K : List V} (hn : ∀ c ∈ K, P c) :
    IsClique P' adj' (K.map f) ↔ IsClique P adj K := by
  constructor
  · intro h
    refine ⟨(List.pairwise_map.1 h.nodup).imp fun h e => h (congrArg f e), hn, fun a ha b hb hne => ?_⟩
    exact (hadj a b (hn a ha) (hn b hb)).1 (h.pair _ (List.mem_map_of_mem ha) _ (List.mem_map_of_mem hb) fun e =>
      hne (hinj a b (hn a ha) (hn b hb) e))
  · intro h
    refine ⟨?_, fun v hv => ?_, fun a ha b hb hne => ?_⟩
    · refine List.pairwise_map.2 (h.nodup.imp_of_mem fun ha hb hne e => hne (hinj _ _ (hn _ ha) (hn _ hb) e))
    · obtain ⟨c, hc, rfl⟩ := List.mem_map.1 hv
      exact (hP _).2 ⟨c, hn c hc, rfl⟩
    · obtain ⟨a, ha', rfl⟩ := List.mem_map.1 ha
      obtain ⟨b, hb', rfl⟩ := List.mem_map.1 hb
      exact (hadj a b (hn a ha') (hn b hb')).2 (h.pair a ha' b hb' fun e => hne (congrArg f e))

theorem preimages (hP : ∀ v, P' v ↔ ∃ c, P c ∧ v = f c) : ∀ K' : List V', (∀ v ∈ K', P' v) → ∃ K : List V, K' = K.map f ∧ ∀ c ∈ K, P c
  | [], _ => ⟨[], rfl, fun _ h => nomatch h⟩
  | v :: K', h => by
    obtain ⟨K, rfl, h1⟩ := preimages hP K' fun v hv => h v (by simp [hv])
    obtain ⟨c, h2, rfl⟩ := (hP v).1 (h v (by simp))
    refine ⟨c :: K, rfl, fun a ha => ?_⟩
    rcases List.mem_cons.1 ha with rfl | ha
    · exact h2
    · exact h1 a ha
end

section
variable {N E : Type} {rep : Offset → Prop} {repA : Axial → Prop} {w h : Nat} {even flat : Bool}

theorem rect_nodes_iff {A D : Type} {L : Lat Offset A D} (hw : L.width = w) (hh : L.height = h) (hc : L.coord = fun x y => ⟨x, y⟩) (c : Offset) :
    L.Node c ↔ c.horizontal < w ∧ c.vertical < h := by
  constructor
  · rintro ⟨x, y, h1, h2, rfl⟩
    rw [hc]
    exact ⟨hw ▸ h1, hh ▸ h2⟩
  · exact fun ⟨h1, h2⟩ => ⟨_, _, hw.symm ▸ h1, hh.symm ▸ h2, by rw [hc]⟩

theorem square_near {a b : Offset} (hb : b.horizontal < w ∧ b.vertical < h) :
    (∃ d : DSquareAxis, rectNbr w h a d.vec = some b) ↔ SideBySide a b := by
  simp only [rectNbr_iff, SideBySide]
  constructor
  · rintro ⟨d, hd⟩
    cases d <;> simp only [DSquareAxis.vec] at hd <;> omega
  · rintro (⟨e, e' | e'⟩ | ⟨e, e' | e'⟩)
    · exact ⟨.RX, by simp only [DSquareAxis.vec]; omega⟩
    · exact ⟨.X, by simp only [DSquareAxis.vec]; omega⟩
    · exact ⟨.RY, by simp only [DSquareAxis.vec]; omega⟩
    · exact ⟨.Y, by simp only [DSquareAxis.vec]; omega⟩

theorem diag_near {a b : Offset} (hb : b.horizontal < w ∧ b.vertical < h) :
    (∃ d : DDiagAxis, rectNbr w h a d.vec = some b) ↔ Touching a b := by
  simp only [rectNbr_iff, Touching, ne_eq, off_eq]
  constructor
  · rintro ⟨d, hd⟩
    cases d <;> simp only [DDiagAxis.vec] at hd <;> omega
  · intro ht
    have : b.horizontal = a.horizontal + 1 ∨ b.horizontal = a.horizontal ∨ a.horizontal = b.horizontal + 1 := by omega
    have : b.vertical = a.vertical + 1 ∨ b.vertical = a.vertical ∨ a.vertical = b.vertical + 1 := by omega
    rcases ‹b.horizontal = _ ∨ _› with h1 | h1 | h1 <;> rcases ‹b.vertical = _ ∨ _› with h2 | h2 | h2
    · exact ⟨.NE, by simp only [DDiagAxis.vec]; omega⟩
    · exact ⟨.E, by simp only [DDiagAxis.vec]; omega⟩
    · exact ⟨.SE, by simp only [DDiagAxis.vec]; omega⟩
    · exact ⟨.N, by simp only [DDiagAxis.vec]; omega⟩
    · omega
    · exact ⟨.S, by simp only [DDiagAxis.vec]; omega⟩
    · exact ⟨.NW, by simp only [DDiagAxis.vec]; omega⟩
    · exact ⟨.W, by simp only [DDiagAxis.vec]; omega⟩
    · exact ⟨.SW, by simp only [DDiagAxis.vec]; omega⟩

theorem off_near {a b : Offset} (hb : b.horizontal < w ∧ b.vertical < h) : (∃ d : AxisDR, offNbr even w h a d = some b) ↔ HexNear even a b := by
  simp only [offNbr_iff, HexNear]
  constructor
  · rintro ⟨d, hd⟩
    cases d <;> simp only [AxisDR.vec] at hd <;> omega
  · rintro (⟨e, e' | e'⟩ | ⟨e | e, e' | e'⟩)
    · exact ⟨.E, by simp only [AxisDR.vec]; omega⟩
    · exact ⟨.W, by simp only [AxisDR.vec]; omega⟩
    · exact ⟨.NE, by simp only [AxisDR.vec]; omega⟩
    · exact ⟨.NW, by simp only [AxisDR.vec]; omega⟩
    · exact ⟨.SE, by simp only [AxisDR.vec]; omega⟩
    · exact ⟨.SW, by simp only [AxisDR.vec]; omega⟩

theorem square_cliques {A : Type} [DecidableEq A] {L : Lat Offset A DSquareAxis} {s : Shape Offset A DSquareAxis}
    {g : Graph Offset A DSquareAxis N E} {k : Contents Offset A N E} (hs : Lawful s L rep) (hb : Built s L g k)
    (hw : L.width = w) (hh : L.height = h) (hc : L.coord = fun x y => ⟨x, y⟩) (hn : L.nbr = fun c d => rectNbr w h c d.vec)
    (hwh : 2 ≤ w * h) {out : List (List Offset)} (ho : MaximalCliques g out) :
    out.length = (w - 1) * h + w * (h - 1) ∧ ∀ K, (∃ K' ∈ out, K'.Perm K) ↔
      ∃ x y, (x + 1 < w ∧ y < h ∧ K.Perm [⟨x, y⟩, ⟨x + 1, y⟩]) ∨ (x < w ∧ y + 1 < h ∧ K.Perm [⟨x, y⟩, ⟨x, y + 1⟩]) := by
  have hP := rect_nodes_iff hw hh hc
  have hadj : ∀ a b, L.Node a → L.Node b → (Adjacent g a b ↔ SideBySide a b) := fun a b ha hb' => by
    rw [adjacent_nbr hs hb ha, hn]; exact square_near ((hP b).1 hb')
  obtain ⟨h1, h2⟩ := cliques_cover hs hb (nodup_pairKeys w h) (pair_clique hP hadj) (pair_cover hwh hP hadj) pair_apart ho
  refine ⟨h1.trans (length_pairKeys w h), fun K => (h2 K).trans ⟨?_, ?_⟩⟩
  · rintro ⟨⟨b, x, y⟩, hi, hK⟩
    have hi := mem_pairKeys.1 hi
    cases b
    · exact ⟨x, y, .inl ⟨hi.1, hi.2, hK⟩⟩
    · exact ⟨x, y, .inr ⟨hi.1, hi.2, hK⟩⟩
  · rintro ⟨x, y, ⟨h3, h4, hK⟩ | ⟨h3, h4, hK⟩⟩
    · exact ⟨(false, x, y), mem_pairKeys.2 ⟨h3, h4⟩, hK⟩
    · exact ⟨(true, x, y), mem_pairKeys.2 ⟨h3, h4⟩, hK⟩

theorem diag_cliques {A : Type} [DecidableEq A] {L : Lat Offset A DDiagAxis} {s : Shape Offset A DDiagAxis}
    {g : Graph Offset A DDiagAxis N E} {k : Contents Offset A N E} (hs : Lawful s L rep) (hb : Built s L g k)
    (hw : L.width = w) (hh : L.height = h) (hc : L.coord = fun x y => ⟨x, y⟩) (hn : L.nbr = fun c d => rectNbr w h c d.vec)
    (h2w : 2 ≤ w) (h2h : 2 ≤ h) {out : List (List Offset)} (ho : MaximalCliques g out) :
    out.length = (w - 1) * (h - 1) ∧ ∀ K, (∃ K' ∈ out, K'.Perm K) ↔
      ∃ x y, x + 1 < w ∧ y + 1 < h ∧ K.Perm [⟨x, y⟩, ⟨x + 1, y⟩, ⟨x, y + 1⟩, ⟨x + 1, y + 1⟩] := by
  have hP := rect_nodes_iff hw hh hc
  have hadj : ∀ a b, L.Node a → L.Node b → (Adjacent g a b ↔ Touching a b) := fun a b ha hb' => by
    rw [adjacent_nbr hs hb ha, hn]; exact diag_near ((hP b).1 hb')
  obtain ⟨h1, h2⟩ := cliques_cover hs hb (nodup_grid _ _) (block_clique hP hadj) (block_cover h2w h2h hP hadj) block_apart ho
  refine ⟨h1.trans (length_grid _ _), fun K => (h2 K).trans ⟨?_, ?_⟩⟩
  · rintro ⟨⟨x, y⟩, hi, hK⟩
    have hi := mem_grid.1 hi
    exact ⟨x, y, by simp only [] at hi; omega, by simp only [] at hi; omega, hK⟩
  · rintro ⟨x, y, h3, h4, hK⟩
    exact ⟨(x, y), mem_grid.2 (by simp only []; omega), hK⟩

theorem off_cliques {A : Type} [DecidableEq A] {L : Lat Offset A AxisDR} {s : Shape Offset A AxisDR}
    {g : Graph Offset A AxisDR N E} {k : Contents Offset A N E} (hs : Lawful s L rep) (hb : Built s L g k)
    (hw : L.width = w) (hh : L.height = h) (hc : L.coord = fun x y => ⟨x, y⟩) (hn : L.nbr = offNbr even w h)
    (h2w : 2 ≤ w) (h2h : 2 ≤ h) {out : List (List Offset)} (ho : MaximalCliques g out) :
    out.length = (h - 1) * (2 * w - 2) ∧ ∀ K, (∃ K' ∈ out, K'.Perm K) ↔
      ∃ y i, y + 1 < h ∧ i + 2 < 2 * w ∧ K.Perm [stripCell even y i, stripCell even y (i + 1), stripCell even y (i + 2)] := by
  have hP := rect_nodes_iff hw hh hc
  have hadj : ∀ a b, L.Node a → L.Node b → (Adjacent g a b ↔ HexNear even a b) := fun a b ha hb' => by
    rw [adjacent_nbr hs hb ha, hn]; exact off_near ((hP b).1 hb')
  obtain ⟨h1, h2⟩ := cliques_cover hs hb (nodup_grid _ _) (tri_clique hP hadj) (tri_cover h2w h2h hP hadj) tri_apart ho
  refine ⟨h1.trans (length_grid _ _), fun K => (h2 K).trans ⟨?_, ?_⟩⟩
  · rintro ⟨⟨y, i⟩, hi, hK⟩
    have hi := mem_grid.1 hi
    exact ⟨y, i, by simp only [] at hi; omega, by simp only [] at hi; omega, hK⟩
  · rintro ⟨y, i, h3, h4, hK⟩
    exact ⟨(y, i), mem_grid.2 (by simp only []; omega), hK⟩

/-- Where the cell in column `x`, row `y` of the sheared rows (point-top) or in row `x`, column `y` of the sheared columns (flat-top)
is in axial coordinates. -/
def shearCell (even flat : Bool) (c : Offset) : Axial :=
  if flat then axCoord even true c.vertical c.horizontal else axCoord even false c.horizontal c.vertical

theorem shearCell_inj {a b : Offset} (e : shearCell even flat a = shearCell even flat b) : a = b := by
  rw [off_eq]
  cases flat <;> simp only [shearCell, axCoord, Bool.false_eq_true, if_false, if_true, Axial.mk.injEq] at e
  · have : a.vertical = b.vertical := by omega
    rw [this] at e ⊢
    omega
  · have : a.vertical = b.vertical := by omega
    rw [this] at e ⊢
    omega

/-- Side lengths of the map as seen by `shearCell`. -/
def axSides (flat : Bool) (w h : Nat) : Nat × Nat := if flat then (h, w) else (w, h)

theorem shearCell_node {v : Axial} : axIn even flat w h v = true ↔
    ∃ c : Offset, (c.horizontal < (axSides flat w h).1 ∧ c.vertical < (axSides flat w h).2) ∧ v = shearCell even flat c := by
  rw [axIn_iff]
  cases flat
  · exact ⟨fun ⟨x, y, h1, h2, e⟩ => ⟨⟨x, y⟩, ⟨h1, h2⟩, e⟩, fun ⟨c, ⟨h1, h2⟩, e⟩ => ⟨_, _, h1, h2, e⟩⟩
  · exact ⟨fun ⟨x, y, h1, h2, e⟩ => ⟨⟨y, x⟩, ⟨h2, h1⟩, e⟩, fun ⟨c, ⟨h1, h2⟩, e⟩ => ⟨_, _, h2, h1, e⟩⟩

/-- The six displacements to an adjacent hexagon in axial coordinates. -/
def AxStep (v : Int × Int) : Prop := v = (1, 0) ∨ v = (0, 1) ∨ v = (1, -1) ∨ v = (-1, 0) ∨ v = (0, -1) ∨ v = (-1, 1)

theorem axStep_DR (v : Int × Int) : AxStep v ↔ ∃ d : AxisDR, v = d.axial := by
  constructor
  · rintro (rfl | rfl | rfl | rfl | rfl | rfl)
    · exact ⟨.E, rfl⟩
    · exact ⟨.NE, rfl⟩
    · exact ⟨.SE, rfl⟩
    · exact ⟨.W, rfl⟩
    · exact ⟨.SW, rfl⟩
    · exact ⟨.NW, rfl⟩
  · rintro ⟨d, rfl⟩; cases d <;> simp [AxStep, AxisDR.axial]

theorem axStep_DQ (v : Int × Int) : AxStep v ↔ ∃ d : AxisDQ, v = d.axial := by
  constructor
  · rintro (rfl | rfl | rfl | rfl | rfl | rfl)
    · exact ⟨.NE, rfl⟩
    · exact ⟨.N, rfl⟩
    · exact ⟨.SE, rfl⟩
    · exact ⟨.SW, rfl⟩
    · exact ⟨.S, rfl⟩
    · exact ⟨.NW, rfl⟩
  · rintro ⟨d, rfl⟩; cases d <;> simp [AxStep, AxisDQ.axial]

theorem axStep_near {a b : Offset} :
    AxStep ((shearCell even flat b).r - (shearCell even flat a).r, (shearCell even flat b).q - (shearCell even flat a).q) ↔ HexNear even a b := by
  cases flat <;> cases even <;> simp only [AxStep, HexNear, shearCell, axCoord, axShift, offPos, rowShift, Prod.mk.injEq, Bool.false_eq_true,
    if_false, if_true] <;> omega

theorem ax_cliques {A D : Type} [DecidableEq A] [DecidableEq D] {L : Lat Axial A D} {s : Shape Axial A D} {vec : D → Int × Int}
    {g : Graph Axial A D N E} {k : Contents Axial A N E} (hs : Lawful s L repA) (hb : Built s L g k)
    (hw : L.width = w) (hh : L.height = h) (hc : L.coord = axCoord even flat) (hn : L.nbr = fun c d => axNbr even flat w h c (vec d))
    (hvec : ∀ v, AxStep v ↔ ∃ d, v = vec d)
    (h2w : 2 ≤ w) (h2h : 2 ≤ h) {out : List (List Axial)} (ho : MaximalCliques g out) :
    out.length = ((axSides flat w h).2 - 1) * (2 * (axSides flat w h).1 - 2) ∧ ∀ K, (∃ K' ∈ out, K'.Perm K) ↔
      ∃ y i, y + 1 < (axSides flat w h).2 ∧ i + 2 < 2 * (axSides flat w h).1 ∧
        K.Perm ([stripCell even y i, stripCell even y (i + 1), stripCell even y (i + 2)].map (shearCell even flat)) := by
  have hP' : ∀ v, L.Node v ↔ axIn even flat w h v = true := fun v => by rw [axIn_iff, Lat.Node, hw, hh, hc]
  let P : Offset → Prop := fun c => c.horizontal < (axSides flat w h).1 ∧ c.vertical < (axSides flat w h).2
  have hP : ∀ v, L.Node v ↔ ∃ c, P c ∧ v = shearCell even flat c := fun v => (hP' v).trans shearCell_node
  have hadj : ∀ a b, P a → P b → (Adjacent g (shearCell even flat a) (shearCell even flat b) ↔ HexNear even a b) := by
    intro a b ha hb'
    rw [adjacent_nbr hs hb ((hP _).2 ⟨a, ha, rfl⟩), hn, ← axStep_near (flat := flat), hvec]
    refine exists_congr fun d => ?_
    rw [axNbr_some, and_iff_right (shearCell_node.2 ⟨b, hb', rfl⟩)]
    constructor
    · intro e
      rw [e]
      exact Prod.ext (by simp only []; omega) (by simp only []; omega)
    · intro e
      have e1 := congrArg Prod.fst e
      have e2 := congrArg Prod.snd e
      simp only [] at e1 e2
      rw [← e1, ← e2]
      generalize shearCell even flat a = u
      generalize shearCell even flat b = v
      cases u; cases v
      simp only [Axial.mk.injEq]
      omega
  have hinj : ∀ a b, P a → P b → shearCell even flat a = shearCell even flat b → a = b := fun a b _ _ => shearCell_inj
  have hsides : 2 ≤ (axSides flat w h).1 ∧ 2 ≤ (axSides flat w h).2 := by cases flat <;> simp [axSides] <;> omega
  have hcl := tri_clique (P := P) (adj := HexNear even) (even := even) (fun _ => Iff.rfl) (fun _ _ _ _ => Iff.rfl)
  obtain ⟨h1, h2⟩ := cliques_cover hs hb (nodup_grid ((axSides flat w h).2 - 1) (2 * (axSides flat w h).1 - 2))
    (blk := fun i => (triAt even i).map (shearCell even flat))
    (fun i hi => (clique_map hinj hP hadj (hcl i hi).node).2 (hcl i hi))
    (fun K hK => by
      obtain ⟨K, rfl, hKP⟩ := preimages hP K hK.node
      obtain ⟨i, hi, hsub⟩ := tri_cover (P := P) (adj := HexNear even) hsides.1 hsides.2 (fun _ => Iff.rfl) (fun _ _ _ _ => Iff.rfl) K
        ((clique_map hinj hP hadj hKP).1 hK)
      refine ⟨i, hi, fun v hv => ?_⟩
      obtain ⟨c, hc, rfl⟩ := List.mem_map.1 hv
      exact List.mem_map_of_mem (hsub c hc))
    (fun i hi j hj hsub => tri_apart i hi j hj fun c hc => by
      obtain ⟨c', h1, h2⟩ := List.mem_map.1 (hsub _ (List.mem_map_of_mem hc))
      exact shearCell_inj h2 ▸ h1) ho
  refine ⟨h1.trans (length_grid _ _), fun K => (h2 K).trans ⟨?_, ?_⟩⟩
  · rintro ⟨⟨y, i⟩, hi, hK⟩
    have hi := mem_grid.1 hi
    exact ⟨y, i, by simp only [] at hi; omega, by simp only [] at hi; omega, hK⟩
  · rintro ⟨y, i, h3, h4, hK⟩
    exact ⟨(y, i), mem_grid.2 (by simp only []; omega), hK⟩
/-- **C112.** On a square map of at least two nodes the result is the list of its edges: the pairs of nodes side by side and above each other. -/
theorem c112_square {s : Shape Offset SquareAxis DSquareAxis} {g : Graph Offset SquareAxis DSquareAxis N E} {k : Contents Offset SquareAxis N E}
    (hs : Lawful s (squareLat w h) rep) (hb : Built s (squareLat w h) g k) (hwh : 2 ≤ w * h) {out : List (List Offset)} (ho : MaximalCliques g out) :
    out.length = (w - 1) * h + w * (h - 1) ∧ ∀ K, (∃ K' ∈ out, K'.Perm K) ↔
      ∃ x y, (x + 1 < w ∧ y < h ∧ K.Perm [⟨x, y⟩, ⟨x + 1, y⟩]) ∨ (x < w ∧ y + 1 < h ∧ K.Perm [⟨x, y⟩, ⟨x, y + 1⟩]) :=
  square_cliques hs hb rfl rfl rfl rfl hwh ho

/-- **C112.** The same on a directed one, where every edge has an opposite. -/
theorem c112_square_directed {s : Shape Offset DSquareAxis DSquareAxis} {g : Graph Offset DSquareAxis DSquareAxis N E} {k : Contents Offset DSquareAxis N E}
    (hs : Lawful s (squareLatDirected w h) rep) (hb : Built s (squareLatDirected w h) g k) (hwh : 2 ≤ w * h) {out : List (List Offset)} (ho : MaximalCliques g out) :
    out.length = (w - 1) * h + w * (h - 1) ∧ ∀ K, (∃ K' ∈ out, K'.Perm K) ↔
      ∃ x y, (x + 1 < w ∧ y < h ∧ K.Perm [⟨x, y⟩, ⟨x + 1, y⟩]) ∨ (x < w ∧ y + 1 < h ∧ K.Perm [⟨x, y⟩, ⟨x, y + 1⟩]) :=
  square_cliques hs hb rfl rfl rfl rfl hwh ho

/-- **C112.** On a map with diagonals of at least two rows and columns it is the list of all 2 × 2 blocks. -/
theorem c112_diag {s : Shape Offset DiagAxis DDiagAxis} {g : Graph Offset DiagAxis DDiagAxis N E} {k : Contents Offset DiagAxis N E}
    (hs : Lawful s (diagLat w h) rep) (hb : Built s (diagLat w h) g k) (h2w : 2 ≤ w) (h2h : 2 ≤ h) {out : List (List Offset)} (ho : MaximalCliques g out) :
    out.length = (w - 1) * (h - 1) ∧ ∀ K, (∃ K' ∈ out, K'.Perm K) ↔
      ∃ x y, x + 1 < w ∧ y + 1 < h ∧ K.Perm [⟨x, y⟩, ⟨x + 1, y⟩, ⟨x, y + 1⟩, ⟨x + 1, y + 1⟩] :=
  diag_cliques hs hb rfl rfl rfl rfl h2w h2h ho

/-- **C112.** The same, directed. -/
theorem c112_diag_directed {s : Shape Offset DDiagAxis DDiagAxis} {g : Graph Offset DDiagAxis DDiagAxis N E} {k : Contents Offset DDiagAxis N E}
    (hs : Lawful s (diagLatDirected w h) rep) (hb : Built s (diagLatDirected w h) g k) (h2w : 2 ≤ w) (h2h : 2 ≤ h) {out : List (List Offset)} (ho : MaximalCliques g out) :
    out.length = (w - 1) * (h - 1) ∧ ∀ K, (∃ K' ∈ out, K'.Perm K) ↔
      ∃ x y, x + 1 < w ∧ y + 1 < h ∧ K.Perm [⟨x, y⟩, ⟨x + 1, y⟩, ⟨x, y + 1⟩, ⟨x + 1, y + 1⟩] :=
  diag_cliques hs hb rfl rfl rfl rfl h2w h2h ho

/-- **C112.** On a hexagonal map of at least two rows and columns it is the list of all triangles: three successive cells, from left to right, of two
rows that follow each other. -/
theorem c112_offset {s : Shape Offset AxisR AxisDR} {g : Graph Offset AxisR AxisDR N E} {k : Contents Offset AxisR N E}
    (hs : Lawful s (offLatR even w h) rep) (hb : Built s (offLatR even w h) g k) (h2w : 2 ≤ w) (h2h : 2 ≤ h) {out : List (List Offset)} (ho : MaximalCliques g out) :
    out.length = (h - 1) * (2 * w - 2) ∧ ∀ K, (∃ K' ∈ out, K'.Perm K) ↔
      ∃ y i, y + 1 < h ∧ i + 2 < 2 * w ∧ K.Perm [stripCell even y i, stripCell even y (i + 1), stripCell even y (i + 2)] :=
  off_cliques hs hb rfl rfl rfl rfl h2w h2h ho

/-- **C112.** The same, directed. -/
theorem c112_offset_directed {s : Shape Offset AxisDR AxisDR} {g : Graph Offset AxisDR AxisDR N E} {k : Contents Offset AxisDR N E}
    (hs : Lawful s (offLatDR even w h) rep) (hb : Built s (offLatDR even w h) g k) (h2w : 2 ≤ w) (h2h : 2 ≤ h) {out : List (List Offset)} (ho : MaximalCliques g out) :
    out.length = (h - 1) * (2 * w - 2) ∧ ∀ K, (∃ K' ∈ out, K'.Perm K) ↔
      ∃ y i, y + 1 < h ∧ i + 2 < 2 * w ∧ K.Perm [stripCell even y i, stripCell even y (i + 1), stripCell even y (i + 2)] :=
  off_cliques hs hb rfl rfl rfl rfl h2w h2h ho

/-- **C112.** The same in axial coordinates, for either kind of sheared map. -/
theorem c112_axial {s : Shape Axial AxisR AxisDR} {g : Graph Axial AxisR AxisDR N E} {k : Contents Axial AxisR N E}
    (hs : Lawful s (axLatR even flat w h) repA) (hb : Built s (axLatR even flat w h) g k) (h2w : 2 ≤ w) (h2h : 2 ≤ h) {out : List (List Axial)} (ho : MaximalCliques g out) :
    out.length = ((axSides flat w h).2 - 1) * (2 * (axSides flat w h).1 - 2) ∧ ∀ K, (∃ K' ∈ out, K'.Perm K) ↔
      ∃ y i, y + 1 < (axSides flat w h).2 ∧ i + 2 < 2 * (axSides flat w h).1 ∧
        K.Perm ([stripCell even y i, stripCell even y (i + 1), stripCell even y (i + 2)].map (shearCell even flat)) :=
  ax_cliques hs hb rfl rfl rfl rfl axStep_DR h2w h2h ho

/-- **C112.** The same, directed. -/
theorem c112_axial_directed {s : Shape Axial AxisDR AxisDR} {g : Graph Axial AxisDR AxisDR N E} {k : Contents Axial AxisDR N E}
    (hs : Lawful s (axLatDR even flat w h) repA) (hb : Built s (axLatDR even flat w h) g k) (h2w : 2 ≤ w) (h2h : 2 ≤ h) {out : List (List Axial)} (ho : MaximalCliques g out) :
    out.length = ((axSides flat w h).2 - 1) * (2 * (axSides flat w h).1 - 2) ∧ ∀ K, (∃ K' ∈ out, K'.Perm K) ↔
      ∃ y i, y + 1 < (axSides flat w h).2 ∧ i + 2 < 2 * (axSides flat w h).1 ∧
        K.Perm ([stripCell even y i, stripCell even y (i + 1), stripCell even y (i + 2)].map (shearCell even flat)) :=
  ax_cliques hs hb rfl rfl rfl rfl axStep_DR h2w h2h ho

/-- **C112.** The same with flat-top directions. -/
theorem c112_axial_flat {s : Shape Axial AxisQ AxisDQ} {g : Graph Axial AxisQ AxisDQ N E} {k : Contents Axial AxisQ N E}
    (hs : Lawful s (axLatQ even flat w h) repA) (hb : Built s (axLatQ even flat w h) g k) (h2w : 2 ≤ w) (h2h : 2 ≤ h) {out : List (List Axial)} (ho : MaximalCliques g out) :
    out.length = ((axSides flat w h).2 - 1) * (2 * (axSides flat w h).1 - 2) ∧ ∀ K, (∃ K' ∈ out, K'.Perm K) ↔
      ∃ y i, y + 1 < (axSides flat w h).2 ∧ i + 2 < 2 * (axSides flat w h).1 ∧
        K.Perm ([stripCell even y i, stripCell even y (i + 1), stripCell even y (i + 2)].map (shearCell even flat)) :=
  ax_cliques hs hb rfl rfl rfl rfl axStep_DQ h2w h2h ho

/-- **C112.** The same with flat-top directions, directed. -/
theorem c112_axial_flat_directed {s : Shape Axial AxisDQ AxisDQ} {g : Graph Axial AxisDQ AxisDQ N E} {k : Contents Axial AxisDQ N E}
    (hs : Lawful s (axLatDQ even flat w h) repA) (hb : Built s (axLatDQ even flat w h) g k) (h2w : 2 ≤ w) (h2h : 2 ≤ h) {out : List (List Axial)} (ho : MaximalCliques g out) :
    out.length = ((axSides flat w h).2 - 1) * (2 * (axSides flat w h).1 - 2) ∧ ∀ K, (∃ K' ∈ out, K'.Perm K) ↔
      ∃ y i, y + 1 < (axSides flat w h).2 ∧ i + 2 < 2 * (axSides flat w h).1 ∧
        K.Perm ([stripCell even y i, stripCell even y (i + 1), stripCell even y (i + 2)].map (shearCell even flat)) :=
  ax_cliques hs hb rfl rfl rfl rfl axStep_DQ h2w h2h ho
end

/-! ### Instances -/
example : ∃ (g : Graph Offset SquareAxis DSquareAxis Unit Unit) (out : List (List Offset)), MaximalCliques g out ∧ out.length = 7 ∧ ∃ K ∈ out, K.Perm [⟨1, 0⟩, ⟨1, 1⟩] := by
  have hs := Lawful.square m64 3 2
  obtain ⟨g, hb⟩ := hs.exists_built (by decide) (fun u _ => ((), u)) (fun u _ _ => ((), u)) ()
  obtain ⟨out, ho⟩ := (c112_runs hs hb).1
  exact ⟨g, out, ho, (c112_square hs hb (by decide) ho).1, ((c112_square hs hb (by decide) ho).2 _).2 ⟨1, 0, .inr ⟨by decide, by decide, .refl _⟩⟩⟩
example : ∃ (g : Graph Offset DSquareAxis DSquareAxis Unit Unit) (out : List (List Offset)), MaximalCliques g out ∧ out.length = 7 := by
  have hs := Lawful.squareDirected m64 3 2
  obtain ⟨g, hb⟩ := hs.exists_built (by decide) (fun u _ => ((), u)) (fun u _ _ => ((), u)) ()
  obtain ⟨out, ho⟩ := (c112_runs hs hb).1
  exact ⟨g, out, ho, (c112_square_directed hs hb (by decide) ho).1⟩
example : ∃ (g : Graph Offset DiagAxis DDiagAxis Unit Unit) (out : List (List Offset)), MaximalCliques g out ∧ out.length = 12 := by
  have hs := Lawful.diag m64 5 4
  obtain ⟨g, hb⟩ := hs.exists_built (by decide) (fun u _ => ((), u)) (fun u _ _ => ((), u)) ()
  obtain ⟨out, ho⟩ := (c112_runs hs hb).1
  exact ⟨g, out, ho, (c112_diag hs hb (by decide) (by decide) ho).1⟩
example : ∃ (g : Graph Offset DDiagAxis DDiagAxis Unit Unit) (out : List (List Offset)), MaximalCliques g out ∧ out.length = 12 := by
  have hs := Lawful.diagDirected m64 5 4
  obtain ⟨g, hb⟩ := hs.exists_built (by decide) (fun u _ => ((), u)) (fun u _ _ => ((), u)) ()
  obtain ⟨out, ho⟩ := (c112_runs hs hb).1
  exact ⟨g, out, ho, (c112_diag_directed hs hb (by decide) (by decide) ho).1⟩
example : ∃ (g : Graph Offset AxisR AxisDR Unit Unit) (out : List (List Offset)), MaximalCliques g out ∧ out.length = 36 ∧ ∃ K ∈ out, K.Perm [⟨0, 0⟩, ⟨0, 1⟩, ⟨1, 0⟩] := by
  have hs := Lawful.hexOffR m64 oddR 7 4
  obtain ⟨g, hb⟩ := hs.exists_built (by decide) (fun u _ => ((), u)) (fun u _ _ => ((), u)) ()
  obtain ⟨out, ho⟩ := (c112_runs hs hb).1
  exact ⟨g, out, ho, (c112_offset hs hb (by decide) (by decide) ho).1,
    ((c112_offset hs hb (by decide) (by decide) ho).2 _).2 ⟨0, 0, by decide, by decide, .refl _⟩⟩
example : ∃ (g : Graph Offset AxisDR AxisDR Unit Unit) (out : List (List Offset)), MaximalCliques g out ∧ out.length = 36 := by
  have hs := Lawful.hexOffRDirected m64 evenR 7 4
  obtain ⟨g, hb⟩ := hs.exists_built (by decide) (fun u _ => ((), u)) (fun u _ _ => ((), u)) ()
  obtain ⟨out, ho⟩ := (c112_runs hs hb).1
  exact ⟨g, out, ho, (c112_offset_directed hs hb (by decide) (by decide) ho).1⟩
example : ∃ (g : Graph Axial AxisR AxisDR Unit Unit) (out : List (List Axial)), MaximalCliques g out ∧ out.length = 12 := by
  have hs := Lawful.hexAxR m64 (isizeTy m64) evenR 4 3 (.isize (by decide) (by decide))
  obtain ⟨g, hb⟩ := hs.exists_built (by decide) (fun u _ => ((), u)) (fun u _ _ => ((), u)) ()
  obtain ⟨out, ho⟩ := (c112_runs hs hb).1
  exact ⟨g, out, ho, (c112_axial hs hb (by decide) (by decide) ho).1⟩
example : ∃ (g : Graph Axial AxisDR AxisDR Unit Unit) (out : List (List Axial)), MaximalCliques g out ∧ out.length = 12 := by
  have hs := Lawful.hexAxRDirected m64 (isizeTy m64) oddR 4 3 (.isize (by decide) (by decide))
  obtain ⟨g, hb⟩ := hs.exists_built (by decide) (fun u _ => ((), u)) (fun u _ _ => ((), u)) ()
  obtain ⟨out, ho⟩ := (c112_runs hs hb).1
  exact ⟨g, out, ho, (c112_axial_directed hs hb (by decide) (by decide) ho).1⟩
example : ∃ (g : Graph Axial AxisQ AxisDQ Unit Unit) (out : List (List Axial)), MaximalCliques g out ∧ out.length = 6 := by
  have hs := Lawful.hexAxQ m64 (isizeTy m64) oddQ 4 2 (.isize (by decide) (by decide))
  obtain ⟨g, hb⟩ := hs.exists_built (by decide) (fun u _ => ((), u)) (fun u _ _ => ((), u)) ()
  obtain ⟨out, ho⟩ := (c112_runs hs hb).1
  exact ⟨g, out, ho, (c112_axial_flat hs hb (by decide) (by decide) ho).1⟩
example : ∃ (g : Graph Axial AxisDQ AxisDQ Unit Unit) (out : List (List Axial)), MaximalCliques g out ∧ out.length = 6 := by
  have hs := Lawful.hexAxQDirected m64 (isizeTy m64) oddQ 4 2 (.isize (by decide) (by decide))
  obtain ⟨g, hb⟩ := hs.exists_built (by decide) (fun u _ => ((), u)) (fun u _ _ => ((), u)) ()
  obtain ⟨out, ho⟩ := (c112_runs hs hb).1
  exact ⟨g, out, ho, (c112_axial_flat_directed hs hb (by decide) (by decide) ho).1⟩
example : ∃ (g : Graph Offset AxisR AxisDR Unit Unit) (out : List (List Offset)), MaximalCliques g out ∧
    ∀ K ∈ out, MaximalClique g (offLatRLoop false 3 2).Node K := by
  have hs := Lawful.hexOffRLew m64 oddR 3 2
  obtain ⟨g, hb⟩ := hs.exists_built (by decide) (fun u _ => ((), u)) (fun u _ _ => ((), u)) ()
  obtain ⟨out, ho⟩ := (c112_runs hs hb).1
  exact ⟨g, out, ho, (c112_exact hs hb ho).2.1⟩
end LG
