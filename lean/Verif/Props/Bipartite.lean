import Verif.Lemmas.Bipartite
import Verif.Props.Custom
/- C87: petgraph's `is_bipartite_undirected` on `LatticeGraph`. -/
set_option linter.unusedSectionVars false
namespace LG
section
variable {C A D N E : Type} [DecidableEq C] [DecidableEq A] [DecidableEq D]
variable {g : Graph C A D N E} {s : Shape C A D} {L : Lat C A D} {rep : C → Prop} {k : Contents C A N E}

theorem Lawful.behaves (hs : Lawful s L rep) (hb : Built s L g k) : Behaves g.traversable L.Node L.nbrs (VisInv s L) := by
  have hg := hb.good hs
  refine ⟨?_, fun hv hn => visit_eq hs hg.constructible hv hn, fun hv hn => isVisited_eq hs hg.constructible hv hn,
    fun hn => c07_neighbors hs hb hn, fun h h' => Yields.unique h h', fun hn hy => (c07_neighbors_exact hs hn _).2 hy⟩
  show VisInv s L (VisMap.new g.s) _
  rw [hg.shape]
  exact VisInv.newBase (hg.shape ▸ hg.impl)

/-- Every way round from `a` back to `a` has an even number of steps. -/
def EvenRounds (L : Lat C A D) (a : C) : Prop := ∀ n, Path L a n a → n % 2 = 0

theorem reached_path (hd : DirLaws L) {a x : C} : Reached L.nbrs a x ↔ ∃ n, Path L a n x := by
  constructor
  · intro h
    induction h with
    | refl => exact ⟨0, .nil⟩
    | step _ hy ih =>
      obtain ⟨n, hp⟩ := ih
      obtain ⟨d, -, h⟩ := List.mem_filterMap.1 hy
      exact ⟨n + 1, .step hp h⟩
  · rintro ⟨n, hp⟩
    induction hp with
    | nil => exact .refl
    | step _ h ih => exact ih.step (List.mem_filterMap.2 ⟨_, hd.dirs_mem _, h⟩)

theorem Path.colour {f : C → Bool} {a b : C} {n : Nat} (hf : ∀ x, (∃ n, Path L a n x) → ∀ d y, L.nbr x d = some y → f x ≠ f y)
    (h : Path L a n b) : f b = (f a == decide (n % 2 = 0)) := by
  induction h with
  | nil => cases f a <;> rfl
  | @step n b c d hp hd ih =>
    have h1 := hf b ⟨n, hp⟩ d c hd
    have h2 : decide ((n + 1) % 2 = 0) = !decide (n % 2 = 0) := by
      rcases Nat.mod_two_eq_zero_or_one n with h | h
      · have : (n + 1) % 2 = 1 := by omega
        simp [h, this]
      · have : (n + 1) % 2 = 0 := by omega
        simp [h, this]
    rw [h2]
    revert h1 ih
    cases f b <;> cases f c <;> cases f a <;> cases decide (n % 2 = 0) <;> simp

/-- Two-colourable means: no closed walk of odd length. -/
theorem twoColourable_iff (hl : LatLaws L) {a : C} (ha : L.Node a) : TwoColourable L.nbrs a ↔ EvenRounds L a := by
  classical
  constructor
  · rintro ⟨f, hf⟩ n hp
    have := hp.colour (f := f) fun x hx d y hy => hf x ((reached_path hl.dir).2 hx) y (List.mem_filterMap.2 ⟨d, hl.dir.dirs_mem _, hy⟩)
    revert this
    rcases Nat.mod_two_eq_zero_or_one n with h | h
    · exact fun _ => h
    · rw [h]; cases f a <;> simp
  · intro he
    refine ⟨fun x => decide (∃ n, n % 2 = 0 ∧ Path L a n x), fun x hx y hy heq => ?_⟩
    obtain ⟨n, hp⟩ := (reached_path hl.dir).1 hx
    obtain ⟨d, -, hd⟩ := List.mem_filterMap.1 hy
    have hpy : Path L a (n + 1) y := .step hp hd
    have hiff : (∃ n, n % 2 = 0 ∧ Path L a n x) ↔ ∃ n, n % 2 = 0 ∧ Path L a n y := by simpa using heq
    rcases Nat.mod_two_eq_zero_or_one n with h | h
    · obtain ⟨m, hm, hq⟩ := hiff.1 ⟨n, h, hp⟩
      have := he _ (hpy.trans (hq.symm hl ha))
      omega
    · obtain ⟨m, hm, hq⟩ := hiff.2 ⟨n + 1, by omega, hpy⟩
      have := he _ (hp.trans (hq.symm hl ha))
      omega

/-- **C87.** From every node, on every graph whose shape obeys the laws, `is_bipartite_undirected` ends, nothing it does panics
(its own assertions included), and its one answer is `true` exactly if every closed walk along `neighbors` has even length. -/
theorem c87_bipartite (hs : Lawful s L rep) (hb : Built s L g k) {a : C} (ha : L.Node a) (b : Bool) :
    IsBipartite g.traversable a b ↔ (b = true ↔ ∀ n, Walk g.s a n a → n % 2 = 0) := by
  rw [bipartite_spec (hs.behaves hb) (nodes := L.nodes) (fun x hx => Lat.mem_nodes.2 hx) ha b, twoColourable_iff hs.laws ha]
  have : EvenRounds L a ↔ ∀ n, Walk g.s a n a → n % 2 = 0 :=
    ⟨fun h n hw => h n (hw.path hs hb ha), fun h n hp => h n (hp.walk hs hb ha)⟩
  rw [this]

/-- **C87**, the same with colours: the answer is `true` exactly if the nodes around `a` can be given two colours so that
`neighbors` always lists nodes of the other colour. -/
theorem c87_colouring (hs : Lawful s L rep) (hb : Built s L g k) {a : C} (ha : L.Node a) (b : Bool) :
    IsBipartite g.traversable a b ↔ (b = true ↔ ∃ f : C → Bool, ∀ n x l, Walk g.s a n x → Yields (neighborsNext g.s x) 0 l →
      ∀ y ∈ l, f x ≠ f y) := by
  rw [bipartite_spec (hs.behaves hb) (nodes := L.nodes) (fun x hx => Lat.mem_nodes.2 hx) ha b]
  have : TwoColourable L.nbrs a ↔ ∃ f : C → Bool, ∀ n x l, Walk g.s a n x → Yields (neighborsNext g.s x) 0 l → ∀ y ∈ l, f x ≠ f y := by
    constructor
    · rintro ⟨f, hf⟩
      refine ⟨f, fun n x l hw hy y hm => ?_⟩
      have hp := hw.path hs hb ha
      have hn := hp.node hs.laws ha
      rw [Yields.unique hy (c07_neighbors hs hb hn)] at hm
      exact hf x ((reached_path hs.laws.dir).2 ⟨n, hp⟩) y hm
    · rintro ⟨f, hf⟩
      refine ⟨f, fun x hx y hy => ?_⟩
      obtain ⟨n, hp⟩ := (reached_path hs.laws.dir).1 hx
      exact hf n x _ (hp.walk hs hb ha) (c07_neighbors hs hb (hp.node hs.laws ha)) y hy
  rw [this]

/-! ### Which built-in maps are bipartite -/

theorem answer (hs : Lawful s L rep) (hb : Built s L g k) {a : C} (ha : L.Node a) {p : Prop} [Decidable p] (hp : EvenRounds L a ↔ p)
    (b : Bool) : IsBipartite g.traversable a b ↔ b = decide p := by
  rw [bipartite_spec (hs.behaves hb) (nodes := L.nodes) (fun x hx => Lat.mem_nodes.2 hx) ha b, twoColourable_iff hs.laws ha, hp]
  cases b <;> simp

theorem evenRounds_of {f : C → Bool} (hl : LatLaws L) {a : C} (ha : L.Node a) (hf : ∀ x, L.Node x → ∀ d y, L.nbr x d = some y → f x ≠ f y) :
    EvenRounds L a := by
  intro n hp
  have := hp.colour (f := f) fun x ⟨_, hx⟩ => hf x (hx.node hl ha)
  revert this
  rcases Nat.mod_two_eq_zero_or_one n with h | h
  · exact fun _ => h
  · rw [h]; cases f a <;> simp

/-- An odd closed path anywhere within reach excludes even rounds. -/
theorem not_evenRounds (hl : LatLaws L) (hst : Steps L) {a x : C} (ha : L.Node a) (hx : L.Node x) {n : Nat} (hp : Path L x n x) (hn : n % 2 = 1) :
    ¬ EvenRounds L a := by
  intro he
  obtain ⟨i, j, hi, hj, rfl⟩ := id ha
  obtain ⟨i', j', hi', hj', rfl⟩ := id hx
  have h0 : L.Node (L.coord 0 0) := ⟨0, 0, by omega, by omega, rfl⟩
  have q := ((hst.origin hi hj).symm hl h0).trans (hst.origin hi' hj')
  have := he _ ((q.trans hp).trans (q.symm hl ha))
  omega

theorem triangle {x y z : C} {d1 d2 d3 : D} (h1 : L.nbr x d1 = some y) (h2 : L.nbr y d2 = some z) (h3 : L.nbr z d3 = some x) :
    Path L x 3 x := .step (.step (.step .nil h1) h2) h3

end

/-- Colours alternating along one axis. -/
def alternating (i : Int) : Bool := decide (i % 2 = 0)

theorem alternating_ne {i j : Int} (h : i % 2 ≠ j % 2) : alternating i ≠ alternating j := by
  unfold alternating
  by_cases hi : i % 2 = 0
  · have : ¬ j % 2 = 0 := by omega
    simp [hi, this]
  · have : j % 2 = 0 := by omega
    simp [hi, this]

section
variable {N E : Type} {m : Machine} {h v : Nat}

/-- **C87.** Every square graph is bipartite, directed or not. -/
theorem c87_square {g : Graph Offset SquareAxis DSquareAxis N E} {k : Contents Offset SquareAxis N E}
    (hb : Built (squareShape m h v) (squareLat h v) g k) {a : Offset} (hx : a.horizontal < h) (hy : a.vertical < v) (b : Bool) :
    IsBipartite g.traversable a b ↔ b = true := by
  have hs := Lawful.square m h v
  have ha : (squareLat h v).Node a := ⟨_, _, hx, hy, rfl⟩
  refine answer (p := True) hs hb ha ⟨fun _ => trivial, fun _ => ?_⟩ b
  refine evenRounds_of (f := fun c => alternating (c.horizontal + c.vertical)) hs.laws ha fun x _ d y hd => alternating_ne ?_
  have := rectNbr_iff.1 hd
  cases d <;> simp only [DSquareAxis.vec] at this <;> omega

theorem c87_square_directed {g : Graph Offset DSquareAxis DSquareAxis N E} {k : Contents Offset DSquareAxis N E}
    (hb : Built (squareShapeDirected m h v) (squareLatDirected h v) g k) {a : Offset} (hx : a.horizontal < h) (hy : a.vertical < v) (b : Bool) :
    IsBipartite g.traversable a b ↔ b = true := by
  have hs := Lawful.squareDirected m h v
  have ha : (squareLatDirected h v).Node a := ⟨_, _, hx, hy, rfl⟩
  refine answer (p := True) hs hb ha ⟨fun _ => trivial, fun _ => ?_⟩ b
  refine evenRounds_of (f := fun c => alternating (c.horizontal + c.vertical)) hs.laws ha fun x _ d y hd => alternating_ne ?_
  have := rectNbr_iff.1 hd
  cases d <;> simp only [DSquareAxis.vec] at this <;> omega

/-- Neighbours in the rectangle with diagonals. -/
theorem diag_even {A : Type} [DecidableEq A] {L : Lat Offset A DDiagAxis} (hl : LatLaws L) (hst : Steps L) (hw : L.width = h) (hh : L.height = v)
    (hc : L.coord = fun x y => ⟨x, y⟩) (hn : L.nbr = fun c d => rectNbr h v c d.vec) {a : Offset} (ha : L.Node a) :
    EvenRounds L a ↔ h = 1 ∨ v = 1 := by
  obtain ⟨i, j, hi, hj, -⟩ := id ha
  constructor
  · intro he
    refine Decidable.byContradiction fun hne => ?_
    have h0 : L.Node ⟨0, 0⟩ := ⟨0, 0, by omega, by omega, by rw [hc]⟩
    refine not_evenRounds hl hst ha h0 (n := 3) (triangle (d1 := .E) (y := ⟨1, 0⟩) (d2 := .N) (z := ⟨1, 1⟩) (d3 := .SW) ?_ ?_ ?_) rfl he
    all_goals
      rw [hn]
      exact rectNbr_iff.2 (by simp only [DDiagAxis.vec]; omega)
  · intro hp
    refine evenRounds_of (f := fun c => alternating (c.horizontal + c.vertical)) hl ha fun x ⟨p, q, hx, hy, hxy⟩ d y hd => alternating_ne ?_
    rw [hn] at hd
    rw [hc] at hxy
    subst hxy
    have := rectNbr_iff.1 hd
    cases d <;> simp only [DDiagAxis.vec] at this ⊢ <;> omega

/-- **C87.** With diagonals the answer is `true` only on a single row or column. -/
theorem c87_diagonal {g : Graph Offset DiagAxis DDiagAxis N E} {k : Contents Offset DiagAxis N E}
    (hb : Built (diagShape m h v) (diagLat h v) g k) {a : Offset} (hx : a.horizontal < h) (hy : a.vertical < v) (b : Bool) :
    IsBipartite g.traversable a b ↔ b = decide (h = 1 ∨ v = 1) :=
  have hs := Lawful.diag m h v
  have ha : (diagLat h v).Node a := ⟨_, _, hx, hy, rfl⟩
  answer hs hb ha (diag_even hs.laws (Sound.diag m h v).steps rfl rfl rfl rfl ha) b

theorem c87_diagonal_directed {g : Graph Offset DDiagAxis DDiagAxis N E} {k : Contents Offset DDiagAxis N E}
    (hb : Built (diagShapeDirected m h v) (diagLatDirected h v) g k) {a : Offset} (hx : a.horizontal < h) (hy : a.vertical < v) (b : Bool) :
    IsBipartite g.traversable a b ↔ b = decide (h = 1 ∨ v = 1) :=
  have hs := Lawful.diagDirected m h v
  have ha : (diagLatDirected h v).Node a := ⟨_, _, hx, hy, rfl⟩
  answer hs hb ha (diag_even hs.laws (Sound.diagDirected m h v).steps rfl rfl rfl rfl ha) b

/-- Point-top offset maps. -/
theorem off_even {A : Type} [DecidableEq A] {even : Bool} {L : Lat Offset A AxisDR} (hl : LatLaws L) (hst : Steps L) (hw : L.width = h) (hh : L.height = v)
    (hc : L.coord = Offset.mk) (hn : L.nbr = offNbr even h v) {a : Offset} (ha : L.Node a) : EvenRounds L a ↔ h = 1 ∨ v = 1 := by
  obtain ⟨i, j, hi, hj, -⟩ := id ha
  constructor
  · intro he
    refine Decidable.byContradiction fun hne => ?_
    have h0 : L.Node ⟨0, 0⟩ := ⟨0, 0, by omega, by omega, by rw [hc]⟩
    refine not_evenRounds hl hst ha h0 (n := 3) (triangle (d1 := .E) (y := ⟨1, 0⟩) (d2 := .NW) (z := ⟨if even then 1 else 0, 1⟩) (d3 := .SW) ?_ ?_ ?_) rfl he
    all_goals
      rw [hn]
      refine offNbr_iff.2 ?_
      cases even <;> simp only [AxisDR.vec, offPos, rowShift, Bool.false_eq_true, if_true, if_false] <;> omega
  · intro hp
    refine evenRounds_of (f := fun c => alternating (c.horizontal + c.vertical)) hl ha fun x ⟨p, q, hx, hy, hxy⟩ d y hd => alternating_ne ?_
    rw [hn] at hd
    rw [hc] at hxy
    subst hxy
    have := offNbr_iff.1 hd
    cases even <;> cases d <;> simp only [AxisDR.vec, offPos, rowShift, Bool.false_eq_true, if_true, if_false] at this ⊢ <;> omega

/-- **C87.** Hexagonal offset maps: three cells around a corner are an odd cycle. -/
theorem c87_hex_offset {mk : Marker} {g : Graph Offset AxisR AxisDR N E} {k : Contents Offset AxisR N E}
    (hb : Built (hexOffR m mk h v) (offLatR mk.isEven h v) g k) {a : Offset} (hx : a.horizontal < h) (hy : a.vertical < v) (b : Bool) :
    IsBipartite g.traversable a b ↔ b = decide (h = 1 ∨ v = 1) :=
  have hs := Lawful.hexOffR m mk h v
  have ha : (offLatR mk.isEven h v).Node a := ⟨_, _, hx, hy, rfl⟩
  answer hs hb ha (off_even hs.laws (Sound.hexOffR m mk h v).steps rfl rfl rfl rfl ha) b

theorem c87_hex_offset_directed {mk : Marker} {g : Graph Offset AxisDR AxisDR N E} {k : Contents Offset AxisDR N E}
    (hb : Built (hexOffRDirected m mk h v) (offLatDR mk.isEven h v) g k) {a : Offset} (hx : a.horizontal < h) (hy : a.vertical < v) (b : Bool) :
    IsBipartite g.traversable a b ↔ b = decide (h = 1 ∨ v = 1) :=
  have hs := Lawful.hexOffRDirected m mk h v
  have ha : (offLatDR mk.isEven h v).Node a := ⟨_, _, hx, hy, rfl⟩
  answer hs hb ha (off_even hs.laws (Sound.hexOffRDirected m mk h v).steps rfl rfl rfl rfl ha) b

theorem offLoop_even {even : Bool} {a : Offset} (hx : a.horizontal < h) (hy : a.vertical < v) :
    EvenRounds (offLatRLoop even h v) a ↔ v = 1 ∧ h % 2 = 0 := by
  have hl := offNbrLoop_lawsR even h v
  have hst : Steps (offLatRLoop even h v) := ⟨fun hx hy => ⟨.E, offNbrLoop_of (offNbr_right hx hy)⟩,
      fun hx hy => (offNbr_up hx hy).imp fun _ h => offNbrLoop_of h⟩
  have ha : (offLatRLoop even h v).Node a := ⟨_, _, hx, hy, rfl⟩
  have h0 : (offLatRLoop even h v).Node ⟨0, 0⟩ := ⟨0, 0, by simp only [offLatRLoop, hexLatR]; omega, by simp only [offLatRLoop, hexLatR]; omega, rfl⟩
  constructor
  · intro he
    refine ⟨Decidable.byContradiction fun hne => ?_, Decidable.byContradiction fun hodd => ?_⟩
    · have c0 : (⟨0, 0⟩ : Offset).horizontal < h := by simp only; omega
      obtain ⟨y, h1⟩ := offNbrLoop_exists (even := even) (w := h) (h := v) (a := ⟨0, 0⟩) c0 (d := .E) (by simp [AxisDR.vec]) (by simp only [AxisDR.vec]; omega)
      obtain ⟨z, h2⟩ := offNbrLoop_exists (even := even) (w := h) (h := v) (a := ⟨0, 0⟩) c0 (d := .NE) (by simp [AxisDR.vec]) (by simp only [AxisDR.vec]; omega)
      have h3 : offNbrLoop even h v y .NW = some z := by
        rw [offNbrLoop_iff] at h1 h2 ⊢
        obtain ⟨-, -, ⟨k1, e1⟩, f1⟩ := h1
        obtain ⟨b1, b2, ⟨k2, e2⟩, f2⟩ := h2
        refine ⟨b1, b2, ⟨k2 - k1, ?_⟩, ?_⟩
        · rw [Int.mul_sub]
          simp only [AxisDR.vec] at e1 e2 ⊢
          omega
        · simp only [AxisDR.vec] at f1 f2 ⊢
          omega
      exact not_evenRounds hl hst ha h0 (triangle h1 h3 (hl.nbr_opp h0 h2)) rfl he
    · have hrow : Path (offLatRLoop even h v) ⟨0, 0⟩ (h - 1) ⟨h - 1, 0⟩ :=
        hst.row (x := h - 1) (y := 0) (by simp only [offLatRLoop, hexLatR]; omega) (by simp only [offLatRLoop, hexLatR]; omega)
      have hlast : offNbrLoop even h v ⟨h - 1, 0⟩ .E = some ⟨0, 0⟩ := by
        rw [offNbrLoop_iff]
        refine ⟨by simp only; omega, by simp only; omega, ⟨1, ?_⟩, by simp [offPos, AxisDR.vec]⟩
        simp only [offPos, AxisDR.vec]
        omega
      exact not_evenRounds hl hst ha h0 (Path.step hrow hlast) (by omega) he
  · rintro ⟨rfl, he⟩
    refine evenRounds_of (f := fun c => alternating c.horizontal) hl ha fun x ⟨p, q, hp, hq, hxy⟩ d y hd => alternating_ne ?_
    subst hxy
    have h2 := offNbrLoop_iff.1 hd
    have := (offNbrLoop_turn hp hd).1
    simp only [offLatRLoop, hexLatR] at hp hq h2 this ⊢
    unfold Turn at this
    cases even <;> cases d <;> simp only [AxisDR.vec, offPos, rowShift, Bool.false_eq_true, if_true, if_false] at h2 this ⊢ <;> omega

/-- **C87.** Around the cylinder (`LoopEW`): only a single row of an even number of cells is bipartite. -/
theorem c87_hex_loop {mk : Marker} {g : Graph Offset AxisR AxisDR N E} {k : Contents Offset AxisR N E}
    (hb : Built (hexOffRLew m mk h v) (offLatRLoop mk.isEven h v) g k) {a : Offset} (hx : a.horizontal < h) (hy : a.vertical < v) (b : Bool) :
    IsBipartite g.traversable a b ↔ b = decide (v = 1 ∧ h % 2 = 0) :=
  answer (Lawful.hexOffRLew m mk h v) hb ⟨_, _, hx, hy, rfl⟩ (offLoop_even hx hy) b

/-- Axial maps. -/
theorem ax_even {A D : Type} [DecidableEq A] [DecidableEq D] {even flat : Bool} {L : Lat Axial A D} {vec : D → Int × Int} (hl : LatLaws L) (hst : Steps L)
    (hw : L.width = h) (hh : L.height = v) (hc : L.coord = axCoord even flat) (hn : L.nbr = fun c d => axNbr even flat h v c (vec d))
    (hvec : ∀ d, vec d ∈ [(1, 0), (0, 1), (-1, 1), (-1, 0), (0, -1), (1, -1)])
    (h1 : ∃ d, vec d = (1, 0)) (h2 : ∃ d, vec d = (-1, 1)) (h3 : ∃ d, vec d = (0, -1)) {a : Axial} (ha : L.Node a) :
    EvenRounds L a ↔ h = 1 ∨ v = 1 := by
  obtain ⟨i, j, hi, hj, -⟩ := id ha
  constructor
  · intro he
    refine Decidable.byContradiction fun hne => ?_
    have h0 : L.Node ⟨0, 0⟩ := ⟨0, 0, by omega, by omega, by rw [hc]; cases even <;> cases flat <;> rfl⟩
    obtain ⟨d1, e1⟩ := h1
    obtain ⟨d2, e2⟩ := h2
    obtain ⟨d3, e3⟩ := h3
    refine not_evenRounds hl hst ha h0 (n := 3) (triangle (d1 := d1) (y := ⟨1, 0⟩) (d2 := d2) (z := ⟨0, 1⟩) (d3 := d3) ?_ ?_ ?_) rfl he
    all_goals
      rw [hn]
      refine axNbr_some.2 ⟨?_, by simp only [e1, e2, e3]; rfl⟩
      cases even <;> cases flat <;>
        simp only [axIn, axShift, Bool.false_eq_true, if_true, if_false, decide_eq_true_eq] <;> omega
  · intro hp
    refine evenRounds_of (f := fun c => alternating (if v = 1 then c.r else c.q)) hl ha fun x ⟨p, q, hx, hy, hxy⟩ d y hd => alternating_ne ?_
    rw [hn] at hd
    rw [hc] at hxy
    subst hxy
    obtain ⟨hin, rfl⟩ := axNbr_some.1 hd
    have hv := hvec d
    generalize vec d = u at *
    simp only [List.mem_cons, List.not_mem_nil, or_false] at hv
    rcases hv with rfl | rfl | rfl | rfl | rfl | rfl <;> cases even <;> cases flat <;>
      simp only [axIn, axCoord, axShift, Bool.false_eq_true, if_true, if_false, decide_eq_true_eq] at hin ⊢ <;> split <;> omega

/-- **C87.** Axial maps, with any of the four kinds of rows or columns and either set of directions. -/
theorem c87_hex_axial_R {t : CoordTy} {mk : Marker} (ht : Holds t mk.isFlatTop h v) {g : Graph Axial AxisR AxisDR N E} {k : Contents Axial AxisR N E}
    (hb : Built (hexAxR m t mk h v) (axLatR mk.isEven mk.isFlatTop h v) g k) {a : Axial} (ha : axIn mk.isEven mk.isFlatTop h v a = true) (b : Bool) :
    IsBipartite g.traversable a b ↔ b = decide (h = 1 ∨ v = 1) :=
  have hs := Lawful.hexAxR m t mk h v ht
  have ha' : (axLatR mk.isEven mk.isFlatTop h v).Node a := axIn_iff.1 ha
  answer hs hb ha' (ax_even (vec := AxisDR.axial) hs.laws (Sound.hexAxR m t mk h v ht).steps rfl rfl rfl rfl
    (by intro d; cases d <;> decide) ⟨.E, rfl⟩ ⟨.NW, rfl⟩ ⟨.SW, rfl⟩ ha') b

theorem c87_hex_axial_R_directed {t : CoordTy} {mk : Marker} (ht : Holds t mk.isFlatTop h v) {g : Graph Axial AxisDR AxisDR N E}
    {k : Contents Axial AxisDR N E} (hb : Built (hexAxRDirected m t mk h v) (axLatDR mk.isEven mk.isFlatTop h v) g k) {a : Axial}
    (ha : axIn mk.isEven mk.isFlatTop h v a = true) (b : Bool) : IsBipartite g.traversable a b ↔ b = decide (h = 1 ∨ v = 1) :=
  have hs := Lawful.hexAxRDirected m t mk h v ht
  have ha' : (axLatDR mk.isEven mk.isFlatTop h v).Node a := axIn_iff.1 ha
  answer hs hb ha' (ax_even (vec := AxisDR.axial) hs.laws (Sound.hexAxRDirected m t mk h v ht).steps rfl rfl rfl rfl
    (by intro d; cases d <;> decide) ⟨.E, rfl⟩ ⟨.NW, rfl⟩ ⟨.SW, rfl⟩ ha') b

theorem c87_hex_axial_Q {t : CoordTy} {mk : Marker} (ht : Holds t mk.isFlatTop h v) {g : Graph Axial AxisQ AxisDQ N E} {k : Contents Axial AxisQ N E}
    (hb : Built (hexAxQ m t mk h v) (axLatQ mk.isEven mk.isFlatTop h v) g k) {a : Axial} (ha : axIn mk.isEven mk.isFlatTop h v a = true) (b : Bool) :
    IsBipartite g.traversable a b ↔ b = decide (h = 1 ∨ v = 1) :=
  have hs := Lawful.hexAxQ m t mk h v ht
  have ha' : (axLatQ mk.isEven mk.isFlatTop h v).Node a := axIn_iff.1 ha
  answer hs hb ha' (ax_even (vec := AxisDQ.axial) hs.laws (Sound.hexAxQ m t mk h v ht).steps rfl rfl rfl rfl
    (by intro d; cases d <;> decide) ⟨.NE, rfl⟩ ⟨.NW, rfl⟩ ⟨.S, rfl⟩ ha') b

theorem c87_hex_axial_Q_directed {t : CoordTy} {mk : Marker} (ht : Holds t mk.isFlatTop h v) {g : Graph Axial AxisDQ AxisDQ N E}
    {k : Contents Axial AxisDQ N E} (hb : Built (hexAxQDirected m t mk h v) (axLatDQ mk.isEven mk.isFlatTop h v) g k) {a : Axial}
    (ha : axIn mk.isEven mk.isFlatTop h v a = true) (b : Bool) : IsBipartite g.traversable a b ↔ b = decide (h = 1 ∨ v = 1) :=
  have hs := Lawful.hexAxQDirected m t mk h v ht
  have ha' : (axLatDQ mk.isEven mk.isFlatTop h v).Node a := axIn_iff.1 ha
  answer hs hb ha' (ax_even (vec := AxisDQ.axial) hs.laws (Sound.hexAxQDirected m t mk h v ht).steps rfl rfl rfl rfl
    (by intro d; cases d <;> decide) ⟨.NE, rfl⟩ ⟨.NW, rfl⟩ ⟨.S, rfl⟩ ha') b

theorem torus_even {a : Offset} (hx : a.horizontal < h) (hy : a.vertical < v) :
    EvenRounds (torusLat h v) a ↔ h % 2 = 0 ∧ v % 2 = 0 := by
  have hl := torusLat_laws h v
  have hst := torusLat_steps h v
  have ha : (torusLat h v).Node a := ⟨_, _, hx, hy, rfl⟩
  have h0 : (torusLat h v).Node ⟨0, 0⟩ := ⟨0, 0, by simp only [torusLat]; omega, by simp only [torusLat]; omega, rfl⟩
  constructor
  · intro he
    refine ⟨Decidable.byContradiction fun hodd => ?_, Decidable.byContradiction fun hodd => ?_⟩
    · have hrow : Path (torusLat h v) ⟨0, 0⟩ (h - 1) ⟨h - 1, 0⟩ :=
        hst.row (x := h - 1) (y := 0) (by simp only [torusLat]; omega) (by simp only [torusLat]; omega)
      have hlast : (torusLat h v).nbr ⟨h - 1, 0⟩ (.foward .Across) = some ⟨0, 0⟩ := by
        simp only [torusLat, show h - 1 + 1 = h by omega, Nat.mod_self]
      exact not_evenRounds hl hst ha h0 (Path.step hrow hlast) (by omega) he
    · have hcol : Path (torusLat h v) ⟨0, 0⟩ (v - 1) ⟨0, v - 1⟩ :=
        hst.col (by simp only [torusLat]; omega) (y := v - 1) (by simp only [torusLat]; omega)
      have hlast : (torusLat h v).nbr ⟨0, v - 1⟩ (.foward .Along) = some ⟨0, 0⟩ := by
        simp only [torusLat, show v - 1 + 1 = v by omega, Nat.mod_self]
      exact not_evenRounds hl hst ha h0 (Path.step hcol hlast) (by omega) he
  · rintro ⟨h1, h2⟩
    refine evenRounds_of (f := fun c => alternating (c.horizontal + c.vertical)) hl ha fun x ⟨p, q, hp, hq, hxy⟩ d y hd => alternating_ne ?_
    subst hxy
    simp only [torusLat] at hp hq
    have hu := up_mod hp
    have hu' := up_mod hq
    have hd1 := down_mod hp
    have hd2 := down_mod hq
    rcases d with d | d <;> cases d <;> simp only [torusLat, Option.some.injEq] at hd ⊢ <;> subst hd <;> simp only [hu, hu', hd1, hd2] <;>
      split <;> omega

/-- **C87.** A shape written by a user, the torus of C75: both sides have to be even. -/
theorem c87_torus {g : Graph Offset TorusAxis (Direction TorusAxis) N E} {k : Contents Offset TorusAxis N E}
    (hb : Built (torusShape m h v) (torusLat h v) g k) {a : Offset} (hx : a.horizontal < h) (hy : a.vertical < v) (b : Bool) :
    IsBipartite g.traversable a b ↔ b = decide (h % 2 = 0 ∧ v % 2 = 0) :=
  answer (c75_torus m h v) hb ⟨_, _, hx, hy, rfl⟩ (torus_even hx hy) b

end

/-! ### Examples -/

/-- A 3 × 2 square graph, a 5 × 4 and a 6 × 4 torus: `true`, `false`, `true`. -/
example : (∃ g : Graph Offset SquareAxis DSquareAxis Nat Nat, Built (squareShape m64 3 2) (squareLat 3 2) g exK ∧
      IsBipartite g.traversable ⟨2, 1⟩ true ∧ ¬ IsBipartite g.traversable ⟨2, 1⟩ false) ∧
    (∃ (g : Graph Offset TorusAxis (Direction TorusAxis) Nat Nat) (k : _), Built (torusShape m64 5 4) (torusLat 5 4) g k ∧
      IsBipartite g.traversable ⟨2, 1⟩ false) ∧
    ∃ (g : Graph Offset TorusAxis (Direction TorusAxis) Nat Nat) (k : _), Built (torusShape m64 6 4) (torusLat 6 4) g k ∧
      IsBipartite g.traversable ⟨2, 1⟩ true := by
  obtain ⟨g, hb⟩ := exSquare
  obtain ⟨g1, h1⟩ := (c75_torus m64 5 4).exists_built (N := Nat) (E := Nat) (by decide) (fun (u : Unit) _ => (0, u)) (fun u _ _ => (0, u)) ()
  obtain ⟨g2, h2⟩ := (c75_torus m64 6 4).exists_built (N := Nat) (E := Nat) (by decide) (fun (u : Unit) _ => (0, u)) (fun u _ _ => (0, u)) ()
  refine ⟨⟨g, hb, (c87_square hb (by decide) (by decide) _).2 rfl, fun hf => ?_⟩,
    ⟨g1, _, h1, (c87_torus h1 (by decide) (by decide) _).2 rfl⟩, ⟨g2, _, h2, (c87_torus h2 (by decide) (by decide) _).2 rfl⟩⟩
  cases (c87_square hb (by decide) (by decide) _).1 hf

/-- Hexagons: a ring of six cells is bipartite, a ring of five is not, nor is any map with three cells around a corner. -/
example : (∃ (g : Graph Offset AxisR AxisDR Nat Nat) (k : _), Built (hexOffRLew m64 oddR 6 1) (offLatRLoop false 6 1) g k ∧
      IsBipartite g.traversable ⟨2, 0⟩ true) ∧
    (∃ (g : Graph Offset AxisR AxisDR Nat Nat) (k : _), Built (hexOffRLew m64 oddR 5 1) (offLatRLoop false 5 1) g k ∧
      IsBipartite g.traversable ⟨2, 0⟩ false) ∧
    ∃ (g : Graph Offset AxisR AxisDR Nat Nat) (k : _), Built (hexOffR m64 evenR 6 4) (offLatR true 6 4) g k ∧
      IsBipartite g.traversable ⟨2, 0⟩ false := by
  obtain ⟨g, hb⟩ := (Lawful.hexOffRLew m64 oddR 6 1).exists_built (N := Nat) (E := Nat) (by decide) (fun (u : Unit) _ => (0, u)) (fun u _ _ => (0, u)) ()
  obtain ⟨g1, h1⟩ := (Lawful.hexOffRLew m64 oddR 5 1).exists_built (N := Nat) (E := Nat) (by decide) (fun (u : Unit) _ => (0, u)) (fun u _ _ => (0, u)) ()
  obtain ⟨g2, h2⟩ := (Lawful.hexOffR m64 evenR 6 4).exists_built (N := Nat) (E := Nat) (by decide) (fun (u : Unit) _ => (0, u)) (fun u _ _ => (0, u)) ()
  exact ⟨⟨g, _, hb, (c87_hex_loop hb (by decide) (by decide) _).2 rfl⟩, ⟨g1, _, h1, (c87_hex_loop h1 (by decide) (by decide) _).2 rfl⟩,
    ⟨g2, _, h2, (c87_hex_offset h2 (by decide) (by decide) _).2 rfl⟩⟩

/-- The hypothesis of the axial theorems, and a node. -/
example : Holds (isizeTy m64) false 6 4 ∧ axIn false false 6 4 ⟨-1, 2⟩ = true := ⟨⟨by decide, by decide, by decide, by decide⟩, by decide⟩

/-! ### Instances -/
example : ∃ g : Graph Offset SquareAxis DSquareAxis Nat Nat, Built (squareShape m64 3 2) (squareLat 3 2) g exK ∧
    (∀ n, Walk g.s ⟨2, 1⟩ n ⟨2, 1⟩ → n % 2 = 0) ∧ ∃ f : Offset → Bool, ∀ n x l, Walk g.s ⟨2, 1⟩ n x →
      Yields (neighborsNext g.s x) 0 l → ∀ y ∈ l, f x ≠ f y := by
  obtain ⟨g, hb⟩ := exSquare
  have hs := Lawful.square m64 3 2
  have hn : (squareLat 3 2).Node ⟨2, 1⟩ := ⟨2, 1, by decide, by decide, rfl⟩
  have h := (c87_square hb (a := ⟨2, 1⟩) (by decide) (by decide) true).2 rfl
  exact ⟨g, hb, ((c87_bipartite hs hb hn true).1 h).1 rfl, ((c87_colouring hs hb hn true).1 h).1 rfl⟩
example : ∃ g : Graph Offset DSquareAxis DSquareAxis Nat Nat, Built (squareShapeDirected m64 3 2) (squareLatDirected 3 2) g exKD ∧
    IsBipartite g.traversable ⟨2, 1⟩ true := by
  obtain ⟨g, hb⟩ := exSquareD m64 rfl
  exact ⟨g, hb, (c87_square_directed hb (by decide) (by decide) _).2 rfl⟩
example : (∃ (g : Graph Offset DiagAxis DDiagAxis Nat Nat) (k : _), Built (diagShape m64 3 2) (diagLat 3 2) g k ∧
      IsBipartite g.traversable ⟨2, 1⟩ false) ∧
    ∃ (g : Graph Offset DDiagAxis DDiagAxis Nat Nat) (k : _), Built (diagShapeDirected m64 1 5) (diagLatDirected 1 5) g k ∧
      IsBipartite g.traversable ⟨0, 3⟩ true := by
  obtain ⟨g, hb⟩ := (Lawful.diag m64 3 2).exists_built (N := Nat) (E := Nat) (by decide) (fun (u : Unit) _ => (0, u)) (fun u _ _ => (0, u)) ()
  obtain ⟨g1, h1⟩ := (Lawful.diagDirected m64 1 5).exists_built (N := Nat) (E := Nat) (by decide) (fun (u : Unit) _ => (0, u)) (fun u _ _ => (0, u)) ()
  exact ⟨⟨g, _, hb, (c87_diagonal hb (by decide) (by decide) _).2 (by decide)⟩,
    ⟨g1, _, h1, (c87_diagonal_directed h1 (by decide) (by decide) _).2 (by decide)⟩⟩
example : ∃ (g : Graph Offset AxisDR AxisDR Nat Nat) (k : _), Built (hexOffRDirected m64 evenR 6 4) (offLatDR true 6 4) g k ∧
    IsBipartite g.traversable ⟨2, 0⟩ false := by
  obtain ⟨g, hb⟩ := (Lawful.hexOffRDirected m64 evenR 6 4).exists_built (N := Nat) (E := Nat) (by decide) (fun (u : Unit) _ => (0, u)) (fun u _ _ => (0, u)) ()
  exact ⟨g, _, hb, (c87_hex_offset_directed hb (by decide) (by decide) _).2 (by decide)⟩
example : ∃ (g : Graph Axial AxisR AxisDR Nat Nat), IsBipartite g.traversable ⟨-1, 2⟩ false := by
  have ht : Holds (isizeTy m64) oddR.isFlatTop 6 4 := .isize (by decide) (by decide)
  obtain ⟨g, hb⟩ := (Lawful.hexAxR m64 (isizeTy m64) oddR 6 4 ht).exists_built (N := Nat) (E := Nat) (by decide) (fun (u : Unit) _ => (0, u)) (fun u _ _ => (0, u)) ()
  exact ⟨g, (c87_hex_axial_R ht hb (by decide) _).2 (by decide)⟩
example : ∃ (g : Graph Axial AxisDR AxisDR Nat Nat), IsBipartite g.traversable ⟨-1, 2⟩ true := by
  have ht : Holds (isizeTy m64) oddR.isFlatTop 1 4 := .isize (by decide) (by decide)
  obtain ⟨g, hb⟩ := (Lawful.hexAxRDirected m64 (isizeTy m64) oddR 1 4 ht).exists_built (N := Nat) (E := Nat) (by decide) (fun (u : Unit) _ => (0, u)) (fun u _ _ => (0, u)) ()
  exact ⟨g, (c87_hex_axial_R_directed ht hb (by decide) _).2 (by decide)⟩
example : ∃ (g : Graph Axial AxisQ AxisDQ Nat Nat), IsBipartite g.traversable ⟨0, 1⟩ false := by
  have ht : Holds (isizeTy m64) oddQ.isFlatTop 6 4 := .isize (by decide) (by decide)
  obtain ⟨g, hb⟩ := (Lawful.hexAxQ m64 (isizeTy m64) oddQ 6 4 ht).exists_built (N := Nat) (E := Nat) (by decide) (fun (u : Unit) _ => (0, u)) (fun u _ _ => (0, u)) ()
  exact ⟨g, (c87_hex_axial_Q ht hb (by decide) _).2 (by decide)⟩
example : ∃ (g : Graph Axial AxisDQ AxisDQ Nat Nat), IsBipartite g.traversable ⟨0, 0⟩ true := by
  have ht : Holds (isizeTy m64) oddQ.isFlatTop 6 1 := .isize (by decide) (by decide)
  obtain ⟨g, hb⟩ := (Lawful.hexAxQDirected m64 (isizeTy m64) oddQ 6 1 ht).exists_built (N := Nat) (E := Nat) (by decide) (fun (u : Unit) _ => (0, u)) (fun u _ _ => (0, u)) ()
  exact ⟨g, (c87_hex_axial_Q_directed ht hb (by decide) _).2 (by decide)⟩

end LG
