import Verif.Props.Cliques
import Verif.Props.Filtered
import Verif.Lemmas.Cut
/- C114: cells and links without which a map falls apart. -/
set_option linter.unusedSectionVars false
namespace LG
section
variable {C A D N E : Type} [DecidableEq C] [DecidableEq A] [DecidableEq D]
variable {g : Graph C A D N E} {s : Shape C A D} {L : Lat C A D} {rep : C → Prop} {k : Contents C A N E}

/-- Without the node `c` some two other nodes are separated: no sequence of steps along `neighbors` leads from one to the other. -/
def Cuts (g : Graph C A D N E) (Node : C → Prop) (c : C) : Prop :=
  ∃ a b, Node a ∧ Node b ∧ a ≠ c ∧ b ≠ c ∧ ¬Ways (Around (Adjacent g) c) a b

/-- Without the steps from `u` to `v` and back some two nodes are separated. -/
def CutsLink (g : Graph C A D N E) (Node : C → Prop) (u v : C) : Prop :=
  ∃ a b, Node a ∧ Node b ∧ ¬Ways (Beside (Adjacent g) u v) a b

theorem adjacent_node (hs : Lawful s L rep) (hb : Built s L g k) {a b : C} (ha : L.Node a) (h : Adjacent g a b) : L.Node b := by
  obtain ⟨d, hd⟩ := (adjacent_nbr hs hb ha b).1 h
  exact hs.laws.nbr_node ha hd

theorem adjacent_symm (hs : Lawful s L rep) (hb : Built s L g k) {a b : C} (ha : L.Node a) (h : Adjacent g a b) : Adjacent g b a := by
  obtain ⟨d, hd⟩ := (adjacent_nbr hs hb ha b).1 h
  exact (adjacent_nbr hs hb (hs.laws.nbr_node ha hd) a).2 ⟨_, hs.laws.nbr_opp ha hd⟩

theorem adjacent_inWalk (hs : Lawful s L rep) (hb : Built s L g k) {a b : C} (ha : L.Node a) : InWalk g.s a 1 b ↔ Adjacent g a b := by
  rw [inWalk_one hs.searchable hb ha, mem_within, adjacent_nbr hs hb ha, ← (c07_neighbors_exact hs ha b).1]
  exact ⟨fun h => h.1, fun h => ⟨h, Lat.mem_nodes.2 ((c07_neighbors_exact hs ha b).2 h)⟩⟩

theorem openWalk_ways (hs : Lawful s L rep) (hb : Built s L g k) {c a b : C} (ha : L.Node a) :
    OpenWalk g (fun x => decide (x ≠ c)) a b ↔ Ways (Around (Adjacent g) c) a b := by
  constructor
  · intro h
    induction h with
    | nil => exact .nil
    | step h0 hx h1 hy ih =>
      exact ih.step ⟨(adjacent_inWalk hs hb (h0.node hs.searchable hb ha)).1 h1, of_decide_eq_true hx, of_decide_eq_true hy⟩
  · intro h
    have key : OpenWalk g (fun x => decide (x ≠ c)) a b ∧ L.Node b := by
      induction h with
      | nil => exact ⟨.nil, ha⟩
      | step _ h ih =>
        exact ⟨.step ih.1 (decide_eq_true h.2.1) ((adjacent_inWalk hs hb ih.2).2 h.1) (decide_eq_true h.2.2), adjacent_node hs hb ih.2 h.1⟩
    exact key.1

/-- **C114.** Seen from petgraph: a node cuts exactly if `has_path_connecting` on the map without it (`NodeFiltered`) denies that some
two others are connected; otherwise it affirms it of all. -/
theorem c114_has_path (hs : Lawful s L rep) (hb : Built s L g k) (c : C) :
    (Cuts g L.Node c ↔ ∃ a b, L.Node a ∧ L.Node b ∧ a ≠ c ∧ b ≠ c ∧ HasPath (g.nodeFiltered fun x => decide (x ≠ c)) a b false) ∧
    (¬Cuts g L.Node c → ∀ a b, L.Node a → L.Node b → a ≠ c → b ≠ c → ∀ r,
      HasPath (g.nodeFiltered fun x => decide (x ≠ c)) a b r ↔ r = true) := by
  constructor
  · refine exists_congr fun a => exists_congr fun b => and_congr_right fun ha => and_congr_right fun _ => and_congr_right fun _ =>
      and_congr_right fun _ => ?_
    rw [c106_has_path hs.searchable hb _ ha, openWalk_ways hs hb ha]
    simp
  · intro hn a b ha hb' h1 h2 r
    have : Ways (Around (Adjacent g) c) a b := Classical.byContradiction fun h => hn ⟨a, b, ha, hb', h1, h2, h⟩
    rw [c106_has_path hs.searchable hb _ ha, openWalk_ways hs hb ha]
    simp [this]

/-- The edges other than those between `u` and `v`. -/
def notBetween (u v : C) (r : EdgeRef C D E) : Bool := decide (¬(r.source = u ∧ r.target = v) ∧ ¬(r.source = v ∧ r.target = u))

theorem adjacent_edge (hs : Lawful s L rep) (hb : Built s L g k) {a b : C} (ha : L.Node a) :
    Adjacent g a b ↔ ∃ r, EdgeOf g a r ∧ r.target = b := by
  have h1 : Adjacent g a b ↔ b ∈ L.nbrs a := by rw [adjacent_nbr hs hb ha, (c07_neighbors_exact hs ha b).1]
  rw [h1, ← (c10_targets hs hb ha).1, List.mem_map]
  exact exists_congr fun r => and_congr_left fun _ => (edgeOf_iff hs hb ha).symm

theorem linkWalk_ways (hs : Lawful s L rep) (hb : Built s L g k) (u v : C) (cost : EdgeRef C D E → Nat) {a b : C} (ha : L.Node a) :
    (∃ n, LinkWalk (fun x y n => ∃ r, EdgeOf g x r ∧ notBetween u v r = true ∧ r.target = y ∧ cost r = n) a b n) ↔
      Ways (Beside (Adjacent g) u v) a b := by
  have src : ∀ {x r}, L.Node x → EdgeOf g x r → r.source = x := fun hx he => (c10_edge_exact hs hb hx ((edgeOf_iff hs hb hx).1 he)).1
  constructor
  · rintro ⟨n, h⟩
    induction h with
    | nil => exact .nil
    | @cons x y t w n e _ ih =>
      obtain ⟨r, h1, h2, rfl, -⟩ := e
      have h3 := of_decide_eq_true h2
      rw [src ha h1] at h3
      have h4 := (adjacent_edge hs hb ha).2 ⟨r, h1, rfl⟩
      exact (Ways.nil.step ⟨h4, h3⟩).trans (ih (adjacent_node hs hb ha h4))
  · intro h
    have hnode : ∀ {z}, Ways (Beside (Adjacent g) u v) a z → L.Node z := fun hz => by
      induction hz with
      | nil => exact ha
      | step _ h ih => exact adjacent_node hs hb ih h.1
    have key : ∀ {x n}, L.Node x → Ways (Beside (Adjacent g) u v) a x →
        LinkWalk (fun x y n => ∃ r, EdgeOf g x r ∧ notBetween u v r = true ∧ r.target = y ∧ cost r = n) x b n →
        ∃ n, LinkWalk (fun x y n => ∃ r, EdgeOf g x r ∧ notBetween u v r = true ∧ r.target = y ∧ cost r = n) a b n := by
      intro x n hx hw
      induction hw generalizing n with
      | nil => exact fun h => ⟨n, h⟩
      | step h0 h1 ih =>
        intro hl
        have hxn := hnode h0
        obtain ⟨r, h2, rfl⟩ := (adjacent_edge hs hb hxn).1 h1.1
        refine ih hxn (.cons ⟨r, h2, ?_, rfl, rfl⟩ hl)
        have := h1.2
        rw [← src hxn h2] at this
        exact decide_eq_true this
    exact key (hnode h) h .nil

/-- **C114.** Seen from petgraph: the link between two nodes cuts exactly if `astar` on the map without it (`EdgeFiltered`) finds no
path between some two nodes, whatever the costs and the estimate. -/
theorem c114_astar (hs : Lawful s L rep) (hb : Built s L g k) (u v : C) (cost : EdgeRef C D E → Nat) (h : C → Nat) :
    CutsLink g L.Node u v ↔ ∃ a b, L.Node a ∧ L.Node b ∧
      AstOutcome (keptEdges g (notBetween u v) cost) h (fun x => decide (x = b)) a none := by
  refine exists_congr fun a => exists_congr fun b => and_congr_right fun ha => and_congr_right fun _ => ?_
  have hr := c106_astar_edges hs hb (notBetween u v) cost ha h (fun x => decide (x = b))
  have h1 : (∀ t n, decide (t = b) = true → ¬LinkWalk (fun x y n => ∃ r, EdgeOf g x r ∧ notBetween u v r = true ∧ r.target = y ∧ cost r = n) a t n) ↔
      ¬Ways (Beside (Adjacent g) u v) a b := by
    rw [← linkWalk_ways hs hb u v cost ha]
    constructor
    · rintro hno ⟨n, hw⟩; exact hno b n (decide_eq_true rfl) hw
    · rintro hno t n ht hw
      cases of_decide_eq_true ht
      exact hno ⟨n, hw⟩
  rw [← h1]
  constructor
  · intro hno
    obtain ⟨st, o, k1, k2⟩ := hr.completes _ .nil
    have ho : AstOutcome _ _ _ _ o := ⟨st, k1, k2⟩
    cases (hr.none_iff _ ho).2 hno
    exact ho
  · exact fun ho => (hr.none_iff _ ho).1 rfl

/-! ### Which cells and links -/

theorem cuts_iff {pos : Nat → Nat → C} {W H : Nat} {rx ry : Bool} {Node : C → Prop} (hg : Gridlike (Adjacent g) pos W H rx ry)
    (hn : ∀ v, Node v ↔ ∃ x y, x < W ∧ y < H ∧ v = pos x y) :
    (∀ x y, x < W → y < H → (Cuts g Node (pos x y) ↔
      (W = 1 ∧ ry = false ∧ 0 < y ∧ y + 1 < H) ∨ (H = 1 ∧ rx = false ∧ 0 < x ∧ x + 1 < W))) ∧
    (∀ a b, Node a → a ≠ b → Adjacent g a b → (CutsLink g Node a b ↔ (W = 1 ∧ (ry = false ∨ H = 2)) ∨ (H = 1 ∧ (rx = false ∨ W = 2)))) := by
  constructor
  · intro x y hx hy
    rw [← hg.cut hx hy]
    constructor
    · rintro ⟨a, b, ha, hb, h⟩
      obtain ⟨x1, y1, h1, h2, rfl⟩ := (hn a).1 ha
      obtain ⟨x2, y2, h3, h4, rfl⟩ := (hn b).1 hb
      exact ⟨x1, y1, x2, y2, h1, h2, h3, h4, h⟩
    · rintro ⟨x1, y1, x2, y2, h1, h2, h3, h4, h⟩
      exact ⟨_, _, (hn _).2 ⟨x1, y1, h1, h2, rfl⟩, (hn _).2 ⟨x2, y2, h3, h4, rfl⟩, h⟩
  · intro u v hu hne hadj
    obtain ⟨x, y, hx, hy, rfl⟩ := (hn u).1 hu
    obtain ⟨x', y', hx', hy', rfl⟩ := hg.closed hx hy hadj
    rw [← hg.link hx hy hx' hy' hne hadj]
    constructor
    · rintro ⟨a, b, ha, hb, h⟩
      obtain ⟨x1, y1, h1, h2, rfl⟩ := (hn a).1 ha
      obtain ⟨x2, y2, h3, h4, rfl⟩ := (hn b).1 hb
      exact ⟨x1, y1, x2, y2, h1, h2, h3, h4, h⟩
    · rintro ⟨x1, y1, x2, y2, h1, h2, h3, h4, h⟩
      exact ⟨_, _, (hn _).2 ⟨x1, y1, h1, h2, rfl⟩, (hn _).2 ⟨x2, y2, h3, h4, rfl⟩, h⟩

/-- What the theorems below say of a map of `w` columns and `h` rows that does not wrap around: only in a single row or column does
a node cut, and there all do but the ends; and so does every link. -/
def FallsApart (g : Graph C A D N E) (Node : C → Prop) (pos : Nat → Nat → C) (w h : Nat) : Prop :=
  (∀ x y, x < w → y < h → (Cuts g Node (pos x y) ↔ (w = 1 ∧ 0 < y ∧ y + 1 < h) ∨ (h = 1 ∧ 0 < x ∧ x + 1 < w))) ∧
  ∀ a b, Node a → a ≠ b → Adjacent g a b → (CutsLink g Node a b ↔ w = 1 ∨ h = 1)

theorem fallsApart {pos : Nat → Nat → C} {w h : Nat} {Node : C → Prop} (hg : Gridlike (Adjacent g) pos w h false false)
    (hn : ∀ v, Node v ↔ ∃ x y, x < w ∧ y < h ∧ v = pos x y) : FallsApart g Node pos w h := by
  have := cuts_iff hg hn
  simpa [FallsApart] using this
end

section
variable {N E : Type} {rep : Offset → Prop} {repA : Axial → Prop} {w h : Nat} {even flat : Bool}

theorem rect_gridlike {A D : Type} [DecidableEq A] [DecidableEq D] {L : Lat Offset A D} {s : Shape Offset A D}
    {g : Graph Offset A D N E} {k : Contents Offset A N E} (hs : Lawful s L rep) (hb : Built s L g k)
    (hw : L.width = w) (hh : L.height = h) (hc : L.coord = fun x y => ⟨x, y⟩) {near : Offset → Offset → Prop} {rx : Bool}
    (hnear : ∀ a b : Offset, a.horizontal < w ∧ a.vertical < h → b.horizontal < w ∧ b.vertical < h →
      ((∃ d, L.nbr a d = some b) ↔ near a b))
    (right : ∀ {x y}, x + 1 < w → y < h → near ⟨x, y⟩ ⟨x + 1, y⟩) (up : ∀ {x y}, x < w → y + 1 < h → near ⟨x, y⟩ ⟨x, y + 1⟩)
    (ring : rx = true → ∀ {y}, 0 < w → y < h → near ⟨w - 1, y⟩ ⟨0, y⟩)
    (thinX : rx = false → ∀ {x x'}, near ⟨x, 0⟩ ⟨x', 0⟩ → x' ≤ x + 1 ∧ x ≤ x' + 1)
    (thinY : ∀ {y y'}, near ⟨0, y⟩ ⟨0, y'⟩ → y' ≤ y + 1 ∧ y ≤ y' + 1) :
    Gridlike (Adjacent g) Offset.mk w h rx false := by
  have hP := rect_nodes_iff hw hh hc
  have hadj : ∀ {a b : Offset}, a.horizontal < w ∧ a.vertical < h → b.horizontal < w ∧ b.vertical < h → (Adjacent g a b ↔ near a b) :=
    fun ha hb' => by rw [adjacent_nbr hs hb ((hP _).2 ha)]; exact hnear _ _ ha hb'
  refine ⟨fun _ _ _ _ e => by cases e; exact ⟨rfl, rfl⟩, fun h1 h2 h3 => ?_, fun h1 h2 _ _ h3 => adjacent_symm hs hb ((hP _).2 ⟨h1, h2⟩) h3,
    fun h1 h2 => (hadj ⟨by simp only []; omega, h2⟩ ⟨h1, h2⟩).2 (right h1 h2),
    fun h1 h2 => (hadj ⟨h1, by simp only []; omega⟩ ⟨h1, h2⟩).2 (up h1 h2),
    fun hr _ h1 h2 => (hadj ⟨by simp only []; omega, h2⟩ ⟨h1, h2⟩).2 (ring hr h1 h2), fun e => (nomatch e), fun hr e _ _ h1 h2 h3 => ?_,
    fun _ e _ _ h1 h2 h3 => ?_⟩
  · have := (hP _).1 (adjacent_node hs hb ((hP _).2 ⟨h1, h2⟩) h3)
    exact ⟨_, _, this.1, this.2, rfl⟩
  · exact thinX hr ((hadj ⟨h1, by simp only []; omega⟩ ⟨h2, by simp only []; omega⟩).1 h3)
  · exact thinY ((hadj ⟨by simp only []; omega, h1⟩ ⟨by simp only []; omega, h2⟩).1 h3)

theorem rect_cells (v : Offset) : v.horizontal < w ∧ v.vertical < h ↔ ∃ x y, x < w ∧ y < h ∧ v = ⟨x, y⟩ :=
  ⟨fun h => ⟨_, _, h.1, h.2, rfl⟩, fun ⟨_, _, h1, h2, e⟩ => e ▸ ⟨h1, h2⟩⟩

theorem square_gridlike {A : Type} [DecidableEq A] {L : Lat Offset A DSquareAxis} {s : Shape Offset A DSquareAxis}
    {g : Graph Offset A DSquareAxis N E} {k : Contents Offset A N E} (hs : Lawful s L rep) (hb : Built s L g k)
    (hw : L.width = w) (hh : L.height = h) (hc : L.coord = fun x y => ⟨x, y⟩) (hn : L.nbr = fun c d => rectNbr w h c d.vec) :
    Gridlike (Adjacent g) Offset.mk w h false false := by
  refine rect_gridlike hs hb hw hh hc (near := SideBySide) (fun a b _ hb' => by rw [hn]; exact square_near hb') ?_ ?_ ?_ ?_ ?_
  · intros; exact .inl ⟨rfl, .inr rfl⟩
  · intros; exact .inr ⟨rfl, .inr rfl⟩
  · exact fun e => nomatch e
  · intro _ x x' hn; simp only [SideBySide] at hn; omega
  · intro y y' hn; simp only [SideBySide] at hn; omega

theorem square_cut {A : Type} [DecidableEq A] {L : Lat Offset A DSquareAxis} {s : Shape Offset A DSquareAxis}
    {g : Graph Offset A DSquareAxis N E} {k : Contents Offset A N E} (hs : Lawful s L rep) (hb : Built s L g k)
    (hw : L.width = w) (hh : L.height = h) (hc : L.coord = fun x y => ⟨x, y⟩) (hn : L.nbr = fun c d => rectNbr w h c d.vec) :
    FallsApart g (fun c => c.horizontal < w ∧ c.vertical < h) Offset.mk w h :=
  fallsApart (square_gridlike hs hb hw hh hc hn) rect_cells

theorem diag_gridlike {A : Type} [DecidableEq A] {L : Lat Offset A DDiagAxis} {s : Shape Offset A DDiagAxis}
    {g : Graph Offset A DDiagAxis N E} {k : Contents Offset A N E} (hs : Lawful s L rep) (hb : Built s L g k)
    (hw : L.width = w) (hh : L.height = h) (hc : L.coord = fun x y => ⟨x, y⟩) (hn : L.nbr = fun c d => rectNbr w h c d.vec) :
    Gridlike (Adjacent g) Offset.mk w h false false := by
  refine rect_gridlike hs hb hw hh hc (near := Touching) (fun a b _ hb' => by rw [hn]; exact diag_near hb') ?_ ?_ ?_ ?_ ?_
  · intros; simp only [Touching, ne_eq, off_eq]; omega
  · intros; simp only [Touching, ne_eq, off_eq]; omega
  · exact fun e => nomatch e
  · intro _ x x' hn; simp only [Touching] at hn; omega
  · intro y y' hn; simp only [Touching] at hn; omega

theorem diag_cut {A : Type} [DecidableEq A] {L : Lat Offset A DDiagAxis} {s : Shape Offset A DDiagAxis}
    {g : Graph Offset A DDiagAxis N E} {k : Contents Offset A N E} (hs : Lawful s L rep) (hb : Built s L g k)
    (hw : L.width = w) (hh : L.height = h) (hc : L.coord = fun x y => ⟨x, y⟩) (hn : L.nbr = fun c d => rectNbr w h c d.vec) :
    FallsApart g (fun c => c.horizontal < w ∧ c.vertical < h) Offset.mk w h :=
  fallsApart (diag_gridlike hs hb hw hh hc hn) rect_cells

theorem off_gridlike {A : Type} [DecidableEq A] {L : Lat Offset A AxisDR} {s : Shape Offset A AxisDR}
    {g : Graph Offset A AxisDR N E} {k : Contents Offset A N E} (hs : Lawful s L rep) (hb : Built s L g k)
    (hw : L.width = w) (hh : L.height = h) (hc : L.coord = fun x y => ⟨x, y⟩) (hn : L.nbr = offNbr even w h) :
    Gridlike (Adjacent g) Offset.mk w h false false := by
  refine rect_gridlike hs hb hw hh hc (near := HexNear even) (fun a b _ hb' => by rw [hn]; exact off_near hb') ?_ ?_ ?_ ?_ ?_
  · intro x y _ _; exact .inl ⟨rfl, .inl (by simp only [offPos]; omega)⟩
  · intros; cases even <;> simp only [HexNear, offPos, rowShift, Bool.false_eq_true, if_false, if_true] <;> omega
  · exact fun e => nomatch e
  · intro _ x x' hn; cases even <;> simp only [HexNear, offPos, rowShift, Bool.false_eq_true, if_false, if_true] at hn <;> omega
  · intro y y' hn; simp only [HexNear, offPos] at hn; omega

theorem off_cut {A : Type} [DecidableEq A] {L : Lat Offset A AxisDR} {s : Shape Offset A AxisDR}
    {g : Graph Offset A AxisDR N E} {k : Contents Offset A N E} (hs : Lawful s L rep) (hb : Built s L g k)
    (hw : L.width = w) (hh : L.height = h) (hc : L.coord = fun x y => ⟨x, y⟩) (hn : L.nbr = offNbr even w h) :
    FallsApart g (fun c => c.horizontal < w ∧ c.vertical < h) Offset.mk w h :=
  fallsApart (off_gridlike hs hb hw hh hc hn) rect_cells

theorem ax_adjacent {A D : Type} [DecidableEq A] [DecidableEq D] {L : Lat Axial A D} {s : Shape Axial A D} {vec : D → Int × Int}
    {g : Graph Axial A D N E} {k : Contents Axial A N E} (hs : Lawful s L repA) (hb : Built s L g k)
    (hw : L.width = w) (hh : L.height = h) (hc : L.coord = axCoord even flat) (hn : L.nbr = fun c d => axNbr even flat w h c (vec d))
    (hvec : ∀ v, AxStep v ↔ ∃ d, v = vec d) {a b : Offset} (ha : a.horizontal < (axSides flat w h).1 ∧ a.vertical < (axSides flat w h).2)
    (hb' : b.horizontal < (axSides flat w h).1 ∧ b.vertical < (axSides flat w h).2) :
    Adjacent g (shearCell even flat a) (shearCell even flat b) ↔ HexNear even a b := by
  have hP' : ∀ v, L.Node v ↔ axIn even flat w h v = true := fun v => by rw [axIn_iff, Lat.Node, hw, hh, hc]
  rw [adjacent_nbr hs hb ((hP' _).2 (shearCell_node.2 ⟨a, ha, rfl⟩)), hn, ← axStep_near (flat := flat), hvec]
  refine exists_congr fun d => ?_
  rw [axNbr_some, and_iff_right (shearCell_node.2 ⟨b, hb', rfl⟩)]
  constructor
  · intro e
    rw [e]
    exact Prod.ext (by simp only []; omega) (by simp only []; omega)
  · intro e
    have e1 := congrArg Prod.fst e
    have e2 := congrArg Prod.snd e
    simp only [] at e1 e2
    rw [← e1, ← e2]
    generalize shearCell even flat a = u
    generalize shearCell even flat b = v
    cases u; cases v
    simp only [Axial.mk.injEq]
    omega

theorem ax_gridlike {A D : Type} [DecidableEq A] [DecidableEq D] {L : Lat Axial A D} {s : Shape Axial A D} {vec : D → Int × Int}
    {g : Graph Axial A D N E} {k : Contents Axial A N E} (hs : Lawful s L repA) (hb : Built s L g k)
    (hw : L.width = w) (hh : L.height = h) (hc : L.coord = axCoord even flat) (hn : L.nbr = fun c d => axNbr even flat w h c (vec d))
    (hvec : ∀ v, AxStep v ↔ ∃ d, v = vec d) : Gridlike (Adjacent g) (axCoord even flat) w h false false := by
  have hP' : ∀ v, L.Node v ↔ axIn even flat w h v = true := fun v => by rw [axIn_iff, Lat.Node, hw, hh, hc]
  have hadj : ∀ {a b : Offset}, _ → _ → (Adjacent g (shearCell even flat a) (shearCell even flat b) ↔ _) :=
    fun {a b} ha hb' => ax_adjacent (even := even) (flat := flat) hs hb hw hh hc hn hvec (a := a) (b := b) ha hb'
  have node : ∀ {x y}, x < (axSides flat w h).1 → y < (axSides flat w h).2 → L.Node (shearCell even flat ⟨x, y⟩) := fun h1 h2 =>
    (hP' _).2 (shearCell_node.2 ⟨_, ⟨h1, h2⟩, rfl⟩)
  have hg : Gridlike (Adjacent g) (fun x y => shearCell even flat ⟨x, y⟩) (axSides flat w h).1 (axSides flat w h).2 false false := by
    refine ⟨fun _ _ _ _ e => by cases shearCell_inj e; exact ⟨rfl, rfl⟩, fun h1 h2 h3 => ?_,
      fun h1 h2 _ _ h3 => adjacent_symm hs hb (node h1 h2) h3,
      fun h1 h2 => (hadj ⟨by simp only []; omega, h2⟩ ⟨h1, h2⟩).2 (.inl ⟨rfl, .inl (by simp only [offPos]; omega)⟩),
      fun h1 h2 => (hadj ⟨h1, by simp only []; omega⟩ ⟨h1, h2⟩).2
        (by cases even <;> simp only [HexNear, offPos, rowShift, Bool.false_eq_true, if_false, if_true] <;> omega),
      fun e => (nomatch e), fun e => (nomatch e), fun _ e _ _ h1 h2 h3 => ?_, fun _ e _ _ h1 h2 h3 => ?_⟩
    · obtain ⟨c, h4, h5⟩ := shearCell_node.1 ((hP' _).1 (adjacent_node hs hb (node h1 h2) h3))
      exact ⟨_, _, h4.1, h4.2, h5⟩
    · have := (hadj ⟨h1, by simp only []; omega⟩ ⟨h2, by simp only []; omega⟩).1 h3
      cases even <;> simp only [HexNear, offPos, rowShift, Bool.false_eq_true, if_false, if_true] at this <;> omega
    · have := (hadj ⟨by simp only []; omega, h1⟩ ⟨by simp only []; omega, h2⟩).1 h3
      simp only [HexNear, offPos] at this
      omega
  cases flat
  · exact hg
  · exact hg.swap

theorem ax_cut {A D : Type} [DecidableEq A] [DecidableEq D] {L : Lat Axial A D} {s : Shape Axial A D} {vec : D → Int × Int}
    {g : Graph Axial A D N E} {k : Contents Axial A N E} (hs : Lawful s L repA) (hb : Built s L g k)
    (hw : L.width = w) (hh : L.height = h) (hc : L.coord = axCoord even flat) (hn : L.nbr = fun c d => axNbr even flat w h c (vec d))
    (hvec : ∀ v, AxStep v ↔ ∃ d, v = vec d) : FallsApart g (fun c => axIn even flat w h c = true) (axCoord even flat) w h :=
  fallsApart (ax_gridlike hs hb hw hh hc hn hvec) fun _ => axIn_iff

/-- **C114.** Squares: in a map of at least two rows and columns no single node and no single edge separates others. In a single row
or column every edge does, and every node that is not at an end. -/
theorem c114_square {s : Shape Offset SquareAxis DSquareAxis} {g : Graph Offset SquareAxis DSquareAxis N E} {k : Contents Offset SquareAxis N E}
    (hs : Lawful s (squareLat w h) rep) (hb : Built s (squareLat w h) g k) :
    FallsApart g (fun c => c.horizontal < w ∧ c.vertical < h) Offset.mk w h :=
  square_cut hs hb rfl rfl rfl rfl
/-- **C114.** The same, directed. -/
theorem c114_square_directed {s : Shape Offset DSquareAxis DSquareAxis} {g : Graph Offset DSquareAxis DSquareAxis N E} {k : Contents Offset DSquareAxis N E}
    (hs : Lawful s (squareLatDirected w h) rep) (hb : Built s (squareLatDirected w h) g k) :
    FallsApart g (fun c => c.horizontal < w ∧ c.vertical < h) Offset.mk w h :=
  square_cut hs hb rfl rfl rfl rfl
/-- **C114.** The same for squares with diagonals. -/
theorem c114_diag {s : Shape Offset DiagAxis DDiagAxis} {g : Graph Offset DiagAxis DDiagAxis N E} {k : Contents Offset DiagAxis N E}
    (hs : Lawful s (diagLat w h) rep) (hb : Built s (diagLat w h) g k) :
    FallsApart g (fun c => c.horizontal < w ∧ c.vertical < h) Offset.mk w h :=
  diag_cut hs hb rfl rfl rfl rfl
/-- **C114.** The same, directed. -/
theorem c114_diag_directed {s : Shape Offset DDiagAxis DDiagAxis} {g : Graph Offset DDiagAxis DDiagAxis N E} {k : Contents Offset DDiagAxis N E}
    (hs : Lawful s (diagLatDirected w h) rep) (hb : Built s (diagLatDirected w h) g k) :
    FallsApart g (fun c => c.horizontal < w ∧ c.vertical < h) Offset.mk w h :=
  diag_cut hs hb rfl rfl rfl rfl
/-- **C114.** The same for point-top hexagons in offset coordinates. -/
theorem c114_offset {s : Shape Offset AxisR AxisDR} {g : Graph Offset AxisR AxisDR N E} {k : Contents Offset AxisR N E}
    (hs : Lawful s (offLatR even w h) rep) (hb : Built s (offLatR even w h) g k) :
    FallsApart g (fun c => c.horizontal < w ∧ c.vertical < h) Offset.mk w h :=
  off_cut hs hb rfl rfl rfl rfl
/-- **C114.** The same, directed. -/
theorem c114_offset_directed {s : Shape Offset AxisDR AxisDR} {g : Graph Offset AxisDR AxisDR N E} {k : Contents Offset AxisDR N E}
    (hs : Lawful s (offLatDR even w h) rep) (hb : Built s (offLatDR even w h) g k) :
    FallsApart g (fun c => c.horizontal < w ∧ c.vertical < h) Offset.mk w h :=
  off_cut hs hb rfl rfl rfl rfl
/-- **C114.** The same for axial maps. -/
theorem c114_axial {s : Shape Axial AxisR AxisDR} {g : Graph Axial AxisR AxisDR N E} {k : Contents Axial AxisR N E}
    (hs : Lawful s (axLatR even flat w h) repA) (hb : Built s (axLatR even flat w h) g k) :
    FallsApart g (fun c => axIn even flat w h c = true) (axCoord even flat) w h :=
  ax_cut hs hb rfl rfl rfl rfl axStep_DR
/-- **C114.** The same, directed. -/
theorem c114_axial_directed {s : Shape Axial AxisDR AxisDR} {g : Graph Axial AxisDR AxisDR N E} {k : Contents Axial AxisDR N E}
    (hs : Lawful s (axLatDR even flat w h) repA) (hb : Built s (axLatDR even flat w h) g k) :
    FallsApart g (fun c => axIn even flat w h c = true) (axCoord even flat) w h :=
  ax_cut hs hb rfl rfl rfl rfl axStep_DR
/-- **C114.** The same with flat-top directions. -/
theorem c114_axial_flat {s : Shape Axial AxisQ AxisDQ} {g : Graph Axial AxisQ AxisDQ N E} {k : Contents Axial AxisQ N E}
    (hs : Lawful s (axLatQ even flat w h) repA) (hb : Built s (axLatQ even flat w h) g k) :
    FallsApart g (fun c => axIn even flat w h c = true) (axCoord even flat) w h :=
  ax_cut hs hb rfl rfl rfl rfl axStep_DQ
/-- **C114.** The same with flat-top directions, directed. -/
theorem c114_axial_flat_directed {s : Shape Axial AxisDQ AxisDQ} {g : Graph Axial AxisDQ AxisDQ N E} {k : Contents Axial AxisDQ N E}
    (hs : Lawful s (axLatDQ even flat w h) repA) (hb : Built s (axLatDQ even flat w h) g k) :
    FallsApart g (fun c => axIn even flat w h c = true) (axCoord even flat) w h :=
  ax_cut hs hb rfl rfl rfl rfl axStep_DQ

theorem loop_gridlike {s : Shape Offset AxisR AxisDR} {g : Graph Offset AxisR AxisDR N E} {k : Contents Offset AxisR N E}
    (hs : Lawful s (offLatRLoop even w h) rep) (hb : Built s (offLatRLoop even w h) g k) : Gridlike (Adjacent g) Offset.mk w h true false := by
  refine rect_gridlike (w := w) (h := h) hs hb rfl rfl rfl (near := fun a b => ∃ d, offNbrLoop even w h a d = some b) (fun a b _ _ => Iff.rfl) ?_ ?_ ?_ ?_ ?_
  · intro x y h1 h2
    exact ⟨.E, offNbrLoop_iff.2 ⟨h1, h2, ⟨0, by simp only [offPos, AxisDR.vec]; omega⟩, by simp only [offPos, AxisDR.vec]; omega⟩⟩
  · intro x y h1 h2
    by_cases e : rowShift even y = 0
    · exact ⟨.NE, offNbrLoop_iff.2 ⟨h1, h2, ⟨0, by
        cases even <;> simp only [offPos, AxisDR.vec, rowShift, Bool.false_eq_true, if_false, if_true] at * <;> omega⟩,
        by simp only [offPos, AxisDR.vec]; omega⟩⟩
    · exact ⟨.NW, offNbrLoop_iff.2 ⟨h1, h2, ⟨0, by
        cases even <;> simp only [offPos, AxisDR.vec, rowShift, Bool.false_eq_true, if_false, if_true] at * <;> omega⟩,
        by simp only [offPos, AxisDR.vec]; omega⟩⟩
  · intro _ y h1 h2
    exact ⟨.E, offNbrLoop_iff.2 ⟨h1, h2, ⟨1, by simp only [offPos, AxisDR.vec]; omega⟩, by simp only [offPos, AxisDR.vec]; omega⟩⟩
  · exact fun e => nomatch e
  · rintro y y' ⟨d, hd⟩
    have := (offNbrLoop_iff.1 hd).2.2.2
    cases d <;> simp only [offPos, AxisDR.vec] at this <;> omega

/-- **C114.** With `LoopEW` a single row is a circle: no node of it cuts, and no link unless the row has but two nodes. Only on a map
of one column do nodes cut. -/
theorem c114_loop {s : Shape Offset AxisR AxisDR} {g : Graph Offset AxisR AxisDR N E} {k : Contents Offset AxisR N E}
    (hs : Lawful s (offLatRLoop even w h) rep) (hb : Built s (offLatRLoop even w h) g k) :
    (∀ x y, x < w → y < h → (Cuts g (fun c => c.horizontal < w ∧ c.vertical < h) ⟨x, y⟩ ↔ w = 1 ∧ 0 < y ∧ y + 1 < h)) ∧
    ∀ a b, a.horizontal < w ∧ a.vertical < h → a ≠ b → Adjacent g a b →
      (CutsLink g (fun c => c.horizontal < w ∧ c.vertical < h) a b ↔ w = 1 ∨ (h = 1 ∧ w = 2)) := by
  have := cuts_iff (loop_gridlike hs hb) rect_cells
  simpa using this
end

/-! ### Instances -/
example : ∃ g : Graph Offset SquareAxis DSquareAxis Unit Unit, Built (squareShape m64 3 2) (squareLat 3 2) g
      (runCalls (fun u _ => ((), u)) (fun u _ _ => ((), u)) (callSeq (squareLat 3 2)) () emptyContents).1 ∧
    (∀ r, HasPath (g.nodeFiltered fun x => decide (x ≠ ⟨1, 0⟩)) ⟨0, 0⟩ ⟨2, 0⟩ r ↔ r = true) ∧
    ¬CutsLink g (squareLat 3 2).Node ⟨1, 0⟩ ⟨2, 0⟩ := by
  have hs := Lawful.square m64 3 2
  obtain ⟨g, hb⟩ := hs.exists_built (by decide) (fun u _ => ((), u)) (fun u _ _ => ((), u)) ()
  have hP : (squareLat 3 2).Node = fun c => c.horizontal < 3 ∧ c.vertical < 2 := funext fun c => propext (rect_nodes_iff rfl rfl rfl c)
  obtain ⟨h1, h2⟩ := c114_square hs hb
  refine ⟨g, hb, (c114_has_path hs hb ⟨1, 0⟩).2 ?_ _ _ ⟨0, 0, by decide, by decide, rfl⟩ ⟨2, 0, by decide, by decide, rfl⟩ (by decide) (by decide), ?_⟩
  · rw [hP, h1 1 0 (by decide) (by decide)]; decide
  · rw [hP, h2 ⟨1, 0⟩ ⟨2, 0⟩ (by decide) (by decide) ((adjacent_nbr hs hb ⟨1, 0, by decide, by decide, rfl⟩ _).2 ⟨.X, by decide⟩)]; decide
example : ∃ g : Graph Offset DSquareAxis DSquareAxis Unit Unit, Cuts g (fun c => c.horizontal < 1 ∧ c.vertical < 3) ⟨0, 1⟩ ∧ ¬Cuts g (fun c => c.horizontal < 1 ∧ c.vertical < 3) ⟨0, 0⟩ := by
  have hs := Lawful.squareDirected m64 1 3
  obtain ⟨g, hb⟩ := hs.exists_built (by decide) (fun u _ => ((), u)) (fun u _ _ => ((), u)) ()
  obtain ⟨h1, -⟩ := c114_square_directed hs hb
  exact ⟨g, (h1 0 1 (by decide) (by decide)).2 (by decide), fun h => absurd ((h1 0 0 (by decide) (by decide)).1 h) (by decide)⟩
example : ∃ g : Graph Offset DiagAxis DDiagAxis Unit Unit, Cuts g (fun c => c.horizontal < 1 ∧ c.vertical < 3) ⟨0, 1⟩ ∧ ¬Cuts g (fun c => c.horizontal < 1 ∧ c.vertical < 3) ⟨0, 0⟩ := by
  have hs := Lawful.diag m64 1 3
  obtain ⟨g, hb⟩ := hs.exists_built (by decide) (fun u _ => ((), u)) (fun u _ _ => ((), u)) ()
  obtain ⟨h1, -⟩ := c114_diag hs hb
  exact ⟨g, (h1 0 1 (by decide) (by decide)).2 (by decide), fun h => absurd ((h1 0 0 (by decide) (by decide)).1 h) (by decide)⟩
example : ∃ g : Graph Offset DDiagAxis DDiagAxis Unit Unit, ∀ x y, x < 4 → y < 3 → ¬Cuts g (fun c => c.horizontal < 4 ∧ c.vertical < 3) (Offset.mk x y) := by
  have hs := Lawful.diagDirected m64 4 3
  obtain ⟨g, hb⟩ := hs.exists_built (by decide) (fun u _ => ((), u)) (fun u _ _ => ((), u)) ()
  obtain ⟨h1, -⟩ := c114_diag_directed hs hb
  exact ⟨g, fun x y hx hy h => absurd ((h1 x y hx hy).1 h) (by simp)⟩
example : ∃ g : Graph Offset AxisR AxisDR Unit Unit, ∀ x y, x < 4 → y < 3 → ¬Cuts g (fun c => c.horizontal < 4 ∧ c.vertical < 3) (Offset.mk x y) := by
  have hs := Lawful.hexOffR m64 oddR 4 3
  obtain ⟨g, hb⟩ := hs.exists_built (by decide) (fun u _ => ((), u)) (fun u _ _ => ((), u)) ()
  obtain ⟨h1, -⟩ := c114_offset hs hb
  exact ⟨g, fun x y hx hy h => absurd ((h1 x y hx hy).1 h) (by simp)⟩
example : ∃ g : Graph Offset AxisDR AxisDR Unit Unit, Cuts g (fun c => c.horizontal < 1 ∧ c.vertical < 3) ⟨0, 1⟩ ∧ ¬Cuts g (fun c => c.horizontal < 1 ∧ c.vertical < 3) ⟨0, 0⟩ := by
  have hs := Lawful.hexOffRDirected m64 evenR 1 3
  obtain ⟨g, hb⟩ := hs.exists_built (by decide) (fun u _ => ((), u)) (fun u _ _ => ((), u)) ()
  obtain ⟨h1, -⟩ := c114_offset_directed hs hb
  exact ⟨g, (h1 0 1 (by decide) (by decide)).2 (by decide), fun h => absurd ((h1 0 0 (by decide) (by decide)).1 h) (by decide)⟩
example : ∃ g : Graph Axial AxisR AxisDR Unit Unit, ∀ x y, x < 4 → y < 3 → ¬Cuts g (fun c => axIn true false 4 3 c = true) (axCoord true false x y) := by
  have hs := Lawful.hexAxR m64 (isizeTy m64) evenR 4 3 (.isize (by decide) (by decide))
  obtain ⟨g, hb⟩ := hs.exists_built (by decide) (fun u _ => ((), u)) (fun u _ _ => ((), u)) ()
  obtain ⟨h1, -⟩ := c114_axial hs hb
  exact ⟨g, fun x y hx hy h => absurd ((h1 x y hx hy).1 h) (by simp)⟩
example : ∃ g : Graph Axial AxisDR AxisDR Unit Unit, ∀ x y, x < 4 → y < 3 → ¬Cuts g (fun c => axIn false false 4 3 c = true) (axCoord false false x y) := by
  have hs := Lawful.hexAxRDirected m64 (isizeTy m64) oddR 4 3 (.isize (by decide) (by decide))
  obtain ⟨g, hb⟩ := hs.exists_built (by decide) (fun u _ => ((), u)) (fun u _ _ => ((), u)) ()
  obtain ⟨h1, -⟩ := c114_axial_directed hs hb
  exact ⟨g, fun x y hx hy h => absurd ((h1 x y hx hy).1 h) (by simp)⟩
example : ∃ g : Graph Axial AxisQ AxisDQ Unit Unit, ∀ x y, x < 4 → y < 3 → ¬Cuts g (fun c => axIn false false 4 3 c = true) (axCoord false false x y) := by
  have hs := Lawful.hexAxQ m64 (isizeTy m64) oddQ 4 3 (.isize (by decide) (by decide))
  obtain ⟨g, hb⟩ := hs.exists_built (by decide) (fun u _ => ((), u)) (fun u _ _ => ((), u)) ()
  obtain ⟨h1, -⟩ := c114_axial_flat hs hb
  exact ⟨g, fun x y hx hy h => absurd ((h1 x y hx hy).1 h) (by simp)⟩
example : ∃ g : Graph Axial AxisDQ AxisDQ Unit Unit, Cuts g (fun c => axIn true false 1 3 c = true) (axCoord true false 0 1) ∧ ¬Cuts g (fun c => axIn true false 1 3 c = true) (axCoord true false 0 0) := by
  have hs := Lawful.hexAxQDirected m64 (isizeTy m64) evenQ 1 3 (.isize (by decide) (by decide))
  obtain ⟨g, hb⟩ := hs.exists_built (by decide) (fun u _ => ((), u)) (fun u _ _ => ((), u)) ()
  obtain ⟨h1, -⟩ := c114_axial_flat_directed hs hb
  exact ⟨g, (h1 0 1 (by decide) (by decide)).2 (by decide), fun h => absurd ((h1 0 0 (by decide) (by decide)).1 h) (by decide)⟩
/-- A circle of three nodes has no node and no link that cuts; one of two nodes has a link that does, both its edges taken together. -/
example : ∃ g : Graph Offset AxisR AxisDR Unit Unit, (∀ x, x < 3 → ¬Cuts g (fun c => c.horizontal < 3 ∧ c.vertical < 1) ⟨x, 0⟩) ∧
    ¬CutsLink g (fun c => c.horizontal < 3 ∧ c.vertical < 1) ⟨0, 0⟩ ⟨1, 0⟩ := by
  have hs := Lawful.hexOffRLew m64 oddR 3 1
  obtain ⟨g, hb⟩ := hs.exists_built (by decide) (fun u _ => ((), u)) (fun u _ _ => ((), u)) ()
  obtain ⟨h1, h2⟩ := c114_loop hs hb
  refine ⟨g, fun x hx h => absurd ((h1 x 0 hx (by decide)).1 h) (by decide), fun h => ?_⟩
  have hadj : Adjacent g ⟨0, 0⟩ ⟨1, 0⟩ := (adjacent_nbr hs hb ⟨0, 0, by decide, by decide, rfl⟩ _).2 ⟨.E, by decide⟩
  exact absurd ((h2 ⟨0, 0⟩ ⟨1, 0⟩ (by decide) (by decide) hadj).1 h) (by decide)
example : ∃ g : Graph Offset AxisR AxisDR Unit Unit, CutsLink g (fun c => c.horizontal < 2 ∧ c.vertical < 1) ⟨0, 0⟩ ⟨1, 0⟩ := by
  have hs := Lawful.hexOffRLew m64 oddR 2 1
  obtain ⟨g, hb⟩ := hs.exists_built (by decide) (fun u _ => ((), u)) (fun u _ _ => ((), u)) ()
  have hadj : Adjacent g ⟨0, 0⟩ ⟨1, 0⟩ := (adjacent_nbr hs hb ⟨0, 0, by decide, by decide, rfl⟩ _).2 ⟨.E, by decide⟩
  exact ⟨g, ((c114_loop hs hb).2 ⟨0, 0⟩ ⟨1, 0⟩ (by decide) (by decide) hadj).2 (by decide)⟩
/-- `astar` finds no path over the missing edge of a single column. -/
example : ∃ g : Graph Offset SquareAxis DSquareAxis Unit Unit, ∃ a b,
    AstOutcome (keptEdges g (notBetween ⟨0, 1⟩ ⟨0, 2⟩) fun _ => 1) (fun _ => 0) (fun x => decide (x = b)) a none := by
  have hs := Lawful.square m64 1 4
  obtain ⟨g, hb⟩ := hs.exists_built (by decide) (fun u _ => ((), u)) (fun u _ _ => ((), u)) ()
  have hP : (squareLat 1 4).Node = fun c => c.horizontal < 1 ∧ c.vertical < 4 := funext fun c => propext (rect_nodes_iff rfl rfl rfl c)
  have hadj : Adjacent g ⟨0, 1⟩ ⟨0, 2⟩ := (adjacent_nbr hs hb ⟨0, 1, by decide, by decide, rfl⟩ _).2 ⟨.Y, by decide⟩
  obtain ⟨a, b, -, -, h⟩ := (c114_astar hs hb ⟨0, 1⟩ ⟨0, 2⟩ (fun _ => 1) fun _ => 0).1
    (by rw [hP]; exact ((c114_square hs hb).2 ⟨0, 1⟩ ⟨0, 2⟩ (by decide) (by decide) hadj).2 (by decide))
  exact ⟨g, a, b, h⟩
end LG
