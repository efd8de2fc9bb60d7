import Verif.Lemmas.DominatorsPost
import Verif.Props.Scc
import Verif.Props.Cut
import Verif.Props.Articulation
/- C124: petgraph's `dominators::simple_fast`. -/
set_option linter.unusedSectionVars false
namespace LG
section
variable {C A D N E : Type} [DecidableEq C] [DecidableEq A] [DecidableEq D]
variable {g : Graph C A D N E} {s : Shape C A D} {L : Lat C A D} {rep : C → Prop} {k : Contents C A N E}

theorem dominating_lattice (hs : Lawful s L rep) (hb : Built s L g k) {a : C} (ha : L.Node a) :
    (∃ post d f r, PostTo g.rovable g.rovable.neighbors [a] g.rovable.visitMap g.rovable.visitMap post d f ∧ post.length = r + 1 ∧
      (∃ P, DomPreds g.rovable.neighbors post P) ∧
      ∀ P, DomPreds g.rovable.neighbors post P → ∃ dom, DomLoop P r (tset (fun _ => none) r (some r)) dom) ∧
    ∀ post dom, Dominating g.rovable a post dom → post.Nodup ∧ (∀ c, c ∈ post ↔ ∃ l, Way (Adjacent g) a l c) ∧
      ∀ c ∈ post, (∀ d, immediateDominator a post dom c = some d ↔ ImmediatelyDominates (Adjacent g) a d c) ∧
        ∃ l, (∀ l', DominatorsOf a post dom c l' ↔ l' = l) ∧ l.Nodup ∧ ∀ e, e ∈ l ↔ Dominates (Adjacent g) a e c :=
  dominating_spec (hs.searchable.roams hb) (fun {x} hx y => by
      have hx := Lat.mem_nodes.1 hx
      rw [adjacent_nbr hs hb hx, (c07_neighbors_exact hs hx y).1])
    (fun hc hy => Lat.mem_nodes.2 ((c07_neighbors_exact hs (Lat.mem_nodes.1 hc) _).2 hy)) (Lat.mem_nodes.2 ha)

/-- **C124.** `simple_fast` returns from every node of every graph, in whatever order its sets of predecessors come. -/
theorem c124_runs (hs : Lawful s L rep) (hb : Built s L g k) {a : C} (ha : L.Node a) :
    ∃ post d f r, PostTo g.rovable g.rovable.neighbors [a] g.rovable.visitMap g.rovable.visitMap post d f ∧ post.length = r + 1 ∧
      (∃ P, DomPreds g.rovable.neighbors post P) ∧
      ∀ P, DomPreds g.rovable.neighbors post P → ∃ dom, DomLoop P r (tset (fun _ => none) r (some r)) dom :=
  (dominating_lattice hs hb ha).1

/-- **C124.** `immediate_dominator` of the result is the last node before `c` that is on every way to it, and `dominators` lists all that are,
each once. -/
theorem c124_dominators (hs : Lawful s L rep) (hb : Built s L g k) {a : C} (ha : L.Node a) {post : List C} {dom : Nat → Option Nat}
    (h : Dominating g.rovable a post dom) {c : C} (hc : ∃ l, Way (Adjacent g) a l c) :
    (∀ d, immediateDominator a post dom c = some d ↔ ImmediatelyDominates (Adjacent g) a d c) ∧
      ∃ l, (∀ l', DominatorsOf a post dom c l' ↔ l' = l) ∧ l.Nodup ∧ ∀ e, e ∈ l ↔ Dominates (Adjacent g) a e c := by
  obtain ⟨-, h1, h2⟩ := (dominating_lattice hs hb ha).2 post dom h
  exact h2 c ((h1 c).2 hc)

/-- **C124.** In other words: besides the root, those without which the node cannot be reached from the root. And on the
connected shapes every node has its dominators. -/
theorem c124_separate (hs : Sound s L rep) (hb : Built s L g k) {a : C} (ha : L.Node a) {post : List C} {dom : Nat → Option Nat}
    (h : Dominating g.rovable a post dom) {c : C} (hc : L.Node c) :
    ∃ l, (∀ l', DominatorsOf a post dom c l' ↔ l' = l) ∧ l.Nodup ∧ a ∈ l ∧ c ∈ l ∧
      ∀ e, e ≠ a → (e ∈ l ↔ ¬ Ways (Around (Adjacent g) e) a c) := by
  obtain ⟨-, l, h1, h2, h3⟩ := c124_dominators hs.lawful hb ha h (ways_exists hs hb ha hc).way
  exact ⟨l, h1, h2, (h3 a).2 fun _ h => h.first, (h3 c).2 fun _ h => h.last, fun e e1 => (h3 e).trans (dominates_around e1)⟩

/-- **C124.** Where no node cuts the map, the root is the immediate dominator of every other node. -/
theorem c124_uncut (hs : Sound s L rep) (hb : Built s L g k) {a : C} (ha : L.Node a) {post : List C} {dom : Nat → Option Nat}
    (h : Dominating g.rovable a post dom) (hcut : ∀ e, L.Node e → ¬ Cuts g L.Node e) {c : C} (hc : L.Node c) (hne : c ≠ a) :
    immediateDominator a post dom c = some a := by
  obtain ⟨h1, -⟩ := c124_dominators hs.lawful hb ha h (ways_exists hs hb ha hc).way
  refine (h1 a).2 (immediately_root hne fun e e1 e2 => Classical.byContradiction fun hw => ?_)
  have he : L.Node e := by
    obtain ⟨l, hl⟩ := (ways_exists hs hb ha hc).way
    have hm := (dominates_around e1).2 hw l hl
    clear hw e2 hc hne h1
    induction hl with
    | here => exact absurd (by simpa using hm) e1
    | @step l x y hl hr ih =>
      rcases List.mem_cons.1 hm with rfl | hm
      · have : ∀ {l v}, Way (Adjacent g) a l v → L.Node v := fun {l v} hw => by
          induction hw with
          | here => exact ha
          | step _ h ih => exact adjacent_node hs.lawful hb ih h
        exact this (.step hl hr)
      · exact ih hm
  exact hcut e he ⟨a, c, ha, hc, fun e' => e1 e'.symm, fun e' => e2 e'.symm, hw⟩

/-- **C124.** So on every map of C114 that has two rows and two columns at least. -/
theorem c124_wide (hs : Sound s L rep) (hb : Built s L g k) {pos : Nat → Nat → C} {w h : Nat} {Node : C → Prop} (hn : ∀ v, L.Node v ↔ Node v)
    (hp : ∀ v, Node v ↔ ∃ x y, x < w ∧ y < h ∧ v = pos x y) (hf : FallsApart g Node pos w h) (hw : 2 ≤ w) (hh : 2 ≤ h) {a : C} (ha : Node a)
    {post : List C} {dom : Nat → Option Nat} (hd : Dominating g.rovable a post dom) {c : C} (hc : Node c) (hne : c ≠ a) :
    immediateDominator a post dom c = some a := by
  have e : L.Node = Node := funext fun v => propext (hn v)
  refine c124_uncut hs hb (e ▸ ha) hd (fun v hv => ?_) (e ▸ hc) hne
  rw [e] at hv ⊢
  obtain ⟨x, y, hx, hy, rfl⟩ := (hp v).1 hv
  rw [hf.1 x y hx hy]
  omega
end

section
variable {N E : Type} {w h : Nat} {rep : Offset → Prop}

/-- **C124.** On a square graph of two rows and two columns at least: the root. -/
theorem c124_square {s : Shape Offset SquareAxis DSquareAxis} {g : Graph Offset SquareAxis DSquareAxis N E} {k : Contents Offset SquareAxis N E}
    (hs : Sound s (squareLat w h) rep) (hb : Built s (squareLat w h) g k) (hw : 2 ≤ w) (hh : 2 ≤ h) {a : Offset}
    (ha : a.horizontal < w ∧ a.vertical < h) {post : List Offset} {dom : Nat → Option Nat} (hd : Dominating g.rovable a post dom) {c : Offset}
    (hc : c.horizontal < w ∧ c.vertical < h) (hne : c ≠ a) : immediateDominator a post dom c = some a :=
  c124_wide (Node := fun c => c.horizontal < w ∧ c.vertical < h) hs hb (fun v => rect_nodes_iff rfl rfl rfl v)
    (fun v => ⟨fun hv => ⟨v.1, v.2, hv.1, hv.2, rfl⟩, fun ⟨_, _, h1, h2, e⟩ => e ▸ ⟨h1, h2⟩⟩) (c114_square hs.lawful hb) hw hh ha hd hc hne

/-- **C124.** The same on point-top hexagons in offset coordinates. -/
theorem c124_offset {even : Bool} {s : Shape Offset AxisR AxisDR} {g : Graph Offset AxisR AxisDR N E} {k : Contents Offset AxisR N E}
    (hs : Sound s (offLatR even w h) rep) (hb : Built s (offLatR even w h) g k) (hw : 2 ≤ w) (hh : 2 ≤ h) {a : Offset}
    (ha : a.horizontal < w ∧ a.vertical < h) {post : List Offset} {dom : Nat → Option Nat} (hd : Dominating g.rovable a post dom) {c : Offset}
    (hc : c.horizontal < w ∧ c.vertical < h) (hne : c ≠ a) : immediateDominator a post dom c = some a :=
  c124_wide (Node := fun c => c.horizontal < w ∧ c.vertical < h) hs hb (fun v => rect_nodes_iff rfl rfl rfl v)
    (fun v => ⟨fun hv => ⟨v.1, v.2, hv.1, hv.2, rfl⟩, fun ⟨_, _, h1, h2, e⟩ => e ▸ ⟨h1, h2⟩⟩) (c114_offset hs.lawful hb) hw hh ha hd hc hne
end

/-- Six cells: the run, its result and the immediate dominators. -/
example : ∃ (g : Graph Offset SquareAxis DSquareAxis Unit Unit) (post : List Offset) (dom : Nat → Option Nat),
    Dominating g.rovable ⟨1, 0⟩ post dom ∧ immediateDominator ⟨1, 0⟩ post dom ⟨2, 1⟩ = some ⟨1, 0⟩ ∧
    ∃ l, DominatorsOf ⟨1, 0⟩ post dom ⟨2, 1⟩ l ∧ l.Nodup ∧ ∀ e, e ∈ l ↔ Dominates (Adjacent g) ⟨1, 0⟩ e ⟨2, 1⟩ := by
  have hs := Sound.square m64 3 2
  obtain ⟨g, hb⟩ := hs.lawful.exists_built (by decide) (fun u _ => ((), u)) (fun u _ _ => ((), u)) ()
  have ha : (squareLat 3 2).Node ⟨1, 0⟩ := ⟨1, 0, by decide, by decide, rfl⟩
  have hc : (squareLat 3 2).Node ⟨2, 1⟩ := ⟨2, 1, by decide, by decide, rfl⟩
  obtain ⟨post, d, f, r, h1, h2, ⟨P, h3⟩, h4⟩ := c124_runs hs.lawful hb ha
  obtain ⟨dom, h5⟩ := h4 P h3
  have hd : Dominating g.rovable ⟨1, 0⟩ post dom := ⟨d, f, P, r, h1, h3, h2, h5⟩
  obtain ⟨-, l, q1, q2, q3⟩ := c124_dominators hs.lawful hb ha hd (ways_exists hs hb ha hc).way
  exact ⟨g, post, dom, hd, c124_square hs hb (by decide) (by decide) ⟨by decide, by decide⟩ hd ⟨by decide, by decide⟩ (by decide), l, (q1 l).2 rfl, q2, q3⟩
/-- A single row: the cell between has to be passed. -/
example : ∃ (g : Graph Offset SquareAxis DSquareAxis Unit Unit) (post : List Offset) (dom : Nat → Option Nat) (l : List Offset),
    Dominating g.rovable ⟨0, 0⟩ post dom ∧ DominatorsOf ⟨0, 0⟩ post dom ⟨2, 0⟩ l ∧ (⟨0, 0⟩ ∈ l ∧ ⟨2, 0⟩ ∈ l) ∧
    (⟨1, 0⟩ ∈ l ↔ ¬ Ways (Around (Adjacent g) ⟨1, 0⟩) ⟨0, 0⟩ ⟨2, 0⟩) := by
  have hs := Sound.square m64 3 1
  obtain ⟨g, hb⟩ := hs.lawful.exists_built (by decide) (fun u _ => ((), u)) (fun u _ _ => ((), u)) ()
  have ha : (squareLat 3 1).Node ⟨0, 0⟩ := ⟨0, 0, by decide, by decide, rfl⟩
  have hc : (squareLat 3 1).Node ⟨2, 0⟩ := ⟨2, 0, by decide, by decide, rfl⟩
  obtain ⟨post, d, f, r, h1, h2, ⟨P, h3⟩, h4⟩ := c124_runs hs.lawful hb ha
  obtain ⟨dom, h5⟩ := h4 P h3
  have hd : Dominating g.rovable ⟨0, 0⟩ post dom := ⟨d, f, P, r, h1, h3, h2, h5⟩
  obtain ⟨l, q1, -, q3, q4, q5⟩ := c124_separate hs hb ha hd hc
  exact ⟨g, post, dom, l, hd, (q1 l).2 rfl, ⟨q3, q4⟩, q5 _ (by decide)⟩
/-- Hexagons. -/
example : ∃ (g : Graph Offset AxisR AxisDR Unit Unit) (post : List Offset) (dom : Nat → Option Nat), Dominating g.rovable ⟨0, 0⟩ post dom ∧
    immediateDominator ⟨0, 0⟩ post dom ⟨2, 1⟩ = some ⟨0, 0⟩ := by
  have hs := Sound.hexOffR m64 oddR 3 2
  obtain ⟨g, hb⟩ := hs.lawful.exists_built (by decide) (fun u _ => ((), u)) (fun u _ _ => ((), u)) ()
  have ha : (offLatR oddR.isEven 3 2).Node ⟨0, 0⟩ := ⟨0, 0, by decide, by decide, rfl⟩
  obtain ⟨post, d, f, r, h1, h2, ⟨P, h3⟩, h4⟩ := c124_runs hs.lawful hb ha
  obtain ⟨dom, h5⟩ := h4 P h3
  have hd : Dominating g.rovable ⟨0, 0⟩ post dom := ⟨d, f, P, r, h1, h3, h2, h5⟩
  exact ⟨g, post, dom, hd, c124_offset hs hb (by decide) (by decide) ⟨by decide, by decide⟩ hd ⟨by decide, by decide⟩ (by decide)⟩
/-- A row closed to a circle: no cell of it cuts. -/
example : ∃ (g : Graph Offset AxisR AxisDR Unit Unit) (post : List Offset) (dom : Nat → Option Nat), Dominating g.rovable ⟨0, 0⟩ post dom ∧
    immediateDominator ⟨0, 0⟩ post dom ⟨3, 0⟩ = some ⟨0, 0⟩ := by
  have hs := Sound.hexOffRLew m64 oddR 4 1
  obtain ⟨g, hb⟩ := hs.lawful.exists_built (by decide) (fun u _ => ((), u)) (fun u _ _ => ((), u)) ()
  have ha : (offLatRLoop oddR.isEven 4 1).Node ⟨0, 0⟩ := ⟨0, 0, by decide, by decide, rfl⟩
  have hP : (offLatRLoop oddR.isEven 4 1).Node = fun c => c.horizontal < 4 ∧ c.vertical < 1 := funext fun c => propext (rect_nodes_iff rfl rfl rfl c)
  obtain ⟨post, d, f, r, h1, h2, ⟨P, h3⟩, h4⟩ := c124_runs hs.lawful hb ha
  obtain ⟨dom, h5⟩ := h4 P h3
  have hd : Dominating g.rovable ⟨0, 0⟩ post dom := ⟨d, f, P, r, h1, h3, h2, h5⟩
  refine ⟨g, post, dom, hd, c124_uncut hs hb ha hd (fun e he hc => ?_) ⟨3, 0, by decide, by decide, rfl⟩ (by decide)⟩
  rw [hP] at he hc
  have := ((c114_loop hs.lawful hb).1 e.1 e.2 he.1 he.2).1 hc
  omega
/-- Squares, directed. -/
example : ∃ (g : Graph Offset DSquareAxis DSquareAxis Unit Unit) (post : List Offset) (dom : Nat → Option Nat),
    Dominating g.rovable ⟨0, 0⟩ post dom ∧ immediateDominator ⟨0, 0⟩ post dom ⟨3, 1⟩ = some ⟨0, 0⟩ := by
  have hs := Sound.squareDirected m64 4 2
  obtain ⟨g, hb⟩ := hs.lawful.exists_built (by decide) (fun u _ => ((), u)) (fun u _ _ => ((), u)) ()
  have ha : (squareLatDirected 4 2).Node ⟨0, 0⟩ := ⟨0, 0, by decide, by decide, rfl⟩
  obtain ⟨post, d, f, r, h1, h2, ⟨P, h3⟩, h4⟩ := c124_runs hs.lawful hb ha
  obtain ⟨dom, h5⟩ := h4 P h3
  have hd : Dominating g.rovable ⟨0, 0⟩ post dom := ⟨d, f, P, r, h1, h3, h2, h5⟩
  exact ⟨g, post, dom, hd, c124_wide (Node := fun c => c.horizontal < 4 ∧ c.vertical < 2) hs hb (fun v => rect_nodes_iff rfl rfl rfl v)
    (fun v => ⟨fun hv => ⟨v.1, v.2, hv.1, hv.2, rfl⟩, fun ⟨_, _, h1, h2, e⟩ => e ▸ ⟨h1, h2⟩⟩) (c114_square_directed hs.lawful hb) (by decide) (by decide)
    ⟨by decide, by decide⟩ hd ⟨by decide, by decide⟩ (by decide)⟩
end LG
