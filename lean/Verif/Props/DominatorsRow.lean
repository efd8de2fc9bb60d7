import Verif.Props.Dominators
/- C124 on a single row or column. -/
set_option linter.unusedSectionVars false
namespace LG

/-- `e` is from `a` to `c`, the ends included. -/
def FromTo (a e c : Nat) : Prop := (a ≤ e ∧ e ≤ c) ∨ (c ≤ e ∧ e ≤ a)
/-- The number next to `c` on the side of `a`, `c` itself if that is `a`. -/
def nextTo (a c : Nat) : Nat := if a < c then c - 1 else if c < a then c + 1 else c

section
variable {V : Type} {adj : V → V → Prop} {pos : Nat → Nat → V} {W : Nat} {ry : Bool}

/-- Every way along a row passes all that is between. -/
theorem Gridlike.passes (hg : Gridlike adj pos W 1 false ry) {a : Nat} (ha : a < W) {l : List V} {v : V} (h : Way adj (pos a 0) l v) :
    ∃ c, c < W ∧ v = pos c 0 ∧ ∀ e, FromTo a e c → pos e 0 ∈ l := by
  induction h with
  | here => exact ⟨a, ha, rfl, fun e he => by
      have : e = a := by simp only [FromTo] at he; omega
      rw [this]; exact List.mem_cons_self⟩
  | @step l x y _ hr ih =>
    obtain ⟨c, hc, rfl, h1⟩ := ih
    obtain ⟨c', y', hc', hy', rfl⟩ := hg.closed hc (by omega) hr
    obtain rfl : y' = 0 := by omega
    have ht := hg.thinX rfl rfl hc hc' hr
    refine ⟨c', hc', rfl, fun e he => ?_⟩
    by_cases e1 : e = c'
    · rw [e1]; exact List.mem_cons_self
    · exact List.mem_cons_of_mem _ (h1 e (by simp only [FromTo] at he ⊢; omega))

/-- And there is one that passes nothing else. -/
theorem Gridlike.straight (hg : Gridlike adj pos W 1 false ry) {a c : Nat} (ha : a < W) (hc : c < W) :
    ∃ l, Way adj (pos a 0) l (pos c 0) ∧ ∀ v ∈ l, ∃ e, FromTo a e c ∧ v = pos e 0 := by
  have up : ∀ n, a + n < W → ∃ l, Way adj (pos a 0) l (pos (a + n) 0) ∧ ∀ v ∈ l, ∃ e, FromTo a e (a + n) ∧ v = pos e 0 := by
    intro n
    induction n with
    | zero => exact fun _ => ⟨_, .here, fun v hv => ⟨a, by simp only [FromTo]; omega, by simpa using hv⟩⟩
    | succ n ih =>
      intro hn
      obtain ⟨l, h1, h2⟩ := ih (by omega)
      refine ⟨_, .step h1 (hg.right (by omega) (by omega)), fun v hv => ?_⟩
      rcases List.mem_cons.1 hv with rfl | hv
      · exact ⟨_, by simp only [FromTo]; omega, rfl⟩
      · obtain ⟨e, h3, h4⟩ := h2 v hv
        exact ⟨e, by simp only [FromTo] at h3 ⊢; omega, h4⟩
  have down : ∀ n, n ≤ a → ∃ l, Way adj (pos a 0) l (pos (a - n) 0) ∧ ∀ v ∈ l, ∃ e, FromTo a e (a - n) ∧ v = pos e 0 := by
    intro n
    induction n with
    | zero => exact fun _ => ⟨_, .here, fun v hv => ⟨a, by simp only [FromTo]; omega, by simpa using hv⟩⟩
    | succ n ih =>
      intro hn
      obtain ⟨l, h1, h2⟩ := ih (by omega)
      have hr := hg.right (x := a - (n + 1)) (y := 0) (by omega) (by omega)
      have e0 : a - (n + 1) + 1 = a - n := by omega
      rw [e0] at hr
      refine ⟨_, .step h1 (hg.symm (by omega) (by omega) (by omega) (by omega) hr), fun v hv => ?_⟩
      rcases List.mem_cons.1 hv with rfl | hv
      · exact ⟨_, by simp only [FromTo]; omega, rfl⟩
      · obtain ⟨e, h3, h4⟩ := h2 v hv
        exact ⟨e, by simp only [FromTo] at h3 ⊢; omega, h4⟩
  by_cases h : a ≤ c
  · have := up (c - a) (by omega)
    rwa [show a + (c - a) = c by omega] at this
  · have := down (a - c) (by omega)
    rwa [show a - (a - c) = c by omega] at this

theorem Gridlike.dominates (hg : Gridlike adj pos W 1 false ry) {a c : Nat} (ha : a < W) (hc : c < W) (d : V) :
    Dominates adj (pos a 0) d (pos c 0) ↔ ∃ e, FromTo a e c ∧ d = pos e 0 := by
  constructor
  · intro h
    obtain ⟨l, h1, h2⟩ := hg.straight ha hc
    exact h2 d (h l h1)
  · rintro ⟨e, he, rfl⟩ l hl
    obtain ⟨c', hc', e', h1⟩ := hg.passes ha hl
    obtain ⟨rfl, -⟩ := hg.inj hc (by omega) hc' (by omega) e'
    exact h1 e he

theorem Gridlike.immediately (hg : Gridlike adj pos W 1 false ry) {a c : Nat} (ha : a < W) (hc : c < W) (hne : c ≠ a) :
    ImmediatelyDominates adj (pos a 0) (pos (nextTo a c) 0) (pos c 0) := by
  have hn : nextTo a c < W ∧ nextTo a c ≠ c ∧ FromTo a (nextTo a c) c := by simp only [nextTo, FromTo]; split <;> first | omega | (split <;> omega)
  refine ⟨fun e => hn.2.1 (hg.inj hn.1 (by omega) hc (by omega) e).1, (hg.dominates ha hc _).2 ⟨_, hn.2.2, rfl⟩, fun e he hd => ?_⟩
  obtain ⟨x, hx, rfl⟩ := (hg.dominates ha hc _).1 hd
  have hx' : x ≠ c := fun h => he (h ▸ rfl)
  refine (hg.dominates ha hn.1 _).2 ⟨x, ?_, rfl⟩
  simp only [nextTo, FromTo] at hx ⊢
  split <;> first | omega | (split <;> omega)
end

section
variable {C A D N E : Type} [DecidableEq C] [DecidableEq A] [DecidableEq D]
variable {g : Graph C A D N E} {s : Shape C A D} {L : Lat C A D} {rep : C → Prop} {k : Contents C A N E}

/-- **C124.** In a single row the immediate dominator is the next node on the side of the root, and the dominators are the nodes from the root on. -/
theorem c124_row (hs : Sound s L rep) (hb : Built s L g k) {pos : Nat → Nat → C} {w : Nat} {ry : Bool}
    (hg : Gridlike (Adjacent g) pos w 1 false ry) {a c : Nat} (ha : a < w) (hc : c < w) (hn : ∀ x, x < w → L.Node (pos x 0))
    {post : List C} {dom : Nat → Option Nat} (hd : Dominating g.rovable (pos a 0) post dom) :
    immediateDominator (pos a 0) post dom (pos c 0) = (if c = a then none else some (pos (nextTo a c) 0)) ∧
      ∃ l, (∀ l', DominatorsOf (pos a 0) post dom (pos c 0) l' ↔ l' = l) ∧ l.Nodup ∧ ∀ v, v ∈ l ↔ ∃ e, FromTo a e c ∧ v = pos e 0 := by
  obtain ⟨h1, l, h2, h3, h4⟩ := c124_dominators hs.lawful hb (hn a ha) hd (ways_exists hs hb (hn a ha) (hn c hc)).way
  refine ⟨?_, l, h2, h3, fun v => (h4 v).trans (hg.dominates ha hc v)⟩
  split
  · rename_i e
    rw [e, immediateDominator, if_pos rfl]
  · rename_i e
    exact (h1 _).2 (hg.immediately ha hc e)

/-- A single row that is not closed to a circle (`rx`), or a single column that is not (`ry`). -/
def Thin (w h : Nat) (rx ry : Bool) : Prop := (w = 1 ∧ ry = false) ∨ (h = 1 ∧ rx = false)
instance (w h : Nat) (rx ry : Bool) : Decidable (Thin w h rx ry) := inferInstanceAs (Decidable (_ ∨ _))

/-- What `simple_fast` finds on a map of `w` columns and `h` rows. On a single row or column: the next node on the side of the root, and all
from the root on. Otherwise: the root, and nothing but the root and the node itself. -/
def DominatedAs (g : Graph C A D N E) (pos : Nat → Nat → C) (w h : Nat) (rx ry : Bool) : Prop :=
  ∀ x y x' y', x < w → y < h → x' < w → y' < h → ∀ post dom, Dominating g.rovable (pos x y) post dom →
    immediateDominator (pos x y) post dom (pos x' y') = (if x' = x ∧ y' = y then none else
      if Thin w h rx ry then some (pos (nextTo x x') (nextTo y y')) else some (pos x y)) ∧
    ∃ l, (∀ l', DominatorsOf (pos x y) post dom (pos x' y') l' ↔ l' = l) ∧ l.Nodup ∧
      ∀ v, v ∈ l ↔ if Thin w h rx ry then ∃ e f, FromTo x e x' ∧ FromTo y f y' ∧ v = pos e f else v = pos x y ∨ v = pos x' y'

theorem dominated_as (hs : Sound s L rep) (hb : Built s L g k) {pos : Nat → Nat → C} {w h : Nat} {rx ry : Bool}
    (hg : Gridlike (Adjacent g) pos w h rx ry) (hp : ∀ v, L.Node v ↔ ∃ x y, x < w ∧ y < h ∧ v = pos x y) : DominatedAs g pos w h rx ry := by
  intro x y x' y' hx hy hx' hy' post dom hd
  have node : ∀ {x y}, x < w → y < h → L.Node (pos x y) := fun h1 h2 => (hp _).2 ⟨_, _, h1, h2, rfl⟩
  by_cases hh : h = 1 ∧ rx = false
  · obtain ⟨rfl, rfl⟩ := hh
    obtain rfl : y = 0 := by omega
    obtain rfl : y' = 0 := by omega
    obtain ⟨h1, l, h2, h3, h4⟩ := c124_row hs hb hg hx hx' (fun _ h => node h (by omega)) hd
    refine ⟨by simpa [nextTo, Thin] using h1, l, h2, h3, fun v => ?_⟩
    rw [h4, if_pos (.inr ⟨rfl, rfl⟩)]
    exact ⟨fun ⟨e, e1, e2⟩ => ⟨e, 0, e1, by simp [FromTo], e2⟩, fun ⟨e, f, e1, e2, e3⟩ => ⟨e, e1, by
      rw [e3, show f = 0 by simp only [FromTo] at e2; omega]⟩⟩
  by_cases hw : w = 1 ∧ ry = false
  · obtain ⟨rfl, rfl⟩ := hw
    obtain rfl : x = 0 := by omega
    obtain rfl : x' = 0 := by omega
    obtain ⟨h1, l, h2, h3, h4⟩ := c124_row hs hb hg.swap hy hy' (fun _ h => node (by omega) h) hd
    refine ⟨by simpa [nextTo, Thin] using h1, l, h2, h3, fun v => ?_⟩
    rw [h4, if_pos (.inl ⟨rfl, rfl⟩)]
    exact ⟨fun ⟨e, e1, e2⟩ => ⟨0, e, by simp [FromTo], e1, e2⟩, fun ⟨f, e, e2, e1, e3⟩ => ⟨e, e1, by
      rw [e3, show f = 0 by simp only [FromTo] at e2; omega]⟩⟩
  have hn : ¬ Thin w h rx ry := fun e => e.elim hw hh
  obtain ⟨h1, l, h2, h3, h4⟩ := c124_dominators hs.lawful hb (node hx hy) hd (ways_exists hs hb (node hx hy) (node hx' hy')).way
  have own : ∀ {a e : C}, Dominates (Adjacent g) a e a → e = a := fun h => by simpa using h _ .here
  simp only [if_neg hn]
  by_cases e0 : x' = x ∧ y' = y
  · obtain ⟨rfl, rfl⟩ := e0
    refine ⟨by rw [if_pos ⟨rfl, rfl⟩, immediateDominator, if_pos rfl], l, h2, h3, fun v => ?_⟩
    rw [h4, or_self]
    exact ⟨own, fun e _ h => e ▸ h.last⟩
  · have hne : pos x' y' ≠ pos x y := fun e => e0 (hg.inj hx' hy' hx hy e)
    have hi := c124_uncut hs hb (node hx hy) hd (fun v hv hcut => by
      obtain ⟨i, j, hi, hj, rfl⟩ := (hp v).1 hv
      rcases ((cuts_iff hg hp).1 i j hi hj).1 hcut with e | e
      · exact hw ⟨e.1, e.2.1⟩
      · exact hh ⟨e.1, e.2.1⟩) (node hx' hy') hne
    refine ⟨by rw [if_neg e0]; exact hi, l, h2, h3, fun v => ?_⟩
    obtain ⟨-, i2, i3⟩ := (h1 _).1 hi
    rw [h4]
    exact ⟨fun hv => Classical.byCases .inr fun e => .inl (own (i3 v e hv)), fun e => e.elim (fun e => e ▸ i2) fun e _ h => e ▸ h.last⟩
end

section
variable {N E : Type} {w h : Nat} {even flat : Bool} {rep : Offset → Prop} {repA : Axial → Prop}

theorem rect_pos {A D : Type} [DecidableEq A] [DecidableEq D] {L : Lat Offset A D} (hw : L.width = w) (hh : L.height = h)
    (hc : L.coord = fun x y => ⟨x, y⟩) (v : Offset) : L.Node v ↔ ∃ x y, x < w ∧ y < h ∧ v = ⟨x, y⟩ :=
  (rect_nodes_iff hw hh hc v).trans (rect_cells v)

/-- **C124.** The dominators on every square graph. -/
theorem c124_square_exact {s : Shape Offset SquareAxis DSquareAxis} {g : Graph Offset SquareAxis DSquareAxis N E} {k : Contents Offset SquareAxis N E}
    (hs : Sound s (squareLat w h) rep) (hb : Built s (squareLat w h) g k) : DominatedAs g Offset.mk w h false false :=
  dominated_as hs hb (square_gridlike hs.lawful hb rfl rfl rfl rfl) (rect_pos rfl rfl rfl)

/-- **C124.** The same, directed. -/
theorem c124_square_directed_exact {s : Shape Offset DSquareAxis DSquareAxis} {g : Graph Offset DSquareAxis DSquareAxis N E} {k : Contents Offset DSquareAxis N E}
    (hs : Sound s (squareLatDirected w h) rep) (hb : Built s (squareLatDirected w h) g k) : DominatedAs g Offset.mk w h false false :=
  dominated_as hs hb (square_gridlike hs.lawful hb rfl rfl rfl rfl) (rect_pos rfl rfl rfl)

/-- **C124.** With diagonals. -/
theorem c124_diag_exact {s : Shape Offset DiagAxis DDiagAxis} {g : Graph Offset DiagAxis DDiagAxis N E} {k : Contents Offset DiagAxis N E}
    (hs : Sound s (diagLat w h) rep) (hb : Built s (diagLat w h) g k) : DominatedAs g Offset.mk w h false false :=
  dominated_as hs hb (diag_gridlike hs.lawful hb rfl rfl rfl rfl) (rect_pos rfl rfl rfl)

/-- **C124.** The same, directed. -/
theorem c124_diag_directed_exact {s : Shape Offset DDiagAxis DDiagAxis} {g : Graph Offset DDiagAxis DDiagAxis N E} {k : Contents Offset DDiagAxis N E}
    (hs : Sound s (diagLatDirected w h) rep) (hb : Built s (diagLatDirected w h) g k) : DominatedAs g Offset.mk w h false false :=
  dominated_as hs hb (diag_gridlike hs.lawful hb rfl rfl rfl rfl) (rect_pos rfl rfl rfl)

/-- **C124.** Point-top hexagons in offset coordinates. -/
theorem c124_offset_exact {s : Shape Offset AxisR AxisDR} {g : Graph Offset AxisR AxisDR N E} {k : Contents Offset AxisR N E}
    (hs : Sound s (offLatR even w h) rep) (hb : Built s (offLatR even w h) g k) : DominatedAs g Offset.mk w h false false :=
  dominated_as hs hb (off_gridlike hs.lawful hb rfl rfl rfl rfl) (rect_pos rfl rfl rfl)

/-- **C124.** The same, directed. -/
theorem c124_offset_directed_exact {s : Shape Offset AxisDR AxisDR} {g : Graph Offset AxisDR AxisDR N E} {k : Contents Offset AxisDR N E}
    (hs : Sound s (offLatDR even w h) rep) (hb : Built s (offLatDR even w h) g k) : DominatedAs g Offset.mk w h false false :=
  dominated_as hs hb (off_gridlike hs.lawful hb rfl rfl rfl rfl) (rect_pos rfl rfl rfl)

/-- **C124.** Hexagons in axial coordinates. -/
theorem c124_axial_exact {s : Shape Axial AxisR AxisDR} {g : Graph Axial AxisR AxisDR N E} {k : Contents Axial AxisR N E}
    (hs : Sound s (axLatR even flat w h) repA) (hb : Built s (axLatR even flat w h) g k) : DominatedAs g (axCoord even flat) w h false false :=
  dominated_as hs hb (ax_gridlike hs.lawful hb rfl rfl rfl rfl axStep_DR) (fun _ => .rfl)

/-- **C124.** The same, directed. -/
theorem c124_axial_directed_exact {s : Shape Axial AxisDR AxisDR} {g : Graph Axial AxisDR AxisDR N E} {k : Contents Axial AxisDR N E}
    (hs : Sound s (axLatDR even flat w h) repA) (hb : Built s (axLatDR even flat w h) g k) : DominatedAs g (axCoord even flat) w h false false :=
  dominated_as hs hb (ax_gridlike hs.lawful hb rfl rfl rfl rfl axStep_DR) (fun _ => .rfl)

/-- **C124.** Flat-top axes. -/
theorem c124_axial_flat_exact {s : Shape Axial AxisQ AxisDQ} {g : Graph Axial AxisQ AxisDQ N E} {k : Contents Axial AxisQ N E}
    (hs : Sound s (axLatQ even flat w h) repA) (hb : Built s (axLatQ even flat w h) g k) : DominatedAs g (axCoord even flat) w h false false :=
  dominated_as hs hb (ax_gridlike hs.lawful hb rfl rfl rfl rfl axStep_DQ) (fun _ => .rfl)

/-- **C124.** The same, directed. -/
theorem c124_axial_flat_directed_exact {s : Shape Axial AxisDQ AxisDQ} {g : Graph Axial AxisDQ AxisDQ N E} {k : Contents Axial AxisDQ N E}
    (hs : Sound s (axLatDQ even flat w h) repA) (hb : Built s (axLatDQ even flat w h) g k) : DominatedAs g (axCoord even flat) w h false false :=
  dominated_as hs hb (ax_gridlike hs.lawful hb rfl rfl rfl rfl axStep_DQ) (fun _ => .rfl)

/-- **C124.** With `LoopEW` the rows are circles, so only a single column is passed in order. -/
theorem c124_loop_exact {s : Shape Offset AxisR AxisDR} {g : Graph Offset AxisR AxisDR N E} {k : Contents Offset AxisR N E}
    (hs : Sound s (offLatRLoop even w h) rep) (hb : Built s (offLatRLoop even w h) g k) : DominatedAs g Offset.mk w h true false :=
  dominated_as hs hb (loop_gridlike hs.lawful hb) (rect_pos rfl rfl rfl)
end

/-- A row of five: from the fourth cell, the first is reached past the second. -/
example : ∃ (g : Graph Offset SquareAxis DSquareAxis Unit Unit) (post : List Offset) (dom : Nat → Option Nat) (l : List Offset),
    Dominating g.rovable ⟨3, 0⟩ post dom ∧ immediateDominator ⟨3, 0⟩ post dom ⟨0, 0⟩ = some ⟨1, 0⟩ ∧
    DominatorsOf ⟨3, 0⟩ post dom ⟨0, 0⟩ l ∧ ⟨2, 0⟩ ∈ l ∧ ⟨4, 0⟩ ∉ l := by
  have hs := Sound.square m64 5 1
  obtain ⟨g, hb⟩ := hs.lawful.exists_built (by decide) (fun u _ => ((), u)) (fun u _ _ => ((), u)) ()
  obtain ⟨post, d, f, r, h1, h2, ⟨P, h3⟩, h4⟩ := c124_runs hs.lawful hb (a := ⟨3, 0⟩) ⟨3, 0, by decide, by decide, rfl⟩
  obtain ⟨dom, h5⟩ := h4 P h3
  have hd : Dominating g.rovable ⟨3, 0⟩ post dom := ⟨d, f, P, r, h1, h3, h2, h5⟩
  obtain ⟨q1, l, q2, -, q3⟩ := c124_square_exact hs hb 3 0 0 0 (by decide) (by decide) (by decide) (by decide) post dom hd
  refine ⟨g, post, dom, l, hd, q1, (q2 l).2 rfl, (q3 _).2 ?_, fun h => ?_⟩
  · rw [if_pos (by decide)]; exact ⟨2, 0, by simp only [FromTo]; omega, by simp only [FromTo]; omega, rfl⟩
  · have h := (q3 _).1 h
    rw [if_pos (by decide)] at h
    obtain ⟨e, f, e1, -, e3⟩ := h
    cases e3
    simp only [FromTo] at e1
    omega
/-- Squares, directed: a column. -/
example : ∃ (g : Graph Offset DSquareAxis DSquareAxis Unit Unit) (post : List Offset) (dom : Nat → Option Nat),
    Dominating g.rovable ⟨0, 0⟩ post dom ∧ immediateDominator ⟨0, 0⟩ post dom ⟨0, 3⟩ = some ⟨0, 2⟩ := by
  have hs := Sound.squareDirected m64 1 4
  obtain ⟨g, hb⟩ := hs.lawful.exists_built (by decide) (fun u _ => ((), u)) (fun u _ _ => ((), u)) ()
  obtain ⟨post, d, f, r, h1, h2, ⟨P, h3⟩, h4⟩ := c124_runs hs.lawful hb (a := ⟨0, 0⟩) ⟨0, 0, by decide, by decide, rfl⟩
  obtain ⟨dom, h5⟩ := h4 P h3
  have hd : Dominating g.rovable ⟨0, 0⟩ post dom := ⟨d, f, P, r, h1, h3, h2, h5⟩
  exact ⟨g, post, dom, hd, (c124_square_directed_exact hs hb 0 0 0 3 (by decide) (by decide) (by decide) (by decide) post dom hd).1⟩
/-- Diagonals: a row. -/
example : ∃ (g : Graph Offset DiagAxis DDiagAxis Unit Unit) (post : List Offset) (dom : Nat → Option Nat),
    Dominating g.rovable ⟨0, 0⟩ post dom ∧ immediateDominator ⟨0, 0⟩ post dom ⟨3, 0⟩ = some ⟨2, 0⟩ := by
  have hs := Sound.diag m64 4 1
  obtain ⟨g, hb⟩ := hs.lawful.exists_built (by decide) (fun u _ => ((), u)) (fun u _ _ => ((), u)) ()
  obtain ⟨post, d, f, r, h1, h2, ⟨P, h3⟩, h4⟩ := c124_runs hs.lawful hb (a := ⟨0, 0⟩) ⟨0, 0, by decide, by decide, rfl⟩
  obtain ⟨dom, h5⟩ := h4 P h3
  have hd : Dominating g.rovable ⟨0, 0⟩ post dom := ⟨d, f, P, r, h1, h3, h2, h5⟩
  exact ⟨g, post, dom, hd, (c124_diag_exact hs hb 0 0 3 0 (by decide) (by decide) (by decide) (by decide) post dom hd).1⟩
/-- Directed. -/
example : ∃ (g : Graph Offset DDiagAxis DDiagAxis Unit Unit) (post : List Offset) (dom : Nat → Option Nat),
    Dominating g.rovable ⟨0, 0⟩ post dom ∧ immediateDominator ⟨0, 0⟩ post dom ⟨2, 1⟩ = some ⟨0, 0⟩ := by
  have hs := Sound.diagDirected m64 3 2
  obtain ⟨g, hb⟩ := hs.lawful.exists_built (by decide) (fun u _ => ((), u)) (fun u _ _ => ((), u)) ()
  obtain ⟨post, d, f, r, h1, h2, ⟨P, h3⟩, h4⟩ := c124_runs hs.lawful hb (a := ⟨0, 0⟩) ⟨0, 0, by decide, by decide, rfl⟩
  obtain ⟨dom, h5⟩ := h4 P h3
  have hd : Dominating g.rovable ⟨0, 0⟩ post dom := ⟨d, f, P, r, h1, h3, h2, h5⟩
  exact ⟨g, post, dom, hd, (c124_diag_directed_exact hs hb 0 0 2 1 (by decide) (by decide) (by decide) (by decide) post dom hd).1⟩
/-- Hexagons: a column. -/
example : ∃ (g : Graph Offset AxisR AxisDR Unit Unit) (post : List Offset) (dom : Nat → Option Nat),
    Dominating g.rovable ⟨0, 3⟩ post dom ∧ immediateDominator ⟨0, 3⟩ post dom ⟨0, 0⟩ = some ⟨0, 1⟩ := by
  have hs := Sound.hexOffR m64 oddR 1 4
  obtain ⟨g, hb⟩ := hs.lawful.exists_built (by decide) (fun u _ => ((), u)) (fun u _ _ => ((), u)) ()
  obtain ⟨post, d, f, r, h1, h2, ⟨P, h3⟩, h4⟩ := c124_runs hs.lawful hb (a := ⟨0, 3⟩) ⟨0, 3, by decide, by decide, rfl⟩
  obtain ⟨dom, h5⟩ := h4 P h3
  have hd : Dominating g.rovable ⟨0, 3⟩ post dom := ⟨d, f, P, r, h1, h3, h2, h5⟩
  exact ⟨g, post, dom, hd, (c124_offset_exact hs hb 0 3 0 0 (by decide) (by decide) (by decide) (by decide) post dom hd).1⟩
/-- Directed. -/
example : ∃ (g : Graph Offset AxisDR AxisDR Unit Unit) (post : List Offset) (dom : Nat → Option Nat),
    Dominating g.rovable ⟨0, 0⟩ post dom ∧ immediateDominator ⟨0, 0⟩ post dom ⟨2, 0⟩ = some ⟨1, 0⟩ := by
  have hs := Sound.hexOffRDirected m64 oddR 4 1
  obtain ⟨g, hb⟩ := hs.lawful.exists_built (by decide) (fun u _ => ((), u)) (fun u _ _ => ((), u)) ()
  obtain ⟨post, d, f, r, h1, h2, ⟨P, h3⟩, h4⟩ := c124_runs hs.lawful hb (a := ⟨0, 0⟩) ⟨0, 0, by decide, by decide, rfl⟩
  obtain ⟨dom, h5⟩ := h4 P h3
  have hd : Dominating g.rovable ⟨0, 0⟩ post dom := ⟨d, f, P, r, h1, h3, h2, h5⟩
  exact ⟨g, post, dom, hd, (c124_offset_directed_exact hs hb 0 0 2 0 (by decide) (by decide) (by decide) (by decide) post dom hd).1⟩
/-- A column of circles. -/
example : ∃ (g : Graph Offset AxisR AxisDR Unit Unit) (post : List Offset) (dom : Nat → Option Nat),
    Dominating g.rovable ⟨0, 0⟩ post dom ∧ immediateDominator ⟨0, 0⟩ post dom ⟨0, 3⟩ = some ⟨0, 2⟩ := by
  have hs := Sound.hexOffRLew m64 oddR 1 4
  obtain ⟨g, hb⟩ := hs.lawful.exists_built (by decide) (fun u _ => ((), u)) (fun u _ _ => ((), u)) ()
  obtain ⟨post, d, f, r, h1, h2, ⟨P, h3⟩, h4⟩ := c124_runs hs.lawful hb (a := ⟨0, 0⟩) ⟨0, 0, by decide, by decide, rfl⟩
  obtain ⟨dom, h5⟩ := h4 P h3
  have hd : Dominating g.rovable ⟨0, 0⟩ post dom := ⟨d, f, P, r, h1, h3, h2, h5⟩
  exact ⟨g, post, dom, hd, (c124_loop_exact hs hb 0 0 0 3 (by decide) (by decide) (by decide) (by decide) post dom hd).1⟩
/-- Axial coordinates: a column, root and result named by their places. -/
example : ∃ (g : Graph Axial AxisR AxisDR Unit Unit) (post : List Axial) (dom : Nat → Option Nat),
    Dominating g.rovable (axCoord oddR.isEven oddR.isFlatTop 0 0) post dom ∧
    immediateDominator (axCoord oddR.isEven oddR.isFlatTop 0 0) post dom (axCoord oddR.isEven oddR.isFlatTop 0 3) = some (axCoord oddR.isEven oddR.isFlatTop 0 2) := by
  have hs := Sound.hexAxR m64 (isizeTy m64) oddR 1 4 (.isize (by decide) (by decide))
  obtain ⟨g, hb⟩ := hs.lawful.exists_built (by decide) (fun u _ => ((), u)) (fun u _ _ => ((), u)) ()
  obtain ⟨post, d, f, r, h1, h2, ⟨P, h3⟩, h4⟩ := c124_runs hs.lawful hb (a := axCoord oddR.isEven oddR.isFlatTop 0 0) ⟨0, 0, by decide, by decide, rfl⟩
  obtain ⟨dom, h5⟩ := h4 P h3
  have hd : Dominating g.rovable _ post dom := ⟨d, f, P, r, h1, h3, h2, h5⟩
  exact ⟨g, post, dom, hd, (c124_axial_exact hs hb 0 0 0 3 (by decide) (by decide) (by decide) (by decide) post dom hd).1⟩
/-- Directed: a row. -/
example : ∃ (g : Graph Axial AxisDR AxisDR Unit Unit) (post : List Axial) (dom : Nat → Option Nat),
    Dominating g.rovable (axCoord oddR.isEven oddR.isFlatTop 3 0) post dom ∧
    immediateDominator (axCoord oddR.isEven oddR.isFlatTop 3 0) post dom (axCoord oddR.isEven oddR.isFlatTop 0 0) = some (axCoord oddR.isEven oddR.isFlatTop 1 0) := by
  have hs := Sound.hexAxRDirected m64 (isizeTy m64) oddR 4 1 (.isize (by decide) (by decide))
  obtain ⟨g, hb⟩ := hs.lawful.exists_built (by decide) (fun u _ => ((), u)) (fun u _ _ => ((), u)) ()
  obtain ⟨post, d, f, r, h1, h2, ⟨P, h3⟩, h4⟩ := c124_runs hs.lawful hb (a := axCoord oddR.isEven oddR.isFlatTop 3 0) ⟨3, 0, by decide, by decide, rfl⟩
  obtain ⟨dom, h5⟩ := h4 P h3
  have hd : Dominating g.rovable _ post dom := ⟨d, f, P, r, h1, h3, h2, h5⟩
  exact ⟨g, post, dom, hd, (c124_axial_directed_exact hs hb 3 0 0 0 (by decide) (by decide) (by decide) (by decide) post dom hd).1⟩
/-- Flat-top: two rows. -/
example : ∃ (g : Graph Axial AxisQ AxisDQ Unit Unit) (post : List Axial) (dom : Nat → Option Nat),
    Dominating g.rovable (axCoord oddQ.isEven oddQ.isFlatTop 0 0) post dom ∧
    immediateDominator (axCoord oddQ.isEven oddQ.isFlatTop 0 0) post dom (axCoord oddQ.isEven oddQ.isFlatTop 2 1) = some (axCoord oddQ.isEven oddQ.isFlatTop 0 0) := by
  have hs := Sound.hexAxQ m64 (isizeTy m64) oddQ 3 2 (.isize (by decide) (by decide))
  obtain ⟨g, hb⟩ := hs.lawful.exists_built (by decide) (fun u _ => ((), u)) (fun u _ _ => ((), u)) ()
  obtain ⟨post, d, f, r, h1, h2, ⟨P, h3⟩, h4⟩ := c124_runs hs.lawful hb (a := axCoord oddQ.isEven oddQ.isFlatTop 0 0) ⟨0, 0, by decide, by decide, rfl⟩
  obtain ⟨dom, h5⟩ := h4 P h3
  have hd : Dominating g.rovable _ post dom := ⟨d, f, P, r, h1, h3, h2, h5⟩
  exact ⟨g, post, dom, hd, (c124_axial_flat_exact hs hb 0 0 2 1 (by decide) (by decide) (by decide) (by decide) post dom hd).1⟩
/-- Flat-top, directed: a column. -/
example : ∃ (g : Graph Axial AxisDQ AxisDQ Unit Unit) (post : List Axial) (dom : Nat → Option Nat),
    Dominating g.rovable (axCoord oddQ.isEven oddQ.isFlatTop 0 0) post dom ∧
    immediateDominator (axCoord oddQ.isEven oddQ.isFlatTop 0 0) post dom (axCoord oddQ.isEven oddQ.isFlatTop 0 3) = some (axCoord oddQ.isEven oddQ.isFlatTop 0 2) := by
  have hs := Sound.hexAxQDirected m64 (isizeTy m64) oddQ 1 4 (.isize (by decide) (by decide))
  obtain ⟨g, hb⟩ := hs.lawful.exists_built (by decide) (fun u _ => ((), u)) (fun u _ _ => ((), u)) ()
  obtain ⟨post, d, f, r, h1, h2, ⟨P, h3⟩, h4⟩ := c124_runs hs.lawful hb (a := axCoord oddQ.isEven oddQ.isFlatTop 0 0) ⟨0, 0, by decide, by decide, rfl⟩
  obtain ⟨dom, h5⟩ := h4 P h3
  have hd : Dominating g.rovable _ post dom := ⟨d, f, P, r, h1, h3, h2, h5⟩
  exact ⟨g, post, dom, hd, (c124_axial_flat_directed_exact hs hb 0 0 0 3 (by decide) (by decide) (by decide) (by decide) post dom hd).1⟩
/-- Any row: four squares, seen from the second. -/
example : ∃ (g : Graph Offset SquareAxis DSquareAxis Unit Unit) (post : List Offset) (dom : Nat → Option Nat),
    Dominating g.rovable ⟨1, 0⟩ post dom ∧ immediateDominator ⟨1, 0⟩ post dom ⟨3, 0⟩ = some ⟨2, 0⟩ := by
  have hs := Sound.square m64 4 1
  obtain ⟨g, hb⟩ := hs.lawful.exists_built (by decide) (fun u _ => ((), u)) (fun u _ _ => ((), u)) ()
  obtain ⟨post, d, f, r, h1, h2, ⟨P, h3⟩, h4⟩ := c124_runs hs.lawful hb (a := ⟨1, 0⟩) ⟨1, 0, by decide, by decide, rfl⟩
  obtain ⟨dom, h5⟩ := h4 P h3
  have hd : Dominating g.rovable ⟨1, 0⟩ post dom := ⟨d, f, P, r, h1, h3, h2, h5⟩
  exact ⟨g, post, dom, hd, (c124_row hs hb (square_gridlike hs.lawful hb rfl rfl rfl rfl) (a := 1) (c := 3) (by decide) (by decide)
    (fun x hx => ⟨x, 0, hx, by decide, rfl⟩) hd).1⟩
end LG
