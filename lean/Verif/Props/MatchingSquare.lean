import Verif.Props.Matching
/- C123 on square graphs: one walk comes to every node. -/
set_option linter.unusedSectionVars false
namespace LG

/-- Where the walk is when it comes to `u`, and what it has visited: along the first row; up the last column; back along the last row; then
to and fro through what is left. -/
def SnakeAt (w h : Nat) (u : Offset) (S : Offset → Bool) : Prop :=
  u.horizontal < w ∧ u.vertical < h ∧
    ((u.vertical = 0 ∧ ∀ x y, x < w → y < h → (S ⟨x, y⟩ = true ↔ y = 0 ∧ x < u.horizontal)) ∨
    (u.horizontal + 1 = w ∧ 0 < u.vertical ∧ ∀ x y, x < w → y < h → (S ⟨x, y⟩ = true ↔ y = 0 ∨ (x + 1 = w ∧ y < u.vertical))) ∨
    (u.vertical + 1 = h ∧ 0 < u.vertical ∧ u.horizontal + 1 < w ∧
      ∀ x y, x < w → y < h → (S ⟨x, y⟩ = true ↔ y = 0 ∨ x + 1 = w ∨ (y + 1 = h ∧ u.horizontal < x))) ∨
    (0 < u.vertical ∧ u.vertical + 1 < h ∧ u.horizontal + 1 < w ∧
      ∀ x y, x < w → y < h → (S ⟨x, y⟩ = true ↔ y = 0 ∨ x + 1 = w ∨ u.vertical < y ∨ (y = u.vertical ∧ x < u.horizontal))) ∨
    (0 < u.vertical ∧ u.vertical + 1 < h ∧ u.horizontal + 1 < w ∧
      ∀ x y, x < w → y < h → (S ⟨x, y⟩ = true ↔ y = 0 ∨ x + 1 = w ∨ u.vertical < y ∨ (y = u.vertical ∧ u.horizontal < x))))

theorem mark_iff {u : Offset} {S : Offset → Bool} {x y : Nat} :
    (if (⟨x, y⟩ : Offset) = u then true else S ⟨x, y⟩) = true ↔ (x = u.horizontal ∧ y = u.vertical) ∨ S ⟨x, y⟩ = true := by
  rcases u with ⟨a, b⟩
  by_cases e : (⟨x, y⟩ : Offset) = ⟨a, b⟩
  · rw [if_pos e]
    cases e
    exact ⟨fun _ => .inl ⟨rfl, rfl⟩, fun _ => rfl⟩
  · rw [if_neg e]
    refine ⟨.inr, fun h => h.resolve_left fun ⟨e1, e2⟩ => e ?_⟩
    have e1 : x = a := e1
    have e2 : y = b := e2
    rw [e1, e2]

/-- The first of the four neighbors that fulfils `p`. -/
theorem square_find {w h : Nat} {u : Offset} {p : Offset → Bool} :
    (([.X, .Y, .RX, .RY] : List DSquareAxis).filterMap fun d => rectNbr w h u d.vec).find? p =
      if (rectNbr w h u (1, 0)).any p then rectNbr w h u (1, 0) else if (rectNbr w h u (0, 1)).any p then rectNbr w h u (0, 1)
      else if (rectNbr w h u (-1, 0)).any p then rectNbr w h u (-1, 0) else if (rectNbr w h u (0, -1)).any p then rectNbr w h u (0, -1) else none := by
  rw [List.find?_filterMap]
  simp only [List.find?_cons, DSquareAxis.vec, List.find?_nil]
  cases (rectNbr w h u (1, 0)).any p <;> cases (rectNbr w h u (0, 1)).any p <;> cases (rectNbr w h u (-1, 0)).any p <;>
    cases (rectNbr w h u (0, -1)).any p <;> rfl

theorem any_mark {w h : Nat} {u : Offset} {S : Offset → Bool} {v : Int × Int}
    (hno : ¬ (rectNbr w h u v).any (fun t => !(if t = u then true else S t)) = true) {x y : Nat} (hx : x < w) (hy : y < h)
    (ex : (x : Int) = u.horizontal + v.1) (ey : (y : Int) = u.vertical + v.2) : (x = u.horizontal ∧ y = u.vertical) ∨ S ⟨x, y⟩ = true := by
  have : rectNbr w h u v = some ⟨x, y⟩ := rectNbr_iff.2 ⟨hx, hy, ex, ey⟩
  rw [this] at hno
  refine mark_iff.1 (Classical.byContradiction fun hc => hno ?_)
  simp only [Option.any_some]
  cases hb : (if (⟨x, y⟩ : Offset) = u then true else S ⟨x, y⟩) with
  | true => exact absurd hb hc
  | false => rfl

theorem some_mark {w h : Nat} {u t : Offset} {S : Offset → Bool} {v : Int × Int} (hn : rectNbr w h u v = some t)
    (hyes : (rectNbr w h u v).any (fun t => !(if t = u then true else S t)) = true) :
    t.horizontal < w ∧ t.vertical < h ∧ (t.horizontal : Int) = u.horizontal + v.1 ∧ (t.vertical : Int) = u.vertical + v.2 ∧
      ¬ S ⟨t.horizontal, t.vertical⟩ = true := by
  obtain ⟨h1, h2, h3, h4⟩ := rectNbr_iff.1 hn
  refine ⟨h1, h2, h3, h4, fun hS => ?_⟩
  rw [hn, Option.any_some] at hyes
  have : (if t = u then true else S t) = true := by
    by_cases e : t = u
    · exact if_pos e
    · rw [if_neg e]; exact hS
  rw [this] at hyes
  cases hyes

theorem snake_step {w h : Nat} {u t : Offset} {S : Offset → Bool} (hQ : SnakeAt w h u S)
    (hf : (([.X, .Y, .RX, .RY] : List DSquareAxis).filterMap fun d => rectNbr w h u d.vec).find? (fun t => !(if t = u then true else S t)) = some t) :
    SnakeAt w h t (fun x => if x = u then true else S x) := by
  rw [square_find] at hf
  rcases u with ⟨a, b⟩
  rcases t with ⟨c, d⟩
  obtain ⟨hu1, hu2, hQ⟩ := hQ
  simp only at hu1 hu2 hQ
  unfold SnakeAt
  simp only [mark_iff]
  split at hf
  · next h1 =>
    obtain ⟨t1, t2, t3, t4, t5⟩ := some_mark hf h1
    simp only at t1 t2 t3 t4 t5
    refine ⟨t1, t2, ?_⟩
    rcases hQ with ⟨q1, q2⟩ | ⟨q1, q2, q3⟩ | ⟨q1, q2, q3, q4⟩ | ⟨q1, q2, q3, q4⟩ | ⟨q1, q2, q3, q4⟩
    · refine .inl ⟨by omega, fun x y hx hy => ?_⟩
      rw [q2 x y hx hy]; omega
    · omega
    · rw [q4 c d t1 t2] at t5; omega
    · rw [q4 c d t1 t2] at t5
      refine .inr (.inr (.inr (.inl ⟨by omega, by omega, by omega, fun x y hx hy => ?_⟩)))
      rw [q4 x y hx hy]; omega
    · rw [q4 c d t1 t2] at t5; omega
  · next h1 =>
    split at hf
    · next h2 =>
      obtain ⟨t1, t2, t3, t4, t5⟩ := some_mark hf h2
      simp only at t1 t2 t3 t4 t5
      refine ⟨t1, t2, ?_⟩
      rcases hQ with ⟨q1, q2⟩ | ⟨q1, q2, q3⟩ | ⟨q1, q2, q3, q4⟩ | ⟨q1, q2, q3, q4⟩ | ⟨q1, q2, q3, q4⟩
      · have hw : a + 1 = w := Classical.byContradiction fun hc => by
          have := any_mark h1 (x := a + 1) (y := b) (by omega) hu2 (by simp) (by simp)
          rw [q2 _ _ (by omega) hu2] at this
          simp only at this
          omega
        refine .inr (.inl ⟨by omega, by omega, fun x y hx hy => ?_⟩)
        rw [q2 x y hx hy]; omega
      · refine .inr (.inl ⟨by omega, by omega, fun x y hx hy => ?_⟩)
        rw [q3 x y hx hy]; omega
      · omega
      · rw [q4 c d t1 t2] at t5; omega
      · rw [q4 c d t1 t2] at t5; omega
    · next h2 =>
      split at hf
      · next h3 =>
        obtain ⟨t1, t2, t3, t4, t5⟩ := some_mark hf h3
        simp only at t1 t2 t3 t4 t5
        refine ⟨t1, t2, ?_⟩
        rcases hQ with ⟨q1, q2⟩ | ⟨q1, q2, q3⟩ | ⟨q1, q2, q3, q4⟩ | ⟨q1, q2, q3, q4⟩ | ⟨q1, q2, q3, q4⟩
        · rw [q2 c d t1 t2] at t5; omega
        · have hv : b + 1 = h := Classical.byContradiction fun hc => by
            have := any_mark h2 (x := a) (y := b + 1) hu1 (by omega) (by simp) (by simp)
            rw [q3 _ _ hu1 (by omega)] at this
            simp only at this
            omega
          refine .inr (.inr (.inl ⟨by omega, by omega, by omega, fun x y hx hy => ?_⟩))
          rw [q3 x y hx hy]; omega
        · refine .inr (.inr (.inl ⟨by omega, by omega, by omega, fun x y hx hy => ?_⟩))
          rw [q4 x y hx hy]; omega
        · rw [q4 c d t1 t2] at t5; omega
        · refine .inr (.inr (.inr (.inr ⟨by omega, by omega, by omega, fun x y hx hy => ?_⟩)))
          rw [q4 x y hx hy]; omega
      · next h3 =>
        split at hf
        · next h4 =>
          obtain ⟨t1, t2, t3, t4, t5⟩ := some_mark hf h4
          simp only at t1 t2 t3 t4 t5
          refine ⟨t1, t2, ?_⟩
          rcases hQ with ⟨q1, q2⟩ | ⟨q1, q2, q3⟩ | ⟨q1, q2, q3, q4⟩ | ⟨q1, q2, q3, q4⟩ | ⟨q1, q2, q3, q4⟩
          · omega
          · rw [q3 c d t1 t2] at t5; omega
          · have ha : a = 0 := Classical.byContradiction fun hc => by
              have := any_mark h3 (x := a - 1) (y := b) (by omega) hu2 (by simp only; omega) (by simp)
              rw [q4 _ _ (by omega) hu2] at this
              simp only at this
              omega
            rw [q4 c d t1 t2] at t5
            refine .inr (.inr (.inr (.inl ⟨by omega, by omega, by omega, fun x y hx hy => ?_⟩)))
            rw [q4 x y hx hy]; omega
          · have ha : a + 2 = w := Classical.byContradiction fun hc => by
              have := any_mark h1 (x := a + 1) (y := b) (by omega) hu2 (by simp) (by simp)
              rw [q4 _ _ (by omega) hu2] at this
              simp only at this
              omega
            rw [q4 c d t1 t2] at t5
            refine .inr (.inr (.inr (.inr ⟨by omega, by omega, by omega, fun x y hx hy => ?_⟩)))
            rw [q4 x y hx hy]; omega
          · have ha : a = 0 := Classical.byContradiction fun hc => by
              have := any_mark h3 (x := a - 1) (y := b) (by omega) hu2 (by simp only; omega) (by simp)
              rw [q4 _ _ (by omega) hu2] at this
              simp only at this
              omega
            rw [q4 c d t1 t2] at t5
            refine .inr (.inr (.inr (.inl ⟨by omega, by omega, by omega, fun x y hx hy => ?_⟩)))
            rw [q4 x y hx hy]; omega
        · cases hf

theorem snake_end {w h : Nat} {u : Offset} {S : Offset → Bool} (hQ : SnakeAt w h u S)
    (hf : (([.X, .Y, .RX, .RY] : List DSquareAxis).filterMap fun d => rectNbr w h u d.vec).find? (fun t => !(if t = u then true else S t)) = none)
    {c : Offset} (h1 : c.horizontal < w) (h2 : c.vertical < h) : (if c = u then true else S c) = true := by
  rcases u with ⟨a, b⟩
  rcases c with ⟨x, y⟩
  obtain ⟨hu1, hu2, hQ⟩ := hQ
  simp only at hu1 hu2 hQ h1 h2
  have hno : ∀ d : DSquareAxis, ¬ (rectNbr w h ⟨a, b⟩ d.vec).any (fun t => !(if t = ⟨a, b⟩ then true else S t)) = true := fun d hd => by
    cases ht : rectNbr w h ⟨a, b⟩ d.vec with
    | none => rw [ht] at hd; cases hd
    | some t =>
      rw [ht, Option.any_some] at hd
      exact List.find?_eq_none.1 hf t (List.mem_filterMap.2 ⟨d, by cases d <;> decide, ht⟩) hd
  have n1 := fun hx => any_mark (hno .X) (x := a + 1) (y := b) hx hu2 (by simp [DSquareAxis.vec]) (by simp [DSquareAxis.vec])
  have n2 := fun hy => any_mark (hno .Y) (x := a) (y := b + 1) hu1 hy (by simp [DSquareAxis.vec]) (by simp [DSquareAxis.vec])
  have n3 := fun hx : 0 < a => any_mark (hno .RX) (x := a - 1) (y := b) (by omega) hu2 (by simp only [DSquareAxis.vec]; omega) (by simp [DSquareAxis.vec])
  have n4 := fun hy : 0 < b => any_mark (hno .RY) (x := a) (y := b - 1) hu1 (by omega) (by simp [DSquareAxis.vec]) (by simp only [DSquareAxis.vec]; omega)
  simp only at n1 n2 n3 n4
  rw [mark_iff]
  simp only
  rcases hQ with ⟨q1, q2⟩ | ⟨q1, q2, q3⟩ | ⟨q1, q2, q3, q4⟩ | ⟨q1, q2, q3, q4⟩ | ⟨q1, q2, q3, q4⟩
  · have e1 : a + 1 = w := Classical.byContradiction fun hc => by
      have := n1 (by omega)
      rw [q2 _ _ (by omega) hu2] at this; omega
    have e2 : b + 1 = h := Classical.byContradiction fun hc => by
      have := n2 (by omega)
      rw [q2 _ _ hu1 (by omega)] at this; omega
    rw [q2 x y h1 h2]; omega
  · have e2 : b + 1 = h := Classical.byContradiction fun hc => by
      have := n2 (by omega)
      rw [q3 _ _ hu1 (by omega)] at this; omega
    have e1 : a = 0 := Classical.byContradiction fun hc => by
      have := n3 (by omega)
      rw [q3 _ _ (by omega) hu2] at this; omega
    rw [q3 x y h1 h2]; omega
  · have e1 : a = 0 := Classical.byContradiction fun hc => by
      have := n3 (by omega)
      rw [q4 _ _ (by omega) hu2] at this; omega
    have e2 : b = 1 := Classical.byContradiction fun hc => by
      have := n4 (by omega)
      rw [q4 _ _ hu1 (by omega)] at this; omega
    rw [q4 x y h1 h2]; omega
  · have e1 : a + 2 = w := Classical.byContradiction fun hc => by
      have := n1 (by omega)
      rw [q4 _ _ (by omega) hu2] at this; omega
    have e2 : b = 1 := Classical.byContradiction fun hc => by
      have := n4 (by omega)
      rw [q4 _ _ hu1 (by omega)] at this; omega
    rw [q4 x y h1 h2]; omega
  · have e1 : a = 0 := Classical.byContradiction fun hc => by
      have := n3 (by omega)
      rw [q4 _ _ (by omega) hu2] at this; omega
    have e2 : b = 1 := Classical.byContradiction fun hc => by
      have := n4 (by omega)
      rw [q4 _ _ hu1 (by omega)] at this; omega
    rw [q4 x y h1 h2]; omega

section
variable {N E : Type} {m : Machine} {h v : Nat}

theorem square_match {A : Type} [DecidableEq A] {g : Graph Offset A DSquareAxis N E} {s : Shape Offset A DSquareAxis} {L : Lat Offset A DSquareAxis}
    {rep : Offset → Prop} {k : Contents Offset A N E} (hs : Lawful s L rep) (hb : Built s L g k) (hw : L.width = h) (hh : L.height = v)
    (hc : L.coord = fun x y => ⟨x, y⟩) (hn : L.nbr = fun c d => rectNbr h v c d.vec) (hd : L.dirs = [.X, .Y, .RX, .RY])
    {mate : Nat → Option Offset} {edges : Nat} (hg : g.Greedy mate edges) : edges = h * v / 2 := by
  have hnode := rect_nodes_iff hw hh hc
  have hadj : ∀ a b, L.Node a → (b ∈ L.nbrs a ↔ Adjacent g a b) := fun a b ha => by
    rw [adjacent_nbr hs hb ha, (c07_neighbors_exact hs ha b).1]
  have hnbrs : ∀ c, L.nbrs c = ([.X, .Y, .RX, .RY] : List DSquareAxis).filterMap fun d => rectNbr h v c d.vec := fun c => by
    unfold Lat.nbrs
    rw [hd, hn]
  obtain ⟨n, us, g1, g2, g3⟩ := hg
  rw [nodeBound_eq hs hb] at g1; cases g1
  rw [Yields.unique g2 (c05_node_identifiers hs hb)] at g3
  have := gmRun_whole (hs.behaves hb) (nodes_indexed hs hb) (ix := g.toIndex) (fun u hu => (nodeIdx_spec hs hb hu).1)
    (fun a b ha h => (hadj b a ((c07_neighbors_exact hs ha b).2 h)).2 (adjacent_symm hs hb ha ((hadj a b ha).1 h)))
    (Q := SnakeAt h v) (fun u S t _ hQ hf => snake_step hQ (by rw [← hnbrs]; exact hf))
    (fun u S _ hQ hf a ha => snake_end hQ (by rw [← hnbrs]; exact hf) ((hnode a).1 ha).1 ((hnode a).1 ha).2)
    (fun a => Lat.mem_nodes) (c05_nodes_exact hs hb).1 (fun u hu => by
      have e : L.nodes.head? = some u := hu
      have hmem : L.Node u := Lat.mem_nodes.1 (List.mem_of_head? e)
      have hu0 : u = L.at 0 := by
        rw [Lat.nodes_eq] at e
        cases hq : L.width * L.height with
        | zero => rw [hq] at e; cases e
        | succ q =>
          rw [hq, List.range_succ_eq_map, List.map_cons, List.head?_cons] at e
          exact (Option.some.inj e).symm
      have hu1 : u = ⟨0, 0⟩ := by
        rw [hu0]
        unfold Lat.at
        rw [hc, Nat.zero_div, Nat.zero_mod]
      subst hu1
      exact ⟨((hnode _).1 hmem).1, ((hnode _).1 hmem).2, .inl ⟨rfl, fun x y _ _ => by simp⟩⟩) g3
  rw [this, latNodes_length, hw, hh]

/-- **C123.** On every square graph `greedy_matching` finds as many pairs as there can be: at most one node is left over. -/
theorem c123_square {g : Graph Offset SquareAxis DSquareAxis N E} {k : Contents Offset SquareAxis N E}
    (hb : Built (squareShape m h v) (squareLat h v) g k) {mate : Nat → Option Offset} {edges : Nat} (hg : g.Greedy mate edges) :
    edges = h * v / 2 := square_match (Lawful.square m h v) hb rfl rfl rfl rfl rfl hg

theorem c123_square_directed {g : Graph Offset DSquareAxis DSquareAxis N E} {k : Contents Offset DSquareAxis N E}
    (hb : Built (squareShapeDirected m h v) (squareLatDirected h v) g k) {mate : Nat → Option Offset} {edges : Nat} (hg : g.Greedy mate edges) :
    edges = h * v / 2 := square_match (Lawful.squareDirected m h v) hb rfl rfl rfl rfl rfl hg
end

/-! ### Cases -/

/-- The 3 × 2 grid: three pairs. -/
example : ∃ (g : Graph Offset SquareAxis DSquareAxis Nat Nat) (mate : Nat → Option Offset), g.Greedy mate 3 ∧ g.matchingPerfect 3 = .ok true := by
  have hs := Lawful.square m64 3 2
  obtain ⟨g, hb⟩ := exSquare
  obtain ⟨mate, edges, h1, -⟩ := c123_matching hs hb
  have h := (h1 _ _).2 ⟨rfl, rfl⟩
  have e : edges = 3 := c123_square hb h
  subst e
  refine ⟨g, mate, h, ?_⟩
  have hn : g.s.nodeCount = .ok 6 := nodeBound_eq hs hb
  unfold Graph.matchingPerfect
  rw [hn]
  rfl
example : ∃ (g : Graph Offset DSquareAxis DSquareAxis Nat Nat) (mate : Nat → Option Offset), g.Greedy mate 3 := by
  obtain ⟨g, hb⟩ := exSquareD m64 rfl
  obtain ⟨mate, edges, h1, -⟩ := c123_matching (Lawful.squareDirected m64 3 2) hb
  have h := (h1 _ _).2 ⟨rfl, rfl⟩
  have e : edges = 3 := c123_square_directed hb h
  subst e
  exact ⟨g, mate, h⟩
end LG
