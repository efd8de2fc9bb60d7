import Verif.Props.Edges
/- C40, C41: reachability, and searches staying inside the graph. -/
set_option linter.unusedSectionVars false
namespace LG

/-! ### C40 -/
section
variable {C A D N E : Type} [DecidableEq C] [DecidableEq A] [DecidableEq D]
variable {g : Graph C A D N E} {s : Shape C A D} {L : Lat C A D} {rep : C → Prop} {k : Contents C A N E}

/-- `b` is reached from `a` by `n` steps, each to an item of the list `neighbors` yields. -/
inductive Walk (s : Shape C A D) (a : C) : Nat → C → Prop where
  | nil : Walk s a 0 a
  | step {n : Nat} {b c : C} {l : List C} :
    Walk s a n b → Yields (neighborsNext s b) 0 l → c ∈ l → Walk s a (n + 1) c

/-- The cell to the right and the cell above are neighbours. -/
structure Steps (L : Lat C A D) : Prop where
  right : ∀ {x y}, x + 1 < L.width → y < L.height → ∃ d, L.nbr (L.coord x y) d = some (L.coord (x + 1) y)
  up : ∀ {x y}, x < L.width → y + 1 < L.height → ∃ d, L.nbr (L.coord x y) d = some (L.coord x (y + 1))

theorem rectNbr_right {w h x y : Nat} (hx : x + 1 < w) (hy : y < h) : rectNbr w h ⟨x, y⟩ (1, 0) = some ⟨x + 1, y⟩ := by
  unfold rectNbr inRect
  rw [if_pos (by simp only; omega)]
  simp only [Option.some.injEq, Offset.mk.injEq]
  omega

theorem rectNbr_up {w h x y : Nat} (hx : x < w) (hy : y + 1 < h) : rectNbr w h ⟨x, y⟩ (0, 1) = some ⟨x, y + 1⟩ := by
  unfold rectNbr inRect
  rw [if_pos (by simp only; omega)]
  simp only [Option.some.injEq, Offset.mk.injEq]
  omega

theorem offNbr_right {even : Bool} {w h x y : Nat} (hx : x + 1 < w) (hy : y < h) :
    offNbr even w h ⟨x, y⟩ .E = some ⟨x + 1, y⟩ := by
  rw [offNbr_iff]
  simp only [offPos, AxisDR.vec]
  omega

theorem offNbr_up {even : Bool} {w h x y : Nat} (hx : x < w) (hy : y + 1 < h) :
    ∃ d, offNbr even w h ⟨x, y⟩ d = some ⟨x, y + 1⟩ := by
  simp only [offNbr_iff, offPos, rowShift]
  by_cases h1 : (if even then 1 - (y : Int) % 2 else (y : Int) % 2) = 0
  · refine ⟨.NE, hx, hy, ?_⟩
    simp only [AxisDR.vec]
    cases even <;> simp only [Bool.false_eq_true, ite_false, ite_true] at * <;> omega
  · refine ⟨.NW, hx, hy, ?_⟩
    simp only [AxisDR.vec]
    cases even <;> simp only [Bool.false_eq_true, ite_false, ite_true] at * <;> omega

theorem offNbrLoop_of {even : Bool} {w h : Nat} {c t : Offset} {d : AxisDR} (hn : offNbr even w h c d = some t) :
    offNbrLoop even w h c d = some t := by
  rw [offNbr_iff] at hn
  rw [offNbrLoop_iff]
  exact ⟨hn.1, hn.2.1, ⟨0, by omega⟩, hn.2.2.2⟩

theorem axNbr_right {even flat : Bool} {w h x y : Nat} (hx : x + 1 < w) (hy : y < h) :
    axNbr even flat w h (axCoord even flat x y) (1, 0) = some (axCoord even flat (x + 1) y) ∨
    axNbr even flat w h (axCoord even flat x y) (1, -1) = some (axCoord even flat (x + 1) y) := by
  have h1 : axIn even flat w h (axCoord even flat (x + 1) y) = true := axIn_iff.2 ⟨_, _, hx, hy, rfl⟩
  simp only [axNbr_some, h1, true_and]
  cases flat
  · left
    simp only [axCoord, Bool.false_eq_true, ite_false, Axial.mk.injEq]
    omega
  · simp only [axCoord, ite_true, Axial.mk.injEq, axShift]
    cases even <;> simp only [Bool.false_eq_true, ite_false, ite_true] <;> omega

theorem axNbr_up {even flat : Bool} {w h x y : Nat} (hx : x < w) (hy : y + 1 < h) :
    axNbr even flat w h (axCoord even flat x y) (0, 1) = some (axCoord even flat x (y + 1)) ∨
    axNbr even flat w h (axCoord even flat x y) (-1, 1) = some (axCoord even flat x (y + 1)) := by
  have h1 : axIn even flat w h (axCoord even flat x (y + 1)) = true := axIn_iff.2 ⟨_, _, hx, hy, rfl⟩
  simp only [axNbr_some, h1, true_and]
  cases flat
  · simp only [axCoord, Bool.false_eq_true, ite_false, Axial.mk.injEq, axShift]
    cases even <;> simp only [Bool.false_eq_true, ite_false, ite_true] <;> omega
  · left
    simp only [axCoord, ite_true, Axial.mk.injEq]
    omega

theorem Sound.steps {C A D : Type} {s : Shape C A D} {L : Lat C A D} {rep : C → Prop} (h : Sound s L rep) : Steps L := by
  induction h with
  | square m h v => exact ⟨fun hx hy => ⟨.X, rectNbr_right hx hy⟩, fun hx hy => ⟨.Y, rectNbr_up hx hy⟩⟩
  | squareDirected m h v => exact ⟨fun hx hy => ⟨.X, rectNbr_right hx hy⟩, fun hx hy => ⟨.Y, rectNbr_up hx hy⟩⟩
  | diag m h v => exact ⟨fun hx hy => ⟨.E, rectNbr_right hx hy⟩, fun hx hy => ⟨.N, rectNbr_up hx hy⟩⟩
  | diagDirected m h v => exact ⟨fun hx hy => ⟨.E, rectNbr_right hx hy⟩, fun hx hy => ⟨.N, rectNbr_up hx hy⟩⟩
  | hexOffR m k h v => exact ⟨fun hx hy => ⟨.E, offNbr_right hx hy⟩, fun hx hy => offNbr_up hx hy⟩
  | hexOffRDirected m k h v => exact ⟨fun hx hy => ⟨.E, offNbr_right hx hy⟩, fun hx hy => offNbr_up hx hy⟩
  | hexOffRLew m k h v =>
    exact ⟨fun hx hy => ⟨.E, offNbrLoop_of (offNbr_right hx hy)⟩,
      fun hx hy => (offNbr_up hx hy).imp fun _ h => offNbrLoop_of h⟩
  | hexAxR m t k h v ht =>
    exact ⟨fun hx hy => (axNbr_right hx hy).elim (fun h => ⟨.E, h⟩) (fun h => ⟨.SE, h⟩),
      fun hx hy => (axNbr_up hx hy).elim (fun h => ⟨.NE, h⟩) (fun h => ⟨.NW, h⟩)⟩
  | hexAxRDirected m t k h v ht =>
    exact ⟨fun hx hy => (axNbr_right hx hy).elim (fun h => ⟨.E, h⟩) (fun h => ⟨.SE, h⟩),
      fun hx hy => (axNbr_up hx hy).elim (fun h => ⟨.NE, h⟩) (fun h => ⟨.NW, h⟩)⟩
  | hexAxQ m t k h v ht =>
    exact ⟨fun hx hy => (axNbr_right hx hy).elim (fun h => ⟨.NE, h⟩) (fun h => ⟨.SE, h⟩),
      fun hx hy => (axNbr_up hx hy).elim (fun h => ⟨.N, h⟩) (fun h => ⟨.NW, h⟩)⟩
  | hexAxQDirected m t k h v ht =>
    exact ⟨fun hx hy => (axNbr_right hx hy).elim (fun h => ⟨.NE, h⟩) (fun h => ⟨.SE, h⟩),
      fun hx hy => (axNbr_up hx hy).elim (fun h => ⟨.N, h⟩) (fun h => ⟨.NW, h⟩)⟩
  | byRef _ ih => exact ⟨ih.right, ih.up⟩

/-- Walks in the lattice. -/
inductive Path (L : Lat C A D) (a : C) : Nat → C → Prop where
  | nil : Path L a 0 a
  | step {n : Nat} {b c : C} {d : D} : Path L a n b → L.nbr b d = some c → Path L a (n + 1) c

omit [DecidableEq C] [DecidableEq A] [DecidableEq D] in
theorem Path.trans {n m : Nat} {a b c : C} (h : Path L a n b) (h' : Path L b m c) : Path L a (n + m) c := by
  induction h' with
  | nil => exact h
  | step _ hd ih => exact .step ih hd

theorem Path.node (hl : LatLaws L) {n : Nat} {a b : C} (ha : L.Node a) (h : Path L a n b) : L.Node b := by
  induction h with
  | nil => exact ha
  | step _ hd ih => exact hl.nbr_node ih hd

theorem Path.symm (hl : LatLaws L) {n : Nat} {a b : C} (ha : L.Node a) (h : Path L a n b) : Path L b n a := by
  induction h with
  | nil => exact .nil
  | @step n b c d hp hd ih =>
    have h1 : Path L c 1 b := .step .nil (hl.nbr_opp (hp.node hl ha) hd)
    have := h1.trans ih
    rwa [Nat.add_comm] at this

theorem Steps.row (hst : Steps L) {y : Nat} (hy : y < L.height) : ∀ {x : Nat}, x < L.width →
    Path L (L.coord 0 y) x (L.coord x y)
  | 0, _ => .nil
  | _ + 1, hx => (hst.right hx hy).elim fun _ hd => .step (hst.row hy (by omega)) hd

theorem Steps.col (hst : Steps L) (hw : 0 < L.width) : ∀ {y : Nat}, y < L.height →
    Path L (L.coord 0 0) y (L.coord 0 y)
  | 0, _ => .nil
  | _ + 1, hy => (hst.up hw hy).elim fun _ hd => .step (hst.col hw (by omega)) hd

theorem Steps.origin (hst : Steps L) {x y : Nat} (hx : x < L.width) (hy : y < L.height) :
    Path L (L.coord 0 0) (y + x) (L.coord x y) :=
  (hst.col (by omega) hy).trans (hst.row hy hx)

theorem Path.walk (hs : Lawful s L rep) (hb : Built s L g k) {n : Nat} {a b : C} (ha : L.Node a) (h : Path L a n b) :
    Walk g.s a n b := by
  induction h with
  | nil => exact .nil
  | @step n b c d hp hd ih =>
    refine .step ih (c07_neighbors hs hb (hp.node hs.laws ha)) ?_
    exact List.mem_filterMap.2 ⟨d, hs.laws.dir.dirs_mem d, hd⟩

theorem Walk.path (hs : Lawful s L rep) (hb : Built s L g k) {n : Nat} {a b : C} (ha : L.Node a) (h : Walk g.s a n b) :
    Path L a n b := by
  induction h with
  | nil => exact .nil
  | @step n b c l hw hl hc ih =>
    rw [hl.unique (c07_neighbors hs hb (ih.node hs.laws ha))] at hc
    obtain ⟨d, -, hd⟩ := List.mem_filterMap.1 hc
    exact .step ih hd

/-- **C40.** Every node can be reached from every node by repeatedly taking an item of `neighbors`; at most
`2 * (width + height)` steps are enough. -/
theorem c40_connected (hs : Sound s L rep) (hb : Built s L g k) {a b : C} (ha : L.Node a) (hb' : L.Node b) :
    ∃ n, n ≤ 2 * (L.width + L.height) ∧ Walk g.s a n b := by
  obtain ⟨x, y, hx, hy, rfl⟩ := id ha
  obtain ⟨x', y', hx', hy', rfl⟩ := hb'
  have h0 : L.Node (L.coord 0 0) := ⟨0, 0, by omega, by omega, rfl⟩
  have h1 := (hs.steps.origin hx hy).symm hs.laws h0
  exact ⟨_, by omega, (h1.trans (hs.steps.origin hx' hy')).walk hs.lawful hb ha⟩

/-- **C40.** With one step back and forth added, walks of arbitrary length exist: a walk of `n` steps can be prolonged to one
of `n + 2` steps, whenever there are at least two nodes. -/
theorem c40_longer (hs : Lawful s L rep) (hb : Built s L g k) {a b c : C} {d : D} (ha : L.Node a) {n : Nat}
    (hw : Walk g.s a n b) (hc : L.nbr b d = some c) : Walk g.s a (n + 2) b := by
  have hp := hw.path hs hb ha
  have hp2 : Path L a (n + 2) b := .step (.step hp hc) (hs.laws.nbr_opp (hp.node hs.laws ha) hc)
  exact hp2.walk hs hb ha

example : ∃ g : Graph Offset SquareAxis DSquareAxis Nat Nat, Built (squareShape m64 3 2) (squareLat 3 2) g exK ∧
    ∃ n, n ≤ 10 ∧ Walk g.s ⟨0, 1⟩ n ⟨2, 0⟩ := by
  obtain ⟨g, hb⟩ := exSquare
  refine ⟨g, hb, ?_⟩
  exact c40_connected (.square ..) hb ⟨0, 1, by decide, by decide, rfl⟩ ⟨2, 0, by decide, by decide, rfl⟩

/-! ### C41 -/

/-- `a` is an item returned by some call in a run of the iterator. -/
inductive Item {σ α : Type} (next : σ → Res (Option α × σ)) : σ → α → Prop where
  | here {s s' : σ} {a : α} : next s = .ok (some a, s') → Item next s a
  | later {s s' : σ} {a b : α} : next s = .ok (some b, s') → Item next s' a → Item next s a

theorem Item.mem {σ α : Type} {next : σ → Res (Option α × σ)} {s : σ} {a : α} {l : List α} (h : Item next s a)
    (hl : Yields next s l) : a ∈ l := by
  induction h generalizing l with
  | here h1 =>
    cases hl with
    | done h2 => rw [h1] at h2; simp at h2
    | step h2 _ => rw [h1] at h2; cases h2; simp
  | later h1 _ ih =>
    cases hl with
    | done h2 => rw [h1] at h2; simp at h2
    | step h2 h3 => rw [h1] at h2; cases h2; exact List.mem_cons_of_mem _ (ih h3)

theorem Item.of_mem {σ α : Type} {next : σ → Res (Option α × σ)} {s : σ} {a : α} {l : List α} (hl : Yields next s l)
    (h : a ∈ l) : Item next s a := by
  induction hl with
  | done => cases h
  | step h1 _ ih =>
    cases h with
    | head => exact .here h1
    | tail _ h => exact .later h1 (ih h)

/-- What a search that starts at `a` can come across: nodes returned by `neighbors` of, and targets of `edges` of, anything
it has come across. The search may abandon an iterator at any point. -/
inductive Found (g : Graph C A D N E) (a : C) : C → Prop where
  | start : Found g a a
  | neighbor {b c : C} : Found g a b → Item (neighborsNext g.s b) 0 c → Found g a c
  | edge {b : C} {it : EdgesIt C} {r : EdgeRef C D E} :
    Found g a b → g.edgesOf b = .ok it → Item (edgesNext g) it r → Found g a r.target

/-- **C41.** Whatever a search starting at a node comes across is a node. -/
theorem c41_nodes (hs : Lawful s L rep) (hb : Built s L g k) {a b : C} (ha : L.Node a) (h : Found g a b) : L.Node b := by
  induction h with
  | start => exact ha
  | @neighbor b c _ hi ih =>
    exact (c07_neighbors_exact hs ih c).2 (hi.mem (c07_neighbors hs hb ih))
  | @edge b it r _ hit hi ih =>
    obtain ⟨it', h1, h2⟩ := c10_edges hs hb ih
    rw [hit] at h1
    cases h1
    exact hs.laws.nbr_node ih (c10_edge_exact hs hb ih (hi.mem h2)).2.1

/-- **C41.** So all further calls are fault-free: `neighbors` and `edges` run to their end, the node has a weight, an index
inside the bound, and a place in the visit map. -/
theorem c41_safe (hs : Lawful s L rep) (hb : Built s L g k) {a b : C} (ha : L.Node a) (h : Found g a b) :
    (∃ l, Yields (neighborsNext g.s b) 0 l) ∧
    (∃ it l, g.edgesOf b = .ok it ∧ Yields (edgesNext g) it l) ∧
    (∃ w, g.nodeWeight b = .ok (some w)) ∧
    (∃ i n, g.toIndex b = .ok i ∧ g.nodeBound = .ok n ∧ i < n ∧ g.fromIndex i = .ok b) := by
  have hn := c41_nodes hs hb ha h
  have hg := hb.good hs
  refine ⟨⟨_, c07_neighbors hs hb hn⟩, ?_, ?_, ?_⟩
  · obtain ⟨it, h1, h2⟩ := c10_edges hs hb hn
    exact ⟨it, _, h1, h2⟩
  · obtain ⟨w, hw⟩ := Option.isSome_iff_exists.1 ((hg.total.node b).2 hn)
    exact ⟨w, by rw [nodeWeight_eq hg.impl hg.inv hg.total (.inl hn), hw]⟩
  · obtain ⟨i, h1, h2, h3⟩ := c04_to_index hs hb hn
    exact ⟨i, _, h1, by rw [Graph.nodeBound, hg.impl.nodeCount], h2, h3⟩

/-- **C41.** And a search that leaves nothing out comes across every node. -/
theorem c41_complete (hs : Sound s L rep) (hb : Built s L g k) {a b : C} (ha : L.Node a) : L.Node b ↔ Found g a b := by
  refine ⟨fun hn => ?_, c41_nodes hs.lawful hb ha⟩
  obtain ⟨n, -, hw⟩ := c40_connected hs hb ha hn
  induction hw with
  | nil => exact .start
  | @step n b c l hw hl hc ih =>
    refine .neighbor (ih ((hw.path hs.lawful hb ha).node hs.laws ha)) (.of_mem hl hc)

example : ∃ g : Graph Offset SquareAxis DSquareAxis Nat Nat, Built (squareShape m64 3 2) (squareLat 3 2) g exK ∧
    Found g ⟨0, 0⟩ ⟨2, 1⟩ ∧ ¬ Found g ⟨0, 0⟩ ⟨3, 1⟩ := by
  obtain ⟨g, hb⟩ := exSquare
  have hs := Sound.square m64 3 2
  have h0 : (squareLat 3 2).Node ⟨0, 0⟩ := ⟨0, 0, by decide, by decide, rfl⟩
  refine ⟨g, hb, (c41_complete hs hb h0).1 ⟨2, 1, by decide, by decide, rfl⟩, fun h => ?_⟩
  obtain ⟨x, y, h1, h2, h3⟩ := c41_nodes hs.lawful hb h0 h
  simp [squareLat] at h1 h3
  omega

example : ∃ (g : Graph Offset SquareAxis DSquareAxis Nat Nat) (n : Nat), Walk g.s ⟨0, 1⟩ (n + 2) ⟨2, 0⟩ ∧
    (∃ w, g.nodeWeight ⟨2, 1⟩ = .ok (some w)) := by
  obtain ⟨g, hb⟩ := exSquare
  have hs := Sound.square m64 3 2
  have h0 : (squareLat 3 2).Node ⟨0, 1⟩ := ⟨0, 1, by decide, by decide, rfl⟩
  obtain ⟨n, -, hw⟩ := c40_connected (.square ..) hb h0 (b := ⟨2, 0⟩) ⟨2, 0, by decide, by decide, rfl⟩
  exact ⟨g, n, c40_longer hs.lawful hb h0 hw (c := ⟨1, 0⟩) (d := .RX) rfl,
    (c41_safe hs.lawful hb h0 ((c41_complete hs hb h0).1 ⟨2, 1, by decide, by decide, rfl⟩)).2.2.1⟩

end
end LG
