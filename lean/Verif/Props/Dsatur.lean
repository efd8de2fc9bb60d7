import Verif.Lemmas.Dsatur
import Verif.Props.Articulation
import Verif.Props.Bipartite
/- C122: `dsatur_coloring`. -/
set_option linter.unusedSectionVars false
namespace LG
section
variable {C A D N E : Type} [DecidableEq C] [DecidableEq A] [DecidableEq D]
variable {g : Graph C A D N E} {s : Shape C A D} {L : Lat C A D} {rep : C → Prop} {k : Contents C A N E}

theorem identifier_ids (hs : Lawful s L rep) (hb : Built s L g k) : L.nodes.mapM g.toIndex = .ok (List.range' 0 (L.width * L.height)) := by
  obtain ⟨h1, -⟩ := c06_node_references_exact hs hb
  have h2 := node_ids hs hb
  rw [← h1, List.mapM_map]
  exact h2

theorem dsStart_iff (hs : Lawful s L rep) (hb : Built s L g k) {n : Nat} {deg : Nat → Nat} {st : DsSt} :
    g.DsStart n deg st ↔ n = L.width * L.height ∧ LG.DsStart (latTo g) (List.range' 0 n) deg st := by
  unfold Graph.DsStart
  rw [nodeBound_eq hs hb]
  constructor
  · rintro ⟨h1, cs, ids, h2, h3, h4⟩
    cases h1
    rw [Yields.unique h2 (c05_node_identifiers hs hb), identifier_ids hs hb] at h3
    cases h3
    exact ⟨rfl, h4⟩
  · rintro ⟨rfl, h⟩
    exact ⟨rfl, _, _, c05_node_identifiers hs hb, identifier_ids hs hb, h⟩

theorem dsColors (hs : Lawful s L rep) (hb : Built s L g k) {deg : Nat → Nat} {st : DsSt} (hv : DsInv (apAdj L k g) (L.width * L.height) deg st) :
    st.colored.mapM (fun p => do return (← g.fromIndex p.1, p.2)) = .ok (st.colored.map fun p => (L.at p.1, p.2)) :=
  mapM_ok _ fun p hp => by
    have hlt := hv.lt p.1 (by rw [← hv.seen]; exact List.mem_map.2 ⟨p, hp, rfl⟩)
    have hfi : g.fromIndex p.1 = .ok (L.at p.1) := (hb.good hs).impl.indexToCoordinate hlt
    rw [hfi]
    rfl

/-- **C122.** `dsatur_coloring` can start and its result is at hand; from every state that it may come to it can be brought to its end,
and it never goes on forever. -/
theorem c122_runs (hs : Lawful s L rep) (hb : Built s L g k) :
    (∃ out num, g.Dsatur out num) ∧ ∀ n deg st, g.DsStart n deg st →
      (∀ st', DsSteps (latTo g) n deg st st' → ∃ st'' out, DsSteps (latTo g) n deg st' st'' ∧ st''.heap = [] ∧ g.Dsatur out (st''.top + 1)) ∧
      ∀ run : Nat → DsSt, run 0 = st → ¬ ∀ i, DsStep (latTo g) n deg (run i) (run (i + 1)) := by
  have hg := ap_graph hs hb
  have key : ∀ n deg st, g.DsStart n deg st → ∀ st', DsSteps (latTo g) n deg st st' →
      ∃ st'' out, DsSteps (latTo g) n deg st' st'' ∧ st''.heap = [] ∧ g.Dsatur out (st''.top + 1) := fun n deg st h0 st' h => by
    obtain ⟨rfl, h1⟩ := (dsStart_iff hs hb).1 h0
    have hv := h.inv hg (.start h1)
    obtain ⟨st'', h2, h3⟩ := ds_completes hg hv
    exact ⟨st'', _, h2, h3, _, _, _, _, h0, h.trans h2, h3, dsColors hs hb (h2.inv hg hv), rfl⟩
  refine ⟨?_, fun n deg st h0 => ⟨key n deg st h0, fun run hr => ?_⟩⟩
  · have h0 : g.DsStart (L.width * L.height) (fun i => (apAdj L k g i).length) _ := (dsStart_iff hs hb).2 ⟨rfl, fun i hi =>
      ⟨_, (hg.lists i (by rw [List.mem_range'_1] at hi; omega) _).2 rfl, rfl⟩, rfl⟩
    obtain ⟨st, out, -, -, h⟩ := key _ _ _ h0 _ .refl
    exact ⟨out, _, h⟩
  · obtain ⟨rfl, h1⟩ := (dsStart_iff hs hb).1 h0
    exact ds_ends hg (.start (nb := apAdj L k g) h1) run hr

/-- **C122.** The order: a node that is given its colour has at that time neighbors of more colours than any other node without one, or of
as many and at least as many neighbors. -/
theorem c122_order (hs : Lawful s L rep) (hb : Built s L g k) {n : Nat} {deg : Nat → Nat} {st st' st'' : DsSt} (h0 : g.DsStart n deg st)
    (h : DsSteps (latTo g) n deg st st') (h1 : DsStep (latTo g) n deg st' st'') {a : C} (ha : L.Node a) {x : Nat}
    (hx : st''.colored = (nodeIdx g a, x) :: st'.colored) {b : C} (hbn : L.Node b) (hno : nodeIdx g b ∉ st'.colored.map Prod.fst)
    {la lb : List Nat} (hla : la.Nodup) (hlb : lb.Nodup) (hma : ∀ y, y ∈ la ↔ ∃ t, Adjacent g a t ∧ (nodeIdx g t, y) ∈ st'.colored)
    (hmb : ∀ y, y ∈ lb ↔ ∃ t, Adjacent g b t ∧ (nodeIdx g t, y) ∈ st'.colored) :
    lb.length < la.length ∨ (lb.length = la.length ∧ ∃ na nb, Yields (neighborsNext g.s a) 0 na ∧ Yields (neighborsNext g.s b) 0 nb ∧
      nb.length ≤ na.length) := by
  have hg := ap_graph hs hb
  obtain ⟨rfl, h0⟩ := (dsStart_iff hs hb).1 h0
  have hsat : ∀ {c : C} {l : List Nat}, L.Node c → l.Nodup → (∀ y, y ∈ l ↔ ∃ t, Adjacent g c t ∧ (nodeIdx g t, y) ∈ st'.colored) →
      Saturation (apAdj L k g) st'.colored (nodeIdx g c) l := fun {c l} hc h1 h2 => ⟨h1, fun y => (h2 y).trans ⟨
        fun ⟨t, h3, h4⟩ => ⟨_, h4, (mem_apAdj hs hb hc _).2 ⟨t, h3, rfl⟩⟩, fun ⟨j, h3, h4⟩ => by
          obtain ⟨t, h5, rfl⟩ := (mem_apAdj hs hb hc _).1 h4
          exact ⟨t, h5, h3⟩⟩⟩
  have hdeg : ∀ {c : C}, L.Node c → deg (nodeIdx g c) = (L.nbrs c).length := fun {c} hc => by
    have hlt := (nodes_indexed hs hb).lt hc
    obtain ⟨l, h2, h3⟩ := h0.1 (nodeIdx g c) (by rw [List.mem_range'_1]; omega)
    rw [h3, (hg.lists _ hlt l).1 h2, ← (c10_targets hs hb hc).1]
    unfold apAdj
    rw [at_nodeIdx hs hb hc, List.length_map, List.length_map]
  have hv := h.inv hg (.start h0)
  rcases (ds_order hg hv h1 hx).2.2 _ ((nodes_indexed hs hb).lt hbn) hno la lb (hsat ha hla hma) (hsat hbn hlb hmb) with h2 | ⟨h2, h3⟩
  · exact .inl h2
  · rw [hdeg ha, hdeg hbn] at h3
    exact .inr ⟨h2, _, _, c07_neighbors hs hb ha, c07_neighbors hs hb hbn, h3⟩

/-- **C122.** The result: each node has one colour, adjacent nodes have different ones, no node could do with a smaller one, and the
number is that of the colours. -/
theorem c122_coloring (hs : Lawful s L rep) (hb : Built s L g k) {out : List (C × Nat)} {num : Nat} (h : g.Dsatur out num) :
    Colouring (Adjacent g) L.Node out num := by
  have hg := ap_graph hs hb
  obtain ⟨n, deg, st, st', h0, h1, h2, h3, rfl⟩ := h
  obtain ⟨rfl, h0⟩ := (dsStart_iff hs hb).1 h0
  have hv := h1.inv hg (.start h0)
  rw [dsColors hs hb hv] at h3
  rw [← Except.ok.inj h3]
  exact hv.colouring hg (nodes_indexed hs hb) (fun u t hu h => adjacent_node hs hb hu h) (fun u hu => mem_apAdj hs hb hu)
    (fun i hi => ⟨Lat.at_node hi, nodeIdx_at hs hb hi⟩) h2

/-- **C122.** One colour is used exactly if no two nodes are adjacent, and at most two exactly if two are enough. -/
theorem c122_two (hs : Lawful s L rep) (hb : Built s L g k) {out : List (C × Nat)} {num : Nat} (h : g.Dsatur out num) :
    (num = 1 ↔ ∀ a b, L.Node a → Adjacent g a b → a = b) ∧
    (num ≤ 2 ↔ ∃ f : C → Bool, ∀ a b, L.Node a → Adjacent g a b → a ≠ b → f a ≠ f b) := by
  have hc := c122_coloring hs hb h
  have hP : ∀ u t, L.Node u → Adjacent g u t → L.Node t := fun u t hu h => adjacent_node hs hb hu h
  refine ⟨hc.one_iff hP, hc.classes hP, ?_⟩
  rintro ⟨f, hf⟩
  obtain ⟨n, deg, st, st', h0, h1, -, -, rfl⟩ := h
  obtain ⟨rfl, h0⟩ := (dsStart_iff hs hb).1 h0
  have := ds_two (ap_graph hs hb) (f := fun i => f (L.at i)) (fun i hi j hj hne => by
    have hci : L.Node (L.at i) := Lat.at_node hi
    rw [← nodeIdx_at hs hb hi] at hj
    obtain ⟨t, h2, rfl⟩ := (mem_apAdj hs hb hci j).1 hj
    have ht := adjacent_node hs hb hci h2
    rw [at_nodeIdx hs hb ht]
    refine hf _ _ hci h2 fun e => hne ?_
    rw [← e, nodeIdx_at hs hb hi]) h0 h1
  omega

/-- **C122.** The number of colours is at most one more than the number of neighbors of some node. -/
theorem c122_degree (hs : Lawful s L rep) (hb : Built s L g k) {out : List (C × Nat)} {num : Nat} (h : g.Dsatur out num)
    (hne : ∃ a, L.Node a) : ∃ a l, L.Node a ∧ Yields (neighborsNext g.s a) 0 l ∧ num ≤ l.length + 1 := by
  obtain ⟨a, l, h1, h2, h3, h4⟩ := (c122_coloring hs hb h).degree hne
  refine ⟨a, _, h1, c07_neighbors hs hb h1, ?_⟩
  have := h2.length_le_of_subset (l₂ := L.nbrs a) fun t ht => (c07_neighbors_exact hs h1 t).1.2 ((adjacent_nbr hs hb h1 t).1 (h4 t ht).1)
  omega

/-- **C122.** Where no node is its own neighbor, at most two colours are used exactly if `is_bipartite_undirected` says so. -/
theorem c122_bipartite (hs : Sound s L rep) (hb : Built s L g k) (hself : ∀ c, L.Node c → ¬ Adjacent g c c) {out : List (C × Nat)} {num : Nat}
    (h : g.Dsatur out num) {a : C} (ha : L.Node a) : num ≤ 2 ↔ IsBipartite g.traversable a true := by
  rw [(c122_two hs.lawful hb h).2, c87_colouring hs.lawful hb ha]
  simp only [true_iff]
  constructor
  · rintro ⟨f, hf⟩
    refine ⟨f, fun n x l hw hy y hm => ?_⟩
    have hx := (hw.path hs.lawful hb ha).node hs.lawful.laws ha
    rw [Yields.unique hy (c07_neighbors hs.lawful hb hx)] at hm
    have hadj : Adjacent g x y := (adjacent_nbr hs.lawful hb hx y).2 ((c07_neighbors_exact hs.lawful hx y).1.1 hm)
    exact hf x y hx hadj fun e => hself x hx (by rw [← e] at hadj; exact hadj)
  · rintro ⟨f, hf⟩
    refine ⟨f, fun x y hx hadj _ => ?_⟩
    obtain ⟨n, -, hw⟩ := c40_connected hs hb ha hx
    exact hf n x _ hw (c07_neighbors hs.lawful hb hx) y ((c07_neighbors_exact hs.lawful hx y).1.2 ((adjacent_nbr hs.lawful hb hx y).1 hadj))
end

section
variable {N E : Type} {m : Machine} {h v : Nat}

theorem square_num {A : Type} [DecidableEq A] {g : Graph Offset A DSquareAxis N E} {s : Shape Offset A DSquareAxis} {L : Lat Offset A DSquareAxis}
    {rep : Offset → Prop} {k : Contents Offset A N E} (hs : Sound s L rep) (hb : Built s L g k) (hw : L.width = h) (hh : L.height = v)
    (hc : L.coord = fun x y => ⟨x, y⟩) (hn : L.nbr = fun c d => rectNbr h v c d.vec) {out : List (Offset × Nat)} {num : Nat}
    (hd : g.Dsatur out num) : num = if h * v ≤ 1 then 1 else 2 := by
  have hnode := rect_nodes_iff hw hh hc
  obtain ⟨h1, h2⟩ := c122_two hs.lawful hb hd
  have hpos := (c122_coloring hs.lawful hb hd).pos
  split
  · next hle =>
    refine h1.2 fun a b ha hab => ?_
    have hbn := adjacent_node hs.lawful hb ha hab
    have hle' : L.width * L.height ≤ 1 := by rw [hw, hh]; exact hle
    have hi := nodes_indexed hs.lawful hb
    have g1 := hi.lt ha
    have g2 := hi.lt hbn
    exact hi.inj ha hbn (by omega)
  · next hgt =>
    have g2 : num ≤ 2 := h2.2 ⟨fun c => alternating (c.horizontal + c.vertical), fun a b ha hab _ => alternating_ne (by
      obtain ⟨d, hd⟩ := (adjacent_nbr hs.lawful hb ha b).1 hab
      rw [hn] at hd
      have := rectNbr_iff.1 hd
      cases d <;> simp only [DSquareAxis.vec] at this <;> omega)⟩
    have g1 : num ≠ 1 := fun e => by
      have hno := h1.1 e
      have p1 : 0 < h := Nat.pos_of_ne_zero fun e => hgt (by rw [e, Nat.zero_mul]; exact Nat.zero_le _)
      have p2 : 0 < v := Nat.pos_of_ne_zero fun e => hgt (by rw [e, Nat.mul_zero]; exact Nat.zero_le _)
      have n0 : L.Node ⟨0, 0⟩ := (hnode _).2 ⟨p1, p2⟩
      have hex : ∃ b : Offset, b ≠ ⟨0, 0⟩ ∧ Adjacent g ⟨0, 0⟩ b := by
        by_cases hh1 : 1 < h
        · refine ⟨⟨1, 0⟩, fun e => absurd (congrArg Offset.horizontal e) (by simp only; omega), (adjacent_nbr hs.lawful hb n0 _).2 ?_⟩
          rw [hn]
          exact ⟨.X, rectNbr_iff.2 ⟨hh1, p2, rfl, rfl⟩⟩
        · have : h = 1 := by omega
          subst this
          refine ⟨⟨0, 1⟩, fun e => absurd (congrArg Offset.vertical e) (by simp only; omega), (adjacent_nbr hs.lawful hb n0 _).2 ?_⟩
          rw [hn]
          exact ⟨.Y, rectNbr_iff.2 ⟨p1, by simp only; omega, rfl, rfl⟩⟩
      obtain ⟨b, g3, g4⟩ := hex
      exact g3 (hno _ b n0 g4).symm
    omega

/-- **C122.** A square graph is given two colours, or one if it has a single node or none. -/
theorem c122_square {g : Graph Offset SquareAxis DSquareAxis N E} {k : Contents Offset SquareAxis N E}
    (hb : Built (squareShape m h v) (squareLat h v) g k) {out : List (Offset × Nat)} {num : Nat} (hd : g.Dsatur out num) :
    num = if h * v ≤ 1 then 1 else 2 := square_num (Sound.square m h v) hb rfl rfl rfl rfl hd

theorem c122_square_directed {g : Graph Offset DSquareAxis DSquareAxis N E} {k : Contents Offset DSquareAxis N E}
    (hb : Built (squareShapeDirected m h v) (squareLatDirected h v) g k) {out : List (Offset × Nat)} {num : Nat} (hd : g.Dsatur out num) :
    num = if h * v ≤ 1 then 1 else 2 := square_num (Sound.squareDirected m h v) hb rfl rfl rfl rfl hd
end

/-! ### Cases -/

/-- The 3 × 2 grid: two colours, on a graph that satisfies every hypothesis above. -/
example : ∃ (g : Graph Offset SquareAxis DSquareAxis Nat Nat) (out : List (Offset × Nat)), g.Dsatur out 2 ∧
    Colouring (Adjacent g) (squareLat 3 2).Node out 2 ∧ (∃ a l, (squareLat 3 2).Node a ∧ Yields (neighborsNext g.s a) 0 l ∧ 2 ≤ l.length + 1) ∧
    IsBipartite g.traversable ⟨1, 1⟩ true ∧ ∃ f : Offset → Bool, ∀ a b, (squareLat 3 2).Node a → Adjacent g a b → a ≠ b → f a ≠ f b := by
  have hs := Sound.square m64 3 2
  obtain ⟨g, hb⟩ := exSquare
  obtain ⟨⟨out, num, h⟩, -⟩ := c122_runs hs.lawful hb
  have e : num = 2 := c122_square hb h
  subst e
  have hn : (squareLat 3 2).Node ⟨1, 1⟩ := ⟨1, 1, by decide, by decide, rfl⟩
  refine ⟨g, out, h, c122_coloring hs.lawful hb h, c122_degree hs.lawful hb h ⟨_, hn⟩,
    (c122_bipartite hs hb (fun c hc hadj => ?_) h hn).1 (Nat.le_refl _), (c122_two hs.lawful hb h).2.1 (Nat.le_refl _)⟩
  obtain ⟨d, hd⟩ := (adjacent_nbr hs.lawful hb hc c).1 hadj
  have : rectNbr 3 2 c d.vec = some c := hd
  have := rectNbr_iff.1 this
  cases d <;> simp only [DSquareAxis.vec] at this <;> omega
example : ∃ (g : Graph Offset DSquareAxis DSquareAxis Nat Nat) (out : List (Offset × Nat)), g.Dsatur out 2 := by
  have hs := Sound.squareDirected m64 3 2
  obtain ⟨g, hb⟩ := exSquareD m64 rfl
  obtain ⟨⟨out, num, h⟩, -⟩ := c122_runs hs.lawful hb
  have e : num = 2 := c122_square_directed hb h
  subst e
  exact ⟨g, out, h⟩
/-- The first node that is given a colour is one of four neighbors, where there is one. -/
example : ∃ (g : Graph Offset SquareAxis DSquareAxis Nat Nat) (deg : Nat → Nat) (st st' : DsSt) (a : Offset) (x : Nat) (na : List Offset),
    g.DsStart 9 deg st ∧ DsStep (latTo g) 9 deg st st' ∧ st'.colored = [(nodeIdx g a, x)] ∧ Yields (neighborsNext g.s a) 0 na ∧ 4 ≤ na.length := by
  have hs := Lawful.square m64 3 3
  obtain ⟨g, k, hb⟩ : ∃ (g : Graph Offset SquareAxis DSquareAxis Nat Nat) (k : _), Built (squareShape m64 3 3) (squareLat 3 3) g k :=
    (hs.exists_built (N := Nat) (E := Nat) (by decide) (fun (u : Unit) _ => (0, u)) (fun u _ _ => (0, u)) ()).imp fun _ h => ⟨_, h⟩
  have hg := ap_graph hs hb
  have h0 : g.DsStart 9 (fun i => (apAdj (squareLat 3 3) k g i).length) _ := (dsStart_iff hs hb).2 ⟨rfl, fun i hi =>
      ⟨_, (hg.lists i (by rw [List.mem_range'_1] at hi; exact (by omega : i < 9)) _).2 rfl, rfl⟩, rfl⟩
  have hv := DsInv.start (nb := apAdj (squareLat 3 3) k g) ((dsStart_iff hs hb).1 h0).2
  obtain ⟨st', h1⟩ := ds_progress hg hv (List.cons_ne_nil _ _)
  have hx : ∃ i x, i < 9 ∧ st'.colored = [(i, x)] := by
    cases h1 with
    | skip _ h => cases h
    | @color e rest c l hp _ _ _ hl =>
      have hen := hv.heap_lt e hp.mem.1
      have hl' := (hg.lists _ hen l).1 hl
      exact ⟨e.2, c, hen, (dsTell_told c l _ fun j hj => by rw [hl'] at hj; exact hg.lt _ hen j hj).colored⟩
  obtain ⟨i, x, hi, hx⟩ := hx
  have hi' : i < (squareLat 3 3).width * (squareLat 3 3).height := hi
  have ha : (squareLat 3 3).Node ((squareLat 3 3).at i) := Lat.at_node hi'
  have hm : (squareLat 3 3).Node ⟨1, 1⟩ := ⟨1, 1, by decide, by decide, rfl⟩
  rw [← nodeIdx_at hs hb hi'] at hx
  rcases c122_order hs hb h0 .refl h1 ha hx hm (fun h => nomatch h) List.nodup_nil List.nodup_nil
    (fun y => ⟨fun h => (nomatch h), fun ⟨_, _, h⟩ => (nomatch h)⟩) (fun y => ⟨fun h => (nomatch h), fun ⟨_, _, h⟩ => (nomatch h)⟩) with h | ⟨-, na, nb, h2, h3, h4⟩
  · cases h
  · refine ⟨g, _, _, st', _, x, na, h0, h1, hx, h2, Nat.le_trans ?_ h4⟩
    rw [Yields.unique h3 (c07_neighbors hs hb hm)]
    decide
end LG
