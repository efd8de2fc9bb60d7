import Verif.Props.Nodes
/- C10 – C15: edge iterators. -/
set_option linter.unusedSectionVars false
namespace LG
section
variable {C A D N E σ : Type} [DecidableEq C] [DecidableEq A] [DecidableEq D]
variable {g : Graph C A D N E} {s : Shape C A D} {L : Lat C A D} {rep : C → Prop} {k : Contents C A N E}

theorem Good.out_yields (hg : Good s L rep g k) {a : C} (ha : L.Node a) {dt : Dt} (h1 : dt.isDirected = false)
    (h2 : dt.needReverse = false) :
    ∃ it, edgesNewD g a dt = .ok it ∧ Yields (edgesNext g) it (outEdges L k a) := by
  obtain ⟨x, y, hx, hy, rfl⟩ := ha
  refine ⟨_, edgesNewD_eq hg.impl hx hy dt, ?_⟩
  have hp : dt.plain g.s.axis.directed := by rintro ⟨rfl, _⟩; simp [Dt.needReverse] at h2
  have h := edges_yields_plain hg.laws hg.impl hg.inv hg.total hx hy hp (j := 0) (Nat.zero_add _)
  rw [List.drop_zero, dirs_take_all hg.impl h1] at h
  simp only [edgeRefOf, h2] at h
  exact h

/-- **C10.** `edges(a)` yields exactly the references `outEdges L k a`, in every reachable graph state. -/
theorem c10_edges (hs : Lawful s L rep) (hb : Built s L g k) {a : C} (ha : L.Node a) :
    ∃ it, g.edgesOf a = .ok it ∧ Yields (edgesNext g) it (outEdges L k a) :=
  (hb.good hs).out_yields ha rfl rfl

theorem mem_outEdges (hd : DirLaws L) {a : C} {r : EdgeRef C D E} :
    r ∈ outEdges L k a ↔ r.source = a ∧ L.nbr a r.direction = some r.target ∧
      k.edge (L.key a r.direction r.target).1 (L.key a r.direction r.target).2 = some r.weight := by
  obtain ⟨src, tgt, w, d⟩ := r
  simp only [outEdges, List.mem_filterMap, hd.dirs_mem, true_and, Option.bind_eq_some_iff, Option.map_eq_some_iff,
    EdgeRef.mk.injEq]
  constructor
  · rintro ⟨d', t', h1, w', h2, rfl, rfl, rfl, rfl⟩
    exact ⟨rfl, h1, h2⟩
  · rintro ⟨rfl, h1, h2⟩
    exact ⟨d, tgt, h1, w, h2, rfl, rfl, rfl, rfl⟩

/-- **C10.** Those references are one per neighbour, in the order of `neighbors`. -/
theorem c10_targets (hs : Lawful s L rep) (hb : Built s L g k) {a : C} (ha : L.Node a) :
    (outEdges L k a).map EdgeRef.target = L.nbrs a ∧
    (outEdges L k a).map EdgeRef.direction = L.dirs.filter fun d => (L.nbr a d).isSome := by
  have hg := hb.good hs
  have : ∀ l : List D,
      (l.filterMap fun d => (L.nbr a d).bind fun t =>
        (k.edge (L.key a d t).1 (L.key a d t).2).map fun w => (⟨a, t, w, d⟩ : EdgeRef C D E)).map EdgeRef.target =
        l.filterMap (L.nbr a) ∧
      (l.filterMap fun d => (L.nbr a d).bind fun t =>
        (k.edge (L.key a d t).1 (L.key a d t).2).map fun w => (⟨a, t, w, d⟩ : EdgeRef C D E)).map EdgeRef.direction =
        l.filter fun d => (L.nbr a d).isSome := by
    intro l
    induction l with
    | nil => exact ⟨rfl, rfl⟩
    | cons d l ih =>
      cases h : L.nbr a d with
      | none => simp [h, ih]
      | some t =>
        obtain ⟨w, hw⟩ := hg.total.edge_some (key_hasEdge hg.laws ha h)
        simp [h, hw, ih]
  exact this L.dirs

/-- **C10.** Endpoints, direction and weight of each reference, in terms of the graph's own `edge_weight`: the weight is that
of `(a, axis)` for a forward direction and of `(target, axis)` for a backward one. -/
theorem c10_edge_exact (hs : Lawful s L rep) (hb : Built s L g k) {a : C} (ha : L.Node a) {r : EdgeRef C D E}
    (hr : r ∈ outEdges L k a) :
    r.source = a ∧ L.nbr a r.direction = some r.target ∧
    (r.direction = L.fwd (L.ax r.direction) → g.edgeWeight a (L.ax r.direction) = .ok (some r.weight)) ∧
    (r.direction ≠ L.fwd (L.ax r.direction) → g.edgeWeight r.target (L.ax r.direction) = .ok (some r.weight)) := by
  have hg := hb.good hs
  obtain ⟨h1, h2, h3⟩ := (mem_outEdges hg.laws.dir).1 hr
  refine ⟨h1, h2, ?_, ?_⟩
  · intro hf
    rw [Lat.key, if_pos hf.symm] at h3
    rw [edgeWeight_eq hg.impl hg.inv hg.total (.inl ha), h3]
  · intro hf
    rw [Lat.key, if_neg (Ne.symm hf)] at h3
    rw [edgeWeight_eq hg.impl hg.inv hg.total (.inl (hg.laws.nbr_node ha h2)), h3]

example : ∃ g : Graph Offset SquareAxis DSquareAxis Nat Nat, Built (squareShape m64 3 2) (squareLat 3 2) g exK ∧
    ∃ it, g.edgesOf ⟨1, 0⟩ = .ok it ∧ Yields (edgesNext g) it
      [⟨⟨1, 0⟩, ⟨2, 0⟩, 1010, .X⟩, ⟨⟨1, 0⟩, ⟨1, 1⟩, 2010, .Y⟩, ⟨⟨1, 0⟩, ⟨0, 0⟩, 1000, .RX⟩] := by
  obtain ⟨g, hb⟩ := exSquare
  exact ⟨g, hb, c10_edges (.square _ _ _) hb ⟨1, 0, by decide, by decide, rfl⟩⟩

/-- **C11.** In an undirected graph, every edge reference of `a` has its counterpart at the other end, with the opposite
direction and the same weight. -/
theorem c11_undirected_weight (hs : Lawful s L rep) (hb : Built s L g k) (hu : g.isDirected = false) {a : C}
    (ha : L.Node a) {r : EdgeRef C D E} (hr : r ∈ outEdges L k a) :
    L.Node r.target ∧ ⟨r.target, a, r.weight, L.opp r.direction⟩ ∈ outEdges L k r.target := by
  have hg := hb.good hs
  rw [Graph.isDirected, hg.impl.axis.directed] at hu
  obtain ⟨h1, h2, h3⟩ := (mem_outEdges hg.laws.dir).1 hr
  refine ⟨hg.laws.nbr_node ha h2, (mem_outEdges hg.laws.dir).2 ⟨rfl, hg.laws.nbr_opp ha h2, ?_⟩⟩
  simp only
  rw [key_symm hg.laws.dir hu, h3]

/-- **C11.** The same in terms of the iterators. -/
theorem c11_undirected_iter (hs : Lawful s L rep) (hb : Built s L g k) (hu : g.isDirected = false) {a : C}
    (ha : L.Node a) {it : EdgesIt C} {l : List (EdgeRef C D E)} (hit : g.edgesOf a = .ok it)
    (hl : Yields (edgesNext g) it l) {r : EdgeRef C D E} (hr : r ∈ l) :
    ∃ it' l', g.edgesOf r.target = .ok it' ∧ Yields (edgesNext g) it' l' ∧
      ∃ r' ∈ l', r'.source = r.target ∧ r'.target = a ∧ r'.direction = L.opp r.direction ∧ r'.weight = r.weight := by
  obtain ⟨it0, h1, h2⟩ := c10_edges hs hb ha
  rw [hit] at h1
  cases h1
  rw [hl.unique h2] at hr
  obtain ⟨h3, h4⟩ := c11_undirected_weight hs hb hu ha hr
  obtain ⟨it', h5, h6⟩ := c10_edges hs hb h3
  exact ⟨it', _, h5, h6, _, h4, rfl, rfl, rfl, rfl⟩

example : (⟨⟨1, 0⟩, ⟨0, 0⟩, 1000, .RX⟩ : EdgeRef Offset DSquareAxis Nat) ∈ outEdges (squareLat 3 2) exK ⟨1, 0⟩ ∧
    (⟨⟨0, 0⟩, ⟨1, 0⟩, 1000, .X⟩ : EdgeRef Offset DSquareAxis Nat) ∈ outEdges (squareLat 3 2) exK ⟨0, 0⟩ := by decide

/-- **C12** (Outgoing). `edges_directed(a, Outgoing)` yields what `edges(a)` yields. -/
theorem c12_outgoing (hs : Lawful s L rep) (hb : Built s L g k) {a : C} (ha : L.Node a) :
    ∃ it, g.edgesDirected a .outgoing = .ok it ∧ Yields (edgesNext g) it (outEdges L k a) :=
  (hb.good hs).out_yields ha rfl rfl

/-- **C12** (Incoming), undirected graphs in any build and directed graphs in release builds. The full claim does not have
the last hypothesis; it fails in the remaining case, see `c12_incoming_debug_panics`. -/
theorem c12_incoming_partial (hs : Lawful s L rep) (hb : Built s L g k) {a : C} (ha : L.Node a)
    (hm : g.isDirected = false ∨ g.s.m.mode = .release) :
    ∃ it, g.edgesDirected a .incoming = .ok it ∧ Yields (edgesNext g) it (inEdges L k a) := by
  have hg := hb.good hs
  obtain ⟨x, y, hx, hy, rfl⟩ := ha
  refine ⟨_, edgesNewD_eq hg.impl hx hy _, ?_⟩
  cases hd : L.directed with
  | false =>
    have hp : (Dt.dir .incoming).plain g.s.axis.directed := by simp [Dt.plain, hg.impl.axis.directed, hd]
    have h := edges_yields_plain hg.laws hg.impl hg.inv hg.total hx hy hp (j := 0) (Nat.zero_add _)
    rw [List.drop_zero, dirs_take_all hg.impl rfl] at h
    unfold inEdges
    simp only [key_symm hg.laws.dir hd]
    exact h
  | true =>
    have hmode : g.s.m.mode = .release := hm.resolve_left (by simp [Graph.isDirected, hg.impl.axis.directed, hd])
    have h := edges_yields_of hg.impl hg.laws.dir hx hy (dt := .dir .incoming) (fun d t =>
      (k.edge (L.key t (L.opp d) (L.coord x y)).1 (L.key t (L.opp d) (L.coord x y)).2).map
        fun w => (⟨t, L.coord x y, w, d⟩ : EdgeRef C D E)) (by
          intro st d t _ hst hn
          obtain ⟨w, h1, h2⟩ := edgesMake_incoming hg.laws hg.impl hg.inv hg.total hd hmode hx hy hn hst
          exact ⟨_, by rw [h1]; rfl, h2⟩) _ 0 (Nat.zero_add _)
    rw [List.drop_zero, dirs_take_all hg.impl rfl] at h
    exact h

/-- **C12.** What `inEdges` says: one reference per neighbour, in order, whose source is the neighbour and whose weight is
that of the edge the neighbour has towards `a`. -/
theorem c12_incoming_exact (hs : Lawful s L rep) (hb : Built s L g k) {a : C} (ha : L.Node a) :
    (inEdges L k a).map EdgeRef.source = L.nbrs a ∧
    ∀ r ∈ inEdges L k a, r.target = a ∧ L.nbr a r.direction = some r.source ∧
      ⟨r.source, a, r.weight, L.opp r.direction⟩ ∈ outEdges L k r.source := by
  have hg := hb.good hs
  constructor
  · have : ∀ l : List D,
      (l.filterMap fun d => (L.nbr a d).bind fun t =>
        (k.edge (L.key t (L.opp d) a).1 (L.key t (L.opp d) a).2).map
          fun w => (⟨t, a, w, d⟩ : EdgeRef C D E)).map EdgeRef.source = l.filterMap (L.nbr a) := by
      intro l
      induction l with
      | nil => rfl
      | cons d l ih =>
        cases h : L.nbr a d with
        | none => simp [h, ih]
        | some t =>
          obtain ⟨w, hw⟩ := hg.total.edge_some
            (key_hasEdge hg.laws (hg.laws.nbr_node ha h) (hg.laws.nbr_opp ha h))
          simp [h, hw, ih]
    exact this L.dirs
  · rintro ⟨src, tgt, w, d⟩ hr
    simp only [inEdges, List.mem_filterMap, Option.bind_eq_some_iff, Option.map_eq_some_iff, EdgeRef.mk.injEq] at hr
    obtain ⟨d', _, t, h1, w', h2, rfl, rfl, rfl, rfl⟩ := hr
    exact ⟨rfl, h1, (mem_outEdges hg.laws.dir).2 ⟨rfl, hg.laws.nbr_opp ha h1, h2⟩⟩

/-- **C12** fails for `Incoming` on directed graphs in debug builds: the first edge trips the `debug_assert_eq!` in
`Edges::next`, for every directed sound shape and every node that has a neighbour. -/
theorem c12_incoming_debug_panics (hs : Lawful s L rep) (hb : Built s L g k) {a : C} (ha : L.Node a)
    (hd : g.isDirected = true) (hm : g.s.m.mode = .debug) (hn : L.nbrs a ≠ []) :
    ∃ it, g.edgesDirected a .incoming = .ok it ∧ edgesNext g it = .error .panic := by
  have hg := hb.good hs
  obtain ⟨x, y, hx, hy, rfl⟩ := ha
  have hnode : L.Node (L.coord x y) := ⟨x, y, hx, hy, rfl⟩
  refine ⟨_, edgesNewD_eq hg.impl hx hy _, ?_⟩
  rw [Graph.isDirected, hg.impl.axis.directed] at hd
  have hbound : edgesBound g.s (.dir .incoming) = L.dirs.length := hg.impl.axis.undirectedCount
  have key : ∀ (n j : Nat), j + n = L.dirs.length → (L.dirs.drop j).filterMap (L.nbr (L.coord x y)) ≠ [] →
      edgesNext g ⟨L.coord x y, ⟨x, y⟩, j, .dir .incoming⟩ = .error .panic := by
    intro n
    induction n with
    | zero => intro j h hne; rw [List.drop_eq_nil_of_le (by omega)] at hne; simp at hne
    | succ n ih =>
      intro j h hne
      have hj : j < L.dirs.length := by omega
      rw [List.drop_eq_getElem_cons hj, List.filterMap_cons] at hne
      cases ht : L.nbr (L.coord x y) L.dirs[j] with
      | none =>
        simp only [ht] at hne
        rw [edgesNext_none (it := ⟨L.coord x y, ⟨x, y⟩, j, .dir .incoming⟩) hg.impl hnode (by simp only; omega) hj ht]
        exact ih (j + 1) (by omega) hne
      | some t =>
        rw [edgesNext, dif_pos (by simp only; omega)]
        simp only [hg.impl.axis.dirFromIndex _ hj, bind, Except.bind, hg.impl.move hnode, ht,
          edgesMake_incoming_debug hg.laws hg.impl hd hm hx hy ht (List.getElem?_eq_getElem hj)]
  exact key L.dirs.length 0 (by omega) hn

example : ∃ g : Graph Offset DSquareAxis DSquareAxis Nat Nat,
    Built (squareShapeDirected m64r 3 2) (squareLatDirected 3 2) g exKD ∧
    ∃ it, g.edgesDirected ⟨1, 0⟩ .incoming = .ok it ∧ Yields (edgesNext g) it
      [⟨⟨2, 0⟩, ⟨1, 0⟩, 3020, .X⟩, ⟨⟨1, 1⟩, ⟨1, 0⟩, 4011, .Y⟩, ⟨⟨0, 0⟩, ⟨1, 0⟩, 1000, .RX⟩] := by
  obtain ⟨g, hb⟩ := exSquareD m64r rfl
  refine ⟨g, hb, c12_incoming_partial (.squareDirected _ _ _) hb ⟨1, 0, by decide, by decide, rfl⟩ (.inr ?_)⟩
  rw [(hb.good (.squareDirected _ _ _)).shape]
  rfl
example : ∃ g : Graph Offset DSquareAxis DSquareAxis Nat Nat,
    Built (squareShapeDirected m64 3 2) (squareLatDirected 3 2) g exKD ∧
    ∃ it, g.edgesDirected ⟨1, 0⟩ .incoming = .ok it ∧ edgesNext g it = .error .panic := by
  obtain ⟨g, hb⟩ := exSquareD m64 rfl
  have hsh := (hb.good (.squareDirected _ _ _)).shape
  exact ⟨g, hb, c12_incoming_debug_panics (.squareDirected _ _ _) hb ⟨1, 0, by decide, by decide, rfl⟩
    (by rw [Graph.isDirected, hsh]; rfl) (by rw [hsh]; rfl) (by decide)⟩

/-- **C13.** `edge_references` yields exactly the references `allEdges L k`. -/
theorem c13_edge_references (hs : Lawful s L rep) (hb : Built s L g k) :
    Yields (edgeRefsNext g) edgeRefsInit (allEdges L k) := by
  have hg := hb.good hs
  exact edgeRefs_yields hg.laws.dir hg.impl hg.inv hg.total

theorem mem_allEdges (hd : DirLaws L) {r : EdgeRef C D E} :
    r ∈ allEdges L k ↔ L.Node r.source ∧ L.fwd (L.ax r.direction) = r.direction ∧
      L.nbr r.source r.direction = some r.target ∧ k.edge r.source (L.ax r.direction) = some r.weight := by
  obtain ⟨src, tgt, w, d⟩ := r
  simp only [allEdges, List.mem_flatMap, List.mem_filterMap, hd.axes_mem, true_and, Option.bind_eq_some_iff,
    Option.map_eq_some_iff, EdgeRef.mk.injEq, Lat.mem_nodes]
  constructor
  · rintro ⟨c, hc, a, t, h1, w', h2, rfl, rfl, rfl, rfl⟩
    rw [hd.ax_fwd]
    exact ⟨hc, rfl, h1, h2⟩
  · rintro ⟨hc, hf, h1, h2⟩
    exact ⟨src, hc, L.ax d, tgt, by rw [hf]; exact h1, w, h2, rfl, rfl, rfl, hf⟩

/-- **C13.** The `(source, axis)` keys of those references are the edges of the lattice, each exactly once. -/
theorem c13_keys (hs : Lawful s L rep) (hb : Built s L g k) :
    ((allEdges L k).map fun r => (r.source, L.ax r.direction)) = L.edgeKeys ∧ L.edgeKeys.Nodup ∧
    ∀ c a, (c, a) ∈ L.edgeKeys ↔ L.HasEdge c a := by
  have hg := hb.good hs
  refine ⟨?_, Lat.edgeKeys_nodup hg.laws, fun c a => Lat.mem_edgeKeys hg.laws.dir⟩
  unfold allEdges Lat.edgeKeys
  rw [List.map_flatMap]
  have hmem : ∀ c ∈ L.nodes, L.Node c := fun c hc => Lat.mem_nodes.1 hc
  refine congrArg List.flatten (List.map_congr_left ?_)
  intro c hc
  have hc := hmem c hc
  have : ∀ l : List A, (l.filterMap fun a => (L.nbr c (L.fwd a)).bind fun t =>
      (k.edge c a).map fun w => (⟨c, t, w, L.fwd a⟩ : EdgeRef C D E)).map (fun r => (r.source, L.ax r.direction)) =
      l.filterMap fun a => (L.nbr c (L.fwd a)).map fun _ => (c, a) := by
    intro l
    induction l with
    | nil => rfl
    | cons a l ih =>
      cases h : L.nbr c (L.fwd a) with
      | none => simp [h, ih]
      | some t =>
        obtain ⟨w, hw⟩ := hg.total.edge_some (c := c) (a := a) ⟨hc, by simp [h]⟩
        simp [h, hw, ih, hg.laws.dir.ax_fwd]
  exact this L.axes

/-- **C13.** Endpoints and weight of each reference. -/
theorem c13_edge_exact (hs : Lawful s L rep) (hb : Built s L g k) {r : EdgeRef C D E} (hr : r ∈ allEdges L k) :
    L.Node r.source ∧ L.nbr r.source r.direction = some r.target ∧
    g.edgeWeight r.source (L.ax r.direction) = .ok (some r.weight) := by
  have hg := hb.good hs
  obtain ⟨h1, h2, h3, h4⟩ := (mem_allEdges hg.laws.dir).1 hr
  exact ⟨h1, h3, by rw [edgeWeight_eq hg.impl hg.inv hg.total (.inl h1), h4]⟩

example : ∃ g : Graph Offset SquareAxis DSquareAxis Nat Nat, Built (squareShape m64 3 2) (squareLat 3 2) g exK ∧
    Yields (edgeRefsNext g) edgeRefsInit
      [⟨⟨0, 0⟩, ⟨1, 0⟩, 1000, .X⟩, ⟨⟨0, 0⟩, ⟨0, 1⟩, 2000, .Y⟩, ⟨⟨0, 1⟩, ⟨1, 1⟩, 1001, .X⟩, ⟨⟨1, 0⟩, ⟨2, 0⟩, 1010, .X⟩,
       ⟨⟨1, 0⟩, ⟨1, 1⟩, 2010, .Y⟩, ⟨⟨1, 1⟩, ⟨2, 1⟩, 1011, .X⟩, ⟨⟨2, 0⟩, ⟨2, 1⟩, 2020, .Y⟩] := by
  obtain ⟨g, hb⟩ := exSquare
  exact ⟨g, hb, c13_edge_references (.square _ _ _) hb⟩

/-- **C14.** Handshake: the lengths of all `edges(a)` add up to twice (undirected) or once (directed) the number of items of
`edge_references`. -/
theorem c14_handshake (hs : Lawful s L rep) (hb : Built s L g k) :
    (L.nodes.map fun c => (outEdges L k c).length).sum =
      (if g.isDirected then 1 else 2) * (allEdges L k).length := by
  have hg := hb.good hs
  rw [Graph.isDirected, hg.impl.axis.directed]
  exact handshake hg.laws hg.total

/-- **C14.** The same for whatever lists the iterators produce. -/
theorem c14_handshake_iter (hs : Lawful s L rep) (hb : Built s L g k) {f : C → List (EdgeRef C D E)}
    {all : List (EdgeRef C D E)}
    (hf : ∀ a, L.Node a → ∃ it, g.edgesOf a = .ok it ∧ Yields (edgesNext g) it (f a))
    (hall : Yields (edgeRefsNext g) edgeRefsInit all) :
    (L.nodes.map fun c => (f c).length).sum = (if g.isDirected then 1 else 2) * all.length := by
  rw [hall.unique (c13_edge_references hs hb), ← c14_handshake hs hb]
  congr 1
  refine List.map_congr_left fun c hc => ?_
  have hc := Lat.mem_nodes.1 hc
  obtain ⟨it, h1, h2⟩ := hf c hc
  obtain ⟨it', h3, h4⟩ := c10_edges hs hb hc
  rw [h1] at h3
  cases h3
  rw [h2.unique h4]

example : ((squareLat 3 2).nodes.map fun c => (outEdges (squareLat 3 2) exK c).length).sum = 14 ∧
    (allEdges (squareLat 3 2) exK).length = 7 := by decide

/-! ### C15: ids of edge references -/

/-- **C15** for `edge_references`: the id of every reference looks up its own weight. -/
theorem c15_edge_references_id (hs : Lawful s L rep) (hb : Built s L g k) {r : EdgeRef C D E} (hr : r ∈ allEdges L k) :
    ∃ c a, r.id g.s.axis = .ok (c, a) ∧ g.edgeWeight c a = .ok (some r.weight) := by
  have hg := hb.good hs
  refine ⟨r.source, L.ax r.direction, ?_, (c13_edge_exact hs hb hr).2.2⟩
  simp only [EdgeRef.id, hg.impl.axis.fromDirection, bind, Except.bind]

/-- **C15** for `edges` and `edges_directed(Outgoing)`, forward directions only (every direction of a directed graph is
forward). The full claim has no hypothesis on the direction; it fails for backward directions,
see `c15_edges_id_wrong`. -/
theorem c15_edges_id_partial (hs : Lawful s L rep) (hb : Built s L g k) {a : C} (ha : L.Node a) {r : EdgeRef C D E}
    (hr : r ∈ outEdges L k a) (hf : L.fwd (L.ax r.direction) = r.direction) :
    ∃ c x, r.id g.s.axis = .ok (c, x) ∧ g.edgeWeight c x = .ok (some r.weight) := by
  have hg := hb.good hs
  obtain ⟨h1, _, h3, _⟩ := c10_edge_exact hs hb ha hr
  refine ⟨a, L.ax r.direction, ?_, h3 hf.symm⟩
  simp only [EdgeRef.id, hg.impl.axis.fromDirection, bind, Except.bind, h1]

/-- Directed graphs: every reference of `edges` has a right id. -/
theorem c15_edges_id_directed (hs : Lawful s L rep) (hb : Built s L g k) (hd : g.isDirected = true) {a : C}
    (ha : L.Node a) {r : EdgeRef C D E} (hr : r ∈ outEdges L k a) :
    ∃ c x, r.id g.s.axis = .ok (c, x) ∧ g.edgeWeight c x = .ok (some r.weight) := by
  have hg := hb.good hs
  rw [Graph.isDirected, hg.impl.axis.directed] at hd
  exact c15_edges_id_partial hs hb ha hr ((hg.laws.dir.fwd_ax _).resolve_right (by simp [hd]))

/-- **C15** fails for backward directions of undirected graphs: the id of a backward reference names the edge on the *other*
side of the node, `(a, axis)`, so looking it up returns that edge's weight, or `None` if there is no such edge. -/
theorem c15_edges_id_wrong (hs : Lawful s L rep) (hb : Built s L g k) {a : C} (ha : L.Node a) {r : EdgeRef C D E}
    (hr : r ∈ outEdges L k a) (hf : L.fwd (L.ax r.direction) ≠ r.direction) :
    r.id g.s.axis = .ok (a, L.ax r.direction) ∧ g.edgeWeight a (L.ax r.direction) = .ok (k.edge a (L.ax r.direction)) ∧
    k.edge r.target (L.ax r.direction) = some r.weight := by
  have hg := hb.good hs
  obtain ⟨h1, h2, h3⟩ := (mem_outEdges hg.laws.dir).1 hr
  rw [Lat.key, if_neg hf] at h3
  refine ⟨?_, edgeWeight_eq hg.impl hg.inv hg.total (.inl ha), h3⟩
  simp only [EdgeRef.id, hg.impl.axis.fromDirection, bind, Except.bind, h1]

/-- **C15** refuted: in every square graph at least two columns wide, every node of the last column has an edge reference
(towards the west) whose id looks up nothing. -/
theorem c15_counterexample {g : Graph Offset SquareAxis DSquareAxis N E} {k : Contents Offset SquareAxis N E}
    {m : Machine} {h v y : Nat} (hb : Built (squareShape m h v) (squareLat h v) g k) (hh : 2 ≤ h) (hy : y < v) :
    ∃ r ∈ outEdges (squareLat h v) k ⟨h - 1, y⟩, ∃ c a, r.id g.s.axis = .ok (c, a) ∧ g.edgeWeight c a = .ok none := by
  have hs := Lawful.square m h v
  have hg := hb.good hs
  have hn : (squareLat h v).Node ⟨h - 1, y⟩ := ⟨h - 1, y, by show h - 1 < h; omega, hy, rfl⟩
  have hn2 : (squareLat h v).Node ⟨h - 2, y⟩ := ⟨h - 2, y, by show h - 2 < h; omega, hy, rfl⟩
  have hw : (squareLat h v).nbr ⟨h - 1, y⟩ .RX = some ⟨h - 2, y⟩ := by
    show inRect h v (((h - 1 : Nat) : Int) + -1) ((y : Int) + 0) = _
    unfold inRect
    rw [if_pos (by omega)]
    simp only [Option.some.injEq, Offset.mk.injEq]
    omega
  have he : (squareLat h v).nbr ⟨h - 1, y⟩ .X = none := by
    show inRect h v (((h - 1 : Nat) : Int) + 1) ((y : Int) + 0) = _
    unfold inRect
    rw [if_neg (by omega)]
  obtain ⟨w, hw'⟩ := hg.total.edge_some (key_hasEdge hg.laws hn hw)
  have hr : (⟨⟨h - 1, y⟩, ⟨h - 2, y⟩, w, .RX⟩ : EdgeRef Offset DSquareAxis E) ∈ outEdges (squareLat h v) k ⟨h - 1, y⟩ :=
    (mem_outEdges hg.laws.dir).2 ⟨rfl, hw, hw'⟩
  obtain ⟨h1, h2, _⟩ := c15_edges_id_wrong hs hb hn hr (by simp [squareLat])
  refine ⟨_, hr, _, _, h1, ?_⟩
  rw [h2, hg.total.edge_none]
  rintro ⟨_, h4⟩
  have h5 : ((squareLat h v).nbr ⟨h - 1, y⟩ .X).isSome := h4
  rw [he] at h5
  simp at h5

/-- **C15** for `edges_directed(Incoming)` on undirected graphs: right for backward directions (the edge is stored at the
source), wrong for forward ones (it is stored at `a`, the id names the source). -/
theorem c15_incoming_id_partial (hs : Lawful s L rep) (hb : Built s L g k) (hu : g.isDirected = false) {a : C}
    (ha : L.Node a) {r : EdgeRef C D E} (hr : r ∈ inEdges L k a) (hf : L.fwd (L.ax r.direction) ≠ r.direction) :
    ∃ c x, r.id g.s.axis = .ok (c, x) ∧ g.edgeWeight c x = .ok (some r.weight) := by
  have hg := hb.good hs
  rw [Graph.isDirected, hg.impl.axis.directed] at hu
  simp only [inEdges, List.mem_filterMap, Option.bind_eq_some_iff, Option.map_eq_some_iff] at hr
  obtain ⟨d', _, t, h1, w', h2, rfl⟩ := hr
  rw [key_symm hg.laws.dir hu, Lat.key, if_neg hf] at h2
  refine ⟨t, L.ax d', ?_, ?_⟩
  · simp only [EdgeRef.id, hg.impl.axis.fromDirection, bind, Except.bind]
  · rw [edgeWeight_eq hg.impl hg.inv hg.total (.inl (hg.laws.nbr_node ha h1)), h2]

/-- **C15** fails for `edges_directed(Incoming)`: on undirected graphs the id of a forward reference names the wrong end. -/
theorem c15_incoming_id_wrong (hs : Lawful s L rep) (hb : Built s L g k) (hu : g.isDirected = false) {a : C}
    (ha : L.Node a) {r : EdgeRef C D E} (hr : r ∈ inEdges L k a) (hf : L.fwd (L.ax r.direction) = r.direction) :
    r.id g.s.axis = .ok (r.source, L.ax r.direction) ∧
    g.edgeWeight r.source (L.ax r.direction) = .ok (k.edge r.source (L.ax r.direction)) ∧
    k.edge a (L.ax r.direction) = some r.weight := by
  have hg := hb.good hs
  rw [Graph.isDirected, hg.impl.axis.directed] at hu
  simp only [inEdges, List.mem_filterMap, Option.bind_eq_some_iff, Option.map_eq_some_iff] at hr
  obtain ⟨d', _, t, h1, w', h2, rfl⟩ := hr
  rw [key_symm hg.laws.dir hu, Lat.key, if_pos hf] at h2
  refine ⟨?_, edgeWeight_eq hg.impl hg.inv hg.total (.inl (hg.laws.nbr_node ha h1)), h2⟩
  simp only [EdgeRef.id, hg.impl.axis.fromDirection, bind, Except.bind]

/-- **C15** fails for `edges_directed(Incoming)`: on directed graphs every id names the edge in the direction *away* from
`a`, while the weight is that of the edge towards `a`. -/
theorem c15_incoming_id_directed_wrong (hs : Lawful s L rep) (hb : Built s L g k) (hd : g.isDirected = true) {a : C}
    (ha : L.Node a) {r : EdgeRef C D E} (hr : r ∈ inEdges L k a) :
    r.id g.s.axis = .ok (r.source, L.ax r.direction) ∧
    g.edgeWeight r.source (L.ax r.direction) = .ok (k.edge r.source (L.ax r.direction)) ∧
    k.edge r.source (L.ax (L.opp r.direction)) = some r.weight ∧ L.ax (L.opp r.direction) ≠ L.ax r.direction := by
  have hg := hb.good hs
  rw [Graph.isDirected, hg.impl.axis.directed] at hd
  have hfw : ∀ d', L.fwd (L.ax d') = d' := fun d' => (hg.laws.dir.fwd_ax d').resolve_right (by simp [hd])
  simp only [inEdges, List.mem_filterMap, Option.bind_eq_some_iff, Option.map_eq_some_iff] at hr
  obtain ⟨d', _, t, h1, w', h2, rfl⟩ := hr
  rw [Lat.key, if_pos (hfw _)] at h2
  refine ⟨?_, edgeWeight_eq hg.impl hg.inv hg.total (.inl (hg.laws.nbr_node ha h1)), h2, ?_⟩
  · simp only [EdgeRef.id, hg.impl.axis.fromDirection, bind, Except.bind]
  · intro h
    have := congrArg L.fwd h
    rw [hfw, hfw] at this
    exact hg.laws.dir.opp_ne _ this

example : ∃ g : Graph Offset SquareAxis DSquareAxis Nat Nat, Built (squareShape m64 3 2) (squareLat 3 2) g exK ∧
    (∃ c a, (⟨⟨1, 0⟩, ⟨2, 0⟩, 1010, .X⟩ : EdgeRef Offset DSquareAxis Nat).id g.s.axis = .ok (c, a) ∧
      g.edgeWeight c a = .ok (some 1010)) ∧
    (∃ c a, (⟨⟨2, 1⟩, ⟨1, 1⟩, 1011, .RX⟩ : EdgeRef Offset DSquareAxis Nat).id g.s.axis = .ok (c, a) ∧
      g.edgeWeight c a = .ok none) := by
  obtain ⟨g, hb⟩ := exSquare
  refine ⟨g, hb, c15_edges_id_partial (.square _ _ _) hb (a := ⟨1, 0⟩) ⟨1, 0, by decide, by decide, rfl⟩ (by decide)
    (by decide), ?_⟩
  obtain ⟨h1, h2, _⟩ := c15_edges_id_wrong (.square _ _ _) hb (a := ⟨2, 1⟩)
    (r := (⟨⟨2, 1⟩, ⟨1, 1⟩, 1011, .RX⟩ : EdgeRef Offset DSquareAxis Nat)) ⟨2, 1, by decide, by decide, rfl⟩ (by decide)
    (by decide)
  exact ⟨_, _, h1, h2⟩

/-! Instances of the remaining theorems, on the 3 × 2 square grid, undirected and directed. -/

example : ∃ g : Graph Offset SquareAxis DSquareAxis Nat Nat, Built (squareShape m64 3 2) (squareLat 3 2) g exK ∧
    (outEdges (squareLat 3 2) exK ⟨1, 0⟩).map EdgeRef.target = [⟨2, 0⟩, ⟨1, 1⟩, ⟨0, 0⟩] ∧ g.edgeWeight ⟨0, 0⟩ .X = .ok (some 1000) := by
  obtain ⟨g, hb⟩ := exSquare
  have hn : (squareLat 3 2).Node ⟨1, 0⟩ := ⟨1, 0, by decide, by decide, rfl⟩
  exact ⟨g, hb, (c10_targets (.square _ _ _) hb hn).1,
    (c10_edge_exact (.square _ _ _) hb hn (r := ⟨⟨1, 0⟩, ⟨0, 0⟩, 1000, .RX⟩) (by decide)).2.2.2 (by decide)⟩

example : ∃ g : Graph Offset SquareAxis DSquareAxis Nat Nat, Built (squareShape m64 3 2) (squareLat 3 2) g exK ∧
    (⟨⟨0, 0⟩, ⟨1, 0⟩, 1000, .X⟩ : EdgeRef Offset DSquareAxis Nat) ∈ outEdges (squareLat 3 2) exK ⟨0, 0⟩ ∧
    ∃ it l, g.edgesOf ⟨0, 0⟩ = .ok it ∧ Yields (edgesNext g) it l ∧ ∃ r ∈ l, r.target = ⟨1, 0⟩ ∧ r.direction = .X ∧ r.weight = 1000 := by
  obtain ⟨g, hb⟩ := exSquare
  have hn : (squareLat 3 2).Node ⟨1, 0⟩ := ⟨1, 0, by decide, by decide, rfl⟩
  have hu : g.isDirected = false := by rw [Graph.isDirected, (hb.good (.square _ _ _)).shape]; rfl
  have hr : (⟨⟨1, 0⟩, ⟨0, 0⟩, 1000, .RX⟩ : EdgeRef Offset DSquareAxis Nat) ∈ outEdges (squareLat 3 2) exK ⟨1, 0⟩ := by decide
  obtain ⟨it, h1, h2⟩ := c10_edges (.square _ _ _) hb hn
  obtain ⟨it', l', h3, h4, r', h5, -, h6⟩ := c11_undirected_iter (.square _ _ _) hb hu hn h1 h2 hr
  exact ⟨g, hb, (c11_undirected_weight (.square _ _ _) hb hu hn hr).2, it', l', h3, h4, r', h5, h6⟩

example : ∃ g : Graph Offset SquareAxis DSquareAxis Nat Nat, Built (squareShape m64 3 2) (squareLat 3 2) g exK ∧
    (∃ it, g.edgesDirected ⟨2, 1⟩ .outgoing = .ok it ∧ Yields (edgesNext g) it [⟨⟨2, 1⟩, ⟨1, 1⟩, 1011, .RX⟩, ⟨⟨2, 1⟩, ⟨2, 0⟩, 2020, .RY⟩]) ∧
    (inEdges (squareLat 3 2) exK ⟨2, 1⟩).map EdgeRef.source = [⟨1, 1⟩, ⟨2, 0⟩] := by
  obtain ⟨g, hb⟩ := exSquare
  have hn : (squareLat 3 2).Node ⟨2, 1⟩ := ⟨2, 1, by decide, by decide, rfl⟩
  exact ⟨g, hb, c12_outgoing (.square _ _ _) hb hn, (c12_incoming_exact (.square _ _ _) hb hn).1⟩

example : ∃ g : Graph Offset SquareAxis DSquareAxis Nat Nat, Built (squareShape m64 3 2) (squareLat 3 2) g exK ∧
    (⟨1, 1⟩, .X) ∈ (squareLat 3 2).edgeKeys ∧ (⟨1, 1⟩, .Y) ∉ (squareLat 3 2).edgeKeys ∧ g.edgeWeight ⟨1, 1⟩ .X = .ok (some 1011) ∧
    ∃ c a, (⟨⟨1, 1⟩, ⟨2, 1⟩, 1011, .X⟩ : EdgeRef Offset DSquareAxis Nat).id g.s.axis = .ok (c, a) ∧ g.edgeWeight c a = .ok (some 1011) := by
  obtain ⟨g, hb⟩ := exSquare
  have hr : (⟨⟨1, 1⟩, ⟨2, 1⟩, 1011, .X⟩ : EdgeRef Offset DSquareAxis Nat) ∈ allEdges (squareLat 3 2) exK := by decide
  exact ⟨g, hb, ((c13_keys (.square _ _ _) hb).2.2 _ _).2 ⟨⟨1, 1, by decide, by decide, rfl⟩, by decide⟩,
    fun h => absurd (((c13_keys (.square _ _ _) hb).2.2 _ _).1 h).2 (by decide), (c13_edge_exact (.square _ _ _) hb hr).2.2,
    c15_edge_references_id (.square _ _ _) hb hr⟩

/-- Directed: every edge is seen from one end only. -/
example : ∃ g : Graph Offset DSquareAxis DSquareAxis Nat Nat, Built (squareShapeDirected m64 3 2) (squareLatDirected 3 2) g exKD ∧
    ((squareLatDirected 3 2).nodes.map fun c => (outEdges (squareLatDirected 3 2) exKD c).length).sum = 14 ∧
    (if g.isDirected then 1 else 2) * (allEdges (squareLatDirected 3 2) exKD).length = 14 ∧
    ∃ c x, (⟨⟨1, 0⟩, ⟨0, 0⟩, 3010, .RX⟩ : EdgeRef Offset DSquareAxis Nat).id g.s.axis = .ok (c, x) ∧ g.edgeWeight c x = .ok (some 3010) := by
  obtain ⟨g, hb⟩ := exSquareD m64 rfl
  have hd : g.isDirected = true := by rw [Graph.isDirected, (hb.good (.squareDirected _ _ _)).shape]; rfl
  have h := c14_handshake (.squareDirected _ _ _) hb
  have h14 : ((squareLatDirected 3 2).nodes.map fun c => (outEdges (squareLatDirected 3 2) exKD c).length).sum = 14 := by decide
  exact ⟨g, hb, h14, h.symm.trans h14,
    c15_edges_id_directed (.squareDirected _ _ _) hb hd (a := ⟨1, 0⟩) ⟨1, 0, by decide, by decide, rfl⟩ (by decide)⟩
example : ∃ g : Graph Offset SquareAxis DSquareAxis Nat Nat, Built (squareShape m64 3 2) (squareLat 3 2) g exK ∧
    ((squareLat 3 2).nodes.map fun c => (outEdges (squareLat 3 2) exK c).length).sum =
      (if g.isDirected then 1 else 2) * (allEdges (squareLat 3 2) exK).length := by
  obtain ⟨g, hb⟩ := exSquare
  exact ⟨g, hb, c14_handshake_iter (.square _ _ _) hb (fun a ha => c10_edges (.square _ _ _) hb ha) (c13_edge_references (.square _ _ _) hb)⟩

/-- Among the incoming edges of (1,0) the one from (0,0) has a usable id and that from
(1,1) the id of no edge; so has an outgoing one of (2,1). -/
example : ∃ g : Graph Offset SquareAxis DSquareAxis Nat Nat, Built (squareShape m64 3 2) (squareLat 3 2) g exK ∧
    (∃ c x, (⟨⟨0, 0⟩, ⟨1, 0⟩, 1000, .RX⟩ : EdgeRef Offset DSquareAxis Nat).id g.s.axis = .ok (c, x) ∧ g.edgeWeight c x = .ok (some 1000)) ∧
    (⟨⟨1, 1⟩, ⟨1, 0⟩, 2010, .Y⟩ : EdgeRef Offset DSquareAxis Nat).id g.s.axis = .ok (⟨1, 1⟩, .Y) ∧ g.edgeWeight ⟨1, 1⟩ .Y = .ok none ∧
    ∃ r ∈ outEdges (squareLat 3 2) exK ⟨2, 1⟩, ∃ c a, r.id g.s.axis = .ok (c, a) ∧ g.edgeWeight c a = .ok none := by
  obtain ⟨g, hb⟩ := exSquare
  have hn : (squareLat 3 2).Node ⟨1, 0⟩ := ⟨1, 0, by decide, by decide, rfl⟩
  have hu : g.isDirected = false := by rw [Graph.isDirected, (hb.good (.square _ _ _)).shape]; rfl
  obtain ⟨h1, h2, -⟩ := c15_incoming_id_wrong (.square _ _ _) hb hu hn
    (r := (⟨⟨1, 1⟩, ⟨1, 0⟩, 2010, .Y⟩ : EdgeRef Offset DSquareAxis Nat)) (by decide) (by decide)
  exact ⟨g, hb, c15_incoming_id_partial (.square _ _ _) hb hu hn (by decide) (by decide), h1, h2, c15_counterexample hb (by decide) (by decide)⟩
example : ∃ g : Graph Offset DSquareAxis DSquareAxis Nat Nat, Built (squareShapeDirected m64r 3 2) (squareLatDirected 3 2) g exKD ∧
    (⟨⟨2, 0⟩, ⟨1, 0⟩, 3020, .X⟩ : EdgeRef Offset DSquareAxis Nat).id g.s.axis = .ok (⟨2, 0⟩, .X) ∧ g.edgeWeight ⟨2, 0⟩ .X = .ok none := by
  obtain ⟨g, hb⟩ := exSquareD m64r rfl
  have hd : g.isDirected = true := by rw [Graph.isDirected, (hb.good (.squareDirected _ _ _)).shape]; rfl
  obtain ⟨h1, h2, -⟩ := c15_incoming_id_directed_wrong (.squareDirected _ _ _) hb hd (a := ⟨1, 0⟩) ⟨1, 0, by decide, by decide, rfl⟩
    (r := (⟨⟨2, 0⟩, ⟨1, 0⟩, 3020, .X⟩ : EdgeRef Offset DSquareAxis Nat)) (by decide)
  exact ⟨g, hb, h1, h2⟩

end
end LG
