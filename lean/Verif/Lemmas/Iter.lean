import Verif.Lemmas.Access
/- What the iterators yield on good graphs. -/
set_option linter.unusedVariables false
set_option linter.unusedSectionVars false
namespace LG
section
variable {C A D N E σ α : Type} [DecidableEq C] [DecidableEq A] [DecidableEq D]

theorem Yields.congr_head {σ α : Type} {next : σ → Res (Option α × σ)} {s s' : σ} {l : List α} (h : next s = next s')
    (hy : Yields next s' l) : Yields next s l := by
  cases hy with
  | done h1 => exact .done (h.trans h1)
  | step h1 h2 => exact .step (h.trans h1) h2

variable {g : Graph C A D N E} {s : Shape C A D} {L : Lat C A D} {rep : C → Prop} {k : Contents C A N E}

/-! ### Nodes -/

theorem ImplBase.indexToCoordinate (hi : ImplBase s L rep) {i : Nat} (h : i < L.width * L.height) :
    s.indexToCoordinate i = .ok (L.at i) := by
  simp only [Shape.indexToCoordinate, hi.indexToOffset h, bind, Except.bind, hi.offsetAt h]

theorem nodeIndicesNext_lt (hi : ImplBase s L rep) {i : Nat} (h : i < L.width * L.height) :
    nodeIndicesNext s i = .ok (some (L.at i), i + 1) := by
  simp only [nodeIndicesNext, hi.nodeCount, bind, Except.bind, h, if_true, hi.indexToCoordinate h]

theorem nodeIndicesNext_ge (hi : ImplBase s L rep) {i : Nat} (h : ¬ i < L.width * L.height) :
    nodeIndicesNext s i = .ok (none, i) := by
  simp only [nodeIndicesNext, hi.nodeCount, bind, Except.bind, h, if_false]

theorem nodeIndices_yields (hi : ImplBase s L rep) : ∀ (n i : Nat), i + n = L.width * L.height →
    Yields (nodeIndicesNext s) i ((List.range' i n).map L.at)
  | 0, i, h => .done (nodeIndicesNext_ge hi (by omega))
  | n + 1, i, h => .step (nodeIndicesNext_lt hi (by omega)) (nodeIndices_yields hi n (i + 1) (by omega))

theorem nodeRefsNext_lt (hi : ImplBase g.s L rep) (hinv : Inv g L k) (ht : Total L k) {i : Nat}
    (h : i < L.width * L.height) :
    ∃ w, k.node (L.at i) = some w ∧ nodeRefsNext g i = .ok (some (L.at i, w), i + 1) := by
  obtain ⟨w, h1, h2⟩ := nodeWeightUnchecked_eq hi hinv ht (Lat.at_node h)
  refine ⟨w, h1, ?_⟩
  simp only [nodeRefsNext, hi.nodeCount, bind, Except.bind, h, if_true, hi.indexToCoordinate h, h2]

theorem nodeRefsNext_ge (hi : ImplBase g.s L rep) {i : Nat} (h : ¬ i < L.width * L.height) :
    nodeRefsNext g i = .ok (none, i) := by
  simp only [nodeRefsNext, hi.nodeCount, bind, Except.bind, h, if_false]

theorem nodeRefs_yields (hi : ImplBase g.s L rep) (hinv : Inv g L k) (ht : Total L k) : ∀ (n i : Nat),
    i + n = L.width * L.height →
    Yields (nodeRefsNext g) i (((List.range' i n).map L.at).filterMap fun c => (k.node c).map fun w => (c, w))
  | 0, i, h => .done (nodeRefsNext_ge hi (by omega))
  | n + 1, i, h => by
    obtain ⟨w, h1, h2⟩ := nodeRefsNext_lt hi hinv ht (i := i) (by omega)
    rw [List.range'_succ, List.map_cons, List.filterMap_cons, h1]
    exact .step h2 (nodeRefs_yields hi hinv ht n (i + 1) (by omega))

/-! ### Neighbours -/

theorem neighborsNext_ge (hi : ImplBase s L rep) {c : C} {j : Nat} (h : ¬ j < L.dirs.length) :
    neighborsNext s c j = .ok (none, j) := by
  rw [neighborsNext, dif_neg (by rw [hi.axis.undirectedCount]; exact h)]

theorem neighborsNext_some (hi : ImplBase s L rep) {c : C} (hc : L.Node c) {j : Nat} (h : j < L.dirs.length) {t : C}
    (ht : L.nbr c L.dirs[j] = some t) : neighborsNext s c j = .ok (some t, j + 1) := by
  rw [neighborsNext, dif_pos (by rw [hi.axis.undirectedCount]; exact h)]
  simp only [hi.axis.dirFromIndex j h, bind, Except.bind, hi.move hc, ht]

theorem neighborsNext_none (hi : ImplBase s L rep) {c : C} (hc : L.Node c) {j : Nat} (h : j < L.dirs.length)
    (ht : L.nbr c L.dirs[j] = none) : neighborsNext s c j = neighborsNext s c (j + 1) := by
  rw [neighborsNext, dif_pos (by rw [hi.axis.undirectedCount]; exact h)]
  simp only [hi.axis.dirFromIndex j h, bind, Except.bind, hi.move hc, ht]

theorem neighbors_yields (hi : ImplBase s L rep) {c : C} (hc : L.Node c) : ∀ (n j : Nat), j + n = L.dirs.length →
    Yields (neighborsNext s c) j ((L.dirs.drop j).filterMap (L.nbr c))
  | 0, j, h => by
    rw [List.drop_eq_nil_of_le (by omega)]
    exact .done (neighborsNext_ge hi (by omega))
  | n + 1, j, h => by
    have hj : j < L.dirs.length := by omega
    rw [List.drop_eq_getElem_cons hj, List.filterMap_cons]
    cases ht : L.nbr c L.dirs[j] with
    | none => exact .congr_head (neighborsNext_none hi hc hj ht) (neighbors_yields hi hc n (j + 1) (by omega))
    | some t => exact .step (neighborsNext_some hi hc hj ht) (neighbors_yields hi hc n (j + 1) (by omega))

/-! ### Adjacency -/

theorem getDirectionFrom_eq (hi : ImplBase s L rep) {a b : C} (ha : L.Node a) : ∀ (n j : Nat), j + n = L.dirs.length →
    getDirectionFrom s.axis s.moveCoord a b (List.range' j n) =
      .ok ((L.dirs.drop j).find? fun d => decide (L.nbr a d = some b))
  | 0, j, h => by
    rw [List.drop_eq_nil_of_le (by omega)]
    rfl
  | n + 1, j, h => by
    have hj : j < L.dirs.length := by omega
    rw [List.drop_eq_getElem_cons hj, List.range'_succ, getDirectionFrom]
    simp only [hi.axis.dirFromIndex j hj, bind, Except.bind, hi.move ha, List.find?_cons]
    have ih := getDirectionFrom_eq hi ha (b := b) n (j + 1) (by omega)
    cases ht : L.nbr a L.dirs[j] with
    | none => simpa using ih
    | some t =>
      by_cases he : t = b
      · simp [he]
      · simp only [he, if_false, Option.some.injEq, decide_false]; exact ih

theorem getDirection_eq (hi : ImplBase s L rep) {a b : C} (ha : L.Node a) :
    s.getDirection a b = .ok (L.dirs.find? fun d => decide (L.nbr a d = some b)) := by
  unfold Shape.getDirection getDirectionOf
  rw [hi.axis.undirectedCount, List.range_eq_range', getDirectionFrom_eq hi ha _ 0 (by omega)]
  rfl

theorem isNeighbor_eq (hi : Impl s L rep) {a b : C} (ha : L.Node a) :
    s.isNeighbor a b = .ok (decide (b ∈ L.nbrs a)) := by
  have h := getDirection_eq hi.toImplBase ha (b := b)
  unfold Shape.getDirection at h
  rw [hi.isNeighbor]
  simp only [defaultIsNeighbor, h, bind, Except.bind]
  congr 1
  rw [List.isSome_find?, Bool.eq_iff_iff]
  simp [Lat.nbrs, List.any_eq_true]

/-! ### Edges -/

theorem getElem?_map_fwd {l : List A} {f : A → D} {j : Nat} {a : A} (h : l[j]? = some a) :
    (l.map f)[j]? = some (f a) := by rw [List.getElem?_map, h]; rfl

/-- Where a forward direction sits in the direction list. -/
theorem AxisImpl.index_fwd {ax : Axis A D} (ha : AxisImpl ax L) (hd : DirLaws L) {st : Nat} {d : D}
    (h : L.dirs[st]? = some d) (hf : L.fwd (L.ax d) = d) : st = ax.toIndex (L.ax d) := by
  have h1 := getElem?_map_fwd (f := L.fwd) (ha.toIndex (L.ax d))
  rw [hf] at h1
  have h2 : L.dirs[ax.toIndex (L.ax d)]? = some d := by
    cases hdir : L.directed with
    | true => rw [hd.dirs_dir hdir]; exact h1
    | false =>
      rw [hd.dirs_und hdir, List.getElem?_append_left]
      · exact h1
      · exact (List.getElem?_eq_some_iff.1 h1).1
  exact (List.getElem?_inj (List.getElem?_eq_some_iff.1 h).1 hd.dirs_nodup).1 (h.trans h2.symm)

/-- Where a backward direction sits in the direction list. -/
theorem AxisImpl.index_bwd {ax : Axis A D} (ha : AxisImpl ax L) (hd : DirLaws L) {st : Nat} {d : D}
    (h : L.dirs[st]? = some d) (hf : L.fwd (L.ax d) ≠ d) : st = ax.toIndex (L.ax d) + ax.count := by
  obtain ⟨hdir, hopp⟩ := (hd.fwd_ax d).resolve_left hf
  have h1 := getElem?_map_fwd (f := fun a => L.opp (L.fwd a)) (ha.toIndex (L.ax d))
  simp only [hopp, hd.opp_opp] at h1
  have h2 : L.dirs[ax.toIndex (L.ax d) + ax.count]? = some d := by
    rw [hd.dirs_und hdir, List.getElem?_append_right (by rw [ha.count, List.length_map]; omega), ha.count,
      List.length_map, Nat.add_sub_cancel]
    exact h1
  exact (List.getElem?_inj (List.getElem?_eq_some_iff.1 h).1 hd.dirs_nodup).1 (h.trans h2.symm)

/-- The edge seen in direction `d` is stored. -/
theorem key_hasEdge (hl : LatLaws L) {c t : C} {d : D} (hc : L.Node c) (ht : L.nbr c d = some t) :
    L.HasEdge (L.key c d t).1 (L.key c d t).2 := by
  unfold Lat.key
  split
  · rename_i hf
    exact ⟨hc, by simp [hf, ht]⟩
  · rename_i hf
    obtain ⟨hdir, hopp⟩ := (hl.dir.fwd_ax d).resolve_left hf
    refine ⟨hl.nbr_node hc ht, ?_⟩
    simp [hopp, hl.nbr_opp hc ht]

/-- Storage position of the edge seen in direction `d`. -/
theorem defaultRawId_eq (hl : DirLaws L) (hi : ImplBase s L rep) {x y : Nat} (hx : x < L.width) (hy : y < L.height) {d : D}
    {t : C} (ht : L.Node (L.key (L.coord x y) d t).1) {st : Nat} (hst : L.dirs[st]? = some d) :
    ∃ x' y', x' < L.width ∧ y' < L.height ∧ L.coord x' y' = (L.key (L.coord x y) d t).1 ∧
      (L.key (L.coord x y) d t).2 = L.ax d ∧
      defaultRawId s d ⟨x, y⟩ t st = .ok (⟨x', y'⟩, s.axis.toIndex (L.ax d)) := by
  unfold Lat.key at ht
  unfold Lat.key defaultRawId
  simp only [hi.axis.isForward, bind, Except.bind, decide_eq_true_eq]
  by_cases hf : L.fwd (L.ax d) = d
  · simp only [hf, if_true]
    exact ⟨x, y, hx, hy, rfl, trivial, by rw [← hi.axis.index_fwd hl hst hf]⟩
  · simp only [hf, if_false] at ht ⊢
    obtain ⟨x', y', hx', hy', rfl⟩ := ht
    refine ⟨x', y', hx', hy', rfl, trivial, ?_⟩
    rw [hi.toOffsetUnchecked hx' hy']
    have := hi.axis.index_bwd hl hst hf
    simp only
    rw [usub_ok (by omega)]
    simp only [this, Nat.add_sub_cancel]

/-- The default marker behaviour applies, except for `Incoming` on a directed graph. -/
def Dt.plain (dt : Dt) (directed : Bool) : Prop := ¬ (dt = .dir .incoming ∧ directed = true)

theorem getRawId_plain {dt : Dt} (hp : dt.plain s.axis.directed) (d : D) (o : Offset) (t : C) (st : Nat) :
    dt.getRawId s d o t st = defaultRawId s d o t st := by
  unfold Dt.getRawId
  split
  · rename_i h1
    exact absurd ⟨rfl, by assumption⟩ hp
  · rfl

/-- Orientation of the reported edge. -/
def edgeRefOf (dt : Dt) (c t : C) (w : E) (d : D) : EdgeRef C D E :=
  if dt.needReverse then ⟨t, c, w, d⟩ else ⟨c, t, w, d⟩

/-- Building the reference of an edge that is stored. -/
theorem edgesMake_of (hd : DirLaws L) (hi : ImplBase g.s L rep) (hinv : Inv g L k) {x y : Nat}
    (hx : x < L.width) (hy : y < L.height) {d : D} {t : C} (htn : L.Node (L.key (L.coord x y) d t).1) {st : Nat}
    (hst : L.dirs[st]? = some d) {dt : Dt} (hp : dt.plain g.s.axis.directed) {w : E}
    (hw : k.edge (L.key (L.coord x y) d t).1 (L.key (L.coord x y) d t).2 = some w) :
    edgesMake g ⟨L.coord x y, ⟨x, y⟩, st, dt⟩ d t = .ok (edgeRefOf dt (L.coord x y) t w d) := by
  obtain ⟨x', y', hx', hy', h1, h2, h3⟩ := defaultRawId_eq hd hi hx hy htn hst
  rw [← h1, h2] at hw
  have he := edgeWeightUncheckedRaw_eq hi hinv hx' hy' hw
  unfold edgesMake
  simp only [getRawId_plain hp, h3, bind, Except.bind, hi.axis.fromDirection, debugAssert, beq_self_eq_true, if_true]
  cases g.s.m.mode <;> simp only [he, edgeRefOf] <;> split <;> simp_all

/-- Building the reference of an edge whose slot was never written. -/
theorem edgesMake_unstored (hd : DirLaws L) (hi : ImplBase g.s L rep) (hinv : Inv g L k) {x y : Nat}
    (hx : x < L.width) (hy : y < L.height) {d : D} {t : C} (htn : L.Node (L.key (L.coord x y) d t).1) {st : Nat}
    (hst : L.dirs[st]? = some d) {dt : Dt} (hp : dt.plain g.s.axis.directed)
    (hw : k.edge (L.key (L.coord x y) d t).1 (L.key (L.coord x y) d t).2 = none) :
    edgesMake g ⟨L.coord x y, ⟨x, y⟩, st, dt⟩ d t = .error .ub := by
  obtain ⟨x', y', hx', hy', h1, h2, h3⟩ := defaultRawId_eq hd hi hx hy htn hst
  rw [← h1, h2] at hw
  have he : g.edgeWeightUncheckedRaw ⟨x', y'⟩ (g.s.axis.toIndex (L.ax d)) = .error .ub := by
    obtain ⟨arr, h1, h2⟩ := hi.axis.getEdgeArr hinv (L.ax d) rfl
    simp only [Graph.edgeWeightUncheckedRaw, bind, Except.bind, h1]
    exact h2.getUnwrapUnchecked_none hx' hy' hw
  unfold edgesMake
  simp only [getRawId_plain hp, h3, bind, Except.bind, hi.axis.fromDirection, debugAssert, beq_self_eq_true, if_true]
  cases g.s.m.mode <;> simp only [he]

theorem edgesMake_plain (hl : LatLaws L) (hi : ImplBase g.s L rep) (hinv : Inv g L k) (ht : Total L k) {x y : Nat}
    (hx : x < L.width) (hy : y < L.height) {d : D} {t : C} (hn : L.nbr (L.coord x y) d = some t) {st : Nat}
    (hst : L.dirs[st]? = some d) {dt : Dt} (hp : dt.plain g.s.axis.directed) :
    ∃ w, k.edge (L.key (L.coord x y) d t).1 (L.key (L.coord x y) d t).2 = some w ∧
      edgesMake g ⟨L.coord x y, ⟨x, y⟩, st, dt⟩ d t = .ok (edgeRefOf dt (L.coord x y) t w d) := by
  have hk := key_hasEdge hl ⟨x, y, hx, hy, rfl⟩ hn
  obtain ⟨w, hw⟩ := ht.edge_some hk
  exact ⟨w, hw, edgesMake_of hl.dir hi hinv hx hy hk.1 hst hp hw⟩

theorem edgesMake_incoming (hl : LatLaws L) (hi : ImplBase g.s L rep) (hinv : Inv g L k) (ht : Total L k)
    (hdir : L.directed = true) (hmode : g.s.m.mode = .release) {x y : Nat}
    (hx : x < L.width) (hy : y < L.height) {d : D} {t : C} (hn : L.nbr (L.coord x y) d = some t) {st : Nat}
    (hst : L.dirs[st]? = some d) :
    ∃ w, k.edge (L.key t (L.opp d) (L.coord x y)).1 (L.key t (L.opp d) (L.coord x y)).2 = some w ∧
      edgesMake g ⟨L.coord x y, ⟨x, y⟩, st, .dir .incoming⟩ d t = .ok ⟨t, L.coord x y, w, d⟩ := by
  have hnode : L.Node (L.coord x y) := ⟨x, y, hx, hy, rfl⟩
  have htn := hl.nbr_node hnode hn
  obtain ⟨w, hw⟩ := ht.edge_some (key_hasEdge hl htn (hl.nbr_opp hnode hn))
  refine ⟨w, hw, ?_⟩
  have hfw : ∀ d', L.fwd (L.ax d') = d' := fun d' => (hl.dir.fwd_ax d').resolve_right (by simp [hdir])
  obtain ⟨x', y', hx', hy', rfl⟩ := htn
  simp only [Lat.key, hfw, if_true] at hw
  have he := edgeWeightUncheckedRaw_eq hi hinv hx' hy' hw
  have hidx := hi.axis.index_fwd hl.dir (hi.axis.dirToIndex (L.opp d)) (hfw _)
  unfold edgesMake Dt.getRawId
  simp only [hi.axis.directed, hdir, bind, Except.bind, hi.axis.fromDirection, hi.axis.backward, hfw,
    hi.toOffsetUnchecked hx' hy', hidx, hmode, he, Dt.needReverse, if_true]

theorem edgesMake_incoming_debug (hl : LatLaws L) (hi : ImplBase g.s L rep)
    (hdir : L.directed = true) (hmode : g.s.m.mode = .debug) {x y : Nat}
    (hx : x < L.width) (hy : y < L.height) {d : D} {t : C} (hn : L.nbr (L.coord x y) d = some t) {st : Nat}
    (hst : L.dirs[st]? = some d) :
    edgesMake g ⟨L.coord x y, ⟨x, y⟩, st, .dir .incoming⟩ d t = .error .panic := by
  have hnode : L.Node (L.coord x y) := ⟨x, y, hx, hy, rfl⟩
  have hfw : ∀ d', L.fwd (L.ax d') = d' := fun d' => (hl.dir.fwd_ax d').resolve_right (by simp [hdir])
  obtain ⟨x', y', hx', hy', rfl⟩ := hl.nbr_node hnode hn
  have hidx := hi.axis.index_fwd hl.dir (hi.axis.dirToIndex (L.opp d)) (hfw _)
  have hne : (g.s.axis.toIndex (L.ax d) == g.s.axis.toIndex (L.ax (L.opp d))) = false := by
    rw [beq_eq_false_iff_ne]
    intro he
    have h1 := hi.axis.toIndex (L.ax d)
    rw [he, hi.axis.toIndex] at h1
    have h2 := congrArg (Option.map L.fwd) h1
    simp only [Option.map_some, hfw, Option.some.injEq] at h2
    exact hl.dir.opp_ne d h2
  unfold edgesMake Dt.getRawId
  simp only [hi.axis.directed, hdir, bind, Except.bind, hi.axis.fromDirection, hi.axis.backward, hfw,
    hi.toOffsetUnchecked hx' hy', hidx, hmode, debugAssert, hne]
  simp

theorem edgesNext_ge {it : EdgesIt C} (h : ¬ it.state < edgesBound g.s it.dt) : edgesNext g it = .ok (none, it) := by
  rw [edgesNext, dif_neg h]

theorem edgesNext_some (hi : ImplBase g.s L rep) {it : EdgesIt C} (hc : L.Node it.node)
    (h : it.state < edgesBound g.s it.dt) (hj : it.state < L.dirs.length) {t : C}
    (ht : L.nbr it.node L.dirs[it.state] = some t) {r : EdgeRef C D E}
    (hr : edgesMake g it L.dirs[it.state] t = .ok r) :
    edgesNext g it = .ok (some r, { it with state := it.state + 1 }) := by
  rw [edgesNext, dif_pos h]
  simp only [hi.axis.dirFromIndex _ hj, bind, Except.bind, hi.move hc, ht, hr]

theorem edgesNext_none (hi : ImplBase g.s L rep) {it : EdgesIt C} (hc : L.Node it.node)
    (h : it.state < edgesBound g.s it.dt) (hj : it.state < L.dirs.length)
    (ht : L.nbr it.node L.dirs[it.state] = none) :
    edgesNext g it = edgesNext g { it with state := it.state + 1 } := by
  rw [edgesNext, dif_pos h]
  simp only [hi.axis.dirFromIndex _ hj, bind, Except.bind, hi.move hc, ht]

theorem edgesBound_le (hi : ImplBase g.s L rep) (hd : DirLaws L) (dt : Dt) : edgesBound g.s dt ≤ L.dirs.length := by
  unfold edgesBound
  split
  · rw [hi.axis.count]
    cases h : L.directed with
    | true => rw [hd.dirs_dir h, List.length_map]; omega
    | false => rw [hd.dirs_und h, List.length_append, List.length_map]; omega
  · rw [hi.axis.undirectedCount]; omega

/-- Generic form: if every step produces the expected reference, the iterator yields the expected list. -/
theorem edges_yields_of (hi : ImplBase g.s L rep) (hd : DirLaws L) {x y : Nat} (hx : x < L.width) (hy : y < L.height)
    {dt : Dt} (item : D → C → Option (EdgeRef C D E))
    (hm : ∀ {st d t}, st < edgesBound g.s dt → L.dirs[st]? = some d → L.nbr (L.coord x y) d = some t →
      ∃ r, item d t = some r ∧ edgesMake g ⟨L.coord x y, ⟨x, y⟩, st, dt⟩ d t = .ok r) :
    ∀ (n j : Nat), j + n = edgesBound g.s dt →
    Yields (edgesNext g) ⟨L.coord x y, ⟨x, y⟩, j, dt⟩
      (((L.dirs.take (edgesBound g.s dt)).drop j).filterMap fun d => (L.nbr (L.coord x y) d).bind fun t => item d t)
  | 0, j, h => by
    rw [List.drop_eq_nil_of_le (by rw [List.length_take]; omega)]
    exact .done (edgesNext_ge (by simp only; omega))
  | n + 1, j, h => by
    have hb := edgesBound_le hi hd dt
    have hj : j < L.dirs.length := by omega
    have hlt : j < (L.dirs.take (edgesBound g.s dt)).length := by rw [List.length_take]; omega
    have ih := edges_yields_of hi hd hx hy item hm n (j + 1) (by omega)
    have hnode : L.Node (L.coord x y) := ⟨x, y, hx, hy, rfl⟩
    rw [List.drop_eq_getElem_cons hlt, List.getElem_take, List.filterMap_cons]
    cases ht : L.nbr (L.coord x y) L.dirs[j] with
    | none =>
      exact .congr_head (edgesNext_none (it := ⟨L.coord x y, ⟨x, y⟩, j, dt⟩) hi hnode (by simp only; omega) hj ht) ih
    | some t =>
      obtain ⟨r, h1, h2⟩ := hm (by omega) (List.getElem?_eq_getElem hj) ht
      simp only [Option.bind_some, h1]
      exact .step (edgesNext_some (it := ⟨L.coord x y, ⟨x, y⟩, j, dt⟩) hi hnode (by simp only; omega) hj ht h2) ih

theorem edges_yields_plain (hl : LatLaws L) (hi : ImplBase g.s L rep) (hinv : Inv g L k) (ht : Total L k) {x y : Nat}
    (hx : x < L.width) (hy : y < L.height) {dt : Dt} (hp : dt.plain g.s.axis.directed) {n j : Nat}
    (hj : j + n = edgesBound g.s dt) :
    Yields (edgesNext g) ⟨L.coord x y, ⟨x, y⟩, j, dt⟩
      (((L.dirs.take (edgesBound g.s dt)).drop j).filterMap fun d => (L.nbr (L.coord x y) d).bind fun t =>
        (k.edge (L.key (L.coord x y) d t).1 (L.key (L.coord x y) d t).2).map
          fun w => edgeRefOf dt (L.coord x y) t w d) := by
  refine edges_yields_of hi hl.dir hx hy (fun d t =>
    (k.edge (L.key (L.coord x y) d t).1 (L.key (L.coord x y) d t).2).map
      fun w => edgeRefOf dt (L.coord x y) t w d) ?_ n j hj
  intro st d t _ hst hn
  obtain ⟨w, h1, h2⟩ := edgesMake_plain hl hi hinv ht hx hy hn hst hp
  exact ⟨_, by rw [h1]; rfl, h2⟩

theorem dirs_take_all (hi : ImplBase g.s L rep) {dt : Dt} (h : dt.isDirected = false) :
    L.dirs.take (edgesBound g.s dt) = L.dirs := by
  unfold edgesBound
  rw [h, if_neg (by simp), hi.axis.undirectedCount, List.take_length]

theorem dirs_take_axis (hi : ImplBase g.s L rep) (hd : DirLaws L) : L.dirs.take (edgesBound g.s .axis) = L.axes.map L.fwd := by
  have hb : edgesBound g.s .axis = L.axes.length := by
    rw [← hi.axis.count]; rfl
  rw [hb]
  cases h : L.directed with
  | true => rw [hd.dirs_dir h, ← List.length_map (f := L.fwd), List.take_length]
  | false =>
    rw [hd.dirs_und h, List.take_append_of_le_length (by rw [List.length_map]; exact Nat.le_refl _),
      ← List.length_map (f := L.fwd), List.take_length]

/-- In an undirected lattice an edge has the same key seen from either end. -/
theorem key_symm (hd : DirLaws L) (hdir : L.directed = false) (c t : C) (d : D) :
    L.key t (L.opp d) c = L.key c d t := by
  have key : ∀ d, L.ax (L.opp d) = L.ax d := by
    intro d
    rcases hd.fwd_ax d with h | ⟨_, h⟩
    · rcases hd.fwd_ax (L.opp d) with h' | ⟨_, h'⟩
      · exfalso
        -- both `d` and `opp d` would be forward directions, so `opp d` would occur twice in `dirs`
        have hnd := hd.dirs_nodup
        rw [hd.dirs_und hdir, List.nodup_append] at hnd
        refine hnd.2.2 (L.opp d) ?_ (L.opp d) ?_ rfl
        · exact List.mem_map.2 ⟨L.ax (L.opp d), hd.axes_mem _, h'⟩
        · exact List.mem_map.2 ⟨L.ax d, hd.axes_mem _, by rw [h]⟩
      · rw [hd.opp_opp] at h'
        have := hd.ax_fwd (L.ax (L.opp d))
        rw [h'] at this
        exact this.symm
    · have := hd.ax_fwd (L.ax d)
      rw [h] at this
      exact this
  unfold Lat.key
  rw [key d]
  rcases hd.fwd_ax d with h | ⟨_, h⟩
  · rw [h, if_neg (Ne.symm (hd.opp_ne d)), if_pos rfl]
  · rw [h, if_pos rfl, if_neg (hd.opp_ne d)]

/-! ### All edges -/

theorem edgesNewUnchecked_eq (hi : ImplBase g.s L rep) {x y : Nat} (hx : x < L.width) (hy : y < L.height) :
    edgesNewUnchecked g (L.coord x y) = .ok ⟨L.coord x y, ⟨x, y⟩, 0, .axis⟩ := by
  simp only [edgesNewUnchecked, hi.toOffset_coord hx hy, bind, Except.bind]

theorem edgesNewD_eq (hi : ImplBase g.s L rep) {x y : Nat} (hx : x < L.width) (hy : y < L.height) (dt : Dt) :
    edgesNewD g (L.coord x y) dt = .ok ⟨L.coord x y, ⟨x, y⟩, 0, dt⟩ := by
  simp only [edgesNewD, hi.toOffset_coord hx hy, bind, Except.bind]

/-- Edges stored at one node. -/
def nodeEdges (L : Lat C A D) (k : Contents C A N E) (c : C) : List (EdgeRef C D E) :=
  L.axes.filterMap fun a => (L.nbr c (L.fwd a)).bind fun t => (k.edge c a).map fun w => ⟨c, t, w, L.fwd a⟩

/-- The first `COUNT` directions are the forward ones. -/
theorem dirs_axis (hd : DirLaws L) {st : Nat} (h : st < L.axes.length) {d : D} (hst : L.dirs[st]? = some d) :
    L.fwd (L.ax d) = d := by
  have h1 : L.dirs[st]? = (L.axes.map L.fwd)[st]? := by
    cases hdir : L.directed with
    | true => rw [hd.dirs_dir hdir]
    | false => rw [hd.dirs_und hdir, List.getElem?_append_left (by simpa using h)]
  rw [h1, List.getElem?_map, List.getElem?_eq_getElem h] at hst
  cases hst
  rw [hd.ax_fwd]

theorem axis_yields (hd : DirLaws L) (hi : ImplBase g.s L rep) (hinv : Inv g L k) (ht : Total L k) {x y : Nat}
    (hx : x < L.width) (hy : y < L.height) :
    Yields (edgesNext g) ⟨L.coord x y, ⟨x, y⟩, 0, .axis⟩ (nodeEdges L k (L.coord x y)) := by
  have h := edges_yields_of hi hd hx hy (dt := .axis) (fun d t =>
    (k.edge (L.coord x y) (L.ax d)).map fun w => (⟨L.coord x y, t, w, d⟩ : EdgeRef C D E)) (by
      intro st d t hlt hst hn
      have hb : edgesBound g.s .axis = L.axes.length := by rw [← hi.axis.count]; rfl
      have hf := dirs_axis hd (by omega) hst
      have hk : L.key (L.coord x y) d t = (L.coord x y, L.ax d) := by unfold Lat.key; rw [if_pos hf]
      have hnode : L.Node (L.coord x y) := ⟨x, y, hx, hy, rfl⟩
      obtain ⟨w, hw⟩ := ht.edge_some (c := L.coord x y) (a := L.ax d) ⟨hnode, by rw [hf, hn]; rfl⟩
      exact ⟨_, by rw [hw]; rfl, edgesMake_of hd hi hinv hx hy (t := t) (by rw [hk]; exact hnode) hst (by simp [Dt.plain])
        (by rw [hk]; exact hw)⟩) (edgesBound g.s .axis) 0 (Nat.zero_add _)
  rw [List.drop_zero, dirs_take_axis hi hd, List.filterMap_map] at h
  have e : (nodeEdges L k (L.coord x y)) = List.filterMap ((fun d => (L.nbr (L.coord x y) d).bind fun t =>
      (k.edge (L.coord x y) (L.ax d)).map fun w => (⟨L.coord x y, t, w, d⟩ : EdgeRef C D E)) ∘ L.fwd) L.axes := by
    unfold nodeEdges
    congr 1
    funext a
    simp only [Function.comp, hd.ax_fwd]
  rw [e]
  exact h

theorem edgeRefsNext_step (hi : ImplBase g.s L rep) {e : Option (EdgesIt C)} {i : Nat} {r : EdgeRef C D E}
    {e' : Option (EdgesIt C)} (h : edgeRefsPoll g e = .ok (some r, e')) :
    edgeRefsNext g ⟨e, i⟩ = .ok (some r, ⟨e', i⟩) := by
  unfold edgeRefsNext
  rw [hi.nodeCount]
  simp only [bind, Except.bind]
  rw [edgeRefsLoop]
  simp only [h, bind, Except.bind]

theorem edgeRefsNext_skip (hi : ImplBase g.s L rep) {e e' : Option (EdgesIt C)} {i : Nat}
    (h : edgeRefsPoll g e = .ok (none, e')) (hlt : i < L.width * L.height) :
    edgeRefsNext g ⟨e, i⟩ = edgeRefsNext g ⟨some ⟨L.at i, ⟨i / L.height, i % L.height⟩, 0, .axis⟩, i + 1⟩ := by
  unfold edgeRefsNext
  rw [hi.nodeCount]
  simp only [bind, Except.bind]
  rw [edgeRefsLoop]
  have h1 := edgesNewUnchecked_eq hi (div_lt_w hlt) (mod_lt_h hlt)
  rw [show L.coord (i / L.height) (i % L.height) = L.at i from rfl] at h1
  simp only [h, bind, Except.bind, hlt, dif_pos, hi.indexToCoordinate hlt, h1]

theorem edgeRefsNext_end (hi : ImplBase g.s L rep) {e e' : Option (EdgesIt C)} {i : Nat}
    (h : edgeRefsPoll g e = .ok (none, e')) (hge : ¬ i < L.width * L.height) :
    edgeRefsNext g ⟨e, i⟩ = .ok (none, ⟨e', i⟩) := by
  unfold edgeRefsNext
  rw [hi.nodeCount]
  simp only [bind, Except.bind]
  rw [edgeRefsLoop]
  simp only [h, bind, Except.bind, hge, dif_neg, not_false_eq_true]

/-- Draining the current node's edges, then going on with the following nodes. -/
theorem edgeRefs_append {l1 l2 : List (EdgeRef C D E)} {i : Nat} (hi : ImplBase g.s L rep)
    (h2 : ∀ {e e' : Option (EdgesIt C)}, edgeRefsPoll g e = .ok (none, e') → Yields (edgeRefsNext g) ⟨e, i⟩ l2)
    {it : EdgesIt C} (h1 : Yields (edgesNext g) it l1) : Yields (edgeRefsNext g) ⟨some it, i⟩ (l1 ++ l2) := by
  induction h1 with
  | @done it it' h =>
    exact h2 (e := some it) (e' := some it') (by simp only [edgeRefsPoll, h, bind, Except.bind])
  | @step it it' r l h _ ih =>
    exact .step (edgeRefsNext_step hi (e := some it) (e' := some it')
      (by simp only [edgeRefsPoll, h, bind, Except.bind])) ih

theorem edgeRefs_yields_from (hl : DirLaws L) (hi : ImplBase g.s L rep) (hinv : Inv g L k) (ht : Total L k) :
    ∀ (n i : Nat), i + n = L.width * L.height → ∀ {e e' : Option (EdgesIt C)}, edgeRefsPoll g e = .ok (none, e') →
    Yields (edgeRefsNext g) ⟨e, i⟩ (((List.range' i n).map L.at).flatMap (nodeEdges L k))
  | 0, i, h, e, e', hp => .done (edgeRefsNext_end hi hp (by omega))
  | n + 1, i, h, e, e', hp => by
    have hlt : i < L.width * L.height := by omega
    refine .congr_head (edgeRefsNext_skip hi hp hlt) ?_
    rw [List.range'_succ, List.map_cons, List.flatMap_cons]
    exact edgeRefs_append hi (fun hp' => edgeRefs_yields_from hl hi hinv ht n (i + 1) (by omega) hp')
      (axis_yields hl hi hinv ht (div_lt_w hlt) (mod_lt_h hlt))

theorem edgeRefs_yields (hl : DirLaws L) (hi : ImplBase g.s L rep) (hinv : Inv g L k) (ht : Total L k) :
    Yields (edgeRefsNext g) edgeRefsInit (allEdges L k) := by
  have h := edgeRefs_yields_from hl hi hinv ht (L.width * L.height) 0 (by omega) (e := none) (e' := none) rfl
  rw [← List.range_eq_range', ← L.nodes_eq] at h
  exact h

end
end LG
