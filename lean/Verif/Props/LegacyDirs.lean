import Verif.Props.LegacyEdges
import Verif.Props.EdgeCount
/- C66, C67: directions, unchecked edge names and edge totals of the deprecated `SquareGraph`. -/
set_option linter.unusedSectionVars false
namespace LG.Sq
section
variable {N E σ α : Type}
variable {g : G N E} {k : Cfg} {s : Grid} {h v : Nat} {c : Contents NodeIx Axis N E}

/-! ### C66 -/

/-- The displacement a direction stands for, as `(horizontal, vertical)`: up and right are positive. -/
def vec : Dir → Int × Int
  | .foward .horizontal => (1, 0)
  | .backward .horizontal => (-1, 0)
  | .foward .vertical => (0, 1)
  | .backward .vertical => (0, -1)

/-- **C66.** The conversions between `SquareDirection` and `(Axis, bool)` are inverse to each other; `up`, `down`, `left`, `right`
are the four unit displacements; `is_horizontal` and `is_vertical` are what they say, for directions and for axes. -/
theorem c66_directions : (∀ d : Dir, Dir.ofPair d.toPair = d) ∧ (∀ p : Axis × Bool, (Dir.ofPair p).toPair = p) ∧
    vec .up = (0, 1) ∧ vec .down = (0, -1) ∧ vec .left = (-1, 0) ∧ vec .right = (1, 0) ∧
    (∀ d : Dir, (d.isHorizontal = true ↔ (vec d).1 ≠ 0) ∧ (d.isVertical = true ↔ (vec d).2 ≠ 0)) ∧
    ∀ p : Axis × Bool, (p.1.isHorizontal = true ↔ (vec (Dir.ofPair p)).1 ≠ 0) ∧
      (p.1.isVertical = true ↔ (vec (Dir.ofPair p)).2 ≠ 0) := by
  refine ⟨?_, ?_, rfl, rfl, rfl, rfl, ?_, ?_⟩
  · rintro ((_ | _) | (_ | _)) <;> rfl
  · rintro ⟨_ | _, _ | _⟩ <;> rfl
  · rintro ((_ | _) | (_ | _)) <;> decide
  · rintro ⟨_ | _, _ | _⟩ <;> decide

/-- The code's move of an index in a direction: the method of that name. -/
def NodeIx.go (k : Cfg) (n : NodeIx) : Dir → Res NodeIx
  | .foward .horizontal => n.right k
  | .backward .horizontal => n.left k
  | .foward .vertical => n.up k
  | .backward .vertical => n.down k

/-- **C66.** Between two nodes, `NodeIndex::up`, `down`, `left`, `right` make exactly the displacement of that name. -/
theorem c66_moves (hb : Built k h v g c) (hf : k.Fits h v) {n t : NodeIx} (hn : (k.grid h v).Node n)
    (ht : (k.grid h v).Node t) {d : Dir} (hx : (t.horizontal : Int) = n.horizontal + (vec d).1)
    (hy : (t.vertical : Int) = n.vertical + (vec d).2) : n.go k d = .ok t := by
  have z := hb.sizes hf
  obtain ⟨a, b⟩ := t
  obtain ⟨x, y⟩ := n
  have t1 := ht.1
  have t2 := ht.2
  rcases d with (_ | _) | (_ | _) <;> simp only [vec] at hx hy <;> simp only at t1 t2
  · obtain rfl : a = x + 1 := by omega
    obtain rfl : b = y := by omega
    exact right_ok z t1
  · obtain rfl : a = x := by omega
    obtain rfl : b = y + 1 := by omega
    exact up_ok z t2
  · obtain rfl : x = a + 1 := by omega
    obtain rfl : b = y := by omega
    exact left_ok z hn (by simp)
  · obtain rfl : a = x := by omega
    obtain rfl : y = b + 1 := by omega
    exact down_ok z hn (by simp)

/-- Going backward from the first cell of an axis. -/
def AtStart (n : NodeIx) : Dir → Prop
  | .backward .horizontal => n.horizontal = 0
  | .backward .vertical => n.vertical = 0
  | .foward _ => False

/-- **C66.** `get_edge_id_unchecked(dir)` (and the safe conversion from `(NodeIndex, SquareDirection)`) on a node with a neighbour
in direction `dir` names the edge to that neighbour, also for forward steps that wrap around. Missing: backward steps from the first
cell of an axis, see below. -/
theorem c66_unchecked_partial (hb : Built k h v g c) (hf : k.Fits h v) {n t : NodeIx} (hn : (k.grid h v).Node n) {d : Dir}
    (ht : (k.grid h v).step n d = some t) (hw : ¬ AtStart n d) :
    n.getEdgeIdUnchecked k d = .ok (Grid.key n t d) ∧ (g.edgeWeight (Grid.key n t d)).isSome := by
  have z := hb.sizes hf
  have hs := hb.stores
  refine ⟨?_, ?_⟩
  · have f1 := z.fit_h
    have f2 := z.fit_v
    have h1 := hn.1
    have h2 := hn.2
    rcases d with (_ | _) | (_ | _)
    · rfl
    · rfl
    · replace hw : n.horizontal ≠ 0 := hw
      rw [step_left hn, if_pos hw] at ht
      cases ht
      simp only [NodeIx.getEdgeIdUnchecked, usub_ok (m := k.m) (show 1 ≤ n.horizontal by omega), bind, Except.bind]
      rw [new_of_lt (by omega)]
      rfl
    · replace hw : n.vertical ≠ 0 := hw
      rw [step_down hn, if_pos hw] at ht
      cases ht
      simp only [NodeIx.getEdgeIdUnchecked, usub_ok (m := k.m) (show 1 ≤ n.vertical by omega), bind, Except.bind]
      rw [new_of_lt (by omega)]
      rfl
  · rw [(weights_eq hb _ _).2]
    exact hs.edge_isSome.2 (Grid.key_hasEdge hn ht)

/-- **C66.** In a forward direction without neighbour, the name it returns is that of no edge: `edge_weight` is `None`. -/
theorem c66_no_neighbour (hb : Built k h v g c) {n : NodeIx} {a : Axis}
    (ht : (k.grid h v).step n (.foward a) = none) :
    ∃ e, n.getEdgeIdUnchecked k (.foward a) = .ok e ∧ g.edgeWeight e = none := by
  refine ⟨⟨n, a⟩, rfl, ?_⟩
  rw [(weights_eq hb _ _).2]
  cases hc : c.edge n a with
  | none => rfl
  | some w =>
    have := (hb.stores.edge_isSome (n := n) (a := a)).1 (by rw [hc]; rfl)
    rw [Grid.HasEdge, ht] at this
    exact absurd this.2 (by simp)

/-- **C66 fails** going backward from the first cell of an axis, whether or not the axis is looped: the conversion, which is safe code,
panics in a debug build; in a release build it returns a name of no edge (on a graph smaller than the index type), while on a looped axis
there is an edge. -/
theorem c66_start_wrong (hb : Built k h v g c) (hf : h < k.ix ∧ v < k.ix) (hx : 2 * k.m.half % k.ix = 0) {n : NodeIx}
    {d : Dir} (hw : AtStart n d) :
    (k.m.mode = .debug → n.getEdgeIdUnchecked k d = .error .panic) ∧
    (k.m.mode = .release → ∃ e, n.getEdgeIdUnchecked k d = .ok e ∧ g.edgeWeight e = none) := by
  have hp := k.ix_pos
  have hm := k.m.half_ge
  have hq : k.new (2 * k.m.half - 1) = k.ix - 1 := by
    unfold Cfg.new
    obtain ⟨q, hq⟩ := Nat.dvd_of_mod_eq_zero hx
    cases q with
    | zero => omega
    | succ q =>
      rw [hq, Nat.mul_succ, show k.ix * q + k.ix - 1 = (k.ix - 1) + k.ix * q by omega, Nat.add_mul_mod_self_left]
      exact Nat.mod_eq_of_lt (by omega)
  have hno : ∀ (e : EdgeIx), ¬ (k.grid h v).HasEdge e.node e.axis → g.edgeWeight e = none := by
    intro e he
    rw [(weights_eq hb e.node e.axis).2]
    cases hc : c.edge e.node e.axis with
    | none => rfl
    | some w => exact absurd (hb.stores.edge_isSome.1 (by rw [hc]; rfl)) he
  rcases d with (_ | _) | (_ | _)
  · exact hw.elim
  · exact hw.elim
  · replace hw : n.horizontal = 0 := hw
    constructor <;> intro hd
    · simp only [NodeIx.getEdgeIdUnchecked, usub, hw, overflow, hd, bind, Except.bind]
      rfl
    · refine ⟨⟨⟨k.ix - 1, n.vertical⟩, .horizontal⟩, ?_, hno _ ?_⟩
      · simp only [NodeIx.getEdgeIdUnchecked, usub, hw, overflow, hd, bind, Except.bind]
        simp only [show ¬ 1 ≤ 0 by omega, if_false, Nat.zero_add, hq]
      · intro he
        have : k.ix - 1 < h := he.1.1
        omega
  · replace hw : n.vertical = 0 := hw
    constructor <;> intro hd
    · simp only [NodeIx.getEdgeIdUnchecked, usub, hw, overflow, hd, bind, Except.bind]
      rfl
    · refine ⟨⟨⟨n.horizontal, k.ix - 1⟩, .vertical⟩, ?_, hno _ ?_⟩
      · simp only [NodeIx.getEdgeIdUnchecked, usub, hw, overflow, hd, bind, Except.bind]
        simp only [show ¬ 1 ≤ 0 by omega, if_false, Nat.zero_add, hq]
      · intro he
        have : k.ix - 1 < v := he.1.2
        omega

example : ∃ (g : G Nat Nat) (c : Contents NodeIx Axis Nat Nat), Built exCfg 3 2 g c ∧
    NodeIx.getEdgeIdUnchecked exCfg ⟨2, 1⟩ .right = .ok ⟨⟨2, 1⟩, .horizontal⟩ ∧
    NodeIx.getEdgeIdUnchecked exCfg ⟨2, 1⟩ .down = .ok ⟨⟨2, 0⟩, .vertical⟩ ∧
    NodeIx.getEdgeIdUnchecked exCfg ⟨0, 1⟩ .left = .error .panic ∧ NodeIx.go exCfg ⟨1, 0⟩ .up = .ok ⟨1, 1⟩ := by
  obtain ⟨g, c, hb, hc⟩ := exGraph exCfg (by decide)
  have hf : exCfg.Fits 3 2 := ⟨by decide, by decide⟩
  exact ⟨g, c, hb, (c66_unchecked_partial hb hf (n := ⟨2, 1⟩) (t := ⟨0, 1⟩) (d := .right) (by decide) (by decide) (fun h => h)).1,
    (c66_unchecked_partial hb hf (n := ⟨2, 1⟩) (t := ⟨2, 0⟩) (d := .down) (by decide) (by decide) (by rintro ⟨⟩)).1,
    (c66_start_wrong hb (n := ⟨0, 1⟩) (d := .left) ⟨by decide, by decide⟩ (by decide) rfl).1 rfl,
    c66_moves hb hf (n := ⟨1, 0⟩) (t := ⟨1, 1⟩) (by decide) (by decide) (by decide) (by decide)⟩

/-! ### C67 -/

/-- The number of edges of a grid. -/
def total (s : Grid) : Nat := (if s.loopH then s.h else s.h - 1) * s.v + s.h * (if s.loopV then s.v else s.v - 1)

theorem edgeKeys_length (s : Grid) (h2 : ∀ e, e ∈ s.edgeKeys ↔ s.HasEdge e.node e.axis) (h1 : s.edgeKeys.Nodup) :
    s.edgeKeys.length = total s := by
  let l : List EdgeIx := (cells s.mh s.v).map (fun n => ⟨n, .horizontal⟩) ++ (cells s.h s.mv).map fun n => ⟨n, .vertical⟩
  have hl : l.length = total s := by
    simp only [l, List.length_append, List.length_map, cells_length]; rfl
  have hm : ∀ e, e ∈ l ↔ e ∈ s.edgeKeys := by
    rintro ⟨n, a⟩
    rw [h2]
    simp only [l, List.mem_append, List.mem_map, mem_cells]
    cases a with
    | horizontal =>
      rw [Grid.hasEdge_h]
      constructor
      · rintro (⟨n', hn, he⟩ | ⟨n', hn, he⟩) <;> cases he
        exact hn
      · intro hn; exact .inl ⟨n, hn, rfl⟩
    | vertical =>
      rw [Grid.hasEdge_v]
      constructor
      · rintro (⟨n', hn, he⟩ | ⟨n', hn, he⟩) <;> cases he
        exact hn
      · intro hn; exact .inr ⟨n, hn, rfl⟩
  have hd : l.Nodup := by
    refine List.nodup_append.2 ⟨?_, ?_, ?_⟩
    · exact nodup_map_of_inj (cells_nodup _ _) (by intro a _ b _ h; cases h; rfl)
    · exact nodup_map_of_inj (cells_nodup _ _) (by intro a _ b _ h; cases h; rfl)
    · intro a ha b hb hab
      obtain ⟨_, _, rfl⟩ := List.mem_map.1 ha
      obtain ⟨_, _, rfl⟩ := List.mem_map.1 hb
      cases hab
  rw [← hl]
  exact Nat.le_antisymm (h1.length_le_of_subset fun e he => (hm e).2 he) (hd.length_le_of_subset fun e he => (hm e).1 he)

/-- **C67.** `edge_references()` yields as many edges as the grid has by the closed formula. -/
theorem c67_edge_count (hb : Built k h v g c) (hf : k.Fits h v) :
    ∃ l, Yields (edgeRefsNext g) (edgeRefsInit g) l ∧ l.length = total (k.grid h v) := by
  obtain ⟨l, h1, h2⟩ := c48_edge_references hb hf
  obtain ⟨e1, e2, e3, _⟩ := c48_exact hb
  refine ⟨l, h1, ?_⟩
  rw [← edgeKeys_length _ e3 e2, ← e1, List.length_map]
  have key : ∀ (l : List (Ref E)) (m : List (View E)), l.mapM (Ref.view k) = .ok m → l.length = m.length := by
    intro l
    induction l with
    | nil => intro m hm; cases hm; rfl
    | cons a l ih =>
      intro m hm
      simp only [List.mapM_cons, bind, Except.bind] at hm
      split at hm
      · cases hm
      · split at hm
        · cases hm
        · rename_i hl
          cases hm
          simp only [List.length_cons, ih _ hl]
  exact key _ _ h2

/-- The number of cells with a neighbour in a direction. -/
def cnt (s : Grid) (d : Dir) : Nat := s.nodes.countP fun n => (s.step n d).isSome

theorem opp_opp (d : Dir) : d.opp.opp = d := by cases d <;> rfl

theorem cnt_le_opp (s : Grid) (d : Dir) : cnt s d ≤ cnt s d.opp := by
  have hn : ∀ n ∈ s.nodes, s.Node n := fun n hn => mem_cells.1 hn
  have hd : (s.nodes.filterMap fun n => s.step n d).Nodup := by
    refine nodup_filterMap_of_inj (cells_nodup _ _) ?_
    intro a ha b hb x hx hy
    have e1 := Grid.step_opp (hn a ha) hx
    have e2 := Grid.step_opp (hn b hb) hy
    rw [e1] at e2
    exact Option.some.inj e2
  have hl : (s.nodes.filterMap fun n => s.step n d).length = cnt s d := filterMap_length_of fun _ => rfl
  unfold cnt at *
  rw [← hl, List.countP_eq_length_filter]
  refine hd.length_le_of_subset ?_
  intro t ht
  obtain ⟨n, hm, hs⟩ := List.mem_filterMap.1 ht
  refine List.mem_filter.2 ⟨mem_cells.2 (Grid.step_node (hn n hm) hs), ?_⟩
  rw [Grid.step_opp (hn n hm) hs]; rfl

theorem cnt_opp_eq (s : Grid) (d : Dir) : cnt s d.opp = cnt s d :=
  Nat.le_antisymm (by have := cnt_le_opp s d.opp; rwa [opp_opp] at this) (cnt_le_opp s d)

theorem cnt_fwd (s : Grid) (a : Axis) : cnt s (.foward a) = (s.nodes.filter fun n => s.HasEdge n a).length := by
  unfold cnt
  rw [List.countP_eq_length_filter]
  congr 1
  refine List.filter_congr ?_
  intro n hn
  have : s.Node n := mem_cells.1 hn
  unfold Grid.HasEdge
  simp [this]

theorem total_eq (s : Grid) : total s = cnt s (.foward .horizontal) + cnt s (.foward .vertical) := by
  rw [cnt_fwd, cnt_fwd]
  have h1 : s.nodes.filter (fun n => s.HasEdge n .horizontal) = cells s.mh s.v := by
    rw [← cells_filter_h s.mh_le]
    refine List.filter_congr fun n hn => ?_
    have : n.vertical < s.v := (mem_cells.1 hn).2
    rw [decide_eq_decide, Grid.hasEdge_h]
    simp [this]
  have h2 : s.nodes.filter (fun n => s.HasEdge n .vertical) = cells s.h s.mv := by
    rw [← cells_filter_v s.mv_le]
    refine List.filter_congr fun n hn => ?_
    have : n.horizontal < s.h := (mem_cells.1 hn).1
    rw [decide_eq_decide, Grid.hasEdge_v]
    simp [this]
  rw [h1, h2, cells_length, cells_length]
  rfl

/-- **C67.** Every edge is yielded by `edges` from exactly two places: the numbers of items of `edges(n)` over all nodes sum to twice
the number of edges (a one-cell cyclic axis has self-loops, which `edges` yields twice). -/
theorem c67_handshake (hb : Built k h v g c) (hf : k.Fits h v) :
    ∃ f : NodeIx → List (Ref E), (∀ n, (k.grid h v).Node n → Yields (EdgesOf.next g) (g.edges n) (f n)) ∧
      ((k.grid h v).nodes.map fun n => (f n).length).sum = 2 * total (k.grid h v) := by
  have hs := hb.stores
  refine ⟨fun n => Grid.dirs.filterMap (refOf k (k.grid h v) c n), fun n hn => edgesOf_yields hs (hb.sizes hf) hn 4 0 rfl, ?_⟩
  rw [total_eq, Nat.two_mul]
  have e : ∀ (l : List NodeIx), (∀ n ∈ l, (k.grid h v).Node n) →
      (l.map fun n => (Grid.dirs.filterMap (refOf k (k.grid h v) c n)).length).sum =
        l.countP (fun n => ((k.grid h v).step n (.foward .horizontal)).isSome) +
        l.countP (fun n => ((k.grid h v).step n (.foward .vertical)).isSome) +
        (l.countP (fun n => ((k.grid h v).step n (.backward .horizontal)).isSome) +
        l.countP (fun n => ((k.grid h v).step n (.backward .vertical)).isSome)) := by
    intro l hl
    induction l with
    | nil => rfl
    | cons n l ih =>
      have hr : ∀ d, (refOf k (k.grid h v) c n d).isSome = ((k.grid h v).step n d).isSome := by
        intro d
        cases hst : (k.grid h v).step n d with
        | none => rw [refOf_none hst]; rfl
        | some t => obtain ⟨w, _, h2⟩ := refOf_some hs (hl n (by simp)) hst; rw [h2]; rfl
      have hlen : (Grid.dirs.filterMap (refOf k (k.grid h v) c n)).length =
          Grid.dirs.countP fun d => ((k.grid h v).step n d).isSome := filterMap_length_of hr
      rw [List.map_cons, List.sum_cons, ih fun n h => hl n (List.mem_cons_of_mem _ h), hlen]
      simp only [Grid.dirs, List.countP_cons, List.countP_nil]
      omega
  refine (e (k.grid h v).nodes fun n hn => mem_cells.1 hn).trans ?_
  have h1 : cnt (k.grid h v) (.backward .horizontal) = _ := cnt_opp_eq (k.grid h v) (.foward .horizontal)
  have h2 : cnt (k.grid h v) (.backward .vertical) = _ := cnt_opp_eq (k.grid h v) (.foward .vertical)
  unfold cnt at *
  omega

/-- The edge calls among the calls. -/
def edgeCalls (l : List (Call NodeIx Axis)) : List (NodeIx × Axis) :=
  l.filterMap fun x => match x with | .edge n a => some (n, a) | .node _ => none

theorem runCalls_logged (fe : NodeIx → Axis → E) : ∀ (l : List (Call NodeIx Axis)) (st : List (NodeIx × Axis))
    (c : Contents NodeIx Axis Unit E),
    runCalls (fun st _ => ((), st)) (fun st n a => (fe n a, st ++ [(n, a)])) l st c =
      ((runCalls (fun u _ => ((), u)) (fun u n a => (fe n a, u)) l () c).1, st ++ edgeCalls l)
  | [], st, c => by simp [runCalls, edgeCalls]
  | .node n :: l, st, c => by
    rw [runCalls, runCalls_logged fe l]; rfl
  | .edge n a :: l, st, c => by
    rw [runCalls, runCalls_logged fe l]
    simp only [runCalls, edgeCalls, List.filterMap_cons, List.append_assoc]
    rfl

/-- **C67.** `new_edge_graph(h, v, f)` calls `f` once for each edge and for nothing else (as `new_with` does), and stores its
results. -/
theorem c67_new_edge_graph (k : Cfg) (hh : 0 < h) (hv : 0 < v) (hs : h * v < k.m.half) (fe : Nat → Nat → Axis → E) :
    ∃ (g : G Unit E) (log : List (NodeIx × Axis)),
      G.newEdgeGraph k h v (fun log i j a => (fe i j a, log ++ [((⟨i, j⟩ : NodeIx), a)])) [] = .ok (g, log) ∧
      log.Nodup ∧ (∀ n a, (n, a) ∈ log ↔ (k.grid h v).HasEdge n a) ∧ log.length = total (k.grid h v) ∧
      ∀ n a, g.nodeWeight n = (if (k.grid h v).Node n then some () else none) ∧
        g.edgeWeight ⟨n, a⟩ = (if (k.grid h v).HasEdge n a then some (fe n.horizontal n.vertical a) else none) := by
  obtain ⟨g, h1, _⟩ := newWith_ok (N := Unit) (E := E) k hh hv hs (fun log _ _ => ((), log))
    (fun log i j a => (fe i j a, log ++ [((⟨i, j⟩ : NodeIx), a)])) ([] : List (NodeIx × Axis))
  have hb := Built.new h1 hv
  have hl := runCalls_logged (fun n a => fe n.horizontal n.vertical a) (callSeq (k.grid h v)) [] emptyContents
  have hp := runCalls_pure (fun _ : NodeIx => ()) (fun n a => fe n.horizontal n.vertical a) (callSeq (k.grid h v)) emptyContents
  have hm : ∀ n a, (n, a) ∈ edgeCalls (callSeq (k.grid h v)) ↔ (k.grid h v).HasEdge n a := by
    intro n a
    rw [← (c43_calls_exact (k.grid h v) n a).2]
    unfold edgeCalls
    rw [List.mem_filterMap]
    constructor
    · rintro ⟨x, hx, he⟩
      cases x with
      | node n => cases he
      | edge n a => cases he; exact hx
    · intro hx; exact ⟨_, hx, rfl⟩
  have hd : (edgeCalls (callSeq (k.grid h v))).Nodup := by
    refine nodup_filterMap_of_inj (c43_calls_once _) ?_
    intro x _ y _ z hx hy
    cases x <;> cases y <;> simp_all
    rw [← hy] at hx
    simpa using hx
  refine ⟨g, edgeCalls (callSeq (k.grid h v)), ?_, hd, hm, ?_, fun n a => ?_⟩
  · unfold G.newEdgeGraph
    refine h1.trans ?_
    congr 2
    exact (congrArg Prod.snd hl).trans (List.nil_append _)
  · have e3 : ∀ e, e ∈ (k.grid h v).edgeKeys ↔ (k.grid h v).HasEdge e.node e.axis := (c48_exact hb).2.2.1
    rw [← edgeKeys_length _ e3 (c48_exact hb).2.1]
    have hd' : ((k.grid h v).edgeKeys.map fun e => (e.node, e.axis)).Nodup :=
      nodup_map_of_inj (c48_exact hb).2.1 (by rintro ⟨_, _⟩ _ ⟨_, _⟩ _ he; cases he; rfl)
    rw [← List.length_map (as := (k.grid h v).edgeKeys) (fun e => (e.node, e.axis))]
    refine Nat.le_antisymm (hd.length_le_of_subset ?_) (hd'.length_le_of_subset ?_)
    · rintro ⟨n, a⟩ hx
      exact List.mem_map.2 ⟨⟨n, a⟩, (e3 _).2 ((hm n a).1 hx), rfl⟩
    · intro x hx
      obtain ⟨e, he, rfl⟩ := List.mem_map.1 hx
      exact (hm _ _).2 ((e3 e).1 he)
  · have hw := weights_eq hb n a
    have ec := congrArg Prod.fst hl
    have e1 : g.nodeWeight n = _ := hw.1.trans ((congrArg (fun c => c.node n) ec).trans (hp.1 n))
    have e2 : g.edgeWeight ⟨n, a⟩ = _ := hw.2.trans ((congrArg (fun c => c.edge n a) ec).trans (hp.2 n a))
    have x := c43_calls_exact (k.grid h v) n a
    rw [e1, e2]
    refine ⟨?_, ?_⟩
    · by_cases hx : (k.grid h v).Node n
      · rw [if_pos hx, if_pos (x.1.2 hx)]
      · rw [if_neg hx, if_neg fun h => hx (x.1.1 h)]; rfl
    · by_cases hx : (k.grid h v).HasEdge n a
      · rw [if_pos hx, if_pos (x.2.2 hx)]
      · rw [if_neg hx, if_neg fun h => hx (x.2.1 h)]; rfl

example : ∃ (g : G Nat Nat) (c : Contents NodeIx Axis Nat Nat) (l : List (Ref Nat)), Built exCfg 3 2 g c ∧
    Yields (edgeRefsNext g) (edgeRefsInit g) l ∧ l.length = 9 := by
  obtain ⟨g, c, hb, _⟩ := exGraph exCfg (by decide)
  obtain ⟨l, h1, h2⟩ := c67_edge_count hb ⟨by decide, by decide⟩
  exact ⟨g, c, l, hb, h1, h2⟩

example : ∃ (g : G Unit Nat) (log : List (NodeIx × Axis)),
    G.newEdgeGraph exCfg 3 2 (fun log i j a => (i + 10 * j, log ++ [((⟨i, j⟩ : NodeIx), a)])) [] = .ok (g, log) ∧
    log.length = 9 ∧ g.edgeWeight ⟨⟨2, 1⟩, .horizontal⟩ = some 12 := by
  obtain ⟨g, log, h1, _, _, h2, h3⟩ := c67_new_edge_graph exCfg (h := 3) (v := 2) (by decide) (by decide) (by decide)
    fun i j _ => i + 10 * j
  exact ⟨g, log, h1, h2, (h3 ⟨2, 1⟩ .horizontal).2⟩

example : vec .up = (0, 1) ∧ Dir.ofPair Dir.left.toPair = .left := ⟨c66_directions.2.2.1, c66_directions.1 _⟩
example : ∃ (g : G Nat Nat) (c : Contents NodeIx Axis Nat Nat), Built exCfg 3 2 g c ∧
    (∃ e, NodeIx.getEdgeIdUnchecked exCfg ⟨2, 1⟩ .up = .ok e ∧ g.edgeWeight e = none) ∧
    ∃ f : NodeIx → List (Ref Nat), (∀ n, (exCfg.grid 3 2).Node n → Yields (EdgesOf.next g) (g.edges n) (f n)) ∧
      ((exCfg.grid 3 2).nodes.map fun n => (f n).length).sum = 18 := by
  obtain ⟨g, c, hb, _⟩ := exGraph exCfg (by decide)
  exact ⟨g, c, hb, c66_no_neighbour hb (n := ⟨2, 1⟩) (a := .vertical) rfl, c67_handshake hb ⟨by decide, by decide⟩⟩

end
end LG.Sq
