import Verif.Props.LegacyDist
import Verif.Props.History
/- C52, C53, C54: index widths, memory safety and histories of operations of `SquareGraph`. -/
set_option linter.unusedSectionVars false
namespace LG.Sq
section
variable {N E σ α β : Type}
variable {g : G N E} {k : Cfg} {s : Grid} {h v : Nat} {c : Contents NodeIx Axis N E}

/-! ### C54 -/

/-- A call on a graph. -/
inductive Op (N E : Type) where
  | readNode (n : NodeIx)
  | readEdge (e : EdgeIx)
  | writeNode (n : NodeIx) (f : N → N)
  | writeEdge (e : EdgeIx) (f : E → E)
  | edges (n : NodeIx)
  | edgeReferences
  | nodeReferences

/-- What it returns. -/
inductive Out (N E : Type) where
  | node (w : Option N)
  | edge (w : Option E)
  | wrote (present : Bool)
  | edges (l : List (View E))
  | nodes (l : List (NodeIx × N))

/-- One call on the code's side. There is no rule for a call that faults. -/
inductive Exec : G N E → Op N E → Out N E → G N E → Prop where
  | readNode {g n} : Exec g (.readNode n) (.node (g.nodeWeight n)) g
  | readEdge {g e} : Exec g (.readEdge e) (.edge (g.edgeWeight e)) g
  | writeNode {g g' n f} : g.modifyNode n f = some g' → Exec g (.writeNode n f) (.wrote true) g'
  | writeNodeNone {g n f} : g.modifyNode n f = none → Exec g (.writeNode n f) (.wrote false) g
  | writeEdge {g g' e f} : g.modifyEdge e f = some g' → Exec g (.writeEdge e f) (.wrote true) g'
  | writeEdgeNone {g e f} : g.modifyEdge e f = none → Exec g (.writeEdge e f) (.wrote false) g
  | edges {g n refs l} : Yields (EdgesOf.next g) (g.edges n) refs → refs.mapM (Ref.view g.k) = .ok l →
      Exec g (.edges n) (.edges l) g
  | edgeReferences {g refs l} : Yields (edgeRefsNext g) (edgeRefsInit g) refs → refs.mapM (Ref.view g.k) = .ok l →
      Exec g .edgeReferences (.edges l) g
  | nodeReferences {g l} : Yields (nodeRefsNext g) (nodeRefsInit g) l → Exec g .nodeReferences (.nodes l) g

/-- A sequence of calls. -/
inductive ExecAll : G N E → List (Op N E) → List (Out N E) → G N E → Prop where
  | nil {g : G N E} : ExecAll g [] [] g
  | cons {g g' g'' : G N E} {op ops o os} : Exec g op o g' → ExecAll g' ops os g'' → ExecAll g (op :: ops) (o :: os) g''

/-- One call on plain maps. -/
def specStep (s : Grid) (c : Contents NodeIx Axis N E) : Op N E → Out N E × Contents NodeIx Axis N E
  | .readNode n => (.node (c.node n), c)
  | .readEdge e => (.edge (c.edge e.node e.axis), c)
  | .writeNode n f => (.wrote (c.node n).isSome, c.mapNode n f)
  | .writeEdge e f => (.wrote (c.edge e.node e.axis).isSome, c.mapEdge e.node e.axis f)
  | .edges n => (.edges (outViews s c n), c)
  | .edgeReferences => (.edges (allViews s c), c)
  | .nodeReferences => (.nodes (allNodeRefs s c), c)

/-- A sequence of calls on plain maps. -/
def specRun (s : Grid) : Contents NodeIx Axis N E → List (Op N E) → List (Out N E) × Contents NodeIx Axis N E
  | c, [] => ([], c)
  | c, op :: ops =>
    let (o, c') := specStep s c op
    let (os, c'') := specRun s c' ops
    (o :: os, c'')

/-- Any index may be read and written; `edges` is for nodes of the graph (see C53). -/
def OpOk (s : Grid) : Op N E → Prop
  | .edges n => s.Node n
  | _ => True

theorem exec_step (hb : Built k h v g c) (hf : k.Fits h v) {op : Op N E} (hop : OpOk (k.grid h v) op) :
    ∃ g', Exec g op (specStep (k.grid h v) c op).1 g' ∧ Built k h v g' (specStep (k.grid h v) c op).2 := by
  have hs := hb.stores
  cases op with
  | readNode n =>
    refine ⟨g, ?_, hb⟩
    simp only [specStep, ← (weights_eq hb n .horizontal).1]
    exact .readNode
  | readEdge e =>
    refine ⟨g, ?_, hb⟩
    simp only [specStep, ← (weights_eq hb e.node e.axis).2]
    exact .readEdge
  | writeNode n f =>
    rcases hs.node n f with ⟨g', h1, h2, _⟩ | ⟨h1, h2⟩
    · refine ⟨g', ?_, .node hb h1⟩
      simp only [specStep, hs.node_isSome.2 h2]
      exact .writeNode h1
    · have hn : c.node n = none := Option.not_isSome_iff_eq_none.1 fun h => h2 (hs.node_isSome.1 h)
      refine ⟨g, ?_, ?_⟩
      · simp only [specStep, hn]; exact .writeNodeNone h1
      · simp only [specStep, mapNode_absent hn]; exact hb
  | writeEdge e f =>
    rcases hs.edge e f with ⟨g', h1, h2, _⟩ | ⟨h1, h2⟩
    · refine ⟨g', ?_, .edge hb h1⟩
      simp only [specStep, hs.edge_isSome.2 h2]
      exact .writeEdge h1
    · have hn : c.edge e.node e.axis = none := Option.not_isSome_iff_eq_none.1 fun h => h2 (hs.edge_isSome.1 h)
      refine ⟨g, ?_, ?_⟩
      · simp only [specStep, hn]; exact .writeEdgeNone h1
      · simp only [specStep, mapEdge_absent hn]; exact hb
  | edges n =>
    obtain ⟨l, h1, h2⟩ := c47_edges hb hf hop
    rw [← hs.cfg] at h2
    exact ⟨g, .edges h1 (by rw [hs.cfg] at h2 ⊢; exact h2), hb⟩
  | edgeReferences =>
    obtain ⟨l, h1, h2⟩ := c48_edge_references hb hf
    exact ⟨g, .edgeReferences h1 (by rw [hs.cfg]; exact h2), hb⟩
  | nodeReferences => exact ⟨g, .nodeReferences (c45_node_references hb hf).1, hb⟩

theorem Exec.unique {op : Op N E} {o o' : Out N E} {g' g'' : G N E} (h : Exec g op o g') (h' : Exec g op o' g'') :
    o = o' ∧ g' = g'' := by
  cases h <;> cases h'
  case readNode.readNode => exact ⟨rfl, rfl⟩
  case readEdge.readEdge => exact ⟨rfl, rfl⟩
  case writeNode.writeNode h1 h2 => rw [h1] at h2; cases h2; exact ⟨rfl, rfl⟩
  case writeNode.writeNodeNone h1 h2 => rw [h1] at h2; cases h2
  case writeNodeNone.writeNode h1 h2 => rw [h1] at h2; cases h2
  case writeNodeNone.writeNodeNone => exact ⟨rfl, rfl⟩
  case writeEdge.writeEdge h1 h2 => rw [h1] at h2; cases h2; exact ⟨rfl, rfl⟩
  case writeEdge.writeEdgeNone h1 h2 => rw [h1] at h2; cases h2
  case writeEdgeNone.writeEdge h1 h2 => rw [h1] at h2; cases h2
  case writeEdgeNone.writeEdgeNone => exact ⟨rfl, rfl⟩
  case edges.edges r1 l1 h1 h2 r2 l2 h4 h3 =>
    rw [h1.unique h3] at h2
    rw [h2] at h4; cases h4; exact ⟨rfl, rfl⟩
  case edgeReferences.edgeReferences r1 l1 h1 h2 r2 l2 h3 h4 =>
    rw [h1.unique h3] at h2
    rw [h2] at h4; cases h4; exact ⟨rfl, rfl⟩
  case nodeReferences.nodeReferences h1 _ h2 => rw [h1.unique h2]; exact ⟨rfl, rfl⟩

/-- **C54.** Any sequence of reads, writes and iterations on any reachable graph runs without fault, and every call returns what
plain maps from nodes and edges to weights would return after the same writes. -/
theorem c54_refines_map (hf : k.Fits h v) : ∀ {ops : List (Op N E)} {g : G N E} {c : Contents NodeIx Axis N E},
    Built k h v g c → (∀ op ∈ ops, OpOk (k.grid h v) op) →
    ∃ g', ExecAll g ops (specRun (k.grid h v) c ops).1 g' ∧ Built k h v g' (specRun (k.grid h v) c ops).2
  | [], g, c, hb, _ => ⟨g, .nil, hb⟩
  | op :: ops, g, c, hb, hok => by
    obtain ⟨g', h1, h2⟩ := exec_step hb hf (hok op (by simp))
    obtain ⟨g'', h3, h4⟩ := c54_refines_map hf h2 (fun op h => hok op (List.mem_cons_of_mem _ h))
    exact ⟨g'', .cons h1 h3, h4⟩

/-- **C54.** Conversely, whatever a sequence of calls returned is what the maps return. -/
theorem c54_only_map (hf : k.Fits h v) {ops : List (Op N E)} {g g' : G N E} {c : Contents NodeIx Axis N E}
    {outs : List (Out N E)} (hb : Built k h v g c) (hok : ∀ op ∈ ops, OpOk (k.grid h v) op) (hx : ExecAll g ops outs g') :
    outs = (specRun (k.grid h v) c ops).1 ∧ Built k h v g' (specRun (k.grid h v) c ops).2 := by
  induction hx generalizing c with
  | nil => exact ⟨rfl, hb⟩
  | cons h1 _ ih =>
    obtain ⟨g1, h2, h3⟩ := exec_step hb hf (hok _ List.mem_cons_self)
    obtain ⟨rfl, rfl⟩ := h1.unique h2
    obtain ⟨h4, h5⟩ := ih h3 (fun op h => hok op (List.mem_cons_of_mem _ h))
    exact ⟨by rw [h4]; rfl, h5⟩

/-- **C54.** A node reads as the last value written to it, or its value before. -/
theorem c54_last_node_write (s : Grid) : ∀ (ws : List (NodeIx × N)) (c : Contents NodeIx Axis N E) (n : NodeIx) (w : N),
    c.node n = some w →
    (specRun s c (ws.map fun p => .writeNode p.1 fun _ => p.2)).2.node n = some (lastNode n ws w)
  | [], c, n, w, h => h
  | (n', x) :: ws, c, n, w, h => by
    simp only [List.map_cons, specRun, specStep, lastNode]
    apply c54_last_node_write
    by_cases he : n' = n
    · subst he; simp [Contents.mapNode, h]
    · simp [Contents.mapNode, he, Ne.symm he, h]

/-- **C54.** The same for edges. -/
theorem c54_last_edge_write (s : Grid) : ∀ (ws : List ((NodeIx × Axis) × E)) (c : Contents NodeIx Axis N E) (n : NodeIx)
    (a : Axis) (w : E), c.edge n a = some w →
    (specRun s c (ws.map fun p => .writeEdge ⟨p.1.1, p.1.2⟩ fun _ => p.2)).2.edge n a = some (lastEdge n a ws w)
  | [], c, n, a, w, h => h
  | ((n', a'), x) :: ws, c, n, a, w, h => by
    simp only [List.map_cons, specRun, specStep, lastEdge]
    apply c54_last_edge_write
    by_cases he : n' = n ∧ a' = a
    · obtain ⟨rfl, rfl⟩ := he; simp [Contents.mapEdge, h]
    · have h' : ¬ (n = n' ∧ a = a') := fun ⟨p, q⟩ => he ⟨p.symm, q.symm⟩
      simp [Contents.mapEdge, he, h', h]

example : ∃ (g g' : G Nat Nat) (c : Contents NodeIx Axis Nat Nat), Built exCfg 3 2 g c ∧
    ExecAll g [.writeEdge ⟨⟨2, 1⟩, .horizontal⟩ fun _ => 7, .writeNode ⟨9, 9⟩ fun _ => 1, .writeNode ⟨1, 0⟩ (· + 5),
        .readNode ⟨1, 0⟩, .edges ⟨0, 1⟩]
      [.wrote true, .wrote false, .wrote true, .node (some 15),
        .edges [⟨⟨0, 1⟩, ⟨2, 1⟩, 7, ⟨⟨2, 1⟩, .horizontal⟩⟩, ⟨⟨0, 1⟩, ⟨1, 1⟩, 101, ⟨⟨0, 1⟩, .horizontal⟩⟩,
          ⟨⟨0, 1⟩, ⟨0, 0⟩, 200, ⟨⟨0, 0⟩, .vertical⟩⟩]] g' := by
  obtain ⟨g, c, hb, hc⟩ := exGraph exCfg (by decide)
  obtain ⟨g', h, _⟩ := c54_refines_map ⟨by decide, by decide⟩ hb
    (ops := [.writeEdge ⟨⟨2, 1⟩, .horizontal⟩ fun _ => 7, .writeNode ⟨9, 9⟩ fun _ => 1, .writeNode ⟨1, 0⟩ (· + 5),
        .readNode ⟨1, 0⟩, .edges ⟨0, 1⟩]) (by
      simp only [List.mem_cons, List.mem_nil_iff, or_false]
      rintro op (rfl | rfl | rfl | rfl | rfl) <;> first | trivial | (show (exCfg.grid 3 2).Node _; decide))
  subst hc
  exact ⟨g, g', _, hb, h⟩

/-! ### C53 -/

theorem ub_release {m : Machine} (hm : m.mode = .release) : unreachableDebugChecked (α := α) m = .error .ub := by
  unfold unreachableDebugChecked; rw [hm]

/-- States `edge_references` goes through. -/
def ErState (s : Grid) (it : EdgeRefs) : Prop := ∃ p, Pos s it.nodes p

theorem edgeRefsNext_none_ok (hs : Stores g k s c) (z : Sizes k s) : ∀ (n p : Nat) (it : NodeIndices), Pos s it p →
    p + n = s.h * s.v → ∃ o it', edgeRefsNext g ⟨it, none⟩ = .ok (o, it') ∧ ErState s it'
  | 0, p, it, hp, h => by
    refine ⟨none, ⟨it, none⟩, ?_, ⟨p, hp⟩⟩
    rw [edgeRefsNext, hs.cfg, hp.next_end z (by omega)]
  | n + 1, p, it, hp, h => by
    obtain ⟨it', h1, h2, h3⟩ := hp.next z (by omega)
    cases hr : ownRef k s c (s.at p) .horizontal with
    | some r => exact ⟨_, _, edgeRefsNext_h_some hs hp h1 hr, ⟨p + 1, h2⟩⟩
    | none =>
      rw [edgeRefsNext_h_none hs h1 h3 hr]
      cases hr' : ownRef k s c (s.at p) .vertical with
      | some r => exact ⟨_, _, edgeRefsNext_v_some hs h2 hr', ⟨p + 1, h2⟩⟩
      | none =>
        rw [edgeRefsNext_v_none hs hr']
        exact edgeRefsNext_none_ok hs z n (p + 1) it' h2 (by omega)

theorem edgeRefsNext_ok (hs : Stores g k s c) (z : Sizes k s) {it : EdgeRefs} (hp : ErState s it) :
    ∃ o it', edgeRefsNext g it = .ok (o, it') ∧ ErState s it' := by
  obtain ⟨it, prv⟩ := it
  obtain ⟨p, hp⟩ := hp
  have hle := hp.le
  cases prv with
  | none => exact edgeRefsNext_none_ok hs z (s.h * s.v - p) p it hp (by omega)
  | some x =>
    cases hr : ownRef k s c x .vertical with
    | some r => exact ⟨_, _, edgeRefsNext_v_some hs hp hr, ⟨p, hp⟩⟩
    | none =>
      rw [edgeRefsNext_v_none hs hr]
      exact edgeRefsNext_none_ok hs z (s.h * s.v - p) p it hp (by omega)

/-- **C53.** On a graph obtained from `new_with` and writes, `edges` and `get_edge_reference` with a node of the graph, and
`edge_references`, never read outside the arrays, and never fault in any other way, however far they are run. Missing: other
indices, and arrays replaced through `nodes_mut`, `horizontal_mut`, `vertical_mut`. -/
theorem c53_safe_partial (hb : Built k h v g c) (hf : k.Fits h v) :
    (∀ n, (k.grid h v).Node n → ∀ it, Reaches (EdgesOf.next g) (g.edges n) it → ∃ r, EdgesOf.next g it = .ok r) ∧
    (∀ it, Reaches (edgeRefsNext g) (edgeRefsInit g) it → ∃ r, edgeRefsNext g it = .ok r) ∧
    (∀ n, (k.grid h v).Node n → ∀ d, ∃ r, g.getEdgeReference n d = .ok r) := by
  have hs := hb.stores
  have z := hb.sizes hf
  refine ⟨?_, ?_, ?_⟩
  · intro n hn it hr
    have hp : ∃ st, st ≤ 4 ∧ it = ⟨n, st⟩ := by
      refine hr.inv (P := fun it => ∃ st, st ≤ 4 ∧ it = ⟨n, st⟩) ⟨0, by omega, rfl⟩ ?_
      rintro it it' o ⟨st, hst, rfl⟩ hnx
      obtain ⟨o', st', h1, h2, _⟩ := edgesOfNext_at hs z hn (4 - st) st (by omega)
      rw [h1] at hnx; cases hnx
      exact ⟨_, h2, rfl⟩
    obtain ⟨st, hst, rfl⟩ := hp
    obtain ⟨o', st', h1, _⟩ := edgesOfNext_at hs z hn (4 - st) st (by omega)
    exact ⟨_, h1⟩
  · intro it hr
    have hp : ErState (k.grid h v) it := by
      refine hr.inv (P := ErState (k.grid h v)) ?_ ?_
      · refine ⟨0, ?_⟩
        unfold edgeRefsInit
        rw [show g.horizontalNodeCount = (k.grid h v).h from hs.nodes.rows,
          show g.verticalNodeCount = (k.grid h v).v from hs.nodes.cols]
        exact Pos.new z
      · intro it o it' hp hnx
        obtain ⟨o', it'', h1, h2⟩ := edgeRefsNext_ok hs z hp
        rw [h1] at hnx; cases hnx
        exact h2
    obtain ⟨o, it', h1, _⟩ := edgeRefsNext_ok hs z hp
    exact ⟨_, h1⟩
  · intro n hn d
    by_cases hw : Wraps (k.grid h v) n d
    · obtain ⟨_, _, r, _, _, _, _, h1, _⟩ := c49_forward_wrap_wrong hb hf hn hw
      exact ⟨_, h1⟩
    · have := c49_get_edge_reference_partial hb hf hn hw
      split at this
      · exact ⟨_, this⟩
      · obtain ⟨r, w, h1, _⟩ := this
        exact ⟨_, h1⟩

theorem edgesOfNext_error {it : EdgesOf} (hst : it.state < 4) {f : Fault} (h : it.arm g = .error f) :
    EdgesOf.next g it = .error f := by
  rw [EdgesOf.next, dif_pos hst, h]; rfl

/-- **C53 fails** in release builds: on every reachable graph, `edges` of the index just right of the last column — any safe code
can make it — reads outside the horizontal array at its first item, or at its second if the axis is looped. -/
theorem c53_edges_ub (hb : Built k h v g c) (hm : k.m.mode = .release) {j : Nat} (hj : j < v) (hx : h < k.ix) :
    if k.loopH then ∃ o it, EdgesOf.next g (g.edges ⟨h, j⟩) = .ok (o, it) ∧ EdgesOf.next g it = .error .ub
    else EdgesOf.next g (g.edges ⟨h, j⟩) = .error .ub := by
  have hs := hb.stores
  have hh : 0 < h := hs.pos_h
  have hmh : (k.grid h v).mh = if k.loopH then h else h - 1 := by unfold Grid.mh Cfg.grid; rfl
  have hleft : NodeIx.left k ⟨h, j⟩ = .ok ⟨h - 1, j⟩ := by
    simp only [NodeIx.left, usub_ok (m := k.m) (show 1 ≤ h by omega), bind, Except.bind]
    rw [new_of_lt (by omega)]
  by_cases hl : k.loopH = true
  · rw [if_pos hl]
    rw [if_pos hl] at hmh
    obtain ⟨w, hw⟩ := Option.isSome_iff_exists.1 ((hs.edge_isSome (n := ⟨h - 1, j⟩) (a := .horizontal)).2
      (Grid.hasEdge_h.2 ⟨by rw [hmh]; show h - 1 < h; omega, hj⟩))
    have h1 := hs.horizontal.uget k.m hw
    have ha : EdgesOf.arm g ⟨⟨h, j⟩, 0⟩ = .ok (some ⟨⟨⟨h - 1, j⟩, .horizontal⟩, w, false,
        g.k.sizeInfo g.horizontalNodeCount g.verticalNodeCount⟩) := by
      simp only [EdgesOf.arm, hs.cfg, if_neg (show ¬ h = 0 by omega), hleft, bind, Except.bind, h1]
    refine ⟨some ⟨⟨⟨h - 1, j⟩, .horizontal⟩, w, false, g.k.sizeInfo g.horizontalNodeCount g.verticalNodeCount⟩,
      ⟨⟨h, j⟩, 1⟩, ?_, ?_⟩
    · unfold G.edges
      rw [EdgesOf.next, dif_pos (by simp), ha]; rfl
    · refine edgesOfNext_error (by simp) ?_
      have ho := hs.horizontal.uget_out k.m (i := h) (j := j) (by rw [hmh]; omega)
      rw [ub_release hm] at ho
      simp only [EdgesOf.arm, hs.cfg, debugAssert, hm, hl, bind, Except.bind, Bool.not_true, Bool.false_eq_true, if_false, ho]
  · rw [if_neg hl]
    rw [if_neg hl] at hmh
    unfold G.edges
    refine edgesOfNext_error (by simp) ?_
    have ho := hs.horizontal.uget_out k.m (i := h - 1) (j := j) (by rw [hmh]; omega)
    rw [ub_release hm] at ho
    simp only [EdgesOf.arm, hs.cfg, if_neg (show ¬ h = 0 by omega), hleft, bind, Except.bind, ho]

/-- **C53 fails** also for `get_edge_reference`, going left from beyond the last column. -/
theorem c53_get_edge_reference_ub (hb : Built k h v g c) (hm : k.m.mode = .release) {i j : Nat} (hi : h < i) (hx : i < k.ix) :
    g.getEdgeReference ⟨i, j⟩ .left = .error .ub := by
  have hs := hb.stores
  have hleft : NodeIx.left k ⟨i, j⟩ = .ok ⟨i - 1, j⟩ := by
    simp only [NodeIx.left, usub_ok (m := k.m) (show 1 ≤ i by omega), bind, Except.bind]
    rw [new_of_lt (by omega)]
  have ho := hs.horizontal.uget_out k.m (i := i - 1) (j := j) (by
    have : (k.grid h v).mh ≤ h := by unfold Grid.mh Cfg.grid; simp only; split <;> omega
    omega)
  rw [ub_release hm] at ho
  simp only [G.getEdgeReference, G.getEdgeId, Dir.left, hs.cfg, if_pos (show i ≠ 0 by omega), hleft, bind, Except.bind,
    Dir.isHorizontal, Axis.isHorizontal, ho]
  rfl

/-- **C53 fails** after `*g.nodes_mut() = array` with one more column: `get_edge_reference` of a node that was in the graph all
along then reads outside the horizontal array. -/
theorem c53_nodes_mut_ub (hb : Built k h v g c) (hm : k.m.mode = .release) (hl : k.loopH = false) {a : Arr N}
    (ha : a.rows = h + 1) {j : Nat} (hj : j < v) :
    (k.grid h v).Node ⟨h - 1, j⟩ ∧ ({ g with nodes := a } : G N E).getEdgeReference ⟨h - 1, j⟩ .right = .error .ub := by
  have hs := hb.stores
  have hh : 0 < h := hs.pos_h
  have hsm : h * v < k.m.half := hs.small
  have h2 : h ≤ h * v := Nat.le_mul_of_pos_right h hs.pos_v
  refine ⟨⟨by show h - 1 < h; omega, hj⟩, ?_⟩
  have ho := hs.horizontal.uget_out k.m (i := h - 1) (j := j) (by
    have : (k.grid h v).mh = h - 1 := by unfold Grid.mh Cfg.grid; simp only; rw [hl]; rfl
    omega)
  rw [ub_release hm] at ho
  simp only [G.getEdgeReference, G.getEdgeId, Dir.right, hs.cfg, G.horizontalNodeCount, ha,
    uadd_ok (m := k.m) (a := h - 1) (b := 1) (by omega), bind, Except.bind,
    if_pos (show h - 1 + 1 < h + 1 by omega), Dir.isHorizontal, Axis.isHorizontal, ho]
  rfl

example : ∃ (g : G Nat Nat) (c : Contents NodeIx Axis Nat Nat), Built exPlainR 3 2 g c ∧
    EdgesOf.next g (g.edges ⟨3, 0⟩) = .error .ub ∧ g.getEdgeReference ⟨4, 7⟩ .left = .error .ub ∧
    (∀ d, ∃ r, g.getEdgeReference ⟨2, 1⟩ d = .ok r) := by
  obtain ⟨g, c, hb, _⟩ := exGraph exPlainR (by decide)
  exact ⟨g, c, hb, c53_edges_ub hb rfl (by decide) (by decide),
    c53_get_edge_reference_ub hb rfl (by decide) (by decide),
    (c53_safe_partial hb ⟨by decide, by decide⟩).2.2 _ (by decide)⟩

/-! ### C52 -/

/-- The same target and marker with another index type. -/
def Cfg.withIx (k : Cfg) (i : Nat) (hp : 0 < i) (hl : i ≤ 2 * k.m.half) : Cfg :=
  ⟨k.m, i, k.loopH, k.loopV, hp, hl⟩

/-- The same arrays with another index type. -/
def G.withIx (g : G N E) (k : Cfg) : G N E := ⟨k, g.nodes, g.horizontal, g.vertical⟩

variable {i : Nat} {hp : 0 < i} {hl : i ≤ 2 * k.m.half}

theorem newWith_withIx (fn : σ → Nat → Nat → N × σ) (fe : σ → Nat → Nat → Axis → E × σ) (st : σ) :
    G.newWith (k.withIx i hp hl) h v fn fe st =
      (G.newWith k h v fn fe st).map fun p => (p.1.withIx (k.withIx i hp hl), p.2) := by
  unfold G.newWith
  by_cases hh : h = 0
  · rw [if_pos hh, if_pos hh]; rfl
  rw [if_neg hh, if_neg hh]
  show _ = _
  simp only [bind, Except.bind, Cfg.withIx]
  cases umul k.m h v with
  | error f => rfl
  | ok x =>
    simp only
    cases Arr.fromShapeVec k.m h v (fill fn v 0 h st).1 with
    | error f => rfl
    | ok nodes =>
      simp only
      cases G.edgeLen k.m k.loopH h with
      | error f => rfl
      | ok mh =>
        simp only
        cases umul k.m mh v with
        | error f => rfl
        | ok x =>
          simp only
          generalize fill (fun st hi vi => fe st hi vi .horizontal) v 0 mh (fill fn v 0 h st).2 = q
          cases Arr.fromShapeVec k.m mh v q.1 with
          | error f => rfl
          | ok ho =>
            simp only
            cases G.edgeLen k.m k.loopV v with
            | error f => rfl
            | ok mv =>
              simp only
              cases umul k.m h mv with
              | error f => rfl
              | ok x =>
                simp only
                generalize fill (fun st hi vi => fe st hi vi .vertical) mv 0 h q.2 = r
                cases Arr.fromShapeVec k.m h mv r.1 with
                | error f => rfl
                | ok ve =>
                  simp only [G.newRaw, bind, Except.bind]
                  have : G.checkGen (N := N) (E := E) ⟨⟨k.m, i, k.loopH, k.loopV, hp, hl⟩, nodes, ho, ve⟩ =
                    G.checkGen ⟨k, nodes, ho, ve⟩ := rfl
                  rw [this]
                  cases debugAssert k.m (G.checkGen ⟨k, nodes, ho, ve⟩) with
                  | error f => rfl
                  | ok u => rfl

/-- **C52.** The same calls lead to the same arrays whatever the index type. -/
theorem c52_built (hb : Built k h v g c) : Built (k.withIx i hp hl) h v (g.withIx (k.withIx i hp hl)) c := by
  induction hb with
  | @new σ fn fe st st' g he hv =>
    have := newWith_withIx (hp := hp) (hl := hl) (k := k) (h := h) (v := v) fn fe st
    rw [he] at this
    exact Built.new this hv
  | @node g g' c n f _ he ih =>
    refine .node ih ?_
    unfold G.modifyNode at he ⊢
    rw [Option.map_eq_some_iff] at he ⊢
    obtain ⟨a, h1, rfl⟩ := he
    exact ⟨a, h1, rfl⟩
  | @edge g g' c e f _ he ih =>
    refine .edge ih ?_
    unfold G.modifyEdge at he ⊢
    obtain ⟨n, a⟩ := e
    cases a <;>
    · simp only at he ⊢
      rw [Option.map_eq_some_iff] at he ⊢
      obtain ⟨a, h1, rfl⟩ := he
      exact ⟨a, h1, rfl⟩

theorem getEdgeId_withIx (hb : Built k h v g c) (hf : k.Fits h v) (hf' : (k.withIx i hp hl).Fits h v) {n : NodeIx}
    (hn : (k.grid h v).Node n) (d : Dir) :
    (g.withIx (k.withIx i hp hl)).getEdgeId n d = g.getEdgeId n d := by
  have hs := hb.stores
  have z := hb.sizes hf
  have h1 : n.horizontal < h := hn.1
  have h2 : n.vertical < v := hn.2
  have f1 : h ≤ k.ix := hf.1
  have f2 : v ≤ k.ix := hf.2
  have f3 : h ≤ i := hf'.1
  have f4 : v ≤ i := hf'.2
  have hcfg := hs.cfg
  have eh : g.horizontalNodeCount = h := hs.nodes.rows
  have ev : g.verticalNodeCount = v := hs.nodes.cols
  have eh' : (g.withIx (k.withIx i hp hl)).horizontalNodeCount = h := hs.nodes.rows
  have ev' : (g.withIx (k.withIx i hp hl)).verticalNodeCount = v := hs.nodes.cols
  have e1 : ∀ x, x < h ∨ x < v → (k.withIx i hp hl).new x = k.new x := by
    intro x hx
    rw [new_of_lt (k := k) (by omega)]
    exact Nat.mod_eq_of_lt (by show x < i; omega)
  have p1 : 0 < h := z.pos_h
  have p2 : 0 < v := z.pos_v
  rcases d with (_ | _) | (_ | _)
  · simp only [G.getEdgeId, eh, eh', hcfg]; rfl
  · simp only [G.getEdgeId, ev, ev', hcfg]; rfl
  · simp only [G.getEdgeId, eh, eh', hcfg, NodeIx.left]
    by_cases hz : n.horizontal ≠ 0
    · rw [if_pos hz, if_pos hz]
      simp only [G.withIx, show (k.withIx i hp hl).m = k.m from rfl, usub_ok (m := k.m) (show 1 ≤ n.horizontal by omega),
        bind, Except.bind]
      rw [e1 _ (by omega)]
    · rw [if_neg hz, if_neg hz]
      simp only [G.withIx, show (k.withIx i hp hl).m = k.m from rfl, show (k.withIx i hp hl).loopH = k.loopH from rfl,
        usub_ok (m := k.m) (show 1 ≤ h by omega), bind, Except.bind]
      rw [e1 _ (by omega)]
  · simp only [G.getEdgeId, ev, ev', hcfg, NodeIx.down]
    by_cases hz : n.vertical ≠ 0
    · rw [if_pos hz, if_pos hz]
      simp only [G.withIx, show (k.withIx i hp hl).m = k.m from rfl, usub_ok (m := k.m) (show 1 ≤ n.vertical by omega),
        bind, Except.bind]
      rw [e1 _ (by omega)]
    · rw [if_neg hz, if_neg hz]
      simp only [G.withIx, show (k.withIx i hp hl).m = k.m from rfl, show (k.withIx i hp hl).loopV = k.loopV from rfl,
        usub_ok (m := k.m) (show 1 ≤ v by omega), bind, Except.bind]
      rw [e1 _ (by omega)]

/-- **C52.** Lookups give the same answers for any two index types that fit the sides. -/
theorem c52_lookups (hb : Built k h v g c) (hf : k.Fits h v) (hf' : (k.withIx i hp hl).Fits h v) :
    let g' := g.withIx (k.withIx i hp hl)
    (∀ n, g'.nodeWeight n = g.nodeWeight n) ∧ (∀ e, g'.edgeWeight e = g.edgeWeight e) ∧ g'.nodeCount = g.nodeCount ∧
    (∀ n, g'.toIndex n = g.toIndex n) ∧ (∀ x, x < g.nodeCount → g'.fromIndex x = g.fromIndex x) ∧
    (∀ n d, (k.grid h v).Node n → g'.getEdgeId n d = g.getEdgeId n d) ∧
    (∀ n d, (k.grid h v).Node n → g'.getEdgeReference n d = g.getEdgeReference n d) ∧
    (∀ (n : NodeIx) x y, n.distance (k.withIx i hp hl) x y = n.distance k x y) := by
  intro g'
  have hs := hb.stores
  have hcfg := hs.cfg
  have ev : g.verticalNodeCount = v := hs.nodes.cols
  have ev' : g'.verticalNodeCount = v := hs.nodes.cols
  refine ⟨fun n => rfl, fun e => rfl, rfl, ?_, ?_, fun n d hn => getEdgeId_withIx hb hf hf' hn d, ?_, fun n x y => rfl⟩
  · intro n
    simp only [G.toIndex, ev, ev', hcfg]
    rfl
  · intro x hx
    have hc : g.nodeCount = h * v := (c45_index_bijection_partial hb hf).1
    rw [hc] at hx
    have p2 : 0 < v := hs.pos_v
    have h1 : x / v < h := div_lt_w hx
    have h2 : x % v < v := Nat.mod_lt _ p2
    have f1 : h ≤ k.ix := hf.1
    have f2 : v ≤ k.ix := hf.2
    have f3 : h ≤ i := hf'.1
    have f4 : v ≤ i := hf'.2
    have e1 : ∀ x, x < h ∨ x < v → g'.k.new x = k.new x := by
      intro x hx
      rw [new_of_lt (k := k) (by omega)]
      exact Nat.mod_eq_of_lt (by show x < i; omega)
    simp only [G.fromIndex, ev, ev', NodeIx.ofPair]
    rw [e1 _ (.inl h1), e1 _ (.inr h2), hcfg]
  · intro n d hn
    have he := getEdgeId_withIx (hp := hp) (hl := hl) hb hf hf' hn d
    simp only [G.getEdgeReference, show g'.getEdgeId n d = g.getEdgeId n d from he]
    rw [show g'.k = k.withIx i hp hl from rfl, hcfg]
    rfl

/-- **C52.** Iterators yield the same items. -/
theorem c52_iterators (hb : Built k h v g c) (hf : k.Fits h v) (hf' : (k.withIx i hp hl).Fits h v) :
    let k' := k.withIx i hp hl
    let g' := g.withIx k'
    (∃ l, Yields (NodeIndices.next k) (.new g.horizontalNodeCount g.verticalNodeCount) l ∧
      Yields (NodeIndices.next k') (.new g'.horizontalNodeCount g'.verticalNodeCount) l) ∧
    (∃ l, Yields (nodeRefsNext g) (nodeRefsInit g) l ∧ Yields (nodeRefsNext g') (nodeRefsInit g') l) ∧
    (∀ n, (k.grid h v).Node n → ∃ l, Yields (Nbrs.next k) (g.neighbors n) l ∧ Yields (Nbrs.next k') (g'.neighbors n) l) ∧
    (∀ n, (k.grid h v).Node n → ∃ l vs, Yields (EdgesOf.next g) (g.edges n) l ∧ Yields (EdgesOf.next g') (g'.edges n) l ∧
      l.mapM (Ref.view k) = .ok vs ∧ l.mapM (Ref.view k') = .ok vs) ∧
    (∃ l l' vs, Yields (edgeRefsNext g) (edgeRefsInit g) l ∧ Yields (edgeRefsNext g') (edgeRefsInit g') l' ∧
      l.mapM (Ref.view k) = .ok vs ∧ l'.mapM (Ref.view k') = .ok vs) := by
  intro k' g'
  have hb' : Built k' h v g' c := c52_built hb
  refine ⟨⟨_, c45_node_identifiers_partial hb hf, c45_node_identifiers_partial hb' hf'⟩,
    ⟨_, (c45_node_references hb hf).1, (c45_node_references hb' hf').1⟩, ?_, ?_, ?_⟩
  · exact fun n hn => ⟨_, c46_neighbors hb hf hn, c46_neighbors hb' hf' hn⟩
  · intro n hn
    exact ⟨_, _, edgesOf_yields hb.stores (hb.sizes hf) hn 4 0 rfl, edgesOf_yields hb'.stores (hb'.sizes hf') hn 4 0 rfl,
      edges_views hb.stores (hb.sizes hf) hn _, edges_views hb'.stores (hb'.sizes hf') hn _⟩
  · obtain ⟨l, h1, h2⟩ := c48_edge_references hb hf
    obtain ⟨l', h3, h4⟩ := c48_edge_references hb' hf'
    exact ⟨l, l', _, h1, h3, h2, h4⟩

/-- Node iteration without the assumption that the sides fit: indices are truncated. -/
theorem nodeIndices_truncated (hs : Stores g k s c) : ∀ (n p : Nat) (it : NodeIndices), Pos s it p → p + n = s.h * s.v →
    Yields (NodeIndices.next k) it ((List.range' p n).map fun p => NodeIx.ofPair k (s.at p).horizontal (s.at p).vertical)
  | 0, p, it, hp, h => by
    have hpos := hp.pos
    have hh := hp.h
    have hv := hp.v
    have hp0 := hs.pos_v
    have hsm := hs.small
    have h1 : (it.h + 1) * s.v ≤ s.h * s.v := Nat.mul_le_mul_right _ hp.h
    have h3 : s.h ≤ s.h * s.v := Nat.le_mul_of_pos_right _ hp0
    rw [Nat.add_mul] at h1
    have hlt : ¬ it.h + 1 < s.h := by
      intro hlt
      have h2 : (it.h + 2) * s.v ≤ s.h * s.v := Nat.mul_le_mul_right _ hlt
      rw [Nat.add_mul] at h2
      omega
    refine .done (s' := it) ?_
    unfold NodeIndices.next
    rw [hp.hMax, hp.vMax, if_neg (by omega), uadd_ok (by omega)]
    simp only [bind, Except.bind]
    rw [if_neg hlt]
  | n + 1, p, it, hp, h => by
    have hpos := hp.pos
    have hh := hp.h
    have hp0 := hs.pos_v
    have hsm := hs.small
    have h3 : s.h ≤ s.h * s.v := Nat.le_mul_of_pos_right _ hp0
    rw [List.range'_succ, List.map_cons]
    by_cases hv : it.v < s.v
    · refine .step (s' := ⟨it.hMax, it.h, it.vMax, it.v + 1⟩) ?_ (nodeIndices_truncated hs n (p + 1) _
        ⟨hp.hMax, hp.vMax, hp.h, hv, by simp only; omega⟩ (by omega))
      unfold NodeIndices.next Grid.at NodeIx.ofPair
      rw [hp.vMax, if_pos hv, hpos, idx_div hv, idx_mod hv]
    · have hve : it.v = s.v := by have := hp.v; omega
      have hlt : it.h + 1 < s.h := by
        rcases Nat.lt_or_ge (it.h + 1) s.h with h1 | h1
        · exact h1
        · exfalso
          have : it.h + 1 = s.h := by omega
          rw [← this, Nat.add_mul] at h
          omega
      have hp1 : p = (it.h + 1) * s.v + 0 := by rw [Nat.add_mul]; omega
      refine .step (s' := ⟨s.h, it.h + 1, s.v, 1⟩) ?_ (nodeIndices_truncated hs n (p + 1) _
        ⟨rfl, rfl, hlt, by simp only; omega, by simp only; omega⟩ (by omega))
      unfold NodeIndices.next Grid.at NodeIx.ofPair
      rw [hp.hMax, hp.vMax, if_neg hv, uadd_ok (by omega)]
      simp only [bind, Except.bind]
      rw [if_pos hlt, hp1, idx_div hp0, idx_mod hp0]

/-- **C52**: the sides must fit. On every reachable graph with a side larger than the index type's range, `node_identifiers` lists
some node twice. -/
theorem c52_too_large_wrong (hb : Built k h v g c) (hf : ¬ k.Fits h v) :
    ∃ l, Yields (NodeIndices.next k) (.new g.horizontalNodeCount g.verticalNodeCount) l ∧ ¬ l.Nodup := by
  have hs := hb.stores
  have p1 : 0 < h := hs.pos_h
  have p2 : 0 < v := hs.pos_v
  have hip := k.ix_pos
  rw [show g.horizontalNodeCount = h from hs.nodes.rows, show g.verticalNodeCount = v from hs.nodes.cols]
  refine ⟨_, nodeIndices_truncated hs (h * v) 0 _ ⟨rfl, rfl, hs.pos_h, Nat.zero_le _, by simp [NodeIndices.new]⟩ (by
    show 0 + h * v = h * v; omega), ?_⟩
  intro hnd
  have key : ∀ p q : Nat, p < q → q < h * v →
      NodeIx.ofPair k ((k.grid h v).at p).horizontal ((k.grid h v).at p).vertical ≠
      NodeIx.ofPair k ((k.grid h v).at q).horizontal ((k.grid h v).at q).vertical := by
    intro p q h1 h2
    have := List.pairwise_iff_getElem.1 hnd p q (by simp; omega) (by simp; omega) h1
    simpa using this
  unfold Cfg.Fits at hf
  by_cases h1 : h ≤ k.ix
  · have h2 : k.ix < v := by omega
    refine key 0 k.ix hip (Nat.lt_of_lt_of_le h2 (Nat.le_mul_of_pos_left v p1)) ?_
    simp only [NodeIx.ofPair, Grid.at, Cfg.grid, Cfg.new, Nat.div_eq_of_lt h2, Nat.mod_eq_of_lt h2, Nat.div_eq_of_lt p2,
      Nat.zero_mod, Nat.mod_self]
  · have h2 : k.ix < h := by omega
    refine key 0 (k.ix * v) (Nat.mul_pos hip p2) (Nat.mul_lt_mul_of_pos_right h2 p2) ?_
    simp only [NodeIx.ofPair, Grid.at, Cfg.grid, Cfg.new, Nat.zero_mod, Nat.mod_self, Nat.zero_div,
      Nat.mul_div_cancel _ p2, Nat.mul_mod_left]

example : ∃ (g : G Nat Nat) (c : Contents NodeIx Axis Nat Nat), Built exCfg 3 2 g c ∧ exCfg.Fits 3 2 ∧
    (exCfg.withIx 65536 (by decide) (by decide)).Fits 3 2 ∧ ¬ (exCfg.withIx 2 (by decide) (by decide)).Fits 3 2 := by
  obtain ⟨g, c, hb, _⟩ := exGraph exCfg (by decide)
  exact ⟨g, c, hb, ⟨by decide, by decide⟩, ⟨by decide, by decide⟩, fun h => absurd h.1 (by decide)⟩

/-- The graph of the example, read with a 16-bit index type; and with one of two values. -/
example : ∃ (g : G Nat Nat) (c : Contents NodeIx Axis Nat Nat), Built exCfg 3 2 g c ∧
    Built (exCfg.withIx 65536 (by decide) (by decide)) 3 2 (g.withIx (exCfg.withIx 65536 (by decide) (by decide))) c ∧
    (g.withIx (exCfg.withIx 65536 (by decide) (by decide))).fromIndex 5 = g.fromIndex 5 ∧
    (∃ l, Yields (nodeRefsNext g) (nodeRefsInit g) l ∧ Yields (nodeRefsNext (g.withIx (exCfg.withIx 65536 (by decide) (by decide))))
      (nodeRefsInit (g.withIx (exCfg.withIx 65536 (by decide) (by decide)))) l) := by
  obtain ⟨g, c, hb, _⟩ := exGraph exCfg (by decide)
  have hf : exCfg.Fits 3 2 := ⟨by decide, by decide⟩
  have hf' : (exCfg.withIx 65536 (by decide) (by decide)).Fits 3 2 := ⟨by decide, by decide⟩
  refine ⟨g, c, hb, c52_built hb, (c52_lookups hb hf hf').2.2.2.2.1 5 ?_, (c52_iterators hb hf hf').2.1⟩
  rw [(c45_index_bijection_partial hb hf).1]; decide
example : ∃ (g : G Nat Nat) (c : Contents NodeIx Axis Nat Nat), Built (exCfg.withIx 2 (by decide) (by decide)) 3 2 g c ∧
    ∃ l, Yields (NodeIndices.next (exCfg.withIx 2 (by decide) (by decide))) (.new g.horizontalNodeCount g.verticalNodeCount) l ∧ ¬ l.Nodup := by
  obtain ⟨g, c, hb, _⟩ := exGraph (exCfg.withIx 2 (by decide) (by decide)) (by decide)
  exact ⟨g, c, hb, c52_too_large_wrong hb fun h => absurd h.1 (by decide)⟩
example : ∃ (g : G Nat Nat) (c : Contents NodeIx Axis Nat Nat), Built exPlainR 3 2 g c ∧
    ({ g with nodes := ⟨4, 2, [0, 0, 0, 0, 0, 0, 0, 0]⟩ } : G Nat Nat).getEdgeReference ⟨2, 1⟩ .right = .error .ub := by
  obtain ⟨g, c, hb, _⟩ := exGraph exPlainR (by decide)
  exact ⟨g, c, hb, (c53_nodes_mut_ub hb rfl rfl (a := ⟨4, 2, [0, 0, 0, 0, 0, 0, 0, 0]⟩) rfl (j := 1) (by decide)).2⟩
/-- Nothing else than what the map says can be observed: the node written twice reads as the second value. -/
example : ∃ (g : G Nat Nat) (c : Contents NodeIx Axis Nat Nat), Built exCfg 3 2 g c ∧
    ∀ outs g', ExecAll g [.writeNode ⟨1, 0⟩ fun _ => 7, .writeNode ⟨1, 0⟩ fun _ => 8, .readNode ⟨1, 0⟩] outs g' →
      outs = [.wrote true, .wrote true, .node (some 8)] := by
  obtain ⟨g, c, hb, hc⟩ := exGraph exCfg (by decide)
  refine ⟨g, c, hb, fun outs g' hx => ?_⟩
  have := (c54_only_map ⟨by decide, by decide⟩ hb (by simp [OpOk]) hx).1
  rw [this, hc]; rfl
example (c : Contents NodeIx Axis Nat Nat) (h : c.node ⟨1, 0⟩ = some 3) (h' : c.edge ⟨1, 0⟩ .vertical = some 4) :
    (specRun (exCfg.grid 3 2) c ([(⟨1, 0⟩, 5), (⟨0, 0⟩, 6), (⟨1, 0⟩, 7)].map fun p => .writeNode p.1 fun _ => p.2)).2.node ⟨1, 0⟩ = some 7 ∧
    (specRun (exCfg.grid 3 2) c ([((⟨1, 0⟩, .vertical), 5), ((⟨1, 0⟩, .horizontal), 6)].map fun p =>
      .writeEdge ⟨p.1.1, p.1.2⟩ fun _ => p.2)).2.edge ⟨1, 0⟩ .vertical = some 5 :=
  ⟨c54_last_node_write _ _ _ _ _ h, c54_last_edge_write _ _ _ _ _ _ h'⟩

end
end LG.Sq
