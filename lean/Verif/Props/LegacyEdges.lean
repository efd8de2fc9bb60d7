import Verif.Props.LegacyBuild
/- C47, C48, C49, C56: edges of the deprecated `SquareGraph`. -/
set_option linter.unusedSectionVars false
namespace LG.Sq
section
variable {N E σ α β : Type}
variable {g : G N E} {k : Cfg} {s : Grid} {h v : Nat} {c : Contents NodeIx Axis N E}

/-! ### C47 -/

theorem mapM_filterMap {f : α → Option (Ref E)} {f' : α → Option (View E)} : ∀ {l : List α},
    (∀ a ∈ l, (f a = none ∧ f' a = none) ∨ ∃ r w, f a = some r ∧ f' a = some w ∧ r.view k = .ok w) →
    (l.filterMap f).mapM (Ref.view k) = .ok (l.filterMap f')
  | [], _ => rfl
  | a :: l, hl => by
    have ih := mapM_filterMap (l := l) (fun b hb => hl b (List.mem_cons_of_mem _ hb))
    rw [List.filterMap_cons, List.filterMap_cons]
    rcases hl a (by simp) with ⟨h1, h2⟩ | ⟨r, w, h1, h2, h3⟩
    · rw [h1, h2]; exact ih
    · rw [h1, h2]
      simp only [List.mapM_cons, h3, ih, bind, Except.bind]
      rfl

theorem mapM_append {l l' : List (Ref E)} {m m' : List (View E)} (h1 : l.mapM (Ref.view k) = .ok m)
    (h2 : l'.mapM (Ref.view k) = .ok m') : (l ++ l').mapM (Ref.view k) = .ok (m ++ m') := by
  simp only [List.mapM_append, h1, h2, bind, Except.bind]
  rfl

theorem edges_views (hs : Stores g k s c) (z : Sizes k s) {n : NodeIx} (hn : s.Node n) (l : List Dir) :
    (l.filterMap (refOf k s c n)).mapM (Ref.view k) = .ok (l.filterMap fun d => (s.step n d).bind fun t =>
      (c.edge (Grid.key n t d).node (Grid.key n t d).axis).map fun w => ⟨n, t, w, Grid.key n t d⟩) := by
  apply mapM_filterMap
  intro d _
  cases hst : s.step n d with
  | none => exact .inl ⟨refOf_none hst, rfl⟩
  | some t =>
    obtain ⟨w, hw, hr⟩ := refOf_some hs hn hst
    refine .inr ⟨_, ⟨n, t, w, Grid.key n t d⟩, hr, ?_, view_eq z hn hst w⟩
    rw [Option.bind_some, hw]; rfl

/-- **C47.** `edges(n)` yields, without fault, one reference per neighbour, in neighbour order; read through
`source()`, `target()`, `weight()`, `id()` they are the edges `outViews` of the specification. -/
theorem c47_edges (hb : Built k h v g c) (hf : k.Fits h v) {n : NodeIx} (hn : (k.grid h v).Node n) :
    ∃ l, Yields (EdgesOf.next g) (g.edges n) l ∧ l.mapM (Ref.view k) = .ok (outViews (k.grid h v) c n) :=
  ⟨_, edgesOf_yields hb.stores (hb.sizes hf) hn 4 0 rfl, edges_views hb.stores (hb.sizes hf) hn _⟩

theorem mem_outViews {n : NodeIx} {w : View E} : w ∈ outViews s c n ↔
    ∃ d ∈ Grid.dirs, s.step n d = some w.target ∧ w.source = n ∧ w.id = Grid.key n w.target d ∧
      c.edge w.id.node w.id.axis = some w.weight := by
  unfold outViews
  simp only [List.mem_filterMap, Option.bind_eq_some_iff, Option.map_eq_some_iff]
  constructor
  · rintro ⟨d, hd, t, ht, x, hx, rfl⟩; exact ⟨d, hd, ht, rfl, rfl, hx⟩
  · rintro ⟨d, hd, ht, h1, h2, h3⟩
    obtain ⟨a, b, x, e⟩ := w
    simp only at *
    subst h1 h2
    exact ⟨d, hd, b, ht, x, h3, rfl⟩

/-- **C47.** What these references say: targets are the neighbours in order, the source is `n`, the weight is
`edge_weight(id())`. -/
theorem c47_meaning (hb : Built k h v g c) {n : NodeIx} (hn : (k.grid h v).Node n) :
    (outViews (k.grid h v) c n).map View.target = (k.grid h v).nbrs n ∧
    ∀ w ∈ outViews (k.grid h v) c n, w.source = n ∧ g.edgeWeight w.id = some w.weight := by
  have hs := hb.stores
  constructor
  · unfold outViews Grid.nbrs
    generalize Grid.dirs = l
    induction l with
    | nil => rfl
    | cons d l ih =>
      rw [List.filterMap_cons, List.filterMap_cons]
      cases hst : (k.grid h v).step n d with
      | none => exact ih
      | some t =>
        obtain ⟨w, hw, _⟩ := refOf_some hs hn hst
        simp only [Option.bind_some, hw, Option.map_some, List.map_cons, ih]
  · intro w hw
    obtain ⟨d, _, _, h1, _, h3⟩ := mem_outViews.1 hw
    exact ⟨h1, (weights_eq hb w.id.node w.id.axis).2.trans h3⟩

/-- **C47.** The same edge, with the same id and weight, is seen from the other end. -/
theorem c47_other_end (k : Cfg) (c : Contents NodeIx Axis N E) {n : NodeIx} (hn : (k.grid h v).Node n) {w : View E}
    (hw : w ∈ outViews (k.grid h v) c n) :
    (⟨w.target, w.source, w.weight, w.id⟩ : View E) ∈ outViews (k.grid h v) c w.target := by
  obtain ⟨d, hd, ht, h1, h2, h3⟩ := mem_outViews.1 hw
  refine mem_outViews.2 ⟨d.opp, ?_, ?_, rfl, ?_, h3⟩
  · rcases d with (_ | _) | (_ | _) <;> decide
  · rw [h1]; exact Grid.step_opp hn ht
  · show w.id = _
    rw [h2, h1]
    cases d <;> rfl

example : ∃ (g : G Nat Nat) (c : Contents NodeIx Axis Nat Nat) (l : List (Ref Nat)), Built exCfg 3 2 g c ∧
    Yields (EdgesOf.next g) (g.edges ⟨0, 1⟩) l ∧
    l.mapM (Ref.view exCfg) = .ok [⟨⟨0, 1⟩, ⟨2, 1⟩, 121, ⟨⟨2, 1⟩, .horizontal⟩⟩, ⟨⟨0, 1⟩, ⟨1, 1⟩, 101, ⟨⟨0, 1⟩, .horizontal⟩⟩,
      ⟨⟨0, 1⟩, ⟨0, 0⟩, 200, ⟨⟨0, 0⟩, .vertical⟩⟩] := by
  obtain ⟨g, c, hb, hc⟩ := exGraph exCfg (by decide)
  obtain ⟨l, h1, h2⟩ := c47_edges hb ⟨by decide, by decide⟩ (n := ⟨0, 1⟩) (by decide)
  refine ⟨g, c, l, hb, h1, h2.trans ?_⟩
  rw [hc]
  rfl

/-! ### C48 -/

/-- **C48.** `edge_references()` yields, without fault, exactly the references `allViews` of the specification. -/
theorem c48_edge_references (hb : Built k h v g c) (hf : k.Fits h v) :
    ∃ l, Yields (edgeRefsNext g) (edgeRefsInit g) l ∧ l.mapM (Ref.view k) = .ok (allViews (k.grid h v) c) := by
  have hs := hb.stores
  have z := hb.sizes hf
  have e1 : g.horizontalNodeCount = (k.grid h v).h := hs.nodes.rows
  have e2 : g.verticalNodeCount = (k.grid h v).v := hs.nodes.cols
  refine ⟨(k.grid h v).nodes.flatMap (ownRefs k (k.grid h v) c), ?_, ?_⟩
  · unfold edgeRefsInit
    rw [e1, e2, Grid.nodes_eq, List.range_eq_range']
    exact edgeRefs_yields hs z _ 0 _ (Pos.new z) (by omega)
  · unfold allViews
    have hn : ∀ n ∈ (k.grid h v).nodes, (k.grid h v).Node n := fun n hn => mem_cells.1 hn
    generalize (k.grid h v).nodes = l at hn
    induction l with
    | nil => rfl
    | cons n l ih =>
      rw [List.flatMap_cons, List.flatMap_cons]
      refine mapM_append ?_ (ih fun n h => hn n (List.mem_cons_of_mem _ h))
      have hnn := hn n (by simp)
      apply mapM_filterMap
      intro a _
      cases hst : (k.grid h v).step n (.foward a) with
      | none =>
        left
        refine ⟨?_, rfl⟩
        unfold ownRef
        have : c.edge n a = none := by
          rw [← Option.not_isSome_iff_eq_none, hs.edge_isSome]
          rintro ⟨_, h2⟩
          rw [hst] at h2; cases h2
        rw [this]; rfl
      | some t =>
        right
        obtain ⟨w, hw, _⟩ := refOf_some hs hnn hst
        refine ⟨⟨⟨n, a⟩, w, true, k.sizeInfo h v⟩, ⟨n, t, w, ⟨n, a⟩⟩, ?_, ?_, view_eq z hnn hst w⟩
        · unfold ownRef
          rw [show c.edge n a = some w from hw]; rfl
        · rw [Option.bind_some, show c.edge n a = some w from hw]; rfl

/-- **C48.** These references name every existing edge exactly once, and nothing else; each carries the weight
`edge_weight(id())` and the two ends of the edge. -/
theorem c48_exact (hb : Built k h v g c) :
    (allViews (k.grid h v) c).map View.id = (k.grid h v).edgeKeys ∧ (k.grid h v).edgeKeys.Nodup ∧
    (∀ e, e ∈ (k.grid h v).edgeKeys ↔ (k.grid h v).HasEdge e.node e.axis) ∧
    ∀ w ∈ allViews (k.grid h v) c, g.edgeWeight w.id = some w.weight ∧ w.source = w.id.node ∧
      (k.grid h v).step w.source (.foward w.id.axis) = some w.target := by
  have hs := hb.stores
  refine ⟨?_, ?_, ?_, ?_⟩
  · unfold allViews Grid.edgeKeys
    have hn : ∀ n ∈ (k.grid h v).nodes, (k.grid h v).Node n := fun n hn => mem_cells.1 hn
    generalize (k.grid h v).nodes = l at hn
    induction l with
    | nil => rfl
    | cons n l ih =>
      rw [List.flatMap_cons, List.flatMap_cons, List.map_append, ih fun n h => hn n (List.mem_cons_of_mem _ h)]
      congr 1
      have hnn := hn n (by simp)
      generalize [Axis.horizontal, Axis.vertical] = as
      induction as with
      | nil => rfl
      | cons a as ih' =>
        rw [List.filterMap_cons, List.filterMap_cons]
        cases hst : (k.grid h v).step n (.foward a) with
        | none =>
          rw [if_neg (by rintro ⟨_, h2⟩; rw [hst] at h2; cases h2)]
          exact ih'
        | some t =>
          rw [if_pos ⟨hnn, by rw [hst]; rfl⟩]
          obtain ⟨w, hw, _⟩ := refOf_some hs hnn hst
          rw [show c.edge n a = some w from hw]
          simp only [Option.bind_some, Option.map_some, List.map_cons, ih']
  · unfold Grid.edgeKeys
    refine nodup_flatMap_of (cells_nodup _ _) ?_ ?_
    · intro n _
      refine nodup_filterMap_of_inj (by decide) ?_
      intro a _ b _ x hx hy
      split at hx <;> split at hy <;> simp_all
      rw [← hy] at hx
      simpa using hx
    · intro n _ n' _ x hx hx'
      obtain ⟨a, _, ha⟩ := List.mem_filterMap.1 hx
      obtain ⟨b, _, hb⟩ := List.mem_filterMap.1 hx'
      split at ha <;> split at hb <;> simp_all
      rw [← hb] at ha
      simp at ha
      exact ha.1
  · intro e
    obtain ⟨n, a⟩ := e
    unfold Grid.edgeKeys
    simp only [List.mem_flatMap, List.mem_filterMap]
    constructor
    · rintro ⟨n', _, a', _, he⟩
      split at he
      · rename_i hh; cases he; exact hh
      · cases he
    · intro hh
      exact ⟨n, mem_cells.2 hh.1, a, by cases a <;> decide, if_pos hh⟩
  · intro w hw
    unfold allViews at hw
    simp only [List.mem_flatMap, List.mem_filterMap, Option.bind_eq_some_iff, Option.map_eq_some_iff] at hw
    obtain ⟨n, _, a, _, t, ht, x, hx, rfl⟩ := hw
    exact ⟨(weights_eq hb n a).2.trans hx, rfl, ht⟩

example : ∃ (g : G Nat Nat) (c : Contents NodeIx Axis Nat Nat) (l : List (Ref Nat)), Built exCfg 3 2 g c ∧
    Yields (edgeRefsNext g) (edgeRefsInit g) l ∧
    l.mapM (Ref.view exCfg) = .ok [⟨⟨0, 0⟩, ⟨1, 0⟩, 100, ⟨⟨0, 0⟩, .horizontal⟩⟩, ⟨⟨0, 0⟩, ⟨0, 1⟩, 200, ⟨⟨0, 0⟩, .vertical⟩⟩,
      ⟨⟨0, 1⟩, ⟨1, 1⟩, 101, ⟨⟨0, 1⟩, .horizontal⟩⟩, ⟨⟨1, 0⟩, ⟨2, 0⟩, 110, ⟨⟨1, 0⟩, .horizontal⟩⟩,
      ⟨⟨1, 0⟩, ⟨1, 1⟩, 210, ⟨⟨1, 0⟩, .vertical⟩⟩, ⟨⟨1, 1⟩, ⟨2, 1⟩, 111, ⟨⟨1, 1⟩, .horizontal⟩⟩,
      ⟨⟨2, 0⟩, ⟨0, 0⟩, 120, ⟨⟨2, 0⟩, .horizontal⟩⟩, ⟨⟨2, 0⟩, ⟨2, 1⟩, 220, ⟨⟨2, 0⟩, .vertical⟩⟩,
      ⟨⟨2, 1⟩, ⟨0, 1⟩, 121, ⟨⟨2, 1⟩, .horizontal⟩⟩] := by
  obtain ⟨g, c, hb, hc⟩ := exGraph exCfg (by decide)
  obtain ⟨l, h1, h2⟩ := c48_edge_references hb ⟨by decide, by decide⟩
  refine ⟨g, c, l, hb, h1, h2.trans ?_⟩
  rw [hc]
  rfl

/-! ### C49 -/

/-- Going forward from the last cell of a looped axis with at least two cells. -/
def Wraps (s : Grid) (n : NodeIx) : Dir → Prop
  | .foward .horizontal => s.loopH = true ∧ n.horizontal + 1 = s.h ∧ 2 ≤ s.h
  | .foward .vertical => s.loopV = true ∧ n.vertical + 1 = s.v ∧ 2 ≤ s.v
  | .backward _ => False

theorem getEdgeId_eq (hs : Stores g k s c) (z : Sizes k s) {n : NodeIx} (hn : s.Node n) {d : Dir} (hw : ¬ Wraps s n d) :
    g.getEdgeId n d = .ok ((s.step n d).map fun t => (Grid.key n t d, d.isFwd)) := by
  have h1 := hn.1
  have h2 := hn.2
  have f1 := z.fit_h
  have f2 := z.fit_v
  have p1 := z.pos_h
  have p2 := z.pos_v
  have eh : g.horizontalNodeCount = s.h := hs.nodes.rows
  have ev : g.verticalNodeCount = s.v := hs.nodes.cols
  rcases d with (_ | _) | (_ | _)
  · rw [step_right hn]
    simp only [G.getEdgeId, eh, hs.cfg, uadd1 z (.inl h1), bind, Except.bind]
    by_cases hlt : n.horizontal + 1 < s.h
    · rw [if_pos hlt, if_pos hlt]; rfl
    · rw [if_neg hlt, if_neg hlt, ← z.loopH]
      by_cases hl : s.loopH
      · rw [if_pos ⟨hl, by omega⟩, if_pos hl]
        have : n.horizontal = 0 := by
          have : ¬ 2 ≤ s.h := fun h => hw ⟨hl, by omega, h⟩
          omega
        simp only [Option.map_some, Grid.key, Dir.isFwd]
        rw [← this]
      · rw [if_neg (fun h => hl h.1), if_neg hl]; rfl
  · rw [step_up hn]
    simp only [G.getEdgeId, ev, hs.cfg, uadd1 z (.inr h2), bind, Except.bind]
    by_cases hlt : n.vertical + 1 < s.v
    · rw [if_pos hlt, if_pos hlt]; rfl
    · rw [if_neg hlt, if_neg hlt, ← z.loopV]
      by_cases hl : s.loopV
      · rw [if_pos ⟨hl, by omega⟩, if_pos hl]
        have : n.vertical = 0 := by
          have : ¬ 2 ≤ s.v := fun h => hw ⟨hl, by omega, h⟩
          omega
        simp only [Option.map_some, Grid.key, Dir.isFwd]
        rw [← this]
      · rw [if_neg (fun h => hl h.1), if_neg hl]; rfl
  · rw [step_left hn]
    simp only [G.getEdgeId, eh, hs.cfg]
    by_cases hz : n.horizontal ≠ 0
    · rw [if_pos hz, if_pos hz, left_ok z hn hz]; rfl
    · rw [if_neg hz, if_neg hz, ← z.loopH]
      split
      · rw [usub_ok (by omega)]
        simp only [bind, Except.bind]
        rw [new_of_lt (by omega)]; rfl
      · rfl
  · rw [step_down hn]
    simp only [G.getEdgeId, ev, hs.cfg]
    by_cases hz : n.vertical ≠ 0
    · rw [if_pos hz, if_pos hz, down_ok z hn hz]; rfl
    · rw [if_neg hz, if_neg hz, ← z.loopV]
      split
      · rw [usub_ok (by omega)]
        simp only [bind, Except.bind]
        rw [new_of_lt (by omega)]; rfl
      · rfl

/-- The reference built from an id that denotes an existing edge. -/
theorem getEdgeReference_eq (hs : Stores g k s c) {n : NodeIx} {e : EdgeIx} {w : E} {f : Bool} {d : Dir}
    (he : g.getEdgeId n d = .ok (some (e, f))) (hw : c.edge e.node e.axis = some w)
    (ha : d.isHorizontal = e.axis.isHorizontal) :
    g.getEdgeReference n d = .ok (some ⟨e, w, f, k.sizeInfo s.h s.v⟩) := by
  obtain ⟨m, a⟩ := e
  have eh : g.horizontalNodeCount = s.h := hs.nodes.rows
  have ev : g.verticalNodeCount = s.v := hs.nodes.cols
  simp only [G.getEdgeReference, he, bind, Except.bind, ha, eh, ev, hs.cfg]
  cases a with
  | horizontal => rw [if_pos (show Axis.horizontal.isHorizontal = true from rfl), hs.horizontal.uget k.m hw]
  | vertical => rw [if_neg (by simp [Axis.isHorizontal]), hs.vertical.uget k.m hw]

theorem key_axis (n t : NodeIx) (d : Dir) : d.isHorizontal = (Grid.key n t d).axis.isHorizontal := by
  cases d <;> rfl

/-- **C49.** `get_edge_id(n, dir)` is the id and orientation of the edge crossed from `n` in direction `dir` — the one `edges(n)`
yields — and `None` if there is no neighbour there. Missing: forward steps that wrap around, see below. -/
theorem c49_get_edge_id_partial (hb : Built k h v g c) (hf : k.Fits h v) {n : NodeIx} (hn : (k.grid h v).Node n) {d : Dir}
    (hw : ¬ Wraps (k.grid h v) n d) :
    g.getEdgeId n d = .ok (((k.grid h v).step n d).map fun t => (Grid.key n t d, d.isFwd)) :=
  getEdgeId_eq hb.stores (hb.sizes hf) hn hw

/-- **C49.** `get_edge_reference(n, dir)` is `None` if there is no neighbour, and otherwise an edge from `n` to that neighbour with
its weight. Missing: forward steps that wrap around. -/
theorem c49_get_edge_reference_partial (hb : Built k h v g c) (hf : k.Fits h v) {n : NodeIx} (hn : (k.grid h v).Node n)
    {d : Dir} (hw : ¬ Wraps (k.grid h v) n d) :
    match (k.grid h v).step n d with
    | none => g.getEdgeReference n d = .ok none
    | some t => ∃ r w, g.getEdgeReference n d = .ok (some r) ∧ g.edgeWeight (Grid.key n t d) = some w ∧
        r.view k = .ok ⟨n, t, w, Grid.key n t d⟩ := by
  have hs := hb.stores
  have z := hb.sizes hf
  have he := getEdgeId_eq hs z hn hw
  cases hst : (k.grid h v).step n d with
  | none =>
    rw [hst] at he
    simp only [G.getEdgeReference, he, bind, Except.bind]
    rfl
  | some t =>
    rw [hst] at he
    obtain ⟨w, hw', _⟩ := refOf_some hs hn hst
    refine ⟨⟨Grid.key n t d, w, d.isFwd, k.sizeInfo h v⟩, w, ?_, (weights_eq hb _ _).2.trans hw', view_eq z hn hst w⟩
    exact getEdgeReference_eq hs he hw' (key_axis n t d)

/-- **C49 fails** on every looped axis with at least two cells: forward from the last cell, `get_edge_id` names the edge that
*starts* at the first cell, not the edge between the last cell and the first, and `get_edge_reference(n, dir)` has the first cell as
source instead of `n`. -/
theorem c49_forward_wrap_wrong (hb : Built k h v g c) (hf : k.Fits h v) {n : NodeIx} (hn : (k.grid h v).Node n) {d : Dir}
    (hw : Wraps (k.grid h v) n d) :
    ∃ t e r, (k.grid h v).step n d = some t ∧ t ≠ n ∧ g.getEdgeId n d = .ok (some (e, true)) ∧ e ≠ Grid.key n t d ∧
      g.getEdgeReference n d = .ok (some r) ∧ r.source k = .ok t := by
  have hs := hb.stores
  have z := hb.sizes hf
  have h1 := hn.1
  have h2 := hn.2
  have eh : g.horizontalNodeCount = (k.grid h v).h := hs.nodes.rows
  have ev : g.verticalNodeCount = (k.grid h v).v := hs.nodes.cols
  rcases d with (_ | _) | (_ | _)
  · obtain ⟨hl, he, h3⟩ := hw
    have ht : (k.grid h v).step n (.foward .horizontal) = some ⟨0, n.vertical⟩ := by
      rw [step_right hn, if_neg (by omega), if_pos hl]
    have hid : g.getEdgeId n (.foward .horizontal) = .ok (some (⟨⟨0, n.vertical⟩, .horizontal⟩, true)) := by
      simp only [G.getEdgeId, eh, hs.cfg, uadd1 z (.inl h1), bind, Except.bind]
      rw [if_neg (by omega), ← z.loopH, if_pos ⟨hl, he⟩]
    obtain ⟨w, hw'⟩ := Option.isSome_iff_exists.1 ((hs.edge_isSome (n := ⟨0, n.vertical⟩) (a := .horizontal)).2
      (Grid.hasEdge_h.2 ⟨by unfold Grid.mh; rw [if_pos hl]; exact z.pos_h, h2⟩))
    refine ⟨_, _, ⟨⟨⟨0, n.vertical⟩, .horizontal⟩, w, true, k.sizeInfo h v⟩, ht, ?_, hid, ?_, ?_, rfl⟩
    · intro h
      have := congrArg NodeIx.horizontal h
      simp only at this
      omega
    · intro h
      have := congrArg (fun e => e.node.horizontal) h
      simp only [Grid.key] at this
      omega
    · exact getEdgeReference_eq hs hid hw' rfl
  · obtain ⟨hl, he, h3⟩ := hw
    have ht : (k.grid h v).step n (.foward .vertical) = some ⟨n.horizontal, 0⟩ := by
      rw [step_up hn, if_neg (by omega), if_pos hl]
    have hid : g.getEdgeId n (.foward .vertical) = .ok (some (⟨⟨n.horizontal, 0⟩, .vertical⟩, true)) := by
      simp only [G.getEdgeId, ev, hs.cfg, uadd1 z (.inr h2), bind, Except.bind]
      rw [if_neg (by omega), ← z.loopV, if_pos ⟨hl, he⟩]
    obtain ⟨w, hw'⟩ := Option.isSome_iff_exists.1 ((hs.edge_isSome (n := ⟨n.horizontal, 0⟩) (a := .vertical)).2
      (Grid.hasEdge_v.2 ⟨h1, by unfold Grid.mv; rw [if_pos hl]; exact z.pos_v⟩))
    refine ⟨_, _, ⟨⟨⟨n.horizontal, 0⟩, .vertical⟩, w, true, k.sizeInfo h v⟩, ht, ?_, hid, ?_, ?_, rfl⟩
    · intro h
      have := congrArg NodeIx.vertical h
      simp only at this
      omega
    · intro h
      have := congrArg (fun e => e.node.vertical) h
      simp only [Grid.key] at this
      omega
    · exact getEdgeReference_eq hs hid hw' rfl
  · exact hw.elim
  · exact hw.elim

example : ∃ (g : G Nat Nat) (c : Contents NodeIx Axis Nat Nat), Built exCfg 3 2 g c ∧
    g.getEdgeId ⟨0, 1⟩ .left = .ok (some (⟨⟨2, 1⟩, .horizontal⟩, false)) ∧
    g.getEdgeId ⟨0, 1⟩ .up = .ok none ∧ Wraps (exCfg.grid 3 2) ⟨2, 1⟩ .right := by
  obtain ⟨g, c, hb, _⟩ := exGraph exCfg (by decide)
  have hf : exCfg.Fits 3 2 := ⟨by decide, by decide⟩
  exact ⟨g, c, hb, c49_get_edge_id_partial hb hf (n := ⟨0, 1⟩) (d := .left) (by decide) (fun h => h),
    c49_get_edge_id_partial hb hf (n := ⟨0, 1⟩) (d := .up) (by decide) (fun h => absurd h.1 (by decide)),
    by decide, by decide, by decide⟩

/-! ### C56 -/

theorem nbrsNext_at (z : Sizes k s) {n : NodeIx} (hn : s.Node n) : ∀ (r st : Nat), st + r = 4 → ∃ o st',
    Nbrs.next k ⟨n, st, s.h, s.v⟩ = .ok (o, ⟨n, st', s.h, s.v⟩) ∧ st' ≤ 4 ∧ (o = none → st' = 4)
  | 0, st, h => ⟨none, st, nbrsNext_ge (by show ¬ st < 4; omega), by omega, fun _ => by omega⟩
  | r + 1, st, h => by
    obtain ⟨d, h1, h2⟩ := dirs_drop (show st < 4 by omega)
    cases ht : s.step n d with
    | none =>
      rw [nbrsNext_none z hn (by omega) h1 ht]
      exact nbrsNext_at z hn r (st + 1) (by omega)
    | some t => exact ⟨some t, st + 1, nbrsNext_some z hn (by omega) h1 ht, by omega, by simp⟩

theorem edgesOfNext_at (hs : Stores g k s c) (z : Sizes k s) {n : NodeIx} (hn : s.Node n) : ∀ (r st : Nat), st + r = 4 →
    ∃ o st', EdgesOf.next g ⟨n, st⟩ = .ok (o, ⟨n, st'⟩) ∧ st' ≤ 4 ∧ (o = none → st' = 4)
  | 0, st, h => ⟨none, st, edgesOfNext_ge (by show ¬ st < 4; omega), by omega, fun _ => by omega⟩
  | r + 1, st, h => by
    obtain ⟨d, h1, h2⟩ := dirs_drop (show st < 4 by omega)
    cases ht : refOf k s c n d with
    | none =>
      rw [edgesOfNext_none hs z hn (by omega) h1 ht]
      exact edgesOfNext_at hs z hn r (st + 1) (by omega)
    | some t => exact ⟨some t, st + 1, edgesOfNext_some hs z hn (by omega) h1 ht, by omega, by simp⟩

/-- **C56.** `neighbors`: at every point of the iteration `size_hint` brackets the number of items still to come, and the
iterator is fused. -/
theorem c56_neighbors (hb : Built k h v g c) (hf : k.Fits h v) {n : NodeIx} (hn : (k.grid h v).Node n) {it : Nbrs}
    (hr : Reaches (Nbrs.next k) (g.neighbors n) it) :
    (∃ l hi, Yields (Nbrs.next k) it l ∧ it.sizeHint k = .ok (0, some hi) ∧ l.length ≤ hi) ∧ FusedAt (Nbrs.next k) it := by
  have hs := hb.stores
  have z := hb.sizes hf
  have e1 : g.horizontalNodeCount = (k.grid h v).h := hs.nodes.rows
  have e2 : g.verticalNodeCount = (k.grid h v).v := hs.nodes.cols
  unfold G.neighbors at hr
  rw [e1, e2] at hr
  have hp : ∃ st, st ≤ 4 ∧ it = ⟨n, st, (k.grid h v).h, (k.grid h v).v⟩ := by
    refine hr.inv (P := fun it => ∃ st, st ≤ 4 ∧ it = ⟨n, st, (k.grid h v).h, (k.grid h v).v⟩) ⟨0, by omega, rfl⟩ ?_
    rintro it it' o ⟨st, hst, rfl⟩ hnx
    obtain ⟨o', st', h1, h2, _⟩ := nbrsNext_at z hn (4 - st) st (by omega)
    rw [h1] at hnx; cases hnx
    exact ⟨_, h2, rfl⟩
  obtain ⟨st, hst, rfl⟩ := hp
  refine ⟨⟨_, 4 - st, nbrs_yields z hn (4 - st) st (by omega), ?_, ?_⟩, ?_⟩
  · simp only [Nbrs.sizeHint, usub_ok (m := k.m) hst, bind, Except.bind]
  · exact Nat.le_trans (List.length_filterMap_le _ _) (by simp [Grid.dirs])
  · intro it' hnx
    obtain ⟨o', st', h1, h2, h3⟩ := nbrsNext_at z hn (4 - st) st (by omega)
    rw [h1] at hnx; cases hnx
    have := h3 rfl
    exact ⟨_, nbrsNext_ge (by show ¬ st' < 4; omega)⟩

/-- **C56.** `edges`. -/
theorem c56_edges (hb : Built k h v g c) (hf : k.Fits h v) {n : NodeIx} (hn : (k.grid h v).Node n) {it : EdgesOf}
    (hr : Reaches (EdgesOf.next g) (g.edges n) it) :
    (∃ l hi, Yields (EdgesOf.next g) it l ∧ it.sizeHint k = .ok (0, some hi) ∧ l.length ≤ hi) ∧
    FusedAt (EdgesOf.next g) it := by
  have hs := hb.stores
  have z := hb.sizes hf
  have hp : ∃ st, st ≤ 4 ∧ it = ⟨n, st⟩ := by
    refine hr.inv (P := fun it => ∃ st, st ≤ 4 ∧ it = ⟨n, st⟩) ⟨0, by omega, rfl⟩ ?_
    rintro it it' o ⟨st, hst, rfl⟩ hnx
    obtain ⟨o', st', h1, h2, _⟩ := edgesOfNext_at hs z hn (4 - st) st (by omega)
    rw [h1] at hnx; cases hnx
    exact ⟨_, h2, rfl⟩
  obtain ⟨st, hst, rfl⟩ := hp
  refine ⟨⟨_, 4 - st, edgesOf_yields hs z hn (4 - st) st (by omega), ?_, ?_⟩, ?_⟩
  · simp only [EdgesOf.sizeHint, usub_ok (m := k.m) hst, bind, Except.bind]
  · exact Nat.le_trans (List.length_filterMap_le _ _) (by simp [Grid.dirs])
  · intro it' hnx
    obtain ⟨o', st', h1, h2, h3⟩ := edgesOfNext_at hs z hn (4 - st) st (by omega)
    rw [h1] at hnx; cases hnx
    have := h3 rfl
    exact ⟨_, edgesOfNext_ge (by show ¬ st' < 4; omega)⟩

/-- **C56.** `node_references`: `len()` is exact at every point, and the iterator is fused. -/
theorem c56_node_references (hb : Built k h v g c) (hf : k.Fits h v) {it : NodeRefs}
    (hr : Reaches (nodeRefsNext g) (nodeRefsInit g) it) :
    (∃ l, Yields (nodeRefsNext g) it l ∧ nodeRefsSizeHint g it = (l.length, some l.length)) ∧
    FusedAt (nodeRefsNext g) it := by
  have hs := hb.stores
  have z := hb.sizes hf
  have e1 : g.horizontalNodeCount = (k.grid h v).h := hs.nodes.rows
  have e2 : g.verticalNodeCount = (k.grid h v).v := hs.nodes.cols
  have hlen := hs.nodes.len
  unfold nodeRefsInit at hr
  rw [e1, e2] at hr
  have hend : ∀ {i : NodeIndices} {p : Nat}, Pos (k.grid h v) i p → ¬ p < (k.grid h v).h * (k.grid h v).v →
      nodeRefsNext g ⟨i, p⟩ = .ok (none, ⟨i, p⟩) := by
    intro i p _ hlt
    unfold nodeRefsNext
    rw [List.getElem?_eq_none (by rw [hlen]; show (k.grid h v).h * (k.grid h v).v ≤ p; omega)]
  have hstep : ∀ {i : NodeIndices} {p : Nat}, Pos (k.grid h v) i p → p < (k.grid h v).h * (k.grid h v).v →
      ∃ i' x, nodeRefsNext g ⟨i, p⟩ = .ok (some x, ⟨i', p + 1⟩) ∧ Pos (k.grid h v) i' (p + 1) := by
    intro i p hp hlt
    obtain ⟨i', h1, h2, _⟩ := hp.next z hlt
    have hl : p < g.nodes.data.length := by rw [hlen]; exact hlt
    refine ⟨i', ((k.grid h v).at p, g.nodes.data[p]), ?_, h2⟩
    unfold nodeRefsNext
    simp only [List.getElem?_eq_getElem hl, bind, Except.bind]
    rw [hs.cfg, h1]
  have hp : Pos (k.grid h v) it.indices it.pos := by
    refine hr.inv (P := fun it => Pos (k.grid h v) it.indices it.pos) (Pos.new z) ?_
    rintro ⟨i, p⟩ it' o hp hn
    by_cases hlt : p < (k.grid h v).h * (k.grid h v).v
    · obtain ⟨i', x, h1, h2⟩ := hstep hp hlt
      rw [h1] at hn; cases hn
      exact h2
    · rw [hend hp hlt] at hn; cases hn
      exact hp
  obtain ⟨i, p⟩ := it
  have hle := hp.le
  have hy := nodeRefs_yields hs z ((k.grid h v).h * (k.grid h v).v - p) p i hp (by simp only at hle; omega)
  refine ⟨⟨_, hy, ?_⟩, ?_⟩
  · have : ∀ l : List NodeIx, (∀ n ∈ l, (k.grid h v).Node n) →
        (l.filterMap fun n => (c.node n).map fun w => (n, w)).length = l.length := by
      intro l
      induction l with
      | nil => intro _; rfl
      | cons n l ih =>
        intro hl
        obtain ⟨w, hw⟩ := Option.isSome_iff_exists.1 (hs.node_isSome.2 (hl n (by simp)))
        rw [List.filterMap_cons, hw]
        simp only [Option.map_some, List.length_cons]
        rw [ih (fun n hn => hl n (List.mem_cons_of_mem _ hn))]
    rw [this]
    · unfold nodeRefsSizeHint
      rw [hlen]; simp
    · intro n hn
      obtain ⟨q, hq, rfl⟩ := List.mem_map.1 hn
      have := List.mem_range'_1.1 hq
      exact Grid.at_node (by simp only at hle; omega)
  · intro it' hn
    by_cases hlt : p < (k.grid h v).h * (k.grid h v).v
    · obtain ⟨i', x, h1, h2⟩ := hstep hp hlt
      rw [h1] at hn; cases hn
    · have he := hend hp hlt
      rw [he] at hn; cases hn
      exact ⟨_, he⟩

/-- **C56.** `count()` of `node_references`, which asks the weights only, is the number of items still to come. -/
theorem c56_count (hb : Built k h v g c) (hf : k.Fits h v) {it : NodeRefs}
    (hr : Reaches (nodeRefsNext g) (nodeRefsInit g) it) :
    ∃ l, Yields (nodeRefsNext g) it l ∧ nodeRefsCount g it = l.length := by
  obtain ⟨⟨l, h1, h2⟩, -⟩ := c56_node_references hb hf hr
  refine ⟨l, h1, ?_⟩
  have := congrArg Prod.fst h2
  simpa only [nodeRefsCount, List.length_drop, nodeRefsSizeHint] using this

example : ∃ (g : G Nat Nat) (c : Contents NodeIx Axis Nat Nat) (it : Nbrs), Built exCfg 3 2 g c ∧
    Reaches (Nbrs.next exCfg) (g.neighbors ⟨0, 1⟩) it ∧ it.sizeHint exCfg = .ok (0, some 3) := by
  obtain ⟨g, c, hb, _⟩ := exGraph exCfg (by decide)
  have hs := hb.stores
  have z := hb.sizes (v := 2) (h := 3) ⟨by decide, by decide⟩
  refine ⟨g, c, ⟨⟨0, 1⟩, 1, 3, 2⟩, hb, .step (o := some ⟨2, 1⟩) (.refl _) ?_, by rfl⟩
  · unfold G.neighbors
    rw [show g.horizontalNodeCount = 3 from hs.nodes.rows, show g.verticalNodeCount = 2 from hs.nodes.cols]
    exact nbrsNext_some z (n := ⟨0, 1⟩) (t := ⟨2, 1⟩) (st := 0) (by decide) (by decide) rfl (by decide)

/-! ### Instances: the 3 × 2 graph that wraps horizontally -/
example : ∃ (g : G Nat Nat) (c : Contents NodeIx Axis Nat Nat), Built exCfg 3 2 g c ∧
    (outViews (exCfg.grid 3 2) c ⟨0, 1⟩).map View.target = [⟨2, 1⟩, ⟨1, 1⟩, ⟨0, 0⟩] ∧
    (⟨⟨2, 1⟩, ⟨0, 1⟩, 121, ⟨⟨2, 1⟩, .horizontal⟩⟩ : View Nat) ∈ outViews (exCfg.grid 3 2) c ⟨2, 1⟩ ∧
    (allViews (exCfg.grid 3 2) c).map View.id = (exCfg.grid 3 2).edgeKeys ∧ (exCfg.grid 3 2).edgeKeys.length = 9 := by
  obtain ⟨g, c, hb, hc⟩ := exGraph exCfg (by decide)
  refine ⟨g, c, hb, (c47_meaning hb (n := ⟨0, 1⟩) (by decide)).1,
    c47_other_end exCfg c (n := ⟨0, 1⟩) (by decide) (w := ⟨⟨0, 1⟩, ⟨2, 1⟩, 121, ⟨⟨2, 1⟩, .horizontal⟩⟩) ?_, (c48_exact hb).1, rfl⟩
  rw [hc]; decide
example : ∃ (g : G Nat Nat) (c : Contents NodeIx Axis Nat Nat), Built exCfg 3 2 g c ∧
    (∃ r w, g.getEdgeReference ⟨0, 1⟩ .left = .ok (some r) ∧ g.edgeWeight ⟨⟨2, 1⟩, .horizontal⟩ = some w ∧
      r.view exCfg = .ok ⟨⟨0, 1⟩, ⟨2, 1⟩, w, ⟨⟨2, 1⟩, .horizontal⟩⟩) ∧
    ∃ t e r, (exCfg.grid 3 2).step ⟨2, 1⟩ .right = some t ∧ t ≠ ⟨2, 1⟩ ∧ g.getEdgeId ⟨2, 1⟩ .right = .ok (some (e, true)) ∧
      e ≠ Grid.key ⟨2, 1⟩ t .right ∧ g.getEdgeReference ⟨2, 1⟩ .right = .ok (some r) ∧ r.source exCfg = .ok t := by
  obtain ⟨g, c, hb, _⟩ := exGraph exCfg (by decide)
  have hf : exCfg.Fits 3 2 := ⟨by decide, by decide⟩
  exact ⟨g, c, hb, c49_get_edge_reference_partial hb hf (n := ⟨0, 1⟩) (d := .left) (by decide) (fun h => h),
    c49_forward_wrap_wrong hb hf (n := ⟨2, 1⟩) (d := .right) (by decide) ⟨by decide, by decide, by decide⟩⟩
example : ∃ (g : G Nat Nat) (c : Contents NodeIx Axis Nat Nat), Built exCfg 3 2 g c ∧
    (∃ l hi, Yields (Nbrs.next exCfg) (g.neighbors ⟨0, 1⟩) l ∧ (g.neighbors ⟨0, 1⟩).sizeHint exCfg = .ok (0, some hi) ∧ l.length ≤ hi) ∧
    (∃ l hi, Yields (EdgesOf.next g) (g.edges ⟨2, 0⟩) l ∧ (g.edges ⟨2, 0⟩).sizeHint exCfg = .ok (0, some hi) ∧ l.length ≤ hi) ∧
    (∃ l, Yields (nodeRefsNext g) (nodeRefsInit g) l ∧ nodeRefsSizeHint g (nodeRefsInit g) = (l.length, some l.length)) ∧
    (∃ l, Yields (nodeRefsNext g) (nodeRefsInit g) l ∧ nodeRefsCount g (nodeRefsInit g) = l.length) := by
  obtain ⟨g, c, hb, _⟩ := exGraph exCfg (by decide)
  have hf : exCfg.Fits 3 2 := ⟨by decide, by decide⟩
  exact ⟨g, c, hb, (c56_neighbors hb hf (n := ⟨0, 1⟩) (by decide) (.refl _)).1, (c56_edges hb hf (n := ⟨2, 0⟩) (by decide) (.refl _)).1,
    (c56_node_references hb hf (.refl _)).1, c56_count hb hf (.refl _)⟩

end
end LG.Sq
