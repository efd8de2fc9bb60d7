import Verif.Lemmas.LegacyIter
import Verif.Props.Build
/- C43 to C46: construction, weights, nodes and neighbours of the deprecated `SquareGraph`. -/
set_option linter.unusedSectionVars false
namespace LG.Sq
section
variable {N E σ : Type}
variable {g : G N E} {k : Cfg} {h v : Nat} {c : Contents NodeIx Axis N E}

/-- A `SquareGraph<_, _, u8, HorizontalLoop>` on a 64-bit debug build. -/
def exCfg : Cfg := ⟨m64, 256, true, false, by decide, by decide⟩
/-- The same on a release build. -/
def exCfgR : Cfg := ⟨m64r, 256, true, false, by decide, by decide⟩
/-- `SquareGraph<_, _, usize, DefaultShape>` on a 64-bit release build. -/
def exPlainR : Cfg := ⟨m64r, 2 ^ 64, false, false, by decide, by decide⟩

/-! ### C43 -/

/-- **C43.** For sides of at least one whose product ndarray accepts, `new_with` returns a graph that passes the size check, and
the closures' state afterwards is the state after exactly the calls `callSeq`, in that order. -/
theorem c43_new_with (k : Cfg) (hh : 0 < h) (hv : 0 < v) (hs : h * v < k.m.half) (fn : σ → Nat → Nat → N × σ)
    (fe : σ → Nat → Nat → Axis → E × σ) (st : σ) : ∃ g : G N E, G.newWith k h v fn fe st =
      .ok (g, (runCalls (fun st (n : NodeIx) => fn st n.horizontal n.vertical)
        (fun st (n : NodeIx) a => fe st n.horizontal n.vertical a) (callSeq (k.grid h v)) st emptyContents).2) ∧
      g.checkGen = true ∧ g.horizontalNodeCount = h ∧ g.verticalNodeCount = v := by
  obtain ⟨g, h1, h2⟩ := newWith_ok k hh hv hs fn fe st
  refine ⟨g, h1, ?_, h2.nodes.rows, h2.nodes.cols⟩
  unfold G.checkGen
  rw [h2.nodes.rows, h2.nodes.cols, h2.horizontal.rows, h2.horizontal.cols, h2.vertical.rows, h2.vertical.cols, h2.cfg,
    ← h2.loopH, ← h2.loopV]
  have p1 := h2.pos_h
  have p2 := h2.pos_v
  generalize k.grid h v = s at p1 p2
  rcases hl : s.loopH with _ | _ <;> rcases hl' : s.loopV with _ | _ <;>
    simp only [Grid.mh, Grid.mv, hl, hl', Bool.false_eq_true, if_true, if_false, decide_true, Bool.and_true,
      Bool.and_eq_true, decide_eq_true_eq] <;> omega

/-- **C43.** The calls as logged by the closures themselves. -/
theorem c43_call_log (k : Cfg) (hh : 0 < h) (hv : 0 < v) (hs : h * v < k.m.half) (fn : Nat → Nat → N)
    (fe : Nat → Nat → Axis → E) : ∃ g : G N E,
    G.newWith k h v (fun log i j => (fn i j, log ++ [Call.node ⟨i, j⟩]))
      (fun log i j a => (fe i j a, log ++ [Call.edge ⟨i, j⟩ a])) [] = .ok (g, callSeq (k.grid h v)) := by
  obtain ⟨g, h1, _⟩ := newWith_ok (N := N) (E := E) k hh hv hs (fun log i j => (fn i j, log ++ [Call.node (⟨i, j⟩ : NodeIx)]))
    (fun log i j a => (fe i j a, log ++ [Call.edge (⟨i, j⟩ : NodeIx) a])) []
  refine ⟨g, ?_⟩
  rw [h1]
  have key : ∀ (l : List (Call NodeIx Axis)) (st : List (Call NodeIx Axis)) (k : Contents NodeIx Axis N E),
      (runCalls (nodeCall fun log i j => (fn i j, log ++ [Call.node ⟨i, j⟩]))
        (edgeCall fun log i j a => (fe i j a, log ++ [Call.edge ⟨i, j⟩ a])) l st k).2 = st ++ l := by
    intro l
    induction l with
    | nil => intro st k; simp [runCalls]
    | cons x l ih => intro st k; cases x <;> simp [runCalls, ih]
  rw [key, List.nil_append]

/-- **C43.** Each call is made for an existing node or edge, and for every one of them. -/
theorem c43_calls_exact (s : Grid) (n : NodeIx) (a : Axis) :
    (Call.node n ∈ callSeq s ↔ s.Node n) ∧ (Call.edge n a ∈ callSeq s ↔ s.HasEdge n a) := by
  rw [callSeq_eq]
  simp only [List.mem_append, List.mem_map, mem_cells, Call.node.injEq, Call.edge.injEq, reduceCtorEq, and_false,
    exists_false, or_false, false_or]
  constructor
  · constructor
    · rintro ⟨x, h, rfl⟩; exact h
    · intro h; exact ⟨n, h, rfl⟩
  · cases a with
    | horizontal =>
      rw [Grid.hasEdge_h]
      simp only [reduceCtorEq, and_false, exists_false, or_false, and_true]
      constructor
      · rintro ⟨x, h, rfl⟩; exact h
      · intro h; exact ⟨n, h, rfl⟩
    | vertical =>
      rw [Grid.hasEdge_v]
      simp only [reduceCtorEq, and_false, exists_false, false_or, and_true]
      constructor
      · rintro ⟨x, h, rfl⟩; exact h
      · intro h; exact ⟨n, h, rfl⟩

/-- **C43.** No call is made twice. -/
theorem c43_calls_once (s : Grid) : (callSeq s).Nodup := by
  rw [callSeq_eq, List.nodup_append, List.nodup_append]
  refine ⟨⟨?_, ?_, ?_⟩, ?_, ?_⟩
  · exact nodup_map_of_inj (cells_nodup _ _) (by intro a _ b _ h; simpa using h)
  · exact nodup_map_of_inj (cells_nodup _ _) (by intro a _ b _ h; simpa using h)
  · intro a ha b hb
    obtain ⟨x, _, rfl⟩ := List.mem_map.1 ha
    obtain ⟨y, _, rfl⟩ := List.mem_map.1 hb
    simp
  · exact nodup_map_of_inj (cells_nodup _ _) (by intro a _ b _ h; simpa using h)
  · intro a ha b hb
    obtain ⟨y, _, rfl⟩ := List.mem_map.1 hb
    rcases List.mem_append.1 ha with ha | ha
    · obtain ⟨x, _, rfl⟩ := List.mem_map.1 ha; simp
    · obtain ⟨x, _, rfl⟩ := List.mem_map.1 ha; simp

/-- **C43.** `h = 0` is rejected by a panic, and so are the other impossible sizes: `v = 0` on a vertical axis that is not looped
(after some or all closure calls, by arithmetic overflow or by ndarray), and products ndarray does not accept. Nothing worse than
a panic happens. -/
theorem c43_rejects (k : Cfg) (hb : h = 0 ∨ (v = 0 ∧ k.loopV = false) ∨ k.m.half ≤ h * v)
    (fn : σ → Nat → Nat → N × σ) (fe : σ → Nat → Nat → Axis → E × σ) (st : σ) :
    G.newWith k h v fn fe st = .error .panic := newWith_panic k hb fn fe st

example : ∃ g : G Nat Nat, G.newWith exCfg 2 2 (fun log i j => (i + j, log ++ [Call.node (⟨i, j⟩ : NodeIx)]))
      (fun log i j a => (i * j, log ++ [Call.edge (⟨i, j⟩ : NodeIx) a])) [] =
    .ok (g, [.node ⟨0, 0⟩, .node ⟨0, 1⟩, .node ⟨1, 0⟩, .node ⟨1, 1⟩, .edge ⟨0, 0⟩ .horizontal, .edge ⟨0, 1⟩ .horizontal,
      .edge ⟨1, 0⟩ .horizontal, .edge ⟨1, 1⟩ .horizontal, .edge ⟨0, 0⟩ .vertical, .edge ⟨1, 0⟩ .vertical]) :=
  c43_call_log exCfg (by decide) (by decide) (by decide) (fun i j => i + j) (fun i j _ => i * j)

/-! ### C44 -/

/-- Reads on any reachable graph. -/
theorem weights_eq (hb : Built k h v g c) (n : NodeIx) (a : Axis) :
    g.nodeWeight n = c.node n ∧ g.edgeWeight ⟨n, a⟩ = c.edge n a := by
  have hs := hb.stores
  refine ⟨hs.nodes.get _ _, ?_⟩
  cases a with
  | horizontal => exact hs.horizontal.get _ _
  | vertical => exact hs.vertical.get _ _

/-- Height 0 with a vertical loop is accepted: empty arrays. -/
theorem newWith_zero (k : Cfg) (hl : k.loopV = true) (hh : 0 < h) (hs : h < k.m.half)
    (fn : σ → Nat → Nat → N × σ) (fe : σ → Nat → Nat → Axis → E × σ) (st : σ) :
    ∃ mh, (mh = if k.loopH then h else h - 1) ∧
      G.newWith k h 0 fn fe st = .ok (⟨k, ⟨h, 0, []⟩, ⟨mh, 0, []⟩, ⟨h, 0, []⟩⟩, st) := by
  have hm := k.m.half_ge
  obtain ⟨mh, emh, hmh⟩ : ∃ mh, G.edgeLen k.m k.loopH h = .ok mh ∧ mh = if k.loopH then h else h - 1 := by
    unfold G.edgeLen
    split
    · exact ⟨h, rfl, rfl⟩
    · exact ⟨h - 1, usub_ok (by omega), rfl⟩
  have hle : mh ≤ h := by rw [hmh]; split <;> omega
  have hf1 : ∀ {α : Type} (f : σ → Nat → Nat → α × σ) (r : Nat) (st : σ), fill f 0 0 r st = ([], st) := by
    intro α f r st
    rw [fill_eq]
    have : cells r 0 = [] := List.eq_nil_of_length_eq_zero (by rw [cells_length]; omega)
    rw [this]; rfl
  have hfs : ∀ {α : Type} (r : Nat), r ≤ h → Arr.fromShapeVec (α := α) k.m r 0 [] = .ok ⟨r, 0, []⟩ := by
    intro α r hr
    refine fromShapeVec_ok ?_ (by simp)
    rw [if_pos rfl]
    split <;> omega
  refine ⟨mh, hmh, ?_⟩
  · unfold G.newWith
    rw [if_neg (by omega)]
    have emv : G.edgeLen k.m k.loopV 0 = .ok 0 := by unfold G.edgeLen; rw [if_pos hl]
    simp only [umul_ok (m := k.m) (a := h) (b := 0) (by omega), bind, Except.bind, hf1, hfs h (Nat.le_refl h), emh,
      umul_ok (m := k.m) (a := mh) (b := 0) (by omega), hfs mh hle, emv, G.newRaw]
    have hc : G.checkGen (N := N) (E := E) ⟨k, ⟨h, 0, []⟩, ⟨mh, 0, []⟩, ⟨h, 0, []⟩⟩ = true := by
      unfold G.checkGen
      simp only [hl, if_true, Nat.add_zero, decide_true, Bool.and_true, decide_eq_true_eq]
      rw [hmh]; split <;> omega
    rw [debugAssert_true hc]

/-- On such a graph nothing can be read. -/
theorem newWith_zero_reads {fn : σ → Nat → Nat → N × σ} {fe : σ → Nat → Nat → Axis → E × σ} {st st' : σ}
    (hb : G.newWith k h 0 fn fe st = .ok (g, st')) (n : NodeIx) (a : Axis) :
    g.nodeWeight n = none ∧ g.edgeWeight ⟨n, a⟩ = none := by
  have hp : ¬ (h = 0 ∨ (0 = 0 ∧ k.loopV = false) ∨ k.m.half ≤ h * 0) := by
    intro hp
    rw [newWith_panic k hp] at hb
    cases hb
  have hh : 0 < h := by omega
  have hl : k.loopV = true := by
    cases hl : k.loopV with
    | true => rfl
    | false => exact absurd (.inr (.inl ⟨rfl, hl⟩)) hp
  by_cases hs : h < k.m.half
  · obtain ⟨mh, _, he⟩ := newWith_zero k hl hh hs fn fe st
    rw [he] at hb; cases hb
    have : ∀ {α : Type} (r i j : Nat), Arr.get (α := α) ⟨r, 0, []⟩ i j = none := by
      intro α r i j
      unfold Arr.get
      cases Arr.slot (α := α) ⟨r, 0, []⟩ i j <;> rfl
    refine ⟨this _ _ _, ?_⟩
    cases a <;> exact this _ _ _
  · exfalso
    have e : Arr.fromShapeVec k.m h 0 (fill fn 0 0 h st).1 = .error .panic := by
      unfold Arr.fromShapeVec
      rw [if_neg]
      intro hc
      rw [if_neg (by omega), if_pos rfl] at hc
      omega
    unfold G.newWith at hb
    have hm := k.m.half_ge
    simp only [if_neg (show ¬ h = 0 by omega), umul_ok (m := k.m) (a := h) (b := 0) (by omega), bind, Except.bind, e] at hb
    cases hb

/-- **C44.** After `new_with(h, v, fn, fe)`, `node_weight` is `Some(fn(i, j))` on the nodes and `None` on every other index. -/
theorem c44_node_weight {fn : Nat → Nat → N} {fe : Nat → Nat → Axis → E}
    (hb : G.newWith k h v (fun u i j => (fn i j, u)) (fun u i j a => (fe i j a, u)) () = .ok (g, ())) (n : NodeIx) :
    g.nodeWeight n = if (k.grid h v).Node n then some (fn n.horizontal n.vertical) else none := by
  by_cases hv : v = 0
  · subst hv
    rw [(newWith_zero_reads hb n .horizontal).1, if_neg (fun h => absurd h.2 (Nat.not_lt_zero _))]
  replace hv : 0 < v := by omega
  rw [(weights_eq (Built.new hb hv) n .horizontal).1,
    (runCalls_pure (fun n : NodeIx => fn n.horizontal n.vertical) (fun n a => fe n.horizontal n.vertical a) _ _).1]
  simp only [(c43_calls_exact (k.grid h v) n .horizontal).1]
  split <;> rfl

/-- **C44.** `edge_weight` is `Some(fe(i, j, axis))` exactly on the existing edges. -/
theorem c44_edge_weight {fn : Nat → Nat → N} {fe : Nat → Nat → Axis → E}
    (hb : G.newWith k h v (fun u i j => (fn i j, u)) (fun u i j a => (fe i j a, u)) () = .ok (g, ())) (e : EdgeIx) :
    g.edgeWeight e = if (k.grid h v).HasEdge e.node e.axis then some (fe e.node.horizontal e.node.vertical e.axis) else none := by
  by_cases hv : v = 0
  · subst hv
    rw [(newWith_zero_reads hb e.node e.axis).2, if_neg]
    intro h
    have := h.1
    exact absurd this.2 (Nat.not_lt_zero _)
  replace hv : 0 < v := by omega
  rw [(weights_eq (Built.new hb hv) e.node e.axis).2,
    (runCalls_pure (fun n : NodeIx => fn n.horizontal n.vertical) (fun n a => fe n.horizontal n.vertical a) _ _).2]
  simp only [(c43_calls_exact (k.grid h v) e.node e.axis).2]
  split <;> rfl

/-- **C43.** `new` fills in the default weights. -/
theorem c43_new (k : Cfg) (hh : 0 < h) (hv : 0 < v) (hs : h * v < k.m.half) (dn : N) (de : E) : ∃ g, G.new k h v dn de = .ok g ∧
    ∀ n a, g.nodeWeight n = (if (k.grid h v).Node n then some dn else none) ∧
      g.edgeWeight ⟨n, a⟩ = (if (k.grid h v).HasEdge n a then some de else none) := by
  obtain ⟨g, h1, _⟩ := newWith_ok (N := N) (E := E) k hh hv hs (fun _ _ _ => (dn, ())) (fun _ _ _ _ => (de, ())) ()
  refine ⟨g, by simp only [G.new, h1, bind, Except.bind], fun n a => ?_⟩
  exact ⟨c44_node_weight (fn := fun _ _ => dn) (fe := fun _ _ _ => de) h1 n,
    c44_edge_weight (fn := fun _ _ => dn) (fe := fun _ _ _ => de) h1 ⟨n, a⟩⟩

example : ∃ g : G Nat Nat, G.newWith exCfg 3 2 (fun u i j => (10 * i + j, u)) (fun u i j _ => (i + j, u)) () = .ok (g, ()) ∧
    g.nodeWeight ⟨2, 1⟩ = some 21 ∧ g.nodeWeight ⟨3, 0⟩ = none ∧ g.edgeWeight ⟨⟨2, 1⟩, .horizontal⟩ = some 3 ∧
    g.edgeWeight ⟨⟨2, 1⟩, .vertical⟩ = none := by
  obtain ⟨g, h1, _⟩ := c43_new_with (N := Nat) (E := Nat) exCfg (h := 3) (v := 2) (by decide) (by decide) (by decide)
    (fun u i j => (10 * i + j, u)) (fun u i j _ => (i + j, u)) ()
  exact ⟨g, h1, (c44_node_weight (fn := fun i j => 10 * i + j) (fe := fun i j _ => i + j) h1 _).trans (by decide),
    (c44_node_weight (fn := fun i j => 10 * i + j) (fe := fun i j _ => i + j) h1 _).trans (by decide),
    (c44_edge_weight (fn := fun i j => 10 * i + j) (fe := fun i j _ => i + j) h1 _).trans (by decide),
    (c44_edge_weight (fn := fun i j => 10 * i + j) (fe := fun i j _ => i + j) h1 _).trans (by decide)⟩

/-! ### C45 -/

theorem Built.sizes (hb : Built k h v g c) (hf : k.Fits h v) : Sizes k (k.grid h v) := hb.stores.sizes hf

/-- **C45.** `node_identifiers` lists the nodes in index order. (The missing part: sides of zero, see below.) -/
theorem c45_node_identifiers_partial (hb : Built k h v g c) (hf : k.Fits h v) :
    Yields (NodeIndices.next k) (.new g.horizontalNodeCount g.verticalNodeCount) (k.grid h v).nodes := by
  have hs := hb.stores
  have z := hb.sizes hf
  have e1 : g.horizontalNodeCount = (k.grid h v).h := hs.nodes.rows
  have e2 : g.verticalNodeCount = (k.grid h v).v := hs.nodes.cols
  rw [e1, e2, Grid.nodes_eq, List.range_eq_range']
  exact nodeIndices_yields z _ 0 _ (Pos.new z) (by omega)

/-- **C45.** That list has every node exactly once. -/
theorem c45_nodes_exact (s : Grid) : s.nodes.Nodup ∧ (∀ n, n ∈ s.nodes ↔ s.Node n) ∧ s.nodes.length = s.h * s.v :=
  ⟨cells_nodup _ _, fun _ => mem_cells, cells_length _ _⟩

/-- **C45.** At every point of the iteration `len()` is the number of nodes still to come, and the iterator is fused. -/
theorem c45_len_partial (hb : Built k h v g c) (hf : k.Fits h v) {it : NodeIndices}
    (hr : Reaches (NodeIndices.next k) (.new g.horizontalNodeCount g.verticalNodeCount) it) :
    (∃ l, Yields (NodeIndices.next k) it l ∧ it.sizeHint k = .ok (l.length, some l.length)) ∧
    FusedAt (NodeIndices.next k) it := by
  have hs := hb.stores
  have z := hb.sizes hf
  have e1 : g.horizontalNodeCount = (k.grid h v).h := hs.nodes.rows
  have e2 : g.verticalNodeCount = (k.grid h v).v := hs.nodes.cols
  rw [e1, e2] at hr
  have hp : ∃ p, Pos (k.grid h v) it p := by
    refine hr.inv (P := fun it => ∃ p, Pos (k.grid h v) it p) ⟨0, Pos.new z⟩ ?_
    rintro it it' o ⟨p, hp⟩ hn
    by_cases hlt : p < (k.grid h v).h * (k.grid h v).v
    · obtain ⟨it1, h1, h2, _⟩ := hp.next z hlt
      rw [h1] at hn; cases hn
      exact ⟨_, h2⟩
    · rw [hp.next_end z hlt] at hn; cases hn
      exact ⟨_, hp⟩
  obtain ⟨p, hp⟩ := hp
  have hle := hp.le
  refine ⟨⟨_, nodeIndices_yields z ((k.grid h v).h * (k.grid h v).v - p) p it hp (by omega), ?_⟩, ?_⟩
  · rw [hp.sizeHint z]; simp
  · intro it' hn
    by_cases hlt : p < (k.grid h v).h * (k.grid h v).v
    · obtain ⟨it1, h1, h2, _⟩ := hp.next z hlt
      rw [h1] at hn; cases hn
    · have he := hp.next_end z hlt
      rw [he] at hn; cases hn
      exact ⟨it, he⟩

/-- **C45.** `to_index` of the `i`-th node is `i`, and `from_index(i)` is the `i`-th node: inverse bijections between the nodes and
`0..node_count`. -/
theorem c45_index_bijection_partial (hb : Built k h v g c) (hf : k.Fits h v) :
    g.nodeCount = h * v ∧
    (∀ i, i < h * v → ∃ n, (k.grid h v).nodes[i]? = some n ∧ g.fromIndex i = .ok n ∧ g.toIndex n = .ok i) ∧
    (∀ n, (k.grid h v).Node n → ∃ i, i < h * v ∧ g.toIndex n = .ok i ∧ g.fromIndex i = .ok n) := by
  have hs := hb.stores
  have z := hb.sizes hf
  have e2 : g.verticalNodeCount = v := hs.nodes.cols
  have hsm : h * v < k.m.half := z.small
  have hv : 0 < v := z.pos_v
  have hfh : h ≤ k.ix := hf.1
  have hfv : v ≤ k.ix := hf.2
  have hto : ∀ n, (k.grid h v).Node n → g.toIndex n = .ok (n.horizontal * v + n.vertical) := by
    intro n hn
    have h1 : n.horizontal < h := hn.1
    have h2 : n.vertical < v := hn.2
    have := idx_lt h1 h2
    unfold G.toIndex
    rw [e2, hs.cfg, umul_ok (by omega)]
    simp only [bind, Except.bind]
    exact uadd_ok (by omega)
  have hfrom : ∀ i, i < h * v → g.fromIndex i = .ok ⟨i / v, i % v⟩ := by
    intro i hi
    have h1 := div_lt_w hi
    have h2 := mod_lt_h hi
    unfold G.fromIndex
    rw [e2, if_neg (by omega), hs.cfg]
    unfold NodeIx.ofPair
    rw [new_of_lt (by omega), new_of_lt (by omega)]
  refine ⟨hs.nodes.len, ?_, ?_⟩
  · intro i hi
    refine ⟨⟨i / v, i % v⟩, ?_, hfrom i hi, ?_⟩
    · rw [Grid.nodes_eq, List.getElem?_map, List.getElem?_range (by exact hi)]; rfl
    · rw [hto _ ⟨div_lt_w hi, mod_lt_h hi⟩]; simp only [idx_eta]
  · intro n hn
    have h1 : n.horizontal < h := hn.1
    have h2 : n.vertical < v := hn.2
    refine ⟨_, idx_lt h1 h2, hto n hn, ?_⟩
    rw [hfrom _ (idx_lt h1 h2), idx_div h2, idx_mod h2]

/-- **C45.** `from_index` for every argument: beyond the nodes it returns a pair outside the graph, unless the column overflows the
index type and wraps. -/
theorem c45_from_index_total (hb : Built k h v g c) (hf : k.Fits h v) (i : Nat) :
    g.fromIndex i = .ok ⟨i / v % k.ix, i % v⟩ ∧
    ((k.grid h v).Node ⟨i / v % k.ix, i % v⟩ ↔ i / v % k.ix < h) ∧ (h * v ≤ i → i < k.ix * v → ¬ (k.grid h v).Node ⟨i / v % k.ix, i % v⟩) := by
  have hs := hb.stores
  have z := hb.sizes hf
  have e2 : g.verticalNodeCount = v := hs.nodes.cols
  have hv : 0 < v := z.pos_v
  have hmod : i % v < v := Nat.mod_lt _ hv
  have hfv : v ≤ k.ix := hf.2
  refine ⟨?_, ⟨fun h => h.1, fun h => ⟨h, hmod⟩⟩, fun h1 h2 hn => ?_⟩
  · unfold G.fromIndex
    rw [e2, if_neg (by omega), hs.cfg]
    unfold NodeIx.ofPair
    rw [new_of_lt (x := i % v) (by omega)]
    rfl
  · have h3 : i / v < k.ix := (Nat.div_lt_iff_lt_mul hv).2 h2
    have h4 : h ≤ i / v := (Nat.le_div_iff_mul_le hv).2 h1
    have h5 : i / v % k.ix < h := hn.1
    rw [Nat.mod_eq_of_lt h3] at h5
    omega

/-- **C45.** `node_references` pairs each node with its weight, in the same order. -/
theorem c45_node_references (hb : Built k h v g c) (hf : k.Fits h v) :
    Yields (nodeRefsNext g) (nodeRefsInit g) (allNodeRefs (k.grid h v) c) ∧
    (allNodeRefs (k.grid h v) c).map Prod.fst = (k.grid h v).nodes := by
  have hs := hb.stores
  have z := hb.sizes hf
  have e1 : g.horizontalNodeCount = (k.grid h v).h := hs.nodes.rows
  have e2 : g.verticalNodeCount = (k.grid h v).v := hs.nodes.cols
  constructor
  · unfold nodeRefsInit allNodeRefs
    rw [e1, e2, Grid.nodes_eq, List.range_eq_range']
    exact nodeRefs_yields hs z _ 0 _ (Pos.new z) (by omega)
  · unfold allNodeRefs
    have : ∀ l : List NodeIx, (∀ n ∈ l, (k.grid h v).Node n) →
        (l.filterMap fun n => (c.node n).map fun w => (n, w)).map Prod.fst = l := by
      intro l
      induction l with
      | nil => intro _; rfl
      | cons n l ih =>
        intro hl
        obtain ⟨w, hw⟩ := Option.isSome_iff_exists.1 (hs.node_isSome.2 (hl n (by simp)))
        rw [List.filterMap_cons, hw]
        simp only [Option.map_some, List.map_cons]
        rw [ih (fun n hn => hl n (List.mem_cons_of_mem _ hn))]
    exact this _ (fun n hn => mem_cells.1 hn)

/-- **C45 fails** for a vertically looped graph of height zero: `new_with(h, 0, ..)` is accepted, the graph has no nodes, but
`node_identifiers` yields the `h - 1` indices `(1, 0), …, (h - 1, 0)`. `from_index` divides by zero and panics. -/
theorem c45_zero_height_wrong (k : Cfg) (hl : k.loopV = true) (hh : 0 < h) (hs : h < k.m.half) (hf : h ≤ k.ix)
    (fn : σ → Nat → Nat → N × σ) (fe : σ → Nat → Nat → Axis → E × σ) (st : σ) :
    ∃ g : G N E, G.newWith k h 0 fn fe st = .ok (g, st) ∧ g.nodeCount = 0 ∧
      Yields (NodeIndices.next k) (.new g.horizontalNodeCount g.verticalNodeCount)
        ((List.range' 1 (h - 1)).map fun i => ⟨i, 0⟩) ∧ ∀ i, g.fromIndex i = .error .panic := by
  have hm := k.m.half_ge
  obtain ⟨mh, _, he⟩ := newWith_zero (N := N) (E := E) k hl hh hs fn fe st
  refine ⟨⟨k, ⟨h, 0, []⟩, ⟨mh, 0, []⟩, ⟨h, 0, []⟩⟩, he, rfl, ?_, fun _ => rfl⟩
  · show Yields (NodeIndices.next k) ⟨h, 0, 0, 0⟩ _
    have key : ∀ (r i w : Nat), w ≤ 1 → i + r = h - 1 →
        Yields (NodeIndices.next k) ⟨h, i, 0, w⟩ ((List.range' (i + 1) r).map fun i => ⟨i, 0⟩) := by
      intro r
      induction r with
      | zero =>
        intro i w hw hi
        refine .done (s' := ⟨h, i, 0, w⟩) ?_
        unfold NodeIndices.next
        rw [if_neg (by simp)]
        simp only [uadd_ok (m := k.m) (a := i) (b := 1) (by omega), bind, Except.bind]
        rw [if_neg (by omega)]
      | succ r ih =>
        intro i w hw hi
        rw [List.range'_succ]
        refine .step (s' := ⟨h, i + 1, 0, 1⟩) ?_ (ih (i + 1) 1 (by omega) (by omega))
        unfold NodeIndices.next
        rw [if_neg (by simp)]
        simp only [uadd_ok (m := k.m) (a := i) (b := 1) (by omega), bind, Except.bind]
        rw [if_pos (by omega), new_of_lt (by omega), new_zero]
    exact key (h - 1) 0 0 (by omega) (by omega)

/-! ### C46 -/

/-- **C46.** `neighbors(n)` (and `neighbors_directed`) yields exactly the existing neighbours, in the order left, right, down, up,
wrapping on looped axes. -/
theorem c46_neighbors (hb : Built k h v g c) (hf : k.Fits h v) {n : NodeIx} (hn : (k.grid h v).Node n) :
    Yields (Nbrs.next k) (g.neighbors n) ((k.grid h v).nbrs n) := by
  have hs := hb.stores
  have z := hb.sizes hf
  have e1 : g.horizontalNodeCount = (k.grid h v).h := hs.nodes.rows
  have e2 : g.verticalNodeCount = (k.grid h v).v := hs.nodes.cols
  unfold G.neighbors
  rw [e1, e2]
  exact nbrs_yields z hn 4 0 rfl

/-- **C46.** Neighbours are nodes, and the relation is symmetric. -/
theorem c46_neighbors_nodes (s : Grid) {n t : NodeIx} (hn : s.Node n) (ht : t ∈ s.nbrs n) : s.Node t ∧ n ∈ s.nbrs t := by
  unfold Grid.nbrs at *
  obtain ⟨d, hd, h⟩ := List.mem_filterMap.1 ht
  refine ⟨Grid.step_node hn h, List.mem_filterMap.2 ⟨d.opp, ?_, Grid.step_opp hn h⟩⟩
  rcases d with (_ | _) | (_ | _) <;> decide

/-- A 3 × 2 graph with weights `10i + j` on nodes, `100·axis + 10i + j` on edges. -/
theorem exGraph (k : Cfg) (hm : 6 < k.m.half) : ∃ (g : G Nat Nat) (c : Contents NodeIx Axis Nat Nat), Built k 3 2 g c ∧
    c = (runCalls (fun u (n : NodeIx) => (10 * n.horizontal + n.vertical, u))
      (fun u (n : NodeIx) a => ((if a = .horizontal then 100 else 200) + 10 * n.horizontal + n.vertical, u))
      (callSeq (k.grid 3 2)) () emptyContents).1 := by
  obtain ⟨g, h1, _⟩ := newWith_ok (N := Nat) (E := Nat) k (h := 3) (v := 2) (by decide) (by decide) hm
    (fun u i j => (10 * i + j, u)) (fun u i j a => ((if a = .horizontal then 100 else 200) + 10 * i + j, u)) ()
  exact ⟨g, _, .new h1 (by decide), rfl⟩

/-- With an 8-bit index type on 3 × 2 nodes, index 512 wraps to node (0, 0). -/
example : ∃ (g : G Nat Nat) (c : Contents NodeIx Axis Nat Nat), Built exCfg 3 2 g c ∧
    g.fromIndex 5 = .ok ⟨2, 1⟩ ∧ g.fromIndex 6 = .ok ⟨3, 0⟩ ∧ g.fromIndex 512 = .ok ⟨0, 0⟩ := by
  obtain ⟨g, c, hb, -⟩ := exGraph exCfg (by decide)
  have hf : exCfg.Fits 3 2 := ⟨by decide, by decide⟩
  exact ⟨g, c, hb, (c45_from_index_total hb hf 5).1, (c45_from_index_total hb hf 6).1, (c45_from_index_total hb hf 512).1⟩

example : ∃ (g : G Nat Nat) (c : Contents NodeIx Axis Nat Nat), Built exCfg 3 2 g c ∧
    Yields (NodeIndices.next exCfg) (.new g.horizontalNodeCount g.verticalNodeCount)
      [⟨0, 0⟩, ⟨0, 1⟩, ⟨1, 0⟩, ⟨1, 1⟩, ⟨2, 0⟩, ⟨2, 1⟩] ∧
    Yields (Nbrs.next exCfg) (g.neighbors ⟨0, 1⟩) [⟨2, 1⟩, ⟨1, 1⟩, ⟨0, 0⟩] ∧
    Yields (nodeRefsNext g) (nodeRefsInit g)
      [(⟨0, 0⟩, 0), (⟨0, 1⟩, 1), (⟨1, 0⟩, 10), (⟨1, 1⟩, 11), (⟨2, 0⟩, 20), (⟨2, 1⟩, 21)] := by
  obtain ⟨g, c, hb, hc⟩ := exGraph exCfg (by decide)
  have hf : exCfg.Fits 3 2 := ⟨by decide, by decide⟩
  refine ⟨g, c, hb, c45_node_identifiers_partial hb hf, c46_neighbors hb hf (by decide), ?_⟩
  have := (c45_node_references hb hf).1
  rw [hc] at this
  exact this

/-! ### Further instances -/
example : Call.edge (⟨2, 1⟩ : NodeIx) Axis.horizontal ∈ callSeq (exCfg.grid 3 2) ∧
    Call.edge (⟨2, 1⟩ : NodeIx) Axis.vertical ∉ callSeq (exCfg.grid 3 2) ∧ (callSeq (exCfg.grid 3 2)).Nodup :=
  ⟨(c43_calls_exact _ _ _).2.2 (by decide), fun h => absurd ((c43_calls_exact _ _ _).2.1 h) (by decide), c43_calls_once _⟩
example : G.newWith exCfg 3 0 (fun u i j => (i + j, u)) (fun u i j _ => (i + j, u)) () = .error .panic :=
  c43_rejects exCfg (.inr (.inl ⟨rfl, rfl⟩)) _ _ _
example : ∃ (g : G Nat Nat) (c : Contents NodeIx Axis Nat Nat), Built exCfg 3 2 g c ∧
    g.nodeWeight ⟨2, 1⟩ = some 21 ∧ g.edgeWeight ⟨⟨2, 1⟩, .vertical⟩ = none := by
  obtain ⟨g, c, hb, hc⟩ := exGraph exCfg (by decide)
  refine ⟨g, c, hb, (weights_eq hb ⟨2, 1⟩ .vertical).1.trans ?_, (weights_eq hb ⟨2, 1⟩ .vertical).2.trans ?_⟩ <;> rw [hc] <;> rfl
example : ∃ g : G Nat Nat, G.new exCfg 3 2 7 9 = .ok g ∧ g.nodeWeight ⟨2, 1⟩ = some 7 ∧ g.edgeWeight ⟨⟨2, 1⟩, .horizontal⟩ = some 9 := by
  obtain ⟨g, h1, h2⟩ := c43_new (N := Nat) (E := Nat) exCfg (h := 3) (v := 2) (by decide) (by decide) (by decide) 7 9
  exact ⟨g, h1, (h2 ⟨2, 1⟩ .horizontal).1, (h2 ⟨2, 1⟩ .horizontal).2⟩
example : (⟨2, 1⟩ : NodeIx) ∈ (exCfg.grid 3 2).nodes ∧ (exCfg.grid 3 2).nodes.length = 6 :=
  ⟨((c45_nodes_exact _).2.1 _).2 (by decide), (c45_nodes_exact _).2.2⟩
example : ∃ (g : G Nat Nat) (c : Contents NodeIx Axis Nat Nat), Built exCfg 3 2 g c ∧ g.nodeCount = 6 ∧
    (∃ l, Yields (NodeIndices.next exCfg) (.new g.horizontalNodeCount g.verticalNodeCount) l ∧
      (NodeIndices.new g.horizontalNodeCount g.verticalNodeCount).sizeHint exCfg = .ok (l.length, some l.length)) ∧
    ∃ i, i < 6 ∧ g.toIndex ⟨2, 0⟩ = .ok i ∧ g.fromIndex i = .ok ⟨2, 0⟩ := by
  obtain ⟨g, c, hb, -⟩ := exGraph exCfg (by decide)
  have hf : exCfg.Fits 3 2 := ⟨by decide, by decide⟩
  exact ⟨g, c, hb, (c45_index_bijection_partial hb hf).1, (c45_len_partial hb hf (.refl _)).1,
    (c45_index_bijection_partial hb hf).2.2 ⟨2, 0⟩ (by decide)⟩
example : ∃ g : G Nat Nat, G.newWith ⟨m64, 256, false, true, by decide, by decide⟩ 3 0 (fun u i j => (i + j, u))
    (fun u i j _ => (i + j, u)) () = .ok (g, ()) ∧ g.nodeCount = 0 ∧
      Yields (NodeIndices.next ⟨m64, 256, false, true, by decide, by decide⟩) (.new g.horizontalNodeCount g.verticalNodeCount)
        [⟨1, 0⟩, ⟨2, 0⟩] := by
  obtain ⟨g, h1, h2, h3, -⟩ := c45_zero_height_wrong (N := Nat) (E := Nat) (h := 3) ⟨m64, 256, false, true, by decide, by decide⟩ rfl
    (by decide) (by decide) (by decide) (fun u i j => (i + j, u)) (fun u i j _ => (i + j, u)) ()
  exact ⟨g, h1, h2, h3⟩
example : (⟨0, 1⟩ : NodeIx) ∈ (exCfg.grid 3 2).nbrs ⟨2, 1⟩ := (c46_neighbors_nodes (exCfg.grid 3 2) (n := ⟨0, 1⟩) (by decide) (by decide)).2

end
end LG.Sq
