import Verif.Props.Defaults
import Verif.Props.LegacyHistory
import Verif.Props.LegacyEdges
/- C77: the deprecated `SquareGraph` without loops and `LatticeGraph<SquareShape>`, which replaces it. -/
set_option linter.unusedSectionVars false
namespace LG
section
variable {N E σ : Type}
variable {m : Machine} {k : Sq.Cfg} {h v : Nat}
variable {g : Graph Offset SquareAxis DSquareAxis N E} {gl : Sq.G N E}
variable {c : Contents Offset SquareAxis N E} {cl : Contents Sq.NodeIx Sq.Axis N E}

/-! ### The dictionary -/

/-- The coordinate for a legacy node index. -/
def newCoord (n : Sq.NodeIx) : Offset := ⟨n.horizontal, n.vertical⟩
/-- The axis for a legacy axis. -/
def newAxis : Sq.Axis → SquareAxis
  | .horizontal => .X
  | .vertical => .Y
/-- The direction for a legacy direction. -/
def newDir : Sq.Dir → DSquareAxis
  | .foward .horizontal => .X
  | .foward .vertical => .Y
  | .backward .horizontal => .RX
  | .backward .vertical => .RY

/-- Source, target and weight of an edge reference. -/
def EdgeRef.ends {C D E : Type} (r : EdgeRef C D E) : C × C × E := (r.source, r.target, r.weight)
/-- The same of a legacy one, translated. -/
def newEnds (w : Sq.View E) : Offset × Offset × E := (newCoord w.source, newCoord w.target, w.weight)

/-- Both graphs give the same answer at every coordinate and every edge. -/
def SameWeights (gl : Sq.G N E) (g : Graph Offset SquareAxis DSquareAxis N E) : Prop :=
  (∀ n, g.nodeWeight (newCoord n) = .ok (gl.nodeWeight n)) ∧
  ∀ n a, g.edgeWeight (newCoord n) (newAxis a) = .ok (gl.edgeWeight ⟨n, a⟩)

theorem newCoord_inj {a b : Sq.NodeIx} (h : newCoord a = newCoord b) : a = b := by
  cases a; cases b; simpa [newCoord] using h
theorem newCoord_node {n : Sq.NodeIx} : (squareLat h v).Node (newCoord n) ↔ (k.grid h v).Node n := by
  constructor
  · rintro ⟨x, y, hx, hy, he⟩
    have : n = ⟨x, y⟩ := newCoord_inj he
    subst this
    exact ⟨hx, hy⟩
  · exact fun hn => ⟨_, _, hn.1, hn.2, rfl⟩
theorem newCoord_nodes : (squareLat h v).nodes = (k.grid h v).nodes.map newCoord := by
  simp only [Lat.nodes, Sq.Grid.nodes, List.map_flatMap, List.map_map]
  rfl

theorem inRect_h {x y : Nat} {δ : Int} (hy : y < v) : inRect h v (x + δ) (y + 0) =
    ((if 0 ≤ (x : Int) + δ ∧ (x : Int) + δ < h then some ((x : Int) + δ).toNat else none).map fun x => ⟨x, y⟩) := by
  unfold inRect
  by_cases q : 0 ≤ (x : Int) + δ ∧ (x : Int) + δ < h
  · rw [if_pos q, if_pos (by omega)]; simp
  · rw [if_neg q, if_neg (by omega)]; rfl
theorem inRect_v {x y : Nat} {δ : Int} (hx : x < h) : inRect h v (x + 0) (y + δ) =
    ((if 0 ≤ (y : Int) + δ ∧ (y : Int) + δ < v then some ((y : Int) + δ).toNat else none).map fun y => ⟨x, y⟩) := by
  unfold inRect
  by_cases q : 0 ≤ (y : Int) + δ ∧ (y : Int) + δ < v
  · rw [if_pos q, if_pos (by omega)]; simp
  · rw [if_neg q, if_neg (by omega)]; rfl

theorem newDir_nbr (hh : k.loopH = false) (hv : k.loopV = false) {n : Sq.NodeIx} (hn : (k.grid h v).Node n) (d : Sq.Dir) :
    (squareLat h v).nbr (newCoord n) (newDir d) = ((k.grid h v).step n d).map newCoord := by
  obtain ⟨x, y⟩ := n
  obtain ⟨hx, hy⟩ := hn
  simp only [Sq.Cfg.grid] at hx hy
  rcases d with (_ | _) | (_ | _) <;>
    simp only [Sq.Grid.step, Sq.along, Sq.Cfg.grid, hh, hv, newDir, newCoord, squareLat, rectNbr, DSquareAxis.vec, Bool.false_eq_true,
      if_false, inRect_h hy, inRect_v hx, Option.map_map, Function.comp_def]

/-- Contents that correspond. -/
def SameContents (cl : Contents Sq.NodeIx Sq.Axis N E) (c : Contents Offset SquareAxis N E) : Prop :=
  (∀ n, c.node (newCoord n) = cl.node n) ∧ ∀ n a, c.edge (newCoord n) (newAxis a) = cl.edge n a

theorem same_iff (hb : Built (squareShape m h v) (squareLat h v) g c) (hl : Sq.Built k h v gl cl) :
    SameWeights gl g ↔ SameContents cl c := by
  have h1 := fun x a => (c57_weights (Lawful.square m h v).storable hb x a).1 (.inr trivial)
  have h2 := fun n a => Sq.weights_eq hl n a
  constructor
  · rintro ⟨a, b⟩
    refine ⟨fun n => ?_, fun n x => ?_⟩
    · have := a n
      rw [(h1 _ .X).1, (h2 n .horizontal).1] at this
      exact Except.ok.inj this
    · have := b n x
      rw [(h1 _ _).2, (h2 n _).2] at this
      exact Except.ok.inj this
  · rintro ⟨a, b⟩
    exact ⟨fun n => by rw [(h1 _ .X).1, (h2 n .horizontal).1, a], fun n x => by rw [(h1 _ _).2, (h2 n _).2, b]⟩

theorem newAxis_inj {a b : Sq.Axis} (h : newAxis a = newAxis b) : a = b := by cases a <;> cases b <;> simp_all [newAxis]

theorem SameContents.mapNode (hs : SameContents cl c) (n : Sq.NodeIx) (f : N → N) :
    SameContents (cl.mapNode n f) (c.mapNode (newCoord n) f) := by
  refine ⟨fun x => ?_, hs.2⟩
  simp only [Contents.mapNode]
  by_cases hx : x = n
  · subst hx; rw [if_pos rfl, if_pos rfl, hs.1]
  · rw [if_neg hx, if_neg (mt newCoord_inj hx), hs.1]

theorem SameContents.mapEdge (hs : SameContents cl c) (n : Sq.NodeIx) (a : Sq.Axis) (f : E → E) :
    SameContents (cl.mapEdge n a f) (c.mapEdge (newCoord n) (newAxis a) f) := by
  refine ⟨hs.1, fun x b => ?_⟩
  simp only [Contents.mapEdge]
  by_cases hx : x = n ∧ b = a
  · obtain ⟨rfl, rfl⟩ := hx; rw [if_pos ⟨rfl, rfl⟩, if_pos ⟨rfl, rfl⟩, hs.2]
  · rw [if_neg hx, if_neg (fun h => hx ⟨newCoord_inj h.1, newAxis_inj h.2⟩), hs.2]

theorem same_nodes (hs : SameContents cl c) :
    allNodes (squareLat h v) c = (Sq.allNodeRefs (k.grid h v) cl).map fun p => (newCoord p.1, p.2) := by
  unfold allNodes Sq.allNodeRefs
  rw [newCoord_nodes (k := k), List.filterMap_map, List.map_filterMap]
  congr 1
  funext n
  simp only [Function.comp, hs.1]
  cases cl.node n <;> rfl

theorem same_all (hh : k.loopH = false) (hv : k.loopV = false) (hs : SameContents cl c) :
    (allEdges (squareLat h v) c).map EdgeRef.ends = (Sq.allViews (k.grid h v) cl).map newEnds := by
  unfold allEdges Sq.allViews
  rw [newCoord_nodes (k := k), List.flatMap_map, List.map_flatMap, List.map_flatMap]
  have key : ∀ n, (k.grid h v).Node n → ∀ a, ((squareLat h v).nbr (newCoord n) ((squareLat h v).fwd (newAxis a))).bind (fun t =>
      (c.edge (newCoord n) (newAxis a)).map fun w => (newCoord n, t, w)) = ((k.grid h v).step n (.foward a)).bind (fun t =>
      (cl.edge n a).map fun w => newEnds ⟨n, t, w, ⟨n, a⟩⟩) := by
    intro n hn a
    have h1 : (squareLat h v).fwd (newAxis a) = newDir (.foward a) := by cases a <;> rfl
    rw [h1, newDir_nbr hh hv hn, hs.2]
    cases (k.grid h v).step n (.foward a) <;> rfl
  have h2 : ∀ l : List Sq.NodeIx, (∀ n ∈ l, (k.grid h v).Node n) →
      l.flatMap (fun n => ((squareLat h v).axes.filterMap fun a => ((squareLat h v).nbr (newCoord n) ((squareLat h v).fwd a)).bind fun t =>
        (c.edge (newCoord n) a).map fun w => (⟨newCoord n, t, w, (squareLat h v).fwd a⟩ : EdgeRef Offset DSquareAxis E)).map EdgeRef.ends) =
      l.flatMap fun n => ([Sq.Axis.horizontal, Sq.Axis.vertical].filterMap fun a => ((k.grid h v).step n (.foward a)).bind fun t =>
        (cl.edge n a).map fun w => (⟨n, t, w, ⟨n, a⟩⟩ : Sq.View E)).map newEnds := by
    intro l
    induction l with
    | nil => intro _; rfl
    | cons n l ih =>
      intro hl
      rw [List.flatMap_cons, List.flatMap_cons, ih fun x hx => hl x (List.mem_cons_of_mem _ hx)]
      congr 1
      show List.map _ (List.filterMap _ ([Sq.Axis.horizontal, Sq.Axis.vertical].map newAxis)) = _
      rw [List.filterMap_map, List.map_filterMap, List.map_filterMap]
      congr 1
      funext a
      have h3 := key n (hl n List.mem_cons_self) a
      simp only [Function.comp]
      rw [Option.map_bind, Option.map_bind]
      simp only [Function.comp_def, Option.map_map]
      exact h3
  exact h2 _ fun n hn => Sq.mem_cells.1 hn

theorem same_out (hh : k.loopH = false) (hv : k.loopV = false) (hs : SameContents cl c) {n : Sq.NodeIx} (hn : (k.grid h v).Node n) :
    ((outEdges (squareLat h v) c (newCoord n)).map EdgeRef.ends).Perm ((Sq.outViews (k.grid h v) cl n).map newEnds) := by
  have key : ∀ d, ((squareLat h v).nbr (newCoord n) (newDir d)).bind (fun t =>
      (c.edge ((squareLat h v).key (newCoord n) (newDir d) t).1 ((squareLat h v).key (newCoord n) (newDir d) t).2).map fun w =>
        (newCoord n, t, w)) = (((k.grid h v).step n d).bind fun t =>
      (cl.edge (Sq.Grid.key n t d).node (Sq.Grid.key n t d).axis).map fun w => newEnds ⟨n, t, w, Sq.Grid.key n t d⟩) := by
    intro d
    rw [newDir_nbr hh hv hn]
    cases (k.grid h v).step n d with
    | none => rfl
    | some t =>
      rcases d with (_ | _) | (_ | _)
      all_goals
        simp only [Option.map_some, Option.bind_some, newDir, Lat.key, squareLat, Sq.Grid.key, reduceCtorEq, if_true, if_false]
        rw [← hs.2]
        rfl
  have h1 : (Sq.outViews (k.grid h v) cl n).map newEnds = [DSquareAxis.RX, .X, .RY, .Y].filterMap fun d =>
      ((squareLat h v).nbr (newCoord n) d).bind (fun t =>
      (c.edge ((squareLat h v).key (newCoord n) d t).1 ((squareLat h v).key (newCoord n) d t).2).map fun w => (newCoord n, t, w)) := by
    show _ = (Sq.Grid.dirs.map newDir).filterMap _
    rw [List.filterMap_map, Sq.outViews, List.map_filterMap]
    congr 1
    funext d
    simp only [Function.comp, key]
    cases (k.grid h v).step n d <;> simp [Option.map_map, Function.comp_def]
  have h2 : (outEdges (squareLat h v) c (newCoord n)).map EdgeRef.ends = [DSquareAxis.X, .Y, .RX, .RY].filterMap fun d =>
      ((squareLat h v).nbr (newCoord n) d).bind (fun t =>
      (c.edge ((squareLat h v).key (newCoord n) d t).1 ((squareLat h v).key (newCoord n) d t).2).map fun w => (newCoord n, t, w)) := by
    rw [outEdges, List.map_filterMap]
    show List.filterMap _ [DSquareAxis.X, .Y, .RX, .RY] = _
    congr 1
    funext d
    cases (squareLat h v).nbr (newCoord n) d <;> simp [Option.map_map, Function.comp_def, EdgeRef.ends]
  rw [h1, h2]
  exact List.Perm.filterMap _ (by decide)

/-! ### Construction -/

theorem newAxis_edge (hh : k.loopH = false) (hv : k.loopV = false) {n : Sq.NodeIx} {a : Sq.Axis} :
    (squareLat h v).HasEdge (newCoord n) (newAxis a) ↔ (k.grid h v).HasEdge n a := by
  unfold Lat.HasEdge Sq.Grid.HasEdge
  rw [newCoord_node (k := k)]
  refine and_congr_right fun hn => ?_
  have h5 : (squareLat h v).fwd (newAxis a) = newDir (.foward a) := by cases a <;> rfl
  rw [h5, newDir_nbr hh hv hn, Option.isSome_map]

/-- **C77.** Built from the same functions on the same sizes, both graphs exist and give the same answer for every node and every edge. -/
theorem c77_new_with (k : Sq.Cfg) (hh : k.loopH = false) (hv : k.loopV = false) (h0 : 0 < h) (v0 : 0 < v) (hs : h * v < k.m.half)
    (fn : Nat → Nat → N) (fe : Nat → Nat → SquareAxis → E) :
    ∃ (gl : Sq.G N E) (cl : Contents Sq.NodeIx Sq.Axis N E) (g : Graph Offset SquareAxis DSquareAxis N E)
      (c : Contents Offset SquareAxis N E),
      Sq.G.newWith k h v (fun u i j => (fn i j, u)) (fun u i j a => (fe i j (newAxis a), u)) () = .ok (gl, ()) ∧
      newWith (squareShape k.m h v) (fun u p => (fn p.horizontal p.vertical, u)) (fun u p a => (fe p.horizontal p.vertical a, u)) () =
        .ok (g, ()) ∧ Sq.Built k h v gl cl ∧ Built (squareShape k.m h v) (squareLat h v) g c ∧ SameWeights gl g := by
  have hl := Lawful.square k.m h v
  obtain ⟨gl, h1, -⟩ := Sq.newWith_ok (N := N) (E := E) k h0 v0 hs (fun u i j => (fn i j, u)) (fun u i j a => (fe i j (newAxis a), u)) ()
  have hc : Constructible (squareShape k.m h v) := by
    show (if h = 0 then 1 else h) * (if v = 0 then 1 else v) < k.m.half
    rw [if_neg (by omega), if_neg (by omega)]; exact hs
  obtain ⟨g, h2, h3⟩ := c57_new_with (N := N) (E := E) hl.storable hc (fun u (p : Offset) => (fn p.horizontal p.vertical, u))
    (fun u p a => (fe p.horizontal p.vertical a, u)) ()
  refine ⟨gl, _, g, _, h1, h2, .new h1 v0, h3, fun n => ?_, fun n a => ?_⟩
  · have h4 := c02_node_weight hl (n := fun p => fn p.horizontal p.vertical) (e := fun p a => fe p.horizontal p.vertical a) h2 (newCoord n)
    rw [Sq.c44_node_weight (fe := fun i j a => fe i j (newAxis a)) h1 n]
    by_cases hn : (k.grid h v).Node n
    · rw [if_pos hn, h4.1 (newCoord_node.2 hn)]; rfl
    · rw [if_neg hn, h4.2 (mt newCoord_node.1 hn) trivial]
  · have h4 := c03_edge_weight hl (n := fun p => fn p.horizontal p.vertical) (e := fun p a => fe p.horizontal p.vertical a) h2 (newCoord n)
      (newAxis a)
    rw [Sq.c44_edge_weight (fe := fun i j a => fe i j (newAxis a)) h1 ⟨n, a⟩]
    have he := newAxis_edge (h := h) (v := v) (n := n) (a := a) hh hv
    by_cases hn : (k.grid h v).HasEdge n a
    · rw [if_pos hn, h4.1 (he.2 hn)]; rfl
    · rw [if_neg hn, h4.2 (mt he.1 hn) (.inr trivial)]

/-- **C77.** Where they differ: with a side of length 0 the old constructor panics, the new one returns an empty graph. -/
theorem c77_empty (k : Sq.Cfg) (hv : k.loopV = false) (hz : h = 0 ∨ v = 0)
    (hs : (if h = 0 then 1 else h) * (if v = 0 then 1 else v) < k.m.half) (dn : N) (de : E) :
    Sq.G.new k h v dn de = .error .panic ∧
    ∃ g : Graph Offset SquareAxis DSquareAxis N E, newDefault (squareShape k.m h v) dn de = .ok g ∧ g.nodeBound = .ok 0 ∧
      Yields (nodeIndicesNext g.s) 0 [] ∧ Yields (edgeRefsNext g) edgeRefsInit [] := by
  refine ⟨?_, ?_⟩
  · have h1 := Sq.c43_rejects (N := N) (E := E) (h := h) (v := v) k (by
      rcases hz with h | h
      · exact .inl h
      · exact .inr (.inl ⟨h, hv⟩)) (fun _ _ _ => (dn, ())) (fun _ _ _ _ => (de, ())) ()
    simp only [Sq.G.new, h1, bind, Except.bind]
  · have hl := (Lawful.square k.m h v).storable
    obtain ⟨g, k, h1, h2, -⟩ := (c78_new hl dn de).1 hs
    obtain ⟨a, b, c, -⟩ := empty_graph hl h2 hz
    exact ⟨g, h1, a, b, c⟩

/-- The call for a legacy closure call. -/
def newCall : Call Sq.NodeIx Sq.Axis → Call Offset SquareAxis
  | .node n => .node (newCoord n)
  | .edge n a => .edge (newCoord n) (newAxis a)

/-- **C77.** The closures are called for the same nodes and edges, once each, but in another order as soon as there are two nodes: closures
with state see the difference. -/
theorem c77_calls (k : Sq.Cfg) (hh : k.loopH = false) (hv : k.loopV = false) :
    (callSeq (squareLat h v)).Perm ((Sq.callSeq (k.grid h v)).map newCall) ∧
    (2 ≤ h * v → callSeq (squareLat h v) ≠ (Sq.callSeq (k.grid h v)).map newCall) := by
  have hinj : ∀ a b, newCall a = newCall b → a = b := by
    intro a b hab
    cases a <;> cases b <;> simp only [newCall, Call.node.injEq, Call.edge.injEq, reduceCtorEq] at hab
    · rw [newCoord_inj hab]
    · rw [newCoord_inj hab.1, newAxis_inj hab.2]
  have he : ∀ n a, (squareLat h v).HasEdge (newCoord n) (newAxis a) ↔ (k.grid h v).HasEdge n a := fun n a => newAxis_edge hh hv
  have hl := Lawful.square k.m h v
  constructor
  · refine (List.perm_ext_iff_of_nodup (c01_calls_once hl) (nodup_map_of_inj (Sq.c43_calls_once _) fun a _ b _ => hinj a b)).2 fun x => ?_
    rw [List.mem_map]
    cases x with
    | node p =>
      rw [mem_callSeq_node]
      constructor
      · intro hp
        exact ⟨.node ⟨p.horizontal, p.vertical⟩, (Sq.c43_calls_exact _ _ .horizontal).1.2 (newCoord_node.1 hp), rfl⟩
      · rintro ⟨y, hy, hxy⟩
        cases y with
        | node n =>
          simp only [newCall, Call.node.injEq] at hxy
          subst hxy
          exact newCoord_node.2 ((Sq.c43_calls_exact _ _ .horizontal).1.1 hy)
        | edge n a => simp [newCall] at hxy
    | edge p b =>
      rw [mem_callSeq_edge hl.laws.dir]
      obtain ⟨a, rfl⟩ : ∃ a, b = newAxis a := by
        cases b
        · exact ⟨.horizontal, rfl⟩
        · exact ⟨.vertical, rfl⟩
      constructor
      · intro hp
        exact ⟨.edge ⟨p.horizontal, p.vertical⟩ a, (Sq.c43_calls_exact _ _ a).2.2 ((he _ a).1 hp), rfl⟩
      · rintro ⟨y, hy, hxy⟩
        cases y with
        | node n => simp [newCall] at hxy
        | edge n a' =>
          simp only [newCall, Call.edge.injEq] at hxy
          obtain ⟨rfl, h2⟩ := hxy
          rw [← h2]
          exact (he _ _).2 ((Sq.c43_calls_exact _ _ _).2.1 hy)
  · intro h2 heq
    have hlen := (Sq.c45_nodes_exact (k.grid h v)).2.2
    have hlen' : 2 ≤ (k.grid h v).nodes.length := by rw [hlen]; exact h2
    obtain ⟨n1, n2, rest, hnodes⟩ : ∃ n1 n2 rest, (k.grid h v).nodes = n1 :: n2 :: rest := by
      match (k.grid h v).nodes, hlen' with
      | a :: b :: l, _ => exact ⟨a, b, l, rfl⟩
    have hn1 : (k.grid h v).Node n1 := ((Sq.c45_nodes_exact (k.grid h v)).2.1 n1).1 (by rw [hnodes]; simp)
    obtain ⟨h', rfl⟩ : ∃ h', h = h' + 1 := ⟨h - 1, by have : n1.horizontal < h := hn1.1; omega⟩
    obtain ⟨v', rfl⟩ : ∃ v', v = v' + 1 := ⟨v - 1, by have : n1.vertical < v := hn1.2; omega⟩
    have hn1' : n1 = ⟨0, 0⟩ := by
      have : (k.grid (h' + 1) (v' + 1)).nodes.head? = some ⟨0, 0⟩ := by
        simp [Sq.Grid.nodes, Sq.Cfg.grid, List.range_succ_eq_map]
      rw [hnodes] at this
      exact Option.some.inj this
    subst hn1'
    have hL : callSeq (squareLat (h' + 1) (v' + 1)) = (newCoord ⟨0, 0⟩ :: newCoord n2 :: rest.map newCoord).flatMap fun c =>
        Call.node c :: ((squareLat (h' + 1) (v' + 1)).axes.filter fun a =>
          ((squareLat (h' + 1) (v' + 1)).nbr c ((squareLat (h' + 1) (v' + 1)).fwd a)).isSome).map fun a => Call.edge c a := by
      unfold callSeq
      rw [newCoord_nodes (k := k), hnodes]
      rfl
    obtain ⟨a, l, hal⟩ : ∃ a l, ((squareLat (h' + 1) (v' + 1)).axes.filter fun a =>
          ((squareLat (h' + 1) (v' + 1)).nbr (newCoord ⟨0, 0⟩) ((squareLat (h' + 1) (v' + 1)).fwd a)).isSome) = a :: l := by
      cases hq : ((squareLat (h' + 1) (v' + 1)).axes.filter fun a =>
          ((squareLat (h' + 1) (v' + 1)).nbr (newCoord ⟨0, 0⟩) ((squareLat (h' + 1) (v' + 1)).fwd a)).isSome) with
      | cons a l => exact ⟨a, l, rfl⟩
      | nil =>
        exfalso
        rw [List.filter_eq_nil_iff] at hq
        have q1 := hq .X (by simp [squareLat])
        have q2 := hq .Y (by simp [squareLat])
        simp [squareLat, rectNbr, inRect, DSquareAxis.vec, newCoord] at q1 q2
        have : h' = 0 := by omega
        have : v' = 0 := by omega
        subst h' v'
        omega
    rw [hL, Sq.callSeq, hnodes] at heq
    simp only [List.flatMap_cons, hal, List.map_cons, List.cons_append, List.append_assoc, newCall, List.cons.injEq, reduceCtorEq, false_and,
      and_false] at heq

/-! ### Observation -/

/-- **C77.** Both graphs number and list the same nodes in the same order, and agree on who is whose neighbour. -/
theorem c77_nodes (hb : Built (squareShape k.m h v) (squareLat h v) g c) (hl : Sq.Built k h v gl cl) (hf : k.Fits h v)
    (hh : k.loopH = false) (hv : k.loopV = false) :
    g.nodeBound = .ok gl.nodeCount ∧
    (∃ l, Yields (Sq.NodeIndices.next k) (.new gl.horizontalNodeCount gl.verticalNodeCount) l ∧
      Yields (nodeIndicesNext g.s) 0 (l.map newCoord)) ∧
    ∀ n, (k.grid h v).Node n → (∃ i, gl.toIndex n = .ok i ∧ g.toIndex (newCoord n) = .ok i ∧ gl.fromIndex i = .ok n ∧
        g.fromIndex i = .ok (newCoord n)) ∧
      ∃ ln l, Yields (Sq.Nbrs.next k) (gl.neighbors n) ln ∧ Yields (neighborsNext g.s (newCoord n)) 0 l ∧ l.Perm (ln.map newCoord) := by
  have hs := Lawful.square k.m h v
  have hlb := hl.sizes hf
  have h1 := Sq.c45_index_bijection_partial hl hf
  have hg := hs.storable.good hb
  refine ⟨by rw [c04_node_count hs hb, h1.1]; rfl, ⟨_, Sq.c45_node_identifiers_partial hl hf, ?_⟩, fun n hn => ⟨?_, ?_⟩⟩
  · rw [← newCoord_nodes]
    exact c05_node_identifiers hs hb
  · obtain ⟨i, -, h2, h3⟩ := h1.2.2 n hn
    have h4 : gl.toIndex n = .ok (n.horizontal * v + n.vertical) := Sq.toIndex_eq hl hf hn
    rw [h2] at h4
    cases h4
    have h5 : g.toIndex (newCoord n) = .ok (n.horizontal * v + n.vertical) := hg.toIndex hn.1 hn.2
    obtain ⟨j, h6, -, h7⟩ := c04_to_index hs hb (newCoord_node.2 hn)
    rw [h5] at h6
    cases h6
    exact ⟨_, h2, h5, h3, h7⟩
  · refine ⟨_, _, Sq.c46_neighbors hl hf hn, c07_neighbors hs hb (newCoord_node.2 hn), ?_⟩
    have h2 : ((k.grid h v).nbrs n).map newCoord = [DSquareAxis.RX, .X, .RY, .Y].filterMap ((squareLat h v).nbr (newCoord n)) := by
      show _ = (Sq.Grid.dirs.map newDir).filterMap _
      rw [List.filterMap_map, Sq.Grid.nbrs, List.map_filterMap]
      congr 1
      funext d
      exact (newDir_nbr hh hv hn d).symm
    rw [h2]
    exact List.Perm.filterMap _ (show [DSquareAxis.X, .Y, .RX, .RY].Perm _ by decide)

/-- The call on the new graph for a call on the old one. -/
def newOp : Sq.Op N E → Op Offset SquareAxis N E
  | .readNode n => .readNode (newCoord n)
  | .readEdge e => .readEdge (newCoord e.node) (newAxis e.axis)
  | .writeNode n f => .writeNode (newCoord n) f
  | .writeEdge e f => .writeEdge (newCoord e.node) (newAxis e.axis) f
  | .edges n => .edges (newCoord n)
  | .edgeReferences => .edgeReferences
  | .nodeReferences => .nodeReferences

/-- The same result, up to the order in which `edges(n)` goes round. -/
def SameOut : Sq.Op N E → Sq.Out N E → Out Offset DSquareAxis N E → Prop
  | .readNode _, .node w, .node w' => w' = w
  | .readEdge _, .edge w, .edge w' => w' = w
  | .writeNode _ _, .wrote b, .wrote b' => b' = b
  | .writeEdge _ _, .wrote b, .wrote b' => b' = b
  | .edges _, .edges l, .edges l' => (l'.map EdgeRef.ends).Perm (l.map newEnds)
  | .edgeReferences, .edges l, .edges l' => l'.map EdgeRef.ends = l.map newEnds
  | .nodeReferences, .nodes l, .nodes l' => l' = l.map fun p => (newCoord p.1, p.2)
  | _, _, _ => False

/-- Results of a sequence of calls, pairwise. -/
def SameOuts : List (Sq.Op N E) → List (Sq.Out N E) → List (Out Offset DSquareAxis N E) → Prop
  | [], [], [] => True
  | op :: ops, o :: os, o' :: os' => SameOut op o o' ∧ SameOuts ops os os'
  | _, _, _ => False

/-- **C77.** Any program of reads, writes and iterations runs to the end on both graphs, whatever the old one returns the new one returns
too, and they still agree afterwards. -/
theorem c77_program (hf : k.Fits h v) (hh : k.loopH = false) (hv : k.loopV = false) : ∀ {ops : List (Sq.Op N E)} {gl : Sq.G N E}
    {cl : Contents Sq.NodeIx Sq.Axis N E} {g : Graph Offset SquareAxis DSquareAxis N E} {c : Contents Offset SquareAxis N E},
    Sq.Built k h v gl cl → Built (squareShape k.m h v) (squareLat h v) g c → SameWeights gl g →
    (∀ op ∈ ops, Sq.OpOk (k.grid h v) op) →
    ∃ outsl gl' cl' outs g' c', Sq.ExecAll gl ops outsl gl' ∧ ExecAll g (ops.map newOp) outs g' ∧ SameOuts ops outsl outs ∧
      Sq.Built k h v gl' cl' ∧ Built (squareShape k.m h v) (squareLat h v) g' c' ∧ SameWeights gl' g'
  | [], gl, cl, g, c, hl, hb, hw, _ => ⟨[], gl, cl, [], g, c, .nil, .nil, trivial, hl, hb, hw⟩
  | op :: ops, gl, cl, g, c, hl, hb, hw, hok => by
    have hs := (same_iff hb hl).1 hw
    have hop := hok op List.mem_cons_self
    have hlaw := Lawful.square k.m h v
    obtain ⟨gl1, h1, h2⟩ := Sq.exec_step hl hf hop
    have hop' : OpOk (squareLat h v) (fun _ => True) (newOp op) := by
      cases op <;> first | trivial | exact .inr trivial | exact newCoord_node.2 hop
    obtain ⟨g1, h3, h4⟩ := c16_step hlaw hb hop'
    have h5 : SameContents (Sq.specStep (k.grid h v) cl op).2 (specStep (squareLat h v) c (newOp op)).2 := by
      cases op with
      | writeNode n f => exact hs.mapNode n f
      | writeEdge e f => exact hs.mapEdge e.node e.axis f
      | _ => exact hs
    have h6 : SameOut op (Sq.specStep (k.grid h v) cl op).1 (specStep (squareLat h v) c (newOp op)).1 := by
      cases op with
      | readNode n => exact hs.1 n
      | readEdge e => exact hs.2 e.node e.axis
      | writeNode n f => exact congrArg Option.isSome (hs.1 n)
      | writeEdge e f => exact congrArg Option.isSome (hs.2 e.node e.axis)
      | edges n => exact same_out hh hv hs hop
      | edgeReferences => exact same_all hh hv hs
      | nodeReferences => exact same_nodes hs
    obtain ⟨outsl, gl', cl', outs, g', c', a1, a2, a3, a4⟩ := c77_program hf hh hv h2 h4 ((same_iff h4 h2).2 h5)
      fun op h => hok op (List.mem_cons_of_mem _ h)
    exact ⟨_, gl', cl', _, g', c', .cons h1 a1, .cons h3 a2, ⟨h6, a3⟩, a4⟩

/-- **C77.** And no run returns anything else: both sides are deterministic. -/
theorem c77_program_only (hf : k.Fits h v) {ops : List (Sq.Op N E)}
    (hl : Sq.Built k h v gl cl) (hb : Built (squareShape k.m h v) (squareLat h v) g c) (hw : SameWeights gl g)
    (hh : k.loopH = false) (hv : k.loopV = false) (hok : ∀ op ∈ ops, Sq.OpOk (k.grid h v) op) {outsl gl' outs g'}
    (h1 : Sq.ExecAll gl ops outsl gl') (h2 : ExecAll g (ops.map newOp) outs g') : SameOuts ops outsl outs := by
  obtain ⟨ol, gl1, cl1, o, g1, c1, a1, a2, a3, -⟩ := c77_program hf hh hv hl hb hw hok
  have e1 := (Sq.c54_only_map hf hl hok h1).1.trans (Sq.c54_only_map hf hl hok a1).1.symm
  have hok' : ∀ op ∈ ops.map newOp, OpOk (squareLat h v) (fun _ => True) op := by
    intro op hop
    obtain ⟨o, ho, rfl⟩ := List.mem_map.1 hop
    have := hok o ho
    cases o <;> first | trivial | exact .inr trivial | exact newCoord_node.2 this
  have hlaw := Lawful.square k.m h v
  have e2 := (c16_only_map hlaw hb hok' h2).1.trans (c16_only_map hlaw hb hok' a2).1.symm
  rw [e1, e2]
  exact a3

/-- A `SquareGraph<_, _, u8, DefaultShape>` on a 64-bit debug build. -/
def exFlat : Sq.Cfg := ⟨m64, 256, false, false, by decide, by decide⟩

/-! A 3 × 2 map with weights `10i + j` on both sides: a write, a read back, the edges of a node, all edges. -/
example : ∃ (gl gl' : Sq.G Nat Nat) (g g' : Graph Offset SquareAxis DSquareAxis Nat Nat) (outsl : List (Sq.Out Nat Nat))
    (outs : List (Out Offset DSquareAxis Nat Nat)),
    Sq.G.newWith exFlat 3 2 (fun u i j => (10 * i + j, u)) (fun u i j _ => (10 * i + j, u)) () = .ok (gl, ()) ∧
    newWith (squareShape m64 3 2) (fun u p => (10 * p.horizontal + p.vertical, u)) (fun u p _ => (10 * p.horizontal + p.vertical, u)) () =
      .ok (g, ()) ∧
    Sq.ExecAll gl [.writeEdge ⟨⟨1, 0⟩, .vertical⟩ fun _ => 99, .readEdge ⟨⟨1, 0⟩, .vertical⟩, .edges ⟨1, 1⟩, .edgeReferences] outsl gl' ∧
    ExecAll g [.writeEdge ⟨1, 0⟩ .Y fun _ => 99, .readEdge ⟨1, 0⟩ .Y, .edges ⟨1, 1⟩, .edgeReferences] outs g' ∧
    SameOuts [.writeEdge ⟨⟨1, 0⟩, .vertical⟩ fun _ => 99, .readEdge ⟨⟨1, 0⟩, .vertical⟩, .edges ⟨1, 1⟩, .edgeReferences] outsl outs := by
  obtain ⟨gl, cl, g, c, h1, h2, h3, h4, h5⟩ := c77_new_with (h := 3) (v := 2) exFlat rfl rfl (by decide) (by decide) (by decide)
    (fun i j => 10 * i + j) (fun i j _ => 10 * i + j)
  obtain ⟨outsl, gl', -, outs, g', -, h6, h7, h8, -⟩ := c77_program
    (ops := [.writeEdge ⟨⟨1, 0⟩, .vertical⟩ fun _ => 99, .readEdge ⟨⟨1, 0⟩, .vertical⟩, .edges ⟨1, 1⟩, .edgeReferences])
    (show exFlat.Fits 3 2 from ⟨by decide, by decide⟩) rfl rfl h3 h4 h5 (by
      intro op hop
      simp only [List.mem_cons, List.not_mem_nil, or_false] at hop
      rcases hop with rfl | rfl | rfl | rfl
      · trivial
      · trivial
      · exact ⟨by decide, by decide⟩
      · trivial)
  exact ⟨gl, gl', g, g', outsl, outs, h1, h2, h6, h7, h8⟩

example : ∃ g : Graph Offset SquareAxis DSquareAxis Nat Nat, Sq.G.new (N := Nat) (E := Nat) exFlat 0 4 1 2 = .error .panic ∧
    newDefault (squareShape m64 0 4) 1 2 = .ok g ∧ g.nodeBound = .ok 0 := by
  obtain ⟨h1, g, h2, h3, -⟩ := c77_empty (N := Nat) (E := Nat) exFlat (h := 0) (v := 4) rfl (.inl rfl) (by decide) 1 2
  exact ⟨g, h1, h2, h3⟩
example : (callSeq (squareLat 3 2)).Perm ((Sq.callSeq (exFlat.grid 3 2)).map newCall) ∧
    callSeq (squareLat 3 2) ≠ (Sq.callSeq (exFlat.grid 3 2)).map newCall :=
  ⟨(c77_calls exFlat rfl rfl).1, (c77_calls exFlat rfl rfl).2 (by decide)⟩
example : ∃ (gl : Sq.G Nat Nat) (g : Graph Offset SquareAxis DSquareAxis Nat Nat), g.nodeBound = .ok gl.nodeCount ∧
    (∃ i, gl.toIndex ⟨2, 1⟩ = .ok i ∧ g.toIndex ⟨2, 1⟩ = .ok i ∧ gl.fromIndex i = .ok ⟨2, 1⟩ ∧ g.fromIndex i = .ok ⟨2, 1⟩) ∧
    ∀ outsl gl' outs g', Sq.ExecAll gl [.readNode ⟨2, 1⟩] outsl gl' → ExecAll g [.readNode ⟨2, 1⟩] outs g' →
      SameOuts [.readNode ⟨2, 1⟩] outsl outs := by
  obtain ⟨gl, cl, g, c, h1, h2, h3, h4, h5⟩ := c77_new_with (h := 3) (v := 2) exFlat rfl rfl (by decide) (by decide) (by decide)
    (fun i j => 10 * i + j) (fun i j _ => 10 * i + j)
  have hf : exFlat.Fits 3 2 := ⟨by decide, by decide⟩
  have hn := c77_nodes h4 h3 hf rfl rfl
  exact ⟨gl, g, hn.1, (hn.2.2 ⟨2, 1⟩ ⟨by decide, by decide⟩).1, fun outsl gl' outs g' e1 e2 =>
    c77_program_only hf h3 h4 h5 rfl rfl (by intro op hop; simp at hop; subst hop; trivial) e1 e2⟩

end
end LG
