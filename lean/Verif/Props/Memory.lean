import Verif.Props.Hints
import Verif.Lemmas.Memory
/- C19, C22, C23: memory safety of reads, destructors, derived Clone and PartialEq. -/
set_option linter.unusedSectionVars false
namespace LG
section
variable {C A D N E σ α : Type} [DecidableEq C] [DecidableEq A] [DecidableEq D]
variable {g : Graph C A D N E} {s : Shape C A D} {L : Lat C A D} {rep : C → Prop} {k : Contents C A N E}

/-- However often it is polled (also after `None`), the iterator never faults. -/
def NeverFaults (next : σ → Res (Option α × σ)) (it : σ) : Prop :=
  ∀ it', Reaches next it it' → ∃ r, next it' = .ok r

theorem Yields.ok {next : σ → Res (Option α × σ)} {it : σ} {l : List α} (h : Yields next it l) : ∃ r, next it = .ok r := by
  cases h with
  | done h => exact ⟨_, h⟩
  | step h _ => exact ⟨_, h⟩

/-- **C19**, lookups and writes. A result `.ok` means: no out-of-bounds or uninitialised access, no `unreachable_unchecked`,
no panic. -/
theorem c19_lookups (hs : Storable s L rep) (hb : Built s L g k) {c : C} (hn : L.Node c) (a : A) (fn : N → N) (fe : E → E) :
    (∃ r, g.nodeWeight c = .ok r) ∧ (∃ r, g.edgeWeight c a = .ok r) ∧ (∃ r, g.modifyNode c fn = .ok r) ∧
    (∃ r, g.modifyEdge c a fe = .ok r) ∧ (∃ r, g.nodeWeightUnchecked c = .ok r) ∧
    (L.HasEdge c a → (∃ r, g.edgeWeightUnchecked c a = .ok r) ∧ ∃ r, g.modifyEdgeUnchecked c a fe = .ok r) := by
  have hg := hs.good hb
  refine ⟨⟨_, nodeWeight_eq hg.impl hg.inv hg.total (.inl hn)⟩, ⟨_, edgeWeight_eq hg.impl hg.inv hg.total (.inl hn)⟩, ?_, ?_,
    ?_, fun he => ⟨?_, ?_⟩⟩
  · rcases modifyNode_eq hs.base hg.impl hg.inv hg.total (.inl hn) fn with ⟨g', h, _⟩ | ⟨h, _⟩ <;> exact ⟨_, h⟩
  · rcases modifyEdge_eq (a := a) hs.base hg.impl hg.inv hg.total (.inl hn) fe with ⟨g', h, _⟩ | ⟨h, _⟩ <;> exact ⟨_, h⟩
  · obtain ⟨w, _, h⟩ := nodeWeightUnchecked_eq hg.impl hg.inv hg.total hn; exact ⟨_, h⟩
  · obtain ⟨w, _, h⟩ := edgeWeightUnchecked_eq hg.impl hg.inv hg.total he; exact ⟨_, h⟩
  · obtain ⟨w, h, _⟩ := modifyEdgeUnchecked_eq hs.base hg.impl hg.inv hg.total he fe; exact ⟨_, h⟩

/-- **C19**, iterators over nodes, neighbours and all edges. -/
theorem c19_iterators (hs : Storable s L rep) (hb : Built s L g k) :
    NeverFaults (nodeIndicesNext g.s) 0 ∧ NeverFaults (nodeRefsNext g) 0 ∧
    (∀ c, L.Node c → NeverFaults (neighborsNext g.s c) 0) ∧ NeverFaults (edgeRefsNext g) edgeRefsInit := by
  have hg := hs.good hb
  rw [hg.shape]
  refine ⟨fun i h => ?_, fun i h => ?_, fun c hc i h => ?_, fun i h => ?_⟩
  · obtain ⟨⟨l, h, _⟩, _⟩ := c18_node_identifiers hs hg.constructible h; exact h.ok
  · obtain ⟨⟨l, h, _⟩, _⟩ := c18_node_references hs hb h; exact h.ok
  · obtain ⟨⟨l, _, _, h, _⟩, _⟩ := c18_neighbors hs hg.constructible hc h; exact h.ok
  · obtain ⟨⟨l, h⟩, _⟩ := c18_edge_references_fused hs hb h; exact h.ok

/-- **C19**, `edges(c)` in both build modes. -/
theorem c19_edges (hs : Lawful s L rep) (hb : Built s L g k) {c : C} (hn : L.Node c) :
    ∃ it, g.edgesOf c = .ok it ∧ NeverFaults (edgesNext g) it := by
  have hg := hb.good hs
  obtain ⟨x, y, hx, hy, rfl⟩ := hn
  refine ⟨_, edgesNewD_eq hg.impl hx hy _, fun it h => ?_⟩
  obtain ⟨⟨l, _, _, h, _⟩, _⟩ := c18_edges hs hb ⟨x, y, hx, hy, rfl⟩ (edgesNewD_eq hg.impl hx hy _) h
  exact h.ok

/-- **C19**, `edges_directed(c, d)`: release builds, and all builds except `Incoming` on a directed graph (C12). -/
theorem c19_edges_directed (hs : Lawful s L rep) (hb : Built s L g k) {d : PDir}
    (hp : (d = .incoming → g.isDirected = false) ∨ g.s.m.mode = .release) {c : C} (hn : L.Node c) :
    ∃ it, g.edgesDirected c d = .ok it ∧ NeverFaults (edgesNext g) it := by
  have hg := hb.good hs
  obtain ⟨x, y, hx, hy, rfl⟩ := hn
  refine ⟨_, edgesNewD_eq hg.impl hx hy _, fun it h => ?_⟩
  obtain ⟨⟨l, _, _, h, _⟩, _⟩ := c18_edges_directed hs hb hp ⟨x, y, hx, hy, rfl⟩ (edgesNewD_eq hg.impl hx hy _) h
  exact h.ok

/-- Example: on the directed 3 × 2 square graph in a release build, polling the incoming edges of a corner never faults, and
the edge along +x from (0,0) exists so that the unchecked accessors are covered too. -/
example : ∃ g : Graph Offset DSquareAxis DSquareAxis Nat Nat,
    (∃ it, g.edgesDirected ⟨0, 0⟩ .incoming = .ok it ∧ NeverFaults (edgesNext g) it) ∧
    ∃ r, g.edgeWeightUnchecked ⟨0, 0⟩ .X = .ok r := by
  obtain ⟨g, hb⟩ := exSquareD m64r rfl
  have hn : (squareLatDirected 3 2).Node ⟨0, 0⟩ := ⟨0, 0, by decide, by decide, rfl⟩
  refine ⟨g, c19_edges_directed (.squareDirected m64r 3 2) hb (.inr ?_) hn, ?_⟩
  · rw [(hb.good (.squareDirected m64r 3 2)).shape]; rfl
  · exact ((c19_lookups (.sound (.squareDirected m64r 3 2)) hb hn .X id id).2.2.2.2.2 ⟨hn, by decide⟩).1

/-! ### C22 -/

theorem axLewNbr_top {even : Bool} {h v x : Nat} {u : Int × Int} (hh : 0 < v) (hu : u.2 = 1) :
    axLewNbr even h v (axCoord even false x (v - 1)) u = none := by
  have : ((v - 1 : Nat) : Int) = v - 1 := by omega
  simp only [axLewNbr, displaced, axCoord, hu, this]
  rw [if_pos (by simp)]

/-- On every nonempty shape some edge of a corner does not exist. -/
theorem Single.corner {C A D : Type} {s : Shape C A D} {L : Lat C A D} {rep : C → Prop} (h : Single s L rep)
    (hw : 0 < L.width) (hh : 0 < L.height) : ∃ c a, L.Corner c ∧ ¬ L.HasEdge c a := by
  have mk : ∀ {C A D : Type} {L : Lat C A D} {c : C} {a : A}, L.Corner c → L.nbr c (L.fwd a) = none →
      ∃ c a, L.Corner c ∧ ¬ L.HasEdge c a := fun {C A D L c a} h1 h2 => ⟨c, a, h1, fun h => by
    have := h.2; rw [h2] at this; cases this⟩
  have qTop : ∀ (even : Bool) (w h : Nat), 0 < h → qNbr even w h ⟨0, h - 1⟩ .N = none := by
    intro even w h hh
    have : ((h - 1 : Nat) : Int) = h - 1 := by omega
    simp only [qNbr, qStep, this]
    rw [if_neg]; simp
  have qTopLoop : ∀ (even : Bool) (w h : Nat), 0 < w → 0 < h → qLewNbr even w h ⟨w - 1, h - 1⟩ .NE = none := by
    intro even w h hw hh
    have e1 : ((w - 1 : Nat) : Int) = w - 1 := by omega
    have e2 : ((h - 1 : Nat) : Int) = h - 1 := by omega
    unfold qLewNbr
    simp only [e1, e2]
    cases upRow even (h - 1) <;> simp only [qLewStep]
    · rw [if_neg]; intro h; omega
    · simp only [Bool.false_eq_true, if_false]; rw [if_neg]; intro h; omega
  induction h with
  | sound h => exact h.corner hw hh
  | hexOffQ m k w h => exact mk (c := ⟨0, h - 1⟩) (a := .N) ⟨0, h - 1, hw, Nat.sub_lt hh Nat.one_pos, .inl rfl, .inr (Nat.sub_add_cancel hh), rfl⟩ (qTop _ _ _ hh)
  | hexOffQDirected m k w h =>
    exact mk (c := ⟨0, h - 1⟩) (a := .N) ⟨0, h - 1, hw, Nat.sub_lt hh Nat.one_pos, .inl rfl, .inr (Nat.sub_add_cancel hh), rfl⟩ (qTop _ _ _ hh)
  | hexOffQLew m k w h =>
    exact mk (c := ⟨w - 1, h - 1⟩) (a := .NE) ⟨w - 1, h - 1, Nat.sub_lt hw Nat.one_pos, Nat.sub_lt hh Nat.one_pos,
      .inr (Nat.sub_add_cancel hw), .inr (Nat.sub_add_cancel hh), rfl⟩
      (qTopLoop _ _ _ hw hh)
  | hexAxRLew m t k hk w h ht =>
    exact mk (a := .NE) ⟨0, h - 1, hw, Nat.sub_lt hh Nat.one_pos, .inl rfl, .inr (Nat.sub_add_cancel hh), rfl⟩ (axLewNbr_top hh rfl)
  | hexAxQLew m t k hk w h ht =>
    exact mk (a := .N) ⟨0, h - 1, hw, Nat.sub_lt hh Nat.one_pos, .inl rfl, .inr (Nat.sub_add_cancel hh), rfl⟩ (axLewNbr_top hh rfl)
  | hexAxRLewDirected m t k hk w h ht =>
    exact mk (a := .NE) ⟨0, h - 1, hw, Nat.sub_lt hh Nat.one_pos, .inl rfl, .inr (Nat.sub_add_cancel hh), rfl⟩ (axLewNbr_top hh rfl)
  | hexAxQLewDirected m t k hk w h ht =>
    exact mk (a := .N) ⟨0, h - 1, hw, Nat.sub_lt hh Nat.one_pos, .inl rfl, .inr (Nat.sub_add_cancel hh), rfl⟩ (axLewNbr_top hh rfl)
  | byRef _ ih => exact ih hw hh

theorem Stored.corner {C A D : Type} {s : Shape C A D} {L : Lat C A D} {rep : C → Prop} (h : Stored s L rep)
    (hw : 0 < L.width) (hh : 0 < L.height) : ∃ c a, L.Corner c ∧ ¬ L.HasEdge c a := by
  induction h with
  | single h => exact h.corner hw hh
  | double m h v =>
    refine ⟨⟨2 * (h - 1), 0⟩, .E, ⟨h - 1, 0, Nat.sub_lt hw Nat.one_pos, hh, .inr (Nat.sub_add_cancel hw), .inl rfl, rfl⟩, fun he => ?_⟩
    obtain ⟨t, ht⟩ := Option.isSome_iff_exists.1 he.2
    obtain ⟨h1, _, h2⟩ := dblNbr_iff.1 ht
    simp only [DStep, dblLat, hexLatR, AxisDR.vec, AxisDR.west, Bool.false_eq_true, or_false] at h1 h2 hw
    omega
  | byRef _ ih => exact ih hw hh

/-- On every nonempty shape some edge does not exist. -/
theorem Stored.absent {C A D : Type} {s : Shape C A D} {L : Lat C A D} {rep : C → Prop} (h : Stored s L rep)
    (hw : 0 < L.width) (hh : 0 < L.height) : ∃ c a, L.Node c ∧ ¬ L.HasEdge c a :=
  let ⟨c, a, hc, ha⟩ := h.corner hw hh
  ⟨c, a, hc.node, ha⟩

/-- **C22** fails for every nonempty graph of every shape, as soon as the edge type has a destructor: dropping the graph runs
the destructor on an uninitialised slot (that of a missing boundary edge). -/
theorem c22_drop_ub (hs : Stored s L rep) (hb : Built s L g k) (hw : 0 < L.width) (hh : 0 < L.height) :
    dropGraph g true = .error .ub := by
  have hg := hs.good hb
  obtain ⟨c, a, hc, ha⟩ := hs.absent hw hh
  simp only [dropGraph, if_true]
  exact (dropEdges_eq hg.impl hs.base.dir hg.total g.edges L.axes 0 rfl hg.inv.edges).1
    ⟨c, a, hs.base.dir.axes_mem a, hc, ha⟩

/-- Where the loop does destroy an existing edge weight it does so twice: on any array all of whose edges exist, every
destructor runs twice (`drop_in_place(&mut e)`, then `e` going out of scope). -/
theorem c22_double_drop (hs : Storable s L rep) (hc : Constructible s) {f : C → Option E} {arr : Arr2 E} (ha : ArrInv L arr f)
    {d : D} (hall : ∀ c, L.Node c → (f c).isSome ∧ (L.nbr c d).isSome) :
    dropEdgeArr s d 0 arr.data = .ok (List.replicate (L.width * L.height) 2) := by
  classical
  have hi := (hs.impl hc)
  have := dropEdgeArr_eq hi (f := f) (d := d) (fun c h => ⟨fun _ => (hall c h).2, fun _ => (hall c h).1⟩)
    (L.width * L.height) 0 (by omega)
  rw [← List.range_eq_range', ← ha.data_eq] at this
  rw [this, if_neg]
  intro hm
  obtain ⟨c, hc, h⟩ := ha.mem_data.1 hm
  have := (hall c hc).1
  rw [h] at this; cases this

/-- **C22**, what remains true: without a destructor on edge weights nothing is run and nothing faults; empty graphs drop
without fault; node weights are destroyed exactly once each, whatever their type. Missing: edge weights with destructors on
nonempty graphs, where the claim is false (`c22_drop_ub`, `c22_double_drop`). -/
theorem c22_drop_partial (hs : Storable s L rep) (hb : Built s L g k) :
    dropGraph g false = .ok [] ∧
    (L.width * L.height = 0 → dropGraph g true = .ok (L.axes.map fun _ => [])) ∧
    dropNodes g true = .ok (L.nodes.map fun _ => 1) := by
  have hg := hs.good hb
  refine ⟨rfl, fun h0 => ?_, ?_⟩
  · have := (dropEdges_eq hg.impl hs.base.dir hg.total g.edges L.axes 0 rfl hg.inv.edges).2
      (fun c a _ hc => by
        obtain ⟨x, y, hx, hy, _⟩ := hc
        have := Nat.mul_pos (Nat.lt_of_le_of_lt (Nat.zero_le _) hx) (Nat.lt_of_le_of_lt (Nat.zero_le _) hy)
        omega)
    simp only [dropGraph, if_true, this, h0, List.replicate_zero]
  · simp only [dropNodes, if_true]
    rw [dropData_all, hg.inv.nodes.data_nodes, List.length_map, List.map_const']
    intro hm
    obtain ⟨c, hc, h⟩ := hg.inv.nodes.mem_data.1 hm
    obtain ⟨w, hw⟩ := hg.total.node_some hc
    rw [hw] at h; cases h

/-- Example: the 3 × 2 square graph. -/
example : ∃ g : Graph Offset SquareAxis DSquareAxis Nat Nat,
    dropGraph g true = .error .ub ∧ dropNodes g true = .ok [1, 1, 1, 1, 1, 1] := by
  obtain ⟨g, hb⟩ := exSquare
  exact ⟨g, c22_drop_ub (.sound (.square m64 3 2)) hb (by decide) (by decide), (c22_drop_partial (.sound (.square m64 3 2)) hb).2.2⟩
/-- Example: on the 2 × 2 east-west looped hexagonal map every node has an east edge; dropping that array runs each destructor
twice. -/
example : dropEdgeArr (hexOffRLew m64 oddR 2 2) .E 0 ([some 1, some 2, some 3, some 4] : List (Option Nat))
    = .ok [2, 2, 2, 2] := rfl

/-! ### C23 -/

/-- **C23** fails for every nonempty graph: the derived `Clone` reads an uninitialised edge slot. -/
theorem c23_clone_ub (hs : Stored s L rep) (hb : Built s L g k) (hw : 0 < L.width) (hh : 0 < L.height) :
    g.clone = .error .ub := by
  classical
  have hg := hs.good hb
  obtain ⟨c, a, hc, ha⟩ := hs.absent hw hh
  have h1 := (cloneArrs_eq hg.total g.edges L.axes hg.inv.edges).1 ⟨c, a, hs.base.dir.axes_mem a, hc, ha⟩
  have h2 : g.nodes.clone = .ok g.nodes := by
    simp only [Arr2.clone, cloneData_eq, bind, Except.bind]
    rw [if_neg]
    intro hm
    obtain ⟨c, hc, h⟩ := hg.inv.nodes.mem_data.1 hm
    obtain ⟨w, hw⟩ := hg.total.node_some hc
    rw [hw] at h; cases h
  simp only [Graph.clone, h2, bind, Except.bind, h1]

/-- **C23** fails for every nonempty graph: `g == g` reads an uninitialised edge slot. -/
theorem c23_eq_ub [DecidableEq N] [DecidableEq E] (hs : Stored s L rep) (hb : Built s L g k) (hw : 0 < L.width)
    (hh : 0 < L.height) (blk : Nat) (same : Bool) : g.eq blk g same = .error .ub := by
  classical
  have hg := hs.good hb
  obtain ⟨c, a, hc, ha⟩ := hs.absent hw hh
  have h1 := (eqArrs_refl blk hg.total g.edges L.axes hg.inv.edges).1 ⟨c, a, hs.base.dir.axes_mem a, hc, ha⟩
  have h2 : g.nodes.eq blk g.nodes = .ok true := by
    simp only [Arr2.eq, eqData_refl, and_self, if_true]
    rw [if_neg]
    intro hm
    obtain ⟨c, hc, h⟩ := hg.inv.nodes.mem_data.1 hm
    obtain ⟨w, hw⟩ := hg.total.node_some hc
    rw [hw] at h; cases h
  simp only [Graph.eq, h2, bind, Except.bind, h1, if_true]

/-- **C23** fails for every nonempty graph: the derived `Hash` (and `Debug`) reads an uninitialised edge slot. -/
theorem c23_hash_ub (hs : Stored s L rep) (hb : Built s L g k) (hw : 0 < L.width) (hh : 0 < L.height) :
    g.hash = .error .ub := by
  classical
  have hg := hs.good hb
  obtain ⟨c, a, hc, ha⟩ := hs.absent hw hh
  have h1 := (hashArrs_eq hg.total g.edges L.axes hg.inv.edges) ⟨c, a, hs.base.dir.axes_mem a, hc, ha⟩
  have h2 : none ∉ g.nodes.data := by
    intro hm
    obtain ⟨c, hc, h⟩ := hg.inv.nodes.mem_data.1 hm
    obtain ⟨w, hw⟩ := hg.total.node_some hc
    rw [hw] at h; cases h
  simp only [Graph.hash, hashData_eq, bind, Except.bind, h1]
  rw [if_neg h2]

/-- **C23**, what remains true: the node part of `Clone` and `PartialEq` depends on node weights only. Two graphs of the same
lattice compare equal on their node arrays iff all node weights agree; if they do not, `==` answers `false` without reading any
edge. The node array clones to itself. Empty graphs clone to themselves and equal themselves. Missing: the edge part on
nonempty graphs, where the claim is false. -/
theorem c23_nodes_partial [DecidableEq N] [DecidableEq E] (hs : Storable s L rep) (hb : Built s L g k)
    {g' : Graph C A D N E} {k' : Contents C A N E} (hb' : Built s L g' k') (blk : Nat) (same : Bool) :
    (∃ b, g.nodes.eq blk g'.nodes = .ok b ∧ (b = true ↔ ∀ c, k.node c = k'.node c)) ∧
    (∀ c, k.node c ≠ k'.node c → g.eq blk g' same = .ok false) ∧
    g.nodes.clone = .ok g.nodes ∧
    (L.width * L.height = 0 → g.clone = .ok g ∧ g.eq blk g same = .ok same) := by
  classical
  have hg := hs.good hb
  have hg' := hs.good hb'
  have full : ∀ {g : Graph C A D N E} {k : Contents C A N E}, GoodBase s L rep g k → none ∉ g.nodes.data := by
    intro g k hg hm
    obtain ⟨c, hc, h⟩ := hg.inv.nodes.mem_data.1 hm
    obtain ⟨w, hw⟩ := hg.total.node_some hc
    rw [hw] at h; cases h
  have h1 : g.nodes.eq blk g'.nodes = .ok (decide (g.nodes.data = g'.nodes.data)) := by
    rw [Arr2.eq, if_pos ⟨hg.inv.nodes.rows.trans hg'.inv.nodes.rows.symm, hg.inv.nodes.cols.trans hg'.inv.nodes.cols.symm⟩,
      eqData_init _ _ _ (full hg) (full hg') (hg.inv.nodes.len.trans hg'.inv.nodes.len.symm)]
  have h2 : g.nodes.data = g'.nodes.data ↔ ∀ c, k.node c = k'.node c := by
    rw [hg.inv.nodes.data_nodes, hg'.inv.nodes.data_nodes, List.map_inj_left]
    simp only [Lat.mem_nodes]
    constructor
    · intro h c
      by_cases hc : L.Node c
      · exact h c hc
      · rw [hg.total.node_none hc, hg'.total.node_none hc]
    · exact fun h c _ => h c
  have h3 : g.nodes.clone = .ok g.nodes := by
    simp only [Arr2.clone, cloneData_eq, bind, Except.bind]
    rw [if_neg (full hg)]
  refine ⟨⟨_, h1, by rw [decide_eq_true_iff, h2]⟩, fun c hne => ?_, h3, fun h0 => ?_⟩
  · simp only [Graph.eq, h1, bind, Except.bind]
    rw [if_neg]
    rw [decide_eq_true_iff, h2]
    exact fun h => hne (h c)
  · have hv : ∀ c a, a ∈ L.axes → L.Node c → L.HasEdge c a := fun c a _ hc => by
      obtain ⟨x, y, hx, hy, _⟩ := hc
      have := Nat.mul_pos (Nat.lt_of_le_of_lt (Nat.zero_le _) hx) (Nat.lt_of_le_of_lt (Nat.zero_le _) hy)
      omega
    have h4 : g.nodes.eq blk g.nodes = .ok true := by
      simp only [Arr2.eq, eqData_refl, and_self, if_true]
      rw [if_neg (full hg)]
    constructor
    · simp only [Graph.clone, h3, bind, Except.bind, (cloneArrs_eq hg.total g.edges L.axes hg.inv.edges).2 hv]
    · simp only [Graph.eq, h4, bind, Except.bind, if_true, (eqArrs_refl blk hg.total g.edges L.axes hg.inv.edges).2 hv]

/-- Example: the 3 × 2 square graph cannot be cloned or compared with itself; after a write to node (1,1) it compares
different from the original without touching edges. -/
example : ∃ g : Graph Offset SquareAxis DSquareAxis Nat Nat, g.clone = .error .ub ∧ g.eq 8 g true = .error .ub ∧
    ∃ g', g.modifyNode ⟨1, 1⟩ (· + 1) = .ok (some g') ∧ g.eq 8 g' true = .ok false := by
  obtain ⟨g, hb⟩ := exSquare
  have hs := Stored.sound (Sound.square m64 3 2)
  have hg := hs.good hb
  have hn : (squareLat 3 2).Node ⟨1, 1⟩ := ⟨1, 1, by decide, by decide, rfl⟩
  rcases modifyNode_eq hs.base hg.impl hg.inv hg.total (.inl hn) (· + 1) with ⟨g', h, _⟩ | ⟨_, h⟩
  · refine ⟨g, c23_clone_ub hs hb (by decide) (by decide), c23_eq_ub hs hb (by decide) (by decide) 8 true, g', h, ?_⟩
    exact (c23_nodes_partial hs.storable hb (.node hb hn rfl h) 8 true).2.1 ⟨1, 1⟩ (by decide)
  · exact absurd hn h

/-! Instances of the remaining theorems. -/

example : ∃ g : Graph Offset SquareAxis DSquareAxis Nat Nat, Built (squareShape m64 3 2) (squareLat 3 2) g exK ∧
    NeverFaults (neighborsNext g.s ⟨2, 1⟩) 0 ∧ NeverFaults (edgeRefsNext g) edgeRefsInit ∧ g.hash = .error .ub ∧
    ∃ it, g.edgesOf ⟨2, 1⟩ = .ok it ∧ NeverFaults (edgesNext g) it := by
  obtain ⟨g, hb⟩ := exSquare
  have hn : (squareLat 3 2).Node ⟨2, 1⟩ := ⟨2, 1, by decide, by decide, rfl⟩
  have h := c19_iterators (.sound (.square m64 3 2)) hb
  exact ⟨g, hb, h.2.2.1 _ hn, h.2.2.2, c23_hash_ub (.sound (.square m64 3 2)) hb (by decide) (by decide), c19_edges (.square m64 3 2) hb hn⟩

/-- The array of east edges of the 2 × 2 looped map. -/
example : ∃ arr : Arr2 Nat, arr.data = [some 1, some 2, some 3, some 4] ∧ dropEdgeArr (hexOffRLew m64 oddR 2 2) .E 0 arr.data = .ok [2, 2, 2, 2] := by
  let f : Offset → Option Nat := fun c => some (2 * c.horizontal + c.vertical + 1)
  have ha : ArrInv (offLatRLoop false 2 2) ⟨2, 2, [some 1, some 2, some 3, some 4]⟩ f :=
    ⟨rfl, rfl, rfl, fun {x y} hx hy => by
      have : (x = 0 ∨ x = 1) ∧ (y = 0 ∨ y = 1) := by
        have h1 : x < 2 := hx
        have h2 : y < 2 := hy
        omega
      rcases this with ⟨rfl | rfl, rfl | rfl⟩ <;> rfl⟩
  refine ⟨_, rfl, c22_double_drop (.sound (.hexOffRLew m64 oddR 2 2)) (by decide) ha fun c hc => ⟨rfl, ?_⟩⟩
  obtain ⟨x, y, hx, hy, rfl⟩ := hc
  have h1 : x < 2 := hx
  have h2 : y < 2 := hy
  have : (x = 0 ∨ x = 1) ∧ (y = 0 ∨ y = 1) := by omega
  rcases this with ⟨rfl | rfl, rfl | rfl⟩ <;> rfl

end
end LG
