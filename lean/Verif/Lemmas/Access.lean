import Verif.Lemmas.Store
import Verif.Built
/- Weight access and mutation on graphs satisfying the storage invariant. -/
set_option linter.unusedVariables false
set_option linter.unusedSectionVars false
namespace LG
section
variable {C A D N E σ α : Type} [DecidableEq C] [DecidableEq A] [DecidableEq D]

/-- The contents have a weight for every node and edge of `L` and nothing else. -/
structure Total (L : Lat C A D) (k : Contents C A N E) : Prop where
  node : ∀ c, (k.node c).isSome ↔ L.Node c
  edge : ∀ c a, (k.edge c a).isSome ↔ L.HasEdge c a

theorem runCalls_node_isSome (n : σ → C → N × σ) (e : σ → C → A → E × σ) (c : C) :
    ∀ (l : List (Call C A)) (st : σ) (k : Contents C A N E),
    ((runCalls n e l st k).1.node c).isSome ↔ (k.node c).isSome ∨ Call.node c ∈ l
  | [], st, k => by simp [runCalls]
  | .node c' :: l, st, k => by
    rw [runCalls, runCalls_node_isSome n e c l]
    by_cases h : c = c' <;> simp [h]
  | .edge c' a' :: l, st, k => by
    rw [runCalls, runCalls_node_isSome n e c l]
    simp

theorem runCalls_edge_isSome (n : σ → C → N × σ) (e : σ → C → A → E × σ) (c : C) (a : A) :
    ∀ (l : List (Call C A)) (st : σ) (k : Contents C A N E),
    ((runCalls n e l st k).1.edge c a).isSome ↔ (k.edge c a).isSome ∨ Call.edge c a ∈ l
  | [], st, k => by simp [runCalls]
  | .node c' :: l, st, k => by
    rw [runCalls, runCalls_edge_isSome n e c a l]
    simp
  | .edge c' a' :: l, st, k => by
    rw [runCalls, runCalls_edge_isSome n e c a l]
    by_cases h : c = c' ∧ a = a' <;> simp [h]

theorem mem_callSeq_node {L : Lat C A D} {c : C} : Call.node c ∈ callSeq L ↔ L.Node c := by
  unfold callSeq
  simp [Lat.mem_nodes]

theorem mem_callSeq_edge {L : Lat C A D} (hd : DirLaws L) {c : C} {a : A} : Call.edge c a ∈ callSeq L ↔ L.HasEdge c a := by
  unfold callSeq Lat.HasEdge
  simp [Lat.mem_nodes, hd.axes_mem]

theorem runCalls_total {L : Lat C A D} (hd : DirLaws L) (n : σ → C → N × σ) (e : σ → C → A → E × σ) (st : σ) :
    Total L (runCalls n e (callSeq L) st emptyContents).1 where
  node := by intro c; rw [runCalls_node_isSome, mem_callSeq_node]; simp [emptyContents]
  edge := by intro c a; rw [runCalls_edge_isSome, mem_callSeq_edge hd]; simp [emptyContents]

section
variable {g : Graph C A D N E} {s : Shape C A D} {L : Lat C A D} {rep : C → Prop} {k : Contents C A N E}

/-- A coordinate `to_offset` decides without overflow. -/
theorem ImplBase.toOffset_cases (hi : ImplBase s L rep) {c : C} (hc : L.Node c ∨ rep c) :
    (∃ x y, x < L.width ∧ y < L.height ∧ c = L.coord x y ∧ s.toOffset c = .ok (some ⟨x, y⟩)) ∨
    (¬ L.Node c ∧ s.toOffset c = .ok none) := by
  by_cases hn : L.Node c
  · obtain ⟨x, y, hx, hy, rfl⟩ := hn
    exact .inl ⟨x, y, hx, hy, rfl, hi.toOffset_coord hx hy⟩
  · exact .inr ⟨hn, hi.toOffset_none (hc.resolve_left hn) hn⟩

theorem AxisImpl.getEdgeArr {ax : Axis A D} (ha : AxisImpl ax L) (hinv : Inv g L k) (a : A) (hs : g.s.axis = ax) :
    ∃ arr, g.edgeArr (g.s.axis.toIndex a) = .ok arr ∧ ArrInv L arr (fun c => k.edge c a) := by
  subst hs
  obtain ⟨arr, h1, h2⟩ := hinv.edges.get (ha.toIndex a)
  exact ⟨arr, by simp [Graph.edgeArr, h1], h2⟩

theorem Total.node_none (ht : Total L k) {c : C} (h : ¬ L.Node c) : k.node c = none := by
  rw [← ht.node c] at h
  simpa using h

theorem Total.edge_none (ht : Total L k) {c : C} {a : A} (h : ¬ L.HasEdge c a) : k.edge c a = none := by
  rw [← ht.edge c a] at h
  simpa using h

theorem Total.node_some (ht : Total L k) {c : C} (h : L.Node c) : ∃ w, k.node c = some w :=
  Option.isSome_iff_exists.1 ((ht.node c).2 h)

theorem Total.edge_some (ht : Total L k) {c : C} {a : A} (h : L.HasEdge c a) : ∃ w, k.edge c a = some w :=
  Option.isSome_iff_exists.1 ((ht.edge c a).2 h)

theorem nodeWeight_eq (hi : ImplBase g.s L rep) (hinv : Inv g L k) (ht : Total L k) {c : C} (hc : L.Node c ∨ rep c) :
    g.nodeWeight c = .ok (k.node c) := by
  unfold Graph.nodeWeight
  rcases hi.toOffset_cases hc with ⟨x, y, hx, hy, rfl, h⟩ | ⟨hn, h⟩
  · obtain ⟨w, hw⟩ := ht.node_some ⟨x, y, hx, hy, rfl⟩
    simp only [h, bind, Except.bind, hinv.nodes.uget _ hx hy hw, hw]
  · simp only [h, bind, Except.bind, ht.node_none hn]

theorem edgeWeight_eq (hi : ImplBase g.s L rep) (hinv : Inv g L k) (ht : Total L k) {c : C} {a : A} (hc : L.Node c ∨ rep c) :
    g.edgeWeight c a = .ok (k.edge c a) := by
  unfold Graph.edgeWeight
  rcases hi.toOffset_cases hc with ⟨x, y, hx, hy, rfl, h⟩ | ⟨hn, h⟩
  · have hnode : L.Node (L.coord x y) := ⟨x, y, hx, hy, rfl⟩
    simp only [h, bind, Except.bind, hi.axis.foward, hi.move hnode]
    cases hb : L.nbr (L.coord x y) (L.fwd a) with
    | none => simp only; rw [ht.edge_none]; rintro ⟨_, h2⟩; simp [hb] at h2
    | some t =>
      obtain ⟨w, hw⟩ := ht.edge_some (c := L.coord x y) (a := a) ⟨hnode, by simp [hb]⟩
      obtain ⟨arr, h1, h2⟩ := hi.axis.getEdgeArr hinv a rfl
      simp only [h1, h2.uget _ hx hy hw, hw]
  · simp only [h, bind, Except.bind]
    rw [ht.edge_none (fun he => hn he.1)]

theorem nodeWeightUnchecked_eq (hi : ImplBase g.s L rep) (hinv : Inv g L k) (ht : Total L k) {c : C} (hc : L.Node c) :
    ∃ w, k.node c = some w ∧ g.nodeWeightUnchecked c = .ok w := by
  obtain ⟨w, hw⟩ := ht.node_some hc
  obtain ⟨x, y, hx, hy, rfl⟩ := hc
  refine ⟨w, hw, ?_⟩
  simp only [Graph.nodeWeightUnchecked, hi.toOffsetUnchecked hx hy, bind, Except.bind, Graph.nodeWeightUncheckedRaw,
    hinv.nodes.getUnwrapUnchecked hx hy hw]

theorem edgeWeightUncheckedRaw_eq (hi : ImplBase g.s L rep) (hinv : Inv g L k) {x y : Nat} (hx : x < L.width)
    (hy : y < L.height) {a : A} {w : E} (hw : k.edge (L.coord x y) a = some w) :
    g.edgeWeightUncheckedRaw ⟨x, y⟩ (g.s.axis.toIndex a) = .ok w := by
  obtain ⟨arr, h1, h2⟩ := hi.axis.getEdgeArr hinv a rfl
  simp only [Graph.edgeWeightUncheckedRaw, bind, Except.bind, h1]
  exact h2.getUnwrapUnchecked hx hy hw

theorem edgeWeightUnchecked_eq (hi : ImplBase g.s L rep) (hinv : Inv g L k) (ht : Total L k) {c : C} {a : A}
    (hc : L.HasEdge c a) : ∃ w, k.edge c a = some w ∧ g.edgeWeightUnchecked c a = .ok w := by
  obtain ⟨w, hw⟩ := ht.edge_some hc
  obtain ⟨⟨x, y, hx, hy, rfl⟩, _⟩ := hc
  refine ⟨w, hw, ?_⟩
  simp only [Graph.edgeWeightUnchecked, hi.toOffsetUnchecked hx hy, bind, Except.bind,
    edgeWeightUncheckedRaw_eq hi hinv hx hy hw]

theorem mapNode_total (ht : Total L k) (c : C) (f : N → N) : Total L (k.mapNode c f) where
  node := by
    intro c'
    simp only [Contents.mapNode]
    split
    · rename_i h; subst h; rw [← ht.node]; simp
    · exact ht.node c'
  edge := ht.edge

theorem mapEdge_total (ht : Total L k) (c : C) (a : A) (f : E → E) : Total L (k.mapEdge c a f) where
  node := ht.node
  edge := by
    intro c' a'
    simp only [Contents.mapEdge]
    split
    · rename_i h; obtain ⟨rfl, rfl⟩ := h; rw [← ht.edge]; simp
    · exact ht.edge c' a'

theorem modifyNode_inv (hl : LatBase L) (hinv : Inv g L k) {x y : Nat} (hx : x < L.width) (hy : y < L.height) {w : N}
    (hw : k.node (L.coord x y) = some w) (f : N → N) :
    Inv { g with nodes := g.nodes.writeIfPresent x y (f w) } L (k.mapNode (L.coord x y) f) where
  nodes := by
    refine (hinv.nodes.writeIfPresent hl hx hy (f w)).congr fun c _ => ?_
    simp only [Contents.mapNode, hw, Option.map_some]
  edges := hinv.edges

theorem modifyEdge_inv (hl : LatBase L) (hi : ImplBase g.s L rep) (hinv : Inv g L k) {x y : Nat} (hx : x < L.width)
    (hy : y < L.height) {a : A} {w : E} (hw : k.edge (L.coord x y) a = some w) (f : E → E) {arr : Arr2 E}
    (ha : ArrInv L arr (fun c => k.edge c a)) :
    Inv { g with edges := g.edges.set (g.s.axis.toIndex a) (arr.writeIfPresent x y (f w)) } L
      (k.mapEdge (L.coord x y) a f) where
  nodes := hinv.nodes
  edges := by
    refine hinv.edges.set hl.dir.axes_nodup (hi.axis.toIndex a) ?_ ?_
    · refine (ha.writeIfPresent hl hx hy (f w)).congr fun c _ => ?_
      simp only [Contents.mapEdge, hw, Option.map_some, and_true]
    · intro c b hb
      simp only [Contents.mapEdge, hb, and_false, if_false]

theorem modifyNode_eq (hl : LatBase L) (hi : ImplBase g.s L rep) (hinv : Inv g L k) (ht : Total L k) {c : C}
    (hc : L.Node c ∨ rep c) (f : N → N) :
    (∃ g', g.modifyNode c f = .ok (some g') ∧ g'.s = g.s ∧ Inv g' L (k.mapNode c f) ∧ L.Node c) ∨
    (g.modifyNode c f = .ok none ∧ ¬ L.Node c) := by
  unfold Graph.modifyNode
  rcases hi.toOffset_cases hc with ⟨x, y, hx, hy, rfl, h⟩ | ⟨hn, h⟩
  · have hnode : L.Node (L.coord x y) := ⟨x, y, hx, hy, rfl⟩
    obtain ⟨w, hw⟩ := ht.node_some hnode
    refine .inl ⟨_, ?_, ?_, modifyNode_inv hl hinv hx hy hw f, hnode⟩
    · simp only [h, bind, Except.bind, hinv.nodes.uget _ hx hy hw]
    · rfl
  · refine .inr ⟨?_, hn⟩
    simp only [h, bind, Except.bind]

theorem modifyEdge_eq (hl : LatBase L) (hi : ImplBase g.s L rep) (hinv : Inv g L k) (ht : Total L k) {c : C} {a : A}
    (hc : L.Node c ∨ rep c) (f : E → E) :
    (∃ g', g.modifyEdge c a f = .ok (some g') ∧ g'.s = g.s ∧ Inv g' L (k.mapEdge c a f) ∧ L.HasEdge c a) ∨
    (g.modifyEdge c a f = .ok none ∧ ¬ L.HasEdge c a) := by
  unfold Graph.modifyEdge
  rcases hi.toOffset_cases hc with ⟨x, y, hx, hy, rfl, h⟩ | ⟨hn, h⟩
  · have hnode : L.Node (L.coord x y) := ⟨x, y, hx, hy, rfl⟩
    simp only [h, bind, Except.bind, hi.axis.foward, hi.move hnode]
    cases hb : L.nbr (L.coord x y) (L.fwd a) with
    | none => exact .inr ⟨rfl, fun he => absurd he.2 (by simp [hb])⟩
    | some t =>
      have he : L.HasEdge (L.coord x y) a := ⟨hnode, by simp [hb]⟩
      obtain ⟨w, hw⟩ := ht.edge_some he
      obtain ⟨arr, h1, h2⟩ := hi.axis.getEdgeArr hinv a rfl
      refine .inl ⟨_, ?_, ?_, modifyEdge_inv hl hi hinv hx hy hw f h2, he⟩
      · simp only [h1, h2.uget _ hx hy hw]
      · rfl
  · refine .inr ⟨?_, fun he => hn he.1⟩
    simp only [h, bind, Except.bind]

theorem modifyNodeUnchecked_eq (hl : LatBase L) (hi : ImplBase g.s L rep) (hinv : Inv g L k) (ht : Total L k) {c : C}
    (hc : L.Node c) (f : N → N) :
    ∃ g', g.modifyNodeUnchecked c f = .ok g' ∧ g'.s = g.s ∧ Inv g' L (k.mapNode c f) := by
  obtain ⟨w, hw⟩ := ht.node_some hc
  obtain ⟨x, y, hx, hy, rfl⟩ := hc
  refine ⟨_, ?_, ?_, modifyNode_inv hl hinv hx hy hw f⟩
  · simp only [Graph.modifyNodeUnchecked, hi.toOffsetUnchecked hx hy, bind, Except.bind,
      hinv.nodes.getUnwrapUnchecked hx hy hw]
  · rfl

theorem modifyEdgeUnchecked_eq (hl : LatBase L) (hi : ImplBase g.s L rep) (hinv : Inv g L k) (ht : Total L k) {c : C} {a : A}
    (hc : L.HasEdge c a) (f : E → E) :
    ∃ g', g.modifyEdgeUnchecked c a f = .ok g' ∧ g'.s = g.s ∧ Inv g' L (k.mapEdge c a f) := by
  obtain ⟨w, hw⟩ := ht.edge_some hc
  obtain ⟨⟨x, y, hx, hy, rfl⟩, _⟩ := hc
  obtain ⟨arr, h1, h2⟩ := hi.axis.getEdgeArr hinv a rfl
  refine ⟨_, ?_, ?_, modifyEdge_inv hl hi hinv hx hy hw f h2⟩
  · simp only [Graph.modifyEdgeUnchecked, hi.toOffsetUnchecked hx hy, bind, Except.bind, h1,
      h2.getUnwrapUnchecked hx hy hw]
  · rfl

/-- What every graph built on a shape that implements a lattice satisfies. -/
structure GoodBase (s : Shape C A D) (L : Lat C A D) (rep : C → Prop) (g : Graph C A D N E) (k : Contents C A N E) :
    Prop where
  shape : g.s = s
  constructible : Constructible s
  impl : ImplBase g.s L rep
  inv : Inv g L k
  total : Total L k

/-- What every graph a program can obtain on a sound shape satisfies. -/
structure Good (s : Shape C A D) (L : Lat C A D) (rep : C → Prop) (g : Graph C A D N E) (k : Contents C A N E) : Prop
    extends GoodBase s L rep g k where
  full : Impl g.s L rep
  laws : LatLaws L

/-- `to_offset` returning a position means the coordinate is a node. -/
theorem Impl.node_of_toOffset (hi : Impl s L rep) {c : C} {o : Offset} (h : s.toOffset c = .ok (some o)) : L.Node c := by
  obtain ⟨h1, h2, h3⟩ := hi.toOffset_some h
  exact ⟨_, _, h1, h2, h3⟩

theorem modifyNode_some_node (hi : Impl g.s L rep) {c : C} {f : N → N} {g' : Graph C A D N E}
    (h : g.modifyNode c f = .ok (some g')) : L.Node c := by
  unfold Graph.modifyNode at h
  cases ho : g.s.toOffset c with
  | error e => simp [ho, bind, Except.bind] at h
  | ok o =>
    cases o with
    | none => simp [ho, bind, Except.bind] at h
    | some o => exact hi.node_of_toOffset ho

theorem modifyEdge_some_node (hi : Impl g.s L rep) {c : C} {a : A} {f : E → E} {g' : Graph C A D N E}
    (h : g.modifyEdge c a f = .ok (some g')) : L.Node c := by
  unfold Graph.modifyEdge at h
  cases ho : g.s.toOffset c with
  | error e => simp [ho, bind, Except.bind] at h
  | ok o =>
    cases o with
    | none => simp [ho, bind, Except.bind] at h
    | some o => exact hi.node_of_toOffset ho

theorem modifyNode_congr {c c' : C} (h : g.s.toOffset c' = g.s.toOffset c) (f : N → N) : g.modifyNode c' f = g.modifyNode c f := by
  unfold Graph.modifyNode; rw [h]

theorem modifyEdge_congr (hi : ImplBase g.s L rep) (hinv : Inv g L k) (ht : Total L k) {c c' : C} {a : A} (hn : L.Node c)
    (hs : g.s.toOffset c' = g.s.toOffset c) {f : E → E} {g' : Graph C A D N E} (h : g.modifyEdge c' a f = .ok (some g')) :
    g.modifyEdge c a f = .ok (some g') := by
  obtain ⟨x, y, hx, hy, rfl⟩ := hn
  have hnode : L.Node (L.coord x y) := ⟨x, y, hx, hy, rfl⟩
  obtain ⟨arr, h1, h2⟩ := hi.axis.getEdgeArr hinv a rfl
  unfold Graph.modifyEdge at h ⊢
  simp only [hs, hi.toOffset_coord hx hy, bind, Except.bind, hi.axis.foward, hi.move hnode, h1] at h ⊢
  cases hm : g.s.moveCoord c' (L.fwd a) with
  | error e => simp [hm] at h
  | ok t =>
    cases t with
    | none => simp [hm] at h
    | some t =>
      simp only [hm] at h
      cases hw : k.edge (L.coord x y) a with
      | none => rw [h2.uget_none _ hx hy hw] at h; cases h
      | some w =>
        have he := (ht.edge (L.coord x y) a).1 (by simp [hw])
        obtain ⟨t', ht'⟩ := Option.isSome_iff_exists.1 he.2
        simp only [ht']; exact h

theorem Built.goodBase (hi : Constructible s → ImplBase s L rep) (hl : LatBase L) (hb : Built s L g k) :
    GoodBase s L rep g k := by
  induction hb with
  | @new σ n e st st' g h =>
    by_cases hc : Constructible s
    · obtain ⟨g', h1, h2, h3⟩ := newWith_base (hi hc) hl hc n e st
      rw [h1] at h
      simp only [Except.ok.injEq, Prod.mk.injEq] at h
      obtain ⟨rfl, _⟩ := h
      exact ⟨h2, hc, by rw [h2]; exact hi hc, h3, runCalls_total hl.dir n e st⟩
    · rw [newWith_panic hc] at h; cases h
  | @node g g' k c c' f hb hn same h ih =>
    rw [modifyNode_congr (c := c) (by rw [ih.shape, same])] at h
    rcases modifyNode_eq hl ih.impl ih.inv ih.total (.inl hn) f with ⟨g'', h1, h2, h3, _⟩ | ⟨h1, _⟩
    · rw [h1] at h
      cases h
      exact ⟨h2.trans ih.shape, ih.constructible, by rw [h2]; exact ih.impl, h3, mapNode_total ih.total c f⟩
    · rw [h1] at h; cases h
  | @edge g g' k c c' a f hb hn same h ih =>
    replace h := modifyEdge_congr ih.impl ih.inv ih.total hn (by rw [ih.shape, same]) h
    rcases modifyEdge_eq hl ih.impl ih.inv ih.total (a := a) (.inl hn) f with ⟨g'', h1, h2, h3, _⟩ | ⟨h1, _⟩
    · rw [h1] at h
      cases h
      exact ⟨h2.trans ih.shape, ih.constructible, by rw [h2]; exact ih.impl, h3, mapEdge_total ih.total c a f⟩
    · rw [h1] at h; cases h
  | @nodeUnchecked g g' k c f hb hc h ih =>
    obtain ⟨g'', h1, h2, h3⟩ := modifyNodeUnchecked_eq hl ih.impl ih.inv ih.total hc f
    rw [h1] at h
    cases h
    exact ⟨h2.trans ih.shape, ih.constructible, by rw [h2]; exact ih.impl, h3, mapNode_total ih.total c f⟩
  | @edgeUnchecked g g' k c a f hb hc h ih =>
    obtain ⟨g'', h1, h2, h3⟩ := modifyEdgeUnchecked_eq hl ih.impl ih.inv ih.total hc f
    rw [h1] at h
    cases h
    exact ⟨h2.trans ih.shape, ih.constructible, by rw [h2]; exact ih.impl, h3, mapEdge_total ih.total c a f⟩

theorem Built.good (hs : Lawful s L rep) (hb : Built s L g k) : Good s L rep g k := by
  have h := hb.goodBase (rep := rep) (fun hc => (hs.impl hc).toImplBase) hs.laws.toLatBase
  exact ⟨h, by rw [h.shape]; exact hs.impl h.constructible, hs.laws⟩

/-- On the lawful shapes every successful write leads to a `Built` graph, for any coordinate. -/
theorem Lawful.built_node (hs : Lawful s L rep) (hb : Built s L g k) {c : C} {f : N → N} {g' : Graph C A D N E}
    (h : g.modifyNode c f = .ok (some g')) : Built s L g' (k.mapNode c f) :=
  .node hb (modifyNode_some_node (hb.good hs).full h) rfl h

theorem Lawful.built_edge (hs : Lawful s L rep) (hb : Built s L g k) {c : C} {a : A} {f : E → E} {g' : Graph C A D N E}
    (h : g.modifyEdge c a f = .ok (some g')) : Built s L g' (k.mapEdge c a f) :=
  .edge hb (modifyEdge_some_node (hb.good hs).full h) rfl h

end
end
end LG
