import Verif.Model.Raw
import Verif.Props.ZeroSized
import Verif.Props.Build
import Verif.Props.Stored
import Verif.Props.Edges
import Verif.Props.Nodes
/- C94: `LatticeGraph::new_raw`. -/
set_option linter.unusedSectionVars false
namespace LG
section
variable {C A D N E σ α : Type}

/-! ### More slots initialised -/

/-- The second array has the sides of the first, and holds what the first holds, wherever that holds something. -/
structure Arr2.Le (a b : Arr2 α) : Prop where
  rows : b.rows = a.rows
  cols : b.cols = a.cols
  len : b.data.length = a.data.length
  data : ∀ (i : Nat) (x : α), a.data[i]? = some (some x) → b.data[i]? = some (some x)

/-- The second graph has the shape of the first, and holds the weights the first holds; it may hold weights in further slots. -/
structure Graph.Le (g g' : Graph C A D N E) : Prop where
  shape : g'.s = g.s
  nodes : g.nodes.Le g'.nodes
  count : g'.edges.length = g.edges.length
  edges : ∀ (i : Nat) (a b : Arr2 E), g.edges[i]? = some a → g'.edges[i]? = some b → a.Le b

theorem Arr2.Le.slot {a b : Arr2 α} (h : a.Le b) (i j : Nat) : b.slot i j = a.slot i j := by
  unfold Arr2.slot
  rw [h.rows, h.cols]

theorem Arr2.Le.read {a b : Arr2 α} (h : a.Le b) (k : Nat) : Refines (a.read k) (b.read k) := by
  unfold Refines Arr2.read
  cases hk : a.data[k]? with
  | none => exact .inl rfl
  | some o =>
    cases o with
    | none => exact .inl rfl
    | some x => rw [h.data k x hk]; exact .inr rfl

theorem Arr2.Le.uget {a b : Arr2 α} (h : a.Le b) (m : Machine) (i j : Nat) : Refines (a.uget m i j) (b.uget m i j) := by
  unfold Arr2.uget
  rw [h.slot]
  split
  · exact h.read _
  · exact .refl _

theorem Arr2.Le.getUnwrap {a b : Arr2 α} (h : a.Le b) (i j : Nat) : Refines (a.getUnwrapUnchecked i j) (b.getUnwrapUnchecked i j) := by
  unfold Arr2.getUnwrapUnchecked
  rw [h.slot]
  split
  · exact h.read _
  · exact .refl _

theorem Arr2.Le.write {a b : Arr2 α} (h : a.Le b) (i j : Nat) (x : α) : (a.writeIfPresent i j x).Le (b.writeIfPresent i j x) := by
  unfold Arr2.writeIfPresent
  rw [h.slot]
  cases a.slot i j with
  | none => exact h
  | some k =>
    refine ⟨h.rows, h.cols, ?_, ?_⟩
    · simp only [Arr2.writeSlot, List.length_set]; exact h.len
    · intro n y hy
      simp only [Arr2.writeSlot, List.getElem?_set] at hy ⊢
      have hl := h.len
      split at hy
      · rename_i e
        rw [if_pos e]
        split at hy
        · rw [if_pos (by omega)]; exact hy
        · cases hy
      · rename_i e
        rw [if_neg e]
        exact h.data n y hy

/-- The array of an axis: both calls fault, or the second array holds at least what the first holds. -/
theorem Graph.Le.edgeArr {g g' : Graph C A D N E} (h : g.Le g') (ax : Nat) :
    (g.edgeArr ax = .error .ub ∧ g'.edgeArr ax = .error .ub) ∨
    ∃ a b, g.edgeArr ax = .ok a ∧ g'.edgeArr ax = .ok b ∧ a.Le b := by
  unfold Graph.edgeArr
  have hc := h.count
  cases h1 : g.edges[ax]? with
  | none =>
    have : g'.edges[ax]? = none := by
      rw [List.getElem?_eq_none_iff] at h1 ⊢
      omega
    rw [this]
    exact .inl ⟨rfl, rfl⟩
  | some a =>
    have : ax < g'.edges.length := by
      have := (List.getElem?_eq_some_iff.1 h1).1
      omega
    rw [List.getElem?_eq_getElem this]
    exact .inr ⟨a, _, rfl, rfl, h.edges ax a _ h1 (List.getElem?_eq_getElem this)⟩

theorem Refines.arr {β : Type} {g g' : Graph C A D N E} (h : g.Le g') (ax : Nat) {f f' : Arr2 E → Res β}
    (hf : ∀ a b, a.Le b → Refines (f a) (f' b)) : Refines (g.edgeArr ax >>= f) (g'.edgeArr ax >>= f') := by
  rcases h.edgeArr ax with ⟨h1, h2⟩ | ⟨a, b, h1, h2, hab⟩
  · rw [h1]; exact .inl rfl
  · rw [h1, h2]; exact hf a b hab

theorem Graph.Le.raw {g g' : Graph C A D N E} (h : g.Le g') (o : Offset) (ax : Nat) :
    Refines (g.edgeWeightUncheckedRaw o ax) (g'.edgeWeightUncheckedRaw o ax) :=
  Refines.arr h ax fun _ _ hab => hab.getUnwrap _ _

theorem Graph.Le.make {g g' : Graph C A D N E} (h : g.Le g') (it : EdgesIt C) (d : D) (t : C) :
    Refines (edgesMake g it d t) (edgesMake g' it d t) := by
  unfold edgesMake
  rw [h.shape]
  refine Refines.bind (.refl _) fun r _ => ?_
  obtain ⟨nx, ne⟩ := r
  have h := Refines.bind (f := fun e => (match if it.dt.needReverse = true then (t, it.node) else (it.node, t) with
          | (src, tgt) => Except.ok (ε := Fault) { source := src, target := tgt, weight := e, direction := d : EdgeRef C D E })) (h.raw nx ne) fun w _ => .refl _
  cases g.s.m.mode with
  | release => exact h
  | debug => exact Refines.bind (.refl _) fun a _ => Refines.bind (.refl _) fun _ _ => h

theorem Graph.Le.next {g g' : Graph C A D N E} (h : g.Le g') : ∀ (n : Nat) (it : EdgesIt C), edgesBound g.s it.dt - it.state = n →
    Refines (edgesNext g it) (edgesNext g' it) := by
  intro n
  induction n with
  | zero =>
    intro it hn
    unfold edgesNext
    rw [h.shape, dif_neg (by omega), dif_neg (show ¬ it.state < edgesBound g.s it.dt by omega)]
    exact .refl _
  | succ n ih =>
    intro it hn
    unfold edgesNext
    rw [h.shape, dif_pos (by omega), dif_pos (show it.state < edgesBound g.s it.dt by omega)]
    refine Refines.bind (.refl _) fun d _ => ?_
    refine Refines.bind (.refl _) fun t _ => ?_
    cases t with
    | none => exact ih _ (show edgesBound g.s it.dt - (it.state + 1) = n by omega)
    | some t => exact Refines.bind (h.make it d t) fun w _ => .refl _

theorem Graph.Le.loop {g g' : Graph C A D N E} (h : g.Le g') (nc : Nat) : ∀ (n : Nat) (it : EdgeRefsIt C), nc - it.index = n →
    Refines (edgeRefsLoop g nc it) (edgeRefsLoop g' nc it) := by
  have hpoll : ∀ e, Refines (edgeRefsPoll g e) (edgeRefsPoll g' e) := by
    intro e
    cases e with
    | none => exact .refl _
    | some e => exact Refines.bind (h.next _ e rfl) fun _ _ => .refl _
  have hnew : ∀ c, edgesNewUnchecked g' c = edgesNewUnchecked g c := by
    intro c
    unfold edgesNewUnchecked
    rw [h.shape]
  intro n
  induction n with
  | zero =>
    intro it hn
    unfold edgeRefsLoop
    rw [h.shape]
    refine Refines.bind (hpoll _) fun r _ => ?_
    obtain ⟨o, e'⟩ := r
    cases o with
    | some _ => exact .refl _
    | none =>
      simp only
      rw [dif_neg (by omega), dif_neg (by omega)]
      exact .refl _
  | succ n ih =>
    intro it hn
    unfold edgeRefsLoop
    rw [h.shape]
    refine Refines.bind (hpoll _) fun r _ => ?_
    obtain ⟨o, e'⟩ := r
    cases o with
    | some _ => exact .refl _
    | none =>
      simp only [hnew]
      rw [dif_pos (by omega), dif_pos (by omega)]
      refine Refines.bind (.refl _) fun x _ => ?_
      exact Refines.bind (.refl _) fun ed _ => ih _ (show nc - (it.index + 1) = n by omega)

/-- **C94**, reads: a graph that holds weights in further slots answers every call as the other does, unless that is undefined
behaviour there. -/
theorem c94_reads {g g' : Graph C A D N E} (h : g.Le g') :
    (∀ c, Refines (g.nodeWeight c) (g'.nodeWeight c)) ∧ (∀ c a, Refines (g.edgeWeight c a) (g'.edgeWeight c a)) ∧
    (∀ c, Refines (g.nodeWeightUnchecked c) (g'.nodeWeightUnchecked c)) ∧
    (∀ c a, Refines (g.edgeWeightUnchecked c a) (g'.edgeWeightUnchecked c a)) ∧
    (∀ i, Refines (nodeRefsNext g i) (nodeRefsNext g' i)) ∧ (∀ c, g'.edgesOf c = g.edgesOf c) ∧
    (∀ c d, g'.edgesDirected c d = g.edgesDirected c d) ∧
    (∀ it, Refines (edgesNext g it) (edgesNext g' it)) ∧ (∀ it, Refines (edgeRefsNext g it) (edgeRefsNext g' it)) ∧
    g'.shape = g.shape := by
  have hu : ∀ c, Refines (g.nodeWeightUnchecked c) (g'.nodeWeightUnchecked c) := by
    intro c
    unfold Graph.nodeWeightUnchecked
    rw [h.shape]
    exact Refines.bind (.refl _) fun o _ => h.nodes.getUnwrap _ _
  have hnew : ∀ c d, edgesNewD g' c d = edgesNewD g c d := by
    intro c d
    unfold edgesNewD
    rw [h.shape]
  refine ⟨fun c => ?_, fun c a => ?_, hu, fun c a => ?_, fun i => ?_, fun c => hnew c _, fun c d => hnew c _,
    fun it => h.next _ it rfl, fun it => ?_, h.shape⟩
  · unfold Graph.nodeWeight
    rw [h.shape]
    refine Refines.bind (.refl _) fun o _ => ?_
    cases o with
    | none => exact .refl _
    | some o => exact Refines.bind (h.nodes.uget g.s.m _ _) fun _ _ => .refl _
  · unfold Graph.edgeWeight
    rw [h.shape]
    refine Refines.bind (.refl _) fun o _ => ?_
    cases o with
    | none => exact .refl _
    | some o =>
      refine Refines.bind (.refl _) fun d _ => ?_
      refine Refines.bind (.refl _) fun t _ => ?_
      cases t with
      | none => exact .refl _
      | some t => exact Refines.arr h _ fun a b hab => Refines.bind (hab.uget g.s.m _ _) fun _ _ => .refl _
  · unfold Graph.edgeWeightUnchecked
    rw [h.shape]
    exact Refines.bind (.refl _) fun o _ => h.raw _ _
  · unfold nodeRefsNext
    rw [h.shape]
    refine Refines.bind (.refl _) fun nc _ => ?_
    split
    · exact Refines.bind (.refl _) fun x _ => Refines.bind (hu x) fun _ _ => .refl _
    · exact .refl _
  · unfold edgeRefsNext
    rw [h.shape]
    exact Refines.bind (.refl _) fun nc _ => h.loop nc _ it rfl

/-- A draining of an iterator that runs into no undefined behaviour is the same on the other graph. -/
theorem Refines.yields {next next' : σ → Res (Option α × σ)} (h : ∀ s, Refines (next s) (next' s)) {s : σ} {l : List α}
    (hy : Yields next s l) : Yields next' s l := by
  induction hy with
  | done h1 =>
    rcases h _ with h2 | h2
    · rw [h2] at h1; cases h1
    · exact .done (h2.trans h1)
  | step h1 _ ih =>
    rcases h _ with h2 | h2
    · rw [h2] at h1; cases h1
    · exact .step (h2.trans h1) ih

theorem Graph.Le.setNodes {g g' : Graph C A D N E} (h : g.Le g') {a b : Arr2 N} (hab : a.Le b) :
    Graph.Le { g with nodes := a } ⟨b, g'.edges, g.s⟩ := ⟨rfl, hab, h.count, h.edges⟩

theorem Graph.Le.setEdges {g g' : Graph C A D N E} (h : g.Le g') {a b : Arr2 E} (hab : a.Le b) (ax : Nat) :
    Graph.Le { g with edges := g.edges.set ax a } ⟨g'.nodes, g'.edges.set ax b, g.s⟩ := by
  refine ⟨rfl, h.nodes, ?_, ?_⟩
  · simp only [List.length_set]; exact h.count
  · intro i x y hx hy
    simp only [List.getElem?_set] at hx hy
    by_cases e : ax = i
    · rw [if_pos e] at hx hy
      split at hx
      · split at hy
        · cases hx; cases hy; exact hab
        · cases hy
      · cases hx
    · rw [if_neg e] at hx hy
      exact h.edges i x y hx hy

/-- **C94**, writes: a write that returns `None` does so on both graphs, one that writes leads to graphs of the same relation. -/
theorem c94_writes {g g' : Graph C A D N E} (h : g.Le g') :
    (∀ c f, (g.modifyNode c f = .ok none → g'.modifyNode c f = .ok none) ∧
      ∀ h1, g.modifyNode c f = .ok (some h1) → ∃ h2, g'.modifyNode c f = .ok (some h2) ∧ h1.Le h2) ∧
    (∀ c a f, (g.modifyEdge c a f = .ok none → g'.modifyEdge c a f = .ok none) ∧
      ∀ h1, g.modifyEdge c a f = .ok (some h1) → ∃ h2, g'.modifyEdge c a f = .ok (some h2) ∧ h1.Le h2) ∧
    (∀ c f h1, g.modifyNodeUnchecked c f = .ok h1 → ∃ h2, g'.modifyNodeUnchecked c f = .ok h2 ∧ h1.Le h2) ∧
    (∀ c a f h1, g.modifyEdgeUnchecked c a f = .ok h1 → ∃ h2, g'.modifyEdgeUnchecked c a f = .ok h2 ∧ h1.Le h2) := by
  refine ⟨fun c f => ?_, fun c a f => ?_, fun c f h1 => ?_, fun c a f h1 => ?_⟩
  · unfold Graph.modifyNode
    rw [h.shape]
    cases g.s.toOffset c with
    | error e => exact ⟨fun e => (nomatch e), fun _ e => (nomatch e)⟩
    | ok o =>
      cases o with
      | none => exact ⟨fun _ => rfl, fun _ e => (nomatch e)⟩
      | some o =>
        simp only [bind, Except.bind]
        rcases h.nodes.uget g.s.m o.horizontal o.vertical with e | e
        · rw [e]; exact ⟨fun e => (nomatch e), fun _ e => (nomatch e)⟩
        · rw [e]
          cases g.nodes.uget g.s.m o.horizontal o.vertical with
          | error e => exact ⟨fun e => (nomatch e), fun _ e => (nomatch e)⟩
          | ok x =>
            refine ⟨fun e => (nomatch e), fun h1 e => ?_⟩
            cases e
            exact ⟨_, rfl, h.setNodes (h.nodes.write _ _ _)⟩
  · unfold Graph.modifyEdge
    rw [h.shape]
    cases g.s.toOffset c with
    | error e => exact ⟨fun e => (nomatch e), fun _ e => (nomatch e)⟩
    | ok o =>
      cases o with
      | none => exact ⟨fun _ => rfl, fun _ e => (nomatch e)⟩
      | some o =>
        simp only [bind, Except.bind]
        cases g.s.axis.foward a with
        | error e => exact ⟨fun e => (nomatch e), fun _ e => (nomatch e)⟩
        | ok d =>
          simp only
          cases g.s.moveCoord c d with
          | error e => exact ⟨fun e => (nomatch e), fun _ e => (nomatch e)⟩
          | ok t =>
            cases t with
            | none => exact ⟨fun _ => rfl, fun _ e => (nomatch e)⟩
            | some t =>
              simp only
              rcases h.edgeArr (g.s.axis.toIndex a) with ⟨e1, e2⟩ | ⟨x, y, e1, e2, hxy⟩
              · rw [e1]; exact ⟨fun e => (nomatch e), fun _ e => (nomatch e)⟩
              · rw [e1, e2]
                simp only
                rcases hxy.uget g.s.m o.horizontal o.vertical with e | e
                · rw [e]; exact ⟨fun e => (nomatch e), fun _ e => (nomatch e)⟩
                · rw [e]
                  cases x.uget g.s.m o.horizontal o.vertical with
                  | error e => exact ⟨fun e => (nomatch e), fun _ e => (nomatch e)⟩
                  | ok w =>
                    refine ⟨fun e => (nomatch e), fun h1 e => ?_⟩
                    cases e
                    exact ⟨_, rfl, h.setEdges (hxy.write _ _ _) _⟩
  · unfold Graph.modifyNodeUnchecked
    rw [h.shape]
    cases g.s.toOffsetUnchecked c with
    | error e => exact fun e => (nomatch e)
    | ok o =>
      simp only [bind, Except.bind]
      rcases h.nodes.getUnwrap o.horizontal o.vertical with e | e
      · rw [e]; exact fun e => (nomatch e)
      · rw [e]
        cases g.nodes.getUnwrapUnchecked o.horizontal o.vertical with
        | error e => exact fun e => (nomatch e)
        | ok x =>
          intro e
          cases e
          exact ⟨_, rfl, h.setNodes (h.nodes.write _ _ _)⟩
  · unfold Graph.modifyEdgeUnchecked
    rw [h.shape]
    cases g.s.toOffsetUnchecked c with
    | error e => exact fun e => (nomatch e)
    | ok o =>
      simp only [bind, Except.bind]
      rcases h.edgeArr (g.s.axis.toIndex a) with ⟨e1, e2⟩ | ⟨x, y, e1, e2, hxy⟩
      · rw [e1]; exact fun e => (nomatch e)
      · rw [e1, e2]
        simp only
        rcases hxy.getUnwrap o.horizontal o.vertical with e | e
        · rw [e]; exact fun e => (nomatch e)
        · rw [e]
          cases x.getUnwrapUnchecked o.horizontal o.vertical with
          | error e => exact fun e => (nomatch e)
          | ok w =>
            intro e
            cases e
            exact ⟨_, rfl, h.setEdges (hxy.write _ _ _) _⟩

/-! ### The arrays of `new_raw` -/

variable {s : Shape C A D} {L : Lat C A D} {rep : C → Prop} {nodes nodes' : Arr2 N} {edges edges' : List (Arr2 E)}

/-- An array with one slot per cell. -/
structure Arr2.Covers (L : Lat C A D) (a : Arr2 α) : Prop where
  rows : a.rows = L.width
  cols : a.cols = L.height
  len : a.data.length = L.width * L.height

/-- Arrays to make a graph of: one slot per node, and per axis an array with one slot per node. -/
structure RawFits (L : Lat C A D) (nodes : Arr2 N) (edges : List (Arr2 E)) : Prop where
  nodes : nodes.Covers L
  count : edges.length = L.axes.length
  edges : ∀ a ∈ edges, a.Covers L

theorem Arr2.Covers.inv (hl : LatBase L) {a : Arr2 α} (h : a.Covers L) : ∃ f : C → Option α, ArrInv L a f := by
  refine ⟨fun c => Classical.epsilon fun o => ∃ x y, x < L.width ∧ y < L.height ∧ c = L.coord x y ∧ a.data[x * L.height + y]? = some o,
    h.rows, h.cols, h.len, ?_⟩
  intro x y hx hy
  have hlt : x * L.height + y < a.data.length := by rw [h.len]; exact idx_lt hx hy
  obtain ⟨x', y', hx', hy', e1, e2⟩ := Classical.epsilon_spec (p := fun o => ∃ x' y', x' < L.width ∧ y' < L.height ∧
    L.coord x y = L.coord x' y' ∧ a.data[x' * L.height + y']? = some o) ⟨_, x, y, hx, hy, rfl, List.getElem?_eq_getElem hlt⟩
  obtain ⟨rfl, rfl⟩ := hl.coord_inj hx hy hx' hy' e1
  exact e2

theorem rawEdges_inv [DecidableEq A] (hl : LatBase L) : ∀ {edges : List (Arr2 E)} {as : List A}, as.Nodup → edges.length = as.length →
    (∀ a ∈ edges, a.Covers L) → ∃ f : C → A → Option E, EdgesInv L f edges as
  | [], [], _, _, _ => ⟨fun _ _ => none, trivial⟩
  | [], _ :: _, _, h, _ => by simp at h
  | _ :: _, [], _, h, _ => by simp at h
  | arr :: es, a :: as, hnd, hlen, hall => by
    obtain ⟨f, hf⟩ := (hall arr List.mem_cons_self).inv hl
    rw [List.nodup_cons] at hnd
    obtain ⟨f', hf'⟩ := rawEdges_inv hl hnd.2 (by simpa using hlen) fun b hb => hall b (List.mem_cons_of_mem _ hb)
    refine ⟨fun c b => if b = a then f c else f' c b, ?_, ?_⟩
    · simpa using hf
    · refine hf'.congr fun c b _ hb => ?_
      rw [if_neg]
      rintro rfl
      exact hnd.1 hb

variable [DecidableEq C] [DecidableEq A] [DecidableEq D]

theorem RawFits.inv (hl : LatBase L) (h : RawFits L nodes edges) (s : Shape C A D) :
    ∃ k : Contents C A N E, Inv (newRaw nodes edges s) L k := by
  obtain ⟨f, hf⟩ := h.nodes.inv hl
  obtain ⟨f', hf'⟩ := rawEdges_inv hl hl.dir.axes_nodup h.count h.edges
  exact ⟨⟨f, f'⟩, hf, hf'⟩

theorem ArrInv.le {a b : Arr2 α} {f f' : C → Option α} (ha : ArrInv L a f) (hb : ArrInv L b f')
    (h : ∀ c, L.Node c → ∀ w, f c = some w → f' c = some w) : a.Le b := by
  refine ⟨hb.rows.trans ha.rows.symm, hb.cols.trans ha.cols.symm, hb.len.trans ha.len.symm, ?_⟩
  intro i w hw
  have hi : i < L.width * L.height := by
    rw [← ha.len]
    exact (List.getElem?_eq_some_iff.1 hw).1
  have h1 := ha.slot (div_lt_w hi) (mod_lt_h hi)
  have h2 := hb.slot (div_lt_w hi) (mod_lt_h hi)
  rw [idx_eta] at h1 h2
  rw [hw] at h1
  rw [h2, h _ ⟨_, _, div_lt_w hi, mod_lt_h hi, rfl⟩ w (Option.some.inj h1).symm]

/-- **C94.** The graph `new_raw` makes of arrays with a slot per cell, whose slots are initialised at least where the shape has a node
or an edge: it holds the weights of a graph `new_with` can make, that is those of the arrays, column by column. So all calls answer
as they would there (`c94_reads`, `c94_writes`). -/
theorem c94_new_raw [Nonempty N] [Nonempty E] (hs : Storable s L rep) (hc : Constructible s) (hf : RawFits L nodes edges)
    (hn : none ∉ nodes.data)
    (he : ∀ {j : Nat} {a : A} {arr : Arr2 E} {x y : Nat}, L.axes[j]? = some a → edges[j]? = some arr → x < L.width → y < L.height → L.HasEdge (L.coord x y) a →
      ∃ w, arr.data[x * L.height + y]? = some (some w)) :
    ∃ (g : Graph C A D N E) (k : Contents C A N E), Built s L g k ∧ g.Le (newRaw nodes edges s) ∧
      (∀ {x y}, x < L.width → y < L.height → nodes.data[x * L.height + y]? = some (k.node (L.coord x y))) ∧
      (∀ {j : Nat} {a : A} {arr : Arr2 E} {x y : Nat}, L.axes[j]? = some a → edges[j]? = some arr → x < L.width → y < L.height → L.HasEdge (L.coord x y) a →
        arr.data[x * L.height + y]? = some (k.edge (L.coord x y) a)) := by
  obtain ⟨r, hr⟩ := hf.inv hs.base s
  obtain ⟨dn⟩ := ‹Nonempty N›
  obtain ⟨de⟩ := ‹Nonempty E›
  obtain ⟨g, h1, h2, h3⟩ := newWith_base (hs.impl hc) hs.base hc (fun u c => ((r.node c).getD dn, u))
    (fun u c a => ((r.edge c a).getD de, u)) ()
  obtain ⟨p1, p2⟩ := runCalls_pure (fun c => (r.node c).getD dn) (fun c a => (r.edge c a).getD de) (callSeq L) emptyContents
  have hrn : ∀ c, L.Node c → ∃ w, r.node c = some w := by
    intro c hcn
    cases hw : r.node c with
    | some w => exact ⟨w, rfl⟩
    | none => exact (hn (hr.nodes.mem_data.2 ⟨c, hcn, hw⟩)).elim
  have hre : ∀ c a, L.HasEdge c a → ∃ w, r.edge c a = some w := by
    rintro c a hh
    obtain ⟨x, y, hx, hy, rfl⟩ := hh.1
    obtain ⟨j, hj⟩ := List.getElem?_of_mem (hs.base.dir.axes_mem a)
    obtain ⟨arr, harr, hinv⟩ := hr.edges.get hj
    obtain ⟨w, hw⟩ := he hj harr hx hy hh
    have := hinv.slot hx hy
    rw [hw] at this
    exact ⟨w, (Option.some.inj this).symm⟩
  have q1 : ∀ c, L.Node c → (runCalls (fun u c => ((r.node c).getD dn, u)) (fun u c a => ((r.edge c a).getD de, u)) (callSeq L) ()
      emptyContents).1.node c = r.node c := by
    intro c hcn
    rw [p1, if_pos (mem_callSeq_node.2 hcn)]
    obtain ⟨w, hw⟩ := hrn c hcn
    rw [hw]; rfl
  have q2 : ∀ c a, L.HasEdge c a → (runCalls (fun u c => ((r.node c).getD dn, u)) (fun u c a => ((r.edge c a).getD de, u)) (callSeq L) ()
      emptyContents).1.edge c a = r.edge c a := by
    intro c a hh
    rw [p2, if_pos ((mem_callSeq_edge hs.base.dir).2 hh)]
    obtain ⟨w, hw⟩ := hre c a hh
    rw [hw]; rfl
  have q3 : ∀ c a w, (runCalls (fun u c => ((r.node c).getD dn, u)) (fun u c a => ((r.edge c a).getD de, u)) (callSeq L) ()
      emptyContents).1.edge c a = some w → L.HasEdge c a := by
    intro c a w hw
    rw [p2] at hw
    split at hw
    · rename_i hm
      exact (mem_callSeq_edge hs.base.dir).1 hm
    · cases hw
  refine ⟨g, _, .new h1, ⟨h2.symm, h3.nodes.le hr.nodes fun c hcn w hw => by rw [← q1 c hcn]; exact hw, ?_, ?_⟩, ?_, ?_⟩
  · exact hr.edges.length.trans h3.edges.length.symm
  · intro i a b ha hb
    have hi : i < L.axes.length := by
      rw [← h3.edges.length]
      exact (List.getElem?_eq_some_iff.1 ha).1
    obtain ⟨a', e1, i1⟩ := h3.edges.get (List.getElem?_eq_getElem hi)
    obtain ⟨b', e2, i2⟩ := hr.edges.get (List.getElem?_eq_getElem hi)
    rw [ha] at e1; cases e1
    rw [hb] at e2; cases e2
    exact i1.le i2 fun c _ w hw => by rw [← q2 c _ (q3 c _ w hw)]; exact hw
  · intro x y hx hy
    rw [q1 _ ⟨x, y, hx, hy, rfl⟩]
    exact hr.nodes.slot hx hy
  · intro j a arr x y hj harr hx hy hh
    rw [q2 _ _ hh]
    obtain ⟨arr', e, i⟩ := hr.edges.get hj
    rw [show edges[j]? = some arr' from e] at harr; cases harr
    exact i.slot hx hy

/-- **C94**, spelled out on the shapes with the expected moves. -/
theorem c94_lawful [Nonempty N] [Nonempty E] (hs : Lawful s L rep) (hc : Constructible s) (hf : RawFits L nodes edges)
    (hn : none ∉ nodes.data)
    (he : ∀ {j : Nat} {a : A} {arr : Arr2 E} {x y : Nat}, L.axes[j]? = some a → edges[j]? = some arr → x < L.width → y < L.height → L.HasEdge (L.coord x y) a →
      ∃ w, arr.data[x * L.height + y]? = some (some w)) :
    ∃ k : Contents C A N E,
      (∀ {x y}, x < L.width → y < L.height → nodes.data[x * L.height + y]? = some (k.node (L.coord x y))) ∧
      (∀ {j : Nat} {a : A} {arr : Arr2 E} {x y : Nat}, L.axes[j]? = some a → edges[j]? = some arr → x < L.width → y < L.height → L.HasEdge (L.coord x y) a →
        arr.data[x * L.height + y]? = some (k.edge (L.coord x y) a)) ∧
      (∀ c a, L.Node c ∨ rep c → (newRaw nodes edges s).nodeWeight c = .ok (k.node c) ∧
        (newRaw nodes edges s).edgeWeight c a = .ok (k.edge c a)) ∧
      Yields (nodeRefsNext (newRaw nodes edges s)) 0 (allNodes L k) ∧
      Yields (edgeRefsNext (newRaw nodes edges s)) edgeRefsInit (allEdges L k) ∧
      (∀ c, L.Node c → ∃ it, (newRaw nodes edges s).edgesOf c = .ok it ∧
        Yields (edgesNext (newRaw nodes edges s)) it (outEdges L k c)) := by
  obtain ⟨g, k, hb, hle, h1, h2⟩ := c94_new_raw hs.storable hc hf hn he
  obtain ⟨r1, r2, -, -, r3, r4, -, r5, r6, -⟩ := c94_reads hle
  refine ⟨k, h1, h2, fun c a hca => ?_, Refines.yields r3 (c06_node_references hs hb),
    Refines.yields r6 (c13_edge_references hs hb), fun c hcn => ?_⟩
  · obtain ⟨w1, w2⟩ := (c57_weights hs.storable hb c a).1 hca
    refine ⟨?_, ?_⟩
    · rcases r1 c with h | h
      · rw [h] at w1; cases w1
      · exact h.trans w1
    · rcases r2 c a with h | h
      · rw [h] at w2; cases w2
      · exact h.trans w2
  · obtain ⟨it, e1, e2⟩ := c10_edges hs hb hcn
    exact ⟨it, (r4 c).trans e1, Refines.yields r5 e2⟩

/-! ### Arrays without a hole -/

theorem full_some {a : Arr2 α} (h : none ∉ a.data) {i : Nat} (hi : i < a.data.length) : ∃ w, a.data[i]? = some (some w) := by
  rw [List.getElem?_eq_getElem hi]
  cases hw : a.data[i] with
  | some w => exact ⟨w, rfl⟩
  | none => exact (h (hw ▸ List.getElem_mem hi)).elim

theorem full_zst (u : α) {a : Arr2 α} (h : none ∉ a.data) : a.zst u = a := by
  obtain ⟨r, c, d⟩ := a
  simp only [Arr2.zst, Arr2.mk.injEq, true_and]
  rw [List.map_eq_iff]
  intro i
  cases hi : d[i]? with
  | none => rfl
  | some o =>
    cases o with
    | none => exact (h (List.mem_of_getElem? hi)).elim
    | some x => rfl

theorem full_cloneArrs : ∀ {es : List (Arr2 E)}, (∀ a ∈ es, none ∉ a.data) → cloneArrs es = .ok es
  | [], _ => rfl
  | a :: es, h => by
    simp only [cloneArrs, Arr2.clone, cloneData_eq, if_neg (h a List.mem_cons_self), bind, Except.bind,
      full_cloneArrs fun b hb => h b (List.mem_cons_of_mem _ hb)]

theorem full_hashArrs : ∀ {es : List (Arr2 E)}, (∀ a ∈ es, none ∉ a.data) → hashArrs es = .ok (es.map fun a => a.data.filterMap id)
  | [], _ => rfl
  | a :: es, h => by
    simp only [hashArrs, hashData_eq, if_neg (h a List.mem_cons_self), bind, Except.bind, List.map_cons,
      full_hashArrs fun b hb => h b (List.mem_cons_of_mem _ hb)]

theorem full_eq [DecidableEq α] (blk : Nat) {a b : Arr2 α} (ha : a.Covers L) (hb : b.Covers L) (fa : none ∉ a.data) (fb : none ∉ b.data) :
    a.eq blk b = .ok (decide (a = b)) := by
  have hr := ha.rows.trans hb.rows.symm
  have hc := ha.cols.trans hb.cols.symm
  rw [Arr2.eq, if_pos ⟨hr, hc⟩, eqData_init _ _ _ fa fb (ha.len.trans hb.len.symm)]
  obtain ⟨r, c, d⟩ := a
  obtain ⟨r', c', d'⟩ := b
  obtain rfl : r = r' := hr
  obtain rfl : c = c' := hc
  congr 2
  simp

theorem full_eqArrs [DecidableEq E] (blk : Nat) : ∀ {es es' : List (Arr2 E)}, es.length = es'.length → (∀ a ∈ es, a.Covers L ∧ none ∉ a.data) →
    (∀ a ∈ es', a.Covers L ∧ none ∉ a.data) → eqArrs blk es es' = .ok (decide (es = es'))
  | [], [], _, _, _ => rfl
  | [], _ :: _, h, _, _ => by simp at h
  | _ :: _, [], h, _, _ => by simp at h
  | a :: es, b :: es', h, h1, h2 => by
    have ih := full_eqArrs blk (es := es) (es' := es') (by simpa using h) (fun x hx => h1 x (List.mem_cons_of_mem _ hx))
      fun x hx => h2 x (List.mem_cons_of_mem _ hx)
    obtain ⟨c1, f1⟩ := h1 a List.mem_cons_self
    obtain ⟨c2, f2⟩ := h2 b List.mem_cons_self
    simp only [eqArrs, full_eq blk c1 c2 f1 f2, bind, Except.bind]
    by_cases e : a = b
    · subst e
      simp [ih]
    · simp [e]

/-- **C94.** A graph made of arrays without an uninitialised slot clones to itself, compares equal exactly to graphs of the same
arrays (and the same shape), weights in slots of no edge included, and feeds the hasher all of them in order. (Graphs of `new_with`
have such slots uninitialised: C23.) -/
theorem c94_derived [DecidableEq N] [DecidableEq E] (hf : RawFits L nodes edges) (hf' : RawFits L nodes' edges')
    (hn : none ∉ nodes.data) (hn' : none ∉ nodes'.data) (he : ∀ a ∈ edges, none ∉ a.data) (he' : ∀ a ∈ edges', none ∉ a.data)
    (blk : Nat) (same : Bool) :
    (newRaw nodes edges s).clone = .ok (newRaw nodes edges s) ∧
    (newRaw nodes edges s).eq blk (newRaw nodes' edges' s) same = .ok (decide (nodes = nodes') && decide (edges = edges') && same) ∧
    (newRaw nodes edges s).hash = .ok (nodes.data.filterMap id, edges.map fun a => a.data.filterMap id) := by
  refine ⟨?_, ?_, ?_⟩
  · simp only [Graph.clone, newRaw, Arr2.clone, cloneData_eq, if_neg hn, bind, Except.bind, full_cloneArrs he]
  · simp only [Graph.eq, newRaw, full_eq blk hf.nodes hf'.nodes hn hn', bind, Except.bind, if_pos (hf.count.trans hf'.count.symm),
      full_eqArrs blk (hf.count.trans hf'.count.symm) (fun a ha => ⟨hf.edges a ha, he a ha⟩) fun a ha => ⟨hf'.edges a ha, he' a ha⟩]
    by_cases e1 : nodes = nodes' <;> by_cases e2 : edges = edges' <;> simp [e1, e2]
  · simp only [Graph.hash, newRaw, hashData_eq, if_neg hn, bind, Except.bind, full_hashArrs he]

/-- As many elements as rows times columns. -/
abbrev Arr2.Sized (a : Arr2 α) : Prop := a.data.length = a.rows * a.cols

theorem sized_eq [DecidableEq α] (blk : Nat) {a b : Arr2 α} (ha : a.Sized) (hb : b.Sized) (fa : none ∉ a.data) (fb : none ∉ b.data) :
    a.eq blk b = .ok (decide (a = b)) := by
  obtain ⟨r, c, d⟩ := a
  obtain ⟨r', c', d'⟩ := b
  rw [Arr2.eq]
  split
  · rename_i e
    obtain ⟨e1, e2⟩ := e
    simp only at e1 e2
    subst e1 e2
    rw [eqData_init _ _ _ fa fb (Eq.trans ha hb.symm)]
    simp
  · rename_i e
    congr 1
    symm
    simp only [decide_eq_false_iff_not, Arr2.mk.injEq]
    exact fun h => e ⟨h.1, h.2.1⟩

theorem sized_eqArrs [DecidableEq E] (blk : Nat) : ∀ {es es' : List (Arr2 E)}, (∀ a ∈ es, a.Sized ∧ none ∉ a.data) →
    (∀ a ∈ es', a.Sized ∧ none ∉ a.data) → es.length = es'.length → eqArrs blk es es' = .ok (decide (es = es'))
  | [], [], _, _, _ => rfl
  | [], _ :: _, _, _, h => by simp at h
  | _ :: _, [], _, _, h => by simp at h
  | a :: es, b :: es', h1, h2, h => by
    have ih := sized_eqArrs blk (es := es) (es' := es') (fun x hx => h1 x (List.mem_cons_of_mem _ hx))
      (fun x hx => h2 x (List.mem_cons_of_mem _ hx)) (by simpa using h)
    obtain ⟨c1, f1⟩ := h1 a List.mem_cons_self
    obtain ⟨c2, f2⟩ := h2 b List.mem_cons_self
    simp only [eqArrs, sized_eq blk c1 c2 f1 f2, bind, Except.bind]
    by_cases e : a = b
    · subst e
      simp [ih]
    · simp [e]

/-- **C94.** Comparing does not ask whether the arrays suit the shape: two graphs of any arrays without an uninitialised slot are equal
exactly if all arrays are, their sizes and their number included, and the shapes. -/
theorem c94_equal_any [DecidableEq N] [DecidableEq E] (s' : Shape C A D) (hn : nodes.Sized ∧ none ∉ nodes.data)
    (hn' : nodes'.Sized ∧ none ∉ nodes'.data) (he : ∀ a ∈ edges, a.Sized ∧ none ∉ a.data) (he' : ∀ a ∈ edges', a.Sized ∧ none ∉ a.data)
    (blk : Nat) (same : Bool) :
    (newRaw nodes edges s).eq blk (newRaw nodes' edges' s') same = .ok (decide (nodes = nodes') && decide (edges = edges') && same) := by
  simp only [Graph.eq, newRaw, sized_eq blk hn.1 hn'.1 hn.2 hn'.2, bind, Except.bind]
  by_cases e1 : nodes = nodes'
  · by_cases e3 : edges.length = edges'.length
    · simp only [e1, decide_true, if_pos e3, sized_eqArrs blk he he' e3]
      by_cases e2 : edges = edges' <;> simp [e2]
    · have e2 : edges ≠ edges' := fun e => e3 (by rw [e])
      simp [e1, e2, e3]
  · simp [e1]

/-- **C94.** Dropping such a graph runs the destructor of every node weight once, that of an edge weight twice and that of a weight in
a slot of no edge once. -/
theorem c94_drop [Nonempty E] (hs : Storable s L rep) (hc : Constructible s) (hf : RawFits L nodes edges) (hn : none ∉ nodes.data)
    (he : ∀ a ∈ edges, none ∉ a.data) :
    dropGraph (newRaw nodes edges s) true =
      .ok (L.axes.map fun a => L.nodes.map fun c => if (L.nbr c (L.fwd a)).isSome then 2 else 1) ∧
    dropNodes (newRaw nodes edges s) true = .ok (L.nodes.map fun _ => 1) := by
  obtain ⟨r, hr⟩ := hf.inv hs.base s
  obtain ⟨u⟩ := ‹Nonempty E›
  constructor
  · have hz : edges.map (·.zst u) = edges := by
      conv => rhs; rw [← List.map_id edges]
      exact List.map_congr_left fun a ha => full_zst u (he a ha)
    have := zst_dropEdges (hs.impl hc) u edges L.axes 0 rfl hr.edges
    rw [hz] at this
    exact this
  · show dropData nodes.data = _
    have : nodes.data.length = L.nodes.length := by
      rw [show nodes.data = L.nodes.map r.node from hr.nodes.data_nodes, List.length_map]
    rw [dropData_all hn, this, List.map_const']

/-- Arrays for the 3 × 2 square graph; 77 stands in slots of no edge. -/
def exRawN : Arr2 Nat := ⟨3, 2, [some 0, some 1, some 10, some 11, some 20, some 21]⟩
def exRawE : List (Arr2 Nat) := [⟨3, 2, [some 5, some 6, some 7, some 8, some 77, some 77]⟩,
  ⟨3, 2, [some 1, some 77, some 2, some 77, some 3, some 77]⟩]

theorem exRaw_fits : RawFits (squareLat 3 2) exRawN exRawE := by
  refine ⟨⟨rfl, rfl, rfl⟩, rfl, ?_⟩
  intro a ha
  simp only [exRawE, List.mem_cons, List.not_mem_nil, or_false] at ha
  rcases ha with rfl | rfl <;> exact ⟨rfl, rfl, rfl⟩

example : ∃ k : Contents Offset SquareAxis Nat Nat, k.node ⟨2, 1⟩ = some 21 ∧
    (newRaw exRawN exRawE (squareShape m64 3 2)).nodeWeight ⟨2, 1⟩ = .ok (k.node ⟨2, 1⟩) ∧
    Yields (edgeRefsNext (newRaw exRawN exRawE (squareShape m64 3 2))) edgeRefsInit (allEdges (squareLat 3 2) k) := by
  obtain ⟨k, h1, -, h2, -, h3, -⟩ := c94_lawful (Lawful.square m64 3 2) (by decide) exRaw_fits (by decide) (by
    intro j a arr x y hj harr hx hy _
    have hm := List.mem_of_getElem? harr
    simp only [exRawE, List.mem_cons, List.not_mem_nil, or_false] at hm
    have hx : x < 3 := hx
    have hy : y < 2 := hy
    have : x * (squareLat 3 2).height + y < 6 := by show x * 2 + y < 6; omega
    rcases hm with rfl | rfl <;> exact full_some (by decide) this)
  have h4 := h1 (x := 2) (y := 1) (by decide) (by decide)
  exact ⟨k, (Option.some.inj h4).symm, (h2 ⟨2, 1⟩ .X (.inl ⟨2, 1, by decide, by decide, rfl⟩)).1, h3⟩

example : (newRaw exRawN exRawE (squareShape m64 3 2)).clone = .ok (newRaw exRawN exRawE (squareShape m64 3 2)) ∧
    dropGraph (newRaw exRawN exRawE (squareShape m64 3 2)) true = .ok [[2, 2, 2, 2, 1, 1], [2, 1, 2, 1, 2, 1]] :=
  ⟨(c94_derived exRaw_fits exRaw_fits (by decide) (by decide) (by decide) (by decide) 8 true).1,
    (c94_drop (Lawful.square m64 3 2).storable (by decide) exRaw_fits (by decide) (by decide)).1⟩
/-- Arrays for one axis only, of another size: not equal. -/
example : (newRaw exRawN exRawE (squareShape m64 3 2)).eq 8 (newRaw exRawN [⟨1, 2, [some 1, some 2]⟩] (squareShape m64 3 2)) true = .ok false :=
  (c94_equal_any (squareShape m64 3 2) (by decide) (by decide) (by decide) (by decide) 8 true).trans (congrArg _ (by decide))


/-- The raw graph of the first example holds everything some graph made by `new_with` holds. -/
example : ∃ (g : Graph Offset SquareAxis DSquareAxis Nat Nat) (k : Contents Offset SquareAxis Nat Nat),
    Built (squareShape m64 3 2) (squareLat 3 2) g k ∧ g.Le (newRaw exRawN exRawE (squareShape m64 3 2)) ∧
    Refines (g.edgeWeight ⟨0, 1⟩ .X) ((newRaw exRawN exRawE (squareShape m64 3 2)).edgeWeight ⟨0, 1⟩ .X) ∧
    ∀ h1, g.modifyNode ⟨2, 1⟩ (· + 1) = .ok (some h1) →
      ∃ h2, (newRaw exRawN exRawE (squareShape m64 3 2)).modifyNode ⟨2, 1⟩ (· + 1) = .ok (some h2) ∧ h1.Le h2 := by
  obtain ⟨g, k, hb, hl, -, -⟩ := c94_new_raw (Lawful.square m64 3 2).storable (by decide) exRaw_fits (by decide) (by
    intro j a arr x y hj harr hx hy _
    have hm := List.mem_of_getElem? harr
    simp only [exRawE, List.mem_cons, List.not_mem_nil, or_false] at hm
    have hx : x < 3 := hx
    have hy : y < 2 := hy
    have : x * (squareLat 3 2).height + y < 6 := by show x * 2 + y < 6; omega
    rcases hm with rfl | rfl <;> exact full_some (by decide) this)
  exact ⟨g, k, hb, hl, (c94_reads hl).2.1 _ _, ((c94_writes hl).1 _ _).2⟩

end
end LG
