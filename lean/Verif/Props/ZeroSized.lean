import Verif.Model.ZeroSized
import Verif.Props.Memory
/- C81: graphs whose edge weights are of a zero-sized type. -/
set_option linter.unusedSectionVars false
namespace LG
section
variable {C A D N E σ α : Type}

/-- The second call does what the first does, unless the first is undefined behaviour. -/
def Refines (r r' : Res α) : Prop := r = .error .ub ∨ r' = r

theorem Refines.refl (r : Res α) : Refines r r := .inr rfl

theorem Refines.bind {β : Type} {r r' : Res α} {f f' : α → Res β} (h : Refines r r') (hf : ∀ x, r = .ok x → Refines (f x) (f' x)) :
    Refines (r >>= f) (r' >>= f') := by
  rcases h with h | h
  · rw [h]; exact .inl rfl
  · rw [h]
    cases hr : r with
    | error e => exact .inr rfl
    | ok x => exact hf x hr

theorem Refines.mapBind {β γ : Type} {r : Res α} {r' : Res γ} {h : α → γ} {f : α → Res β} {f' : γ → Res β} (he : r' = r.map h)
    (hf : ∀ x, r = .ok x → Refines (f x) (f' (h x))) : Refines (r >>= f) (r' >>= f') := by
  rw [he]
  cases hr : r with
  | error e => exact .inr rfl
  | ok x => exact hf x hr

theorem zst_s (u : E) (g : Graph C A D N E) : (g.zst u).s = g.s := rfl

theorem zst_slot (u : α) (a : Arr2 α) (i j : Nat) : (a.zst u).slot i j = a.slot i j := rfl

theorem zst_read (u : α) (a : Arr2 α) (k : Nat) : Refines (a.read k) ((a.zst u).read k) := by
  unfold Refines Arr2.read Arr2.zst
  simp only [List.getElem?_map]
  cases h : a.data[k]? with
  | none => exact .inl rfl
  | some o =>
    cases o with
    | none => exact .inl rfl
    | some x => exact .inr rfl

theorem zst_uget (u : α) (m : Machine) (a : Arr2 α) (i j : Nat) : Refines (a.uget m i j) ((a.zst u).uget m i j) := by
  unfold Arr2.uget
  rw [zst_slot]
  split
  · exact zst_read u a _
  · exact .refl _

theorem zst_getUnwrap (u : α) (a : Arr2 α) (i j : Nat) : Refines (a.getUnwrapUnchecked i j) ((a.zst u).getUnwrapUnchecked i j) := by
  unfold Arr2.getUnwrapUnchecked
  rw [zst_slot]
  split
  · exact zst_read u a _
  · exact .refl _

theorem zst_write (u : α) (a : Arr2 α) (i j : Nat) (x : α) : (a.zst u).writeIfPresent i j x = (a.writeIfPresent i j x).zst u := by
  unfold Arr2.writeIfPresent
  rw [zst_slot]
  cases a.slot i j with
  | none => rfl
  | some k => simp only [Arr2.writeSlot, Arr2.zst, List.map_set, Option.getD_some]

theorem zst_edgeArr (u : E) (g : Graph C A D N E) (ax : Nat) : (g.zst u).edgeArr ax = (g.edgeArr ax).map (·.zst u) := by
  unfold Graph.edgeArr Graph.zst
  simp only [List.getElem?_map]
  cases g.edges[ax]? <;> rfl

theorem zst_raw (u : E) (g : Graph C A D N E) (o : Offset) (ax : Nat) :
    Refines (g.edgeWeightUncheckedRaw o ax) ((g.zst u).edgeWeightUncheckedRaw o ax) := by
  unfold Graph.edgeWeightUncheckedRaw
  rw [zst_edgeArr]
  cases g.edgeArr ax with
  | error f => exact .refl _
  | ok arr => exact zst_getUnwrap u arr _ _

theorem zst_edges (u : E) (s : Shape C A D) (e : σ → C → A → E × σ) (o : Offset) (c : C) : ∀ (j : Nat) (es : List (Arr2 E)) (st : σ),
    newWithEdges s e o c j (es.map (·.zst u)) st = (newWithEdges s e o c j es st).map fun r => (r.1.map (·.zst u), r.2)
  | _, [], _ => rfl
  | j, a :: es, st => by
    simp only [List.map_cons, newWithEdges, bind, Except.bind]
    cases s.axis.fromIndexUnchecked j with
    | error f => rfl
    | ok ax =>
      simp only
      cases s.axis.foward ax with
      | error f => rfl
      | ok d =>
        simp only
        cases s.moveCoord c d with
        | error f => rfl
        | ok t =>
          cases t with
          | none =>
            simp only [zst_edges u s e o c (j + 1) es st]
            cases newWithEdges s e o c (j + 1) es st <;> rfl
          | some t =>
            simp only [zst_edges u s e o c (j + 1) es (e st c ax).2, zst_write]
            cases newWithEdges s e o c (j + 1) es (e st c ax).2 <;> rfl

theorem zst_nodes (u : E) (s : Shape C A D) (n : σ → C → N × σ) (e : σ → C → A → E × σ) : ∀ (k i : Nat) (ns : Arr2 N) (es : List (Arr2 E)) (st : σ),
    newWithNodes s n e i k ns (es.map (·.zst u)) st = (newWithNodes s n e i k ns es st).map fun r => (r.1, r.2.1.map (·.zst u), r.2.2)
  | 0, _, _, _, _ => rfl
  | k + 1, i, ns, es, st => by
    simp only [newWithNodes, bind, Except.bind]
    cases s.indexToOffset i with
    | error f => rfl
    | ok o =>
      simp only
      cases s.offsetToCoordinate o with
      | error f => rfl
      | ok c =>
        simp only
        split
        · rw [zst_edges]
          cases newWithEdges s e o c 0 es (n st c).2 with
          | error f => rfl
          | ok r => exact zst_nodes u s n e k (i + 1) _ r.1 r.2
        · rfl

/-- **C81**, construction: with a zero-sized edge type `new_with` does the same, step by step; only the unwritten slots are not
uninitialised. -/
theorem c81_new_with (s : Shape C A D) (u : E) (n : σ → C → N × σ) (e : σ → C → A → E × σ) (st : σ) :
    newWithZ s u n e st = (newWith s n e st).map fun r => (r.1.zst u, r.2) := by
  unfold newWithZ newWith
  simp only [bind, Except.bind]
  cases newUninit (N := N) (E := E) s with
  | error f => rfl
  | ok g =>
    simp only
    cases s.nodeCount with
    | error f => rfl
    | ok cnt =>
      simp only [Graph.zst, zst_nodes]
      cases newWithNodes s n e 0 cnt g.nodes g.edges st <;> rfl

theorem zst_make (u : E) (g : Graph C A D N E) (it : EdgesIt C) (d : D) (t : C) : Refines (edgesMake g it d t) (edgesMake (g.zst u) it d t) := by
  unfold edgesMake
  show Refines _ ((it.dt.getRawId g.s d it.offset t it.state) >>= _)
  refine Refines.bind (.refl _) fun r _ => ?_
  obtain ⟨nx, ne⟩ := r
  have h := Refines.bind (f := fun e => (match if it.dt.needReverse = true then (t, it.node) else (it.node, t) with
          | (src, tgt) => Except.ok (ε := Fault) { source := src, target := tgt, weight := e, direction := d : EdgeRef C D E })) (zst_raw u g nx ne) fun w _ => .refl _
  simp only [zst_s]
  cases g.s.m.mode with
  | release => exact h
  | debug => exact Refines.bind (.refl _) fun a _ => Refines.bind (.refl _) fun _ _ => h

theorem zst_next (u : E) (g : Graph C A D N E) (it : EdgesIt C) : Refines (edgesNext g it) (edgesNext (g.zst u) it) := by
  have key : ∀ n, ∀ it : EdgesIt C, edgesBound g.s it.dt - it.state = n → Refines (edgesNext g it) (edgesNext (g.zst u) it) := by
    intro n
    induction n with
    | zero =>
      intro it hn
      unfold edgesNext
      rw [zst_s, dif_neg (by omega), dif_neg (show ¬ it.state < edgesBound g.s it.dt by omega)]
      exact .refl _
    | succ n ih =>
      intro it hn
      unfold edgesNext
      rw [zst_s, dif_pos (by omega), dif_pos (show it.state < edgesBound g.s it.dt by omega)]
      refine Refines.bind (.refl _) fun d _ => ?_
      refine Refines.bind (.refl _) fun t _ => ?_
      cases t with
      | none => exact ih _ (show edgesBound g.s it.dt - (it.state + 1) = n by omega)
      | some t => exact Refines.bind (zst_make u g it d t) fun w _ => .refl _
  exact key _ it rfl

theorem zst_loop (u : E) (g : Graph C A D N E) (nc : Nat) : ∀ (n : Nat) (it : EdgeRefsIt C), nc - it.index = n →
    Refines (edgeRefsLoop g nc it) (edgeRefsLoop (g.zst u) nc it) := by
  have hpoll : ∀ e, Refines (edgeRefsPoll g e) (edgeRefsPoll (g.zst u) e) := by
    intro e
    cases e with
    | none => exact .refl _
    | some e => exact Refines.bind (zst_next u g e) fun _ _ => .refl _
  intro n
  induction n with
  | zero =>
    intro it hn
    unfold edgeRefsLoop
    rw [zst_s]
    refine Refines.bind (hpoll _) fun r _ => ?_
    obtain ⟨o, e'⟩ := r
    cases o with
    | some _ => exact .refl _
    | none =>
      simp only
      rw [dif_neg (by omega), dif_neg (by omega)]
      exact .refl _
  | succ n ih =>
    intro it hn
    unfold edgeRefsLoop
    rw [zst_s]
    refine Refines.bind (hpoll _) fun r _ => ?_
    obtain ⟨o, e'⟩ := r
    cases o with
    | some _ => exact .refl _
    | none =>
      simp only
      rw [dif_pos (by omega), dif_pos (by omega)]
      refine Refines.bind (.refl _) fun x _ => ?_
      exact Refines.bind (.refl _) fun ed _ => ih _ (show nc - (it.index + 1) = n by omega)

/-- **C81**, use: every read answers as before, and no read of an edge weight that was undefined behaviour before is turned into a
different fault. -/
theorem c81_reads (u : E) (g : Graph C A D N E) :
    (∀ c, (g.zst u).nodeWeight c = g.nodeWeight c) ∧ (∀ c a, Refines (g.edgeWeight c a) ((g.zst u).edgeWeight c a)) ∧
    (∀ i, nodeRefsNext (g.zst u) i = nodeRefsNext g i) ∧ (g.zst u).s = g.s ∧
    (∀ it, Refines (edgesNext g it) (edgesNext (g.zst u) it)) ∧ ∀ it, Refines (edgeRefsNext g it) (edgeRefsNext (g.zst u) it) := by
  refine ⟨fun c => rfl, fun c a => ?_, fun i => rfl, rfl, zst_next u g, fun it => ?_⟩
  · unfold Graph.edgeWeight
    refine Refines.bind (.refl _) fun o _ => ?_
    cases o with
    | none => exact .refl _
    | some o =>
      refine Refines.bind (.refl _) fun d _ => ?_
      refine Refines.bind (.refl _) fun t _ => ?_
      cases t with
      | none => exact .refl _
      | some t =>
        exact Refines.mapBind (zst_edgeArr u g _) fun arr _ => Refines.bind (zst_uget u g.s.m arr _ _) fun _ _ => .refl _
  · exact Refines.bind (.refl _) fun nc _ => zst_loop u g nc _ it rfl

/-- **C81**, writes: a write that returns leads to the same graph. -/
theorem c81_writes (u : E) (g : Graph C A D N E) :
    (∀ c f, (g.zst u).modifyNode c f = (g.modifyNode c f).map (·.map (·.zst u))) ∧
    (∀ c a f, g.modifyEdge c a f ≠ .error .ub → (g.zst u).modifyEdge c a f = (g.modifyEdge c a f).map (·.map (·.zst u))) := by
  have hn : (g.zst u).nodes = g.nodes := rfl
  refine ⟨fun c f => ?_, fun c a f => ?_⟩
  · unfold Graph.modifyNode
    rw [zst_s]
    cases g.s.toOffset c with
    | error e => rfl
    | ok o =>
      cases o with
      | none => rfl
      | some o =>
        simp only [bind, Except.bind, hn]
        cases g.nodes.uget g.s.m o.horizontal o.vertical <;> rfl
  · unfold Graph.modifyEdge
    rw [zst_s]
    cases g.s.toOffset c with
    | error e => exact fun _ => rfl
    | ok o =>
      cases o with
      | none => exact fun _ => rfl
      | some o =>
        simp only [bind, Except.bind]
        cases g.s.axis.foward a with
        | error e => exact fun _ => rfl
        | ok d =>
          simp only
          cases g.s.moveCoord c d with
          | error e => exact fun _ => rfl
          | ok t =>
            cases t with
            | none => exact fun _ => rfl
            | some t =>
              simp only [zst_edgeArr]
              cases g.edgeArr (g.s.axis.toIndex a) with
              | error e => exact fun _ => rfl
              | ok arr =>
                intro hne
                have h := zst_uget u g.s.m arr o.horizontal o.vertical
                simp only [Except.map] at hne ⊢
                rcases h with h | h
                · rw [h] at hne; exact absurd rfl hne
                · rw [h]
                  cases arr.uget g.s.m o.horizontal o.vertical with
                  | error e => rfl
                  | ok x =>
                    simp only [Option.map_some, zst_write, Graph.zst, List.map_set]

/-! ### Derived implementations and `Drop` -/

theorem zst_full (u : α) (a : Arr2 α) : none ∉ (a.zst u).data := by
  intro h
  simp [Arr2.zst] at h

theorem zst_cloneArrs (u : E) : ∀ es : List (Arr2 E), cloneArrs (es.map (·.zst u)) = .ok (es.map (·.zst u))
  | [] => rfl
  | a :: es => by
    simp only [List.map_cons, cloneArrs, Arr2.clone, cloneData_eq, if_neg (zst_full u a), bind, Except.bind, zst_cloneArrs u es]

variable [DecidableEq C] [DecidableEq A] [DecidableEq D]
variable {g : Graph C A D N E} {s : Shape C A D} {L : Lat C A D} {rep : C → Prop} {k : Contents C A N E}

theorem nodes_full (hg : GoodBase s L rep g k) : none ∉ g.nodes.data := by
  intro hm
  obtain ⟨c, hc, h⟩ := hg.inv.nodes.mem_data.1 hm
  obtain ⟨w, hw⟩ := hg.total.node_some hc
  rw [hw] at h; cases h

/-- **C81.** A graph with zero-sized edge weights clones to itself. -/
theorem c81_clone (hs : Storable s L rep) (hb : Built s L g k) (u : E) : (g.zst u).clone = .ok (g.zst u) := by
  have hg := hs.good hb
  have h2 : g.nodes.clone = .ok g.nodes := by
    simp only [Arr2.clone, cloneData_eq, bind, Except.bind]
    rw [if_neg (nodes_full hg)]
  have h3 : (g.zst u).nodes.clone = .ok g.nodes := h2
  have h4 : cloneArrs (g.zst u).edges = .ok (g.zst u).edges := zst_cloneArrs u g.edges
  simp only [Graph.clone, bind, Except.bind, h3, h4]
  rfl

theorem zst_data [Subsingleton E] (u : E) {a b : Arr2 E} (h : a.data.length = b.data.length) : (a.zst u).data = (b.zst u).data := by
  apply List.ext_getElem?
  intro i
  simp only [Arr2.zst, List.getElem?_map]
  by_cases hi : i < a.data.length
  · rw [List.getElem?_eq_getElem hi, List.getElem?_eq_getElem (h ▸ hi)]
    exact congrArg some (congrArg some (Subsingleton.elim _ _))
  · rw [List.getElem?_eq_none (by omega), List.getElem?_eq_none (by omega)]

theorem zst_eqArrs [DecidableEq E] [Subsingleton E] (u : E) (blk : Nat) {f f' : C → A → Option E} : ∀ {es es' : List (Arr2 E)} {as : List A},
    EdgesInv L f es as → EdgesInv L f' es' as → eqArrs blk (es.map (·.zst u)) (es'.map (·.zst u)) = .ok true
  | [], [], [], _, _ => rfl
  | _ :: _, [], [], h, _ => h.elim
  | [], _ :: _, [], _, h => h.elim
  | _ :: _, _ :: _, [], h, _ => h.elim
  | [], _, _ :: _, h, _ => h.elim
  | _ :: _, [], _ :: _, _, h => h.elim
  | a :: es, b :: es', x :: as, h, h' => by
    have hr : (a.zst u).rows = (b.zst u).rows := h.1.rows.trans h'.1.rows.symm
    have hc : (a.zst u).cols = (b.zst u).cols := h.1.cols.trans h'.1.cols.symm
    have hd := zst_data u (h.1.len.trans h'.1.len.symm)
    have he : (a.zst u).eq blk (b.zst u) = .ok true := by
      rw [Arr2.eq, if_pos ⟨hr, hc⟩, eqData_init _ _ _ (zst_full u a) (zst_full u b) (by rw [hd]), hd]
      simp
    simp only [List.map_cons, eqArrs, he, bind, Except.bind, if_true]
    exact zst_eqArrs u blk h.2 h'.2

/-- **C81.** Two graphs of the same shape with zero-sized edge weights compare equal iff all node weights agree. -/
theorem c81_eq [DecidableEq N] [DecidableEq E] [Subsingleton E] (hs : Storable s L rep) (hb : Built s L g k)
    {g' : Graph C A D N E} {k' : Contents C A N E} (hb' : Built s L g' k') (u : E) (blk : Nat) (same : Bool) :
    ∃ b, (g.zst u).eq blk (g'.zst u) same = .ok b ∧ (b = true ↔ (∀ c, k.node c = k'.node c) ∧ same = true) := by
  obtain ⟨⟨b, h1, h2⟩, -⟩ := c23_nodes_partial hs hb hb' blk same
  have h3 := zst_eqArrs u blk (hs.good hb).inv.edges (hs.good hb').inv.edges
  have h4 : (g.zst u).nodes.eq blk (g'.zst u).nodes = .ok b := h1
  simp only [Graph.eq, h4, bind, Except.bind]
  have h5 : eqArrs blk (g.zst u).edges (g'.zst u).edges = .ok true := h3
  cases b with
  | false => exact ⟨false, by simp, by simp; intro h; exact absurd (h2.2 h) (by simp)⟩
  | true =>
    have h6 : (g.zst u).edges.length = (g'.zst u).edges.length := by
      simp only [Graph.zst, List.length_map, (hs.good hb).inv.edges.length, (hs.good hb').inv.edges.length]
    refine ⟨same, by simp only [if_true, if_pos h6, h5], ?_⟩
    simp [← h2]

theorem zst_hashArrs [Subsingleton E] (u : E) {f : C → A → Option E} : ∀ {es : List (Arr2 E)} {as : List A}, EdgesInv L f es as →
    hashArrs (es.map (·.zst u)) = .ok (as.map fun _ => List.replicate (L.width * L.height) u)
  | [], [], _ => rfl
  | [], _ :: _, h => h.elim
  | _ :: _, [], h => h.elim
  | a :: es, x :: as, h => by
    simp only [List.map_cons, hashArrs, hashData_eq, if_neg (zst_full u a), bind, Except.bind, zst_hashArrs u h.2]
    congr 2
    rw [← h.1.len]
    simp only [Arr2.zst]
    induction a.data with
    | nil => rfl
    | cons o l ih => simp [List.replicate_succ, Subsingleton.elim (o.getD u) u]; simpa using ih

/-- **C81.** What is fed to the hasher are the node weights in node order, and as many values of the zero-sized type as there are
slots: it depends on the size and the node weights only. -/
theorem c81_hash [Subsingleton E] (hs : Storable s L rep) (hb : Built s L g k) (u : E) :
    (g.zst u).hash = .ok (L.nodes.filterMap k.node, L.axes.map fun _ => List.replicate (L.width * L.height) u) := by
  have hg := hs.good hb
  have h1 : hashData (g.zst u).nodes.data = .ok (L.nodes.filterMap k.node) := by
    show hashData g.nodes.data = _
    rw [hashData_eq, if_neg (nodes_full hg), hg.inv.nodes.data_nodes, List.filterMap_map]
    rfl
  have h2 : hashArrs (g.zst u).edges = _ := zst_hashArrs u hg.inv.edges
  simp only [Graph.hash, h1, h2, bind, Except.bind]

theorem zst_dropArr (hi : ImplBase s L rep) {f : Nat → E} {d : D} : ∀ (n i : Nat), i + n = L.width * L.height →
    dropEdgeArr s d i ((List.range' i n).map fun i => some (f i)) =
      .ok ((List.range' i n).map fun i => if (L.nbr (L.at i) d).isSome then 2 else 1)
  | 0, i, h => by
    simp only [List.range'_zero, List.map_nil, dropEdgeArr, nodeIndicesNext_ge hi (show ¬ i < L.width * L.height by omega)]
    rfl
  | n + 1, i, h => by
    have hlt : i < L.width * L.height := by omega
    rw [List.range'_succ, List.map_cons, List.map_cons, dropEdgeArr]
    simp only [nodeIndicesNext_lt hi hlt, bind, Except.bind, hi.move (Lat.at_node hlt), zst_dropArr hi n (i + 1) (by omega)]
    cases L.nbr (L.at i) d <;> rfl

theorem zst_dropEdges (hi : ImplBase s L rep) (u : E) {f : C → A → Option E} : ∀ (es : List (Arr2 E)) (as : List A) (j : Nat),
    L.axes.drop j = as → EdgesInv L f es as → dropEdges s j (es.map (·.zst u)) =
      .ok (as.map fun a => L.nodes.map fun c => if (L.nbr c (L.fwd a)).isSome then 2 else 1)
  | [], [], j, _, _ => rfl
  | [], _ :: _, _, _, h => h.elim
  | _ :: _, [], _, _, h => h.elim
  | arr :: es, a :: as, j, hdrop, hinv => by
    obtain ⟨⟨hj, hja⟩, hrest⟩ := drop_get hdrop
    have ih := zst_dropEdges hi u es as (j + 1) hrest hinv.2
    have hax : s.axis.fromIndexUnchecked j = .ok a := by rw [hi.axis.fromIndex j hj, hja]
    have hda : dropEdgeArr s (L.fwd a) 0 (arr.zst u).data = .ok (L.nodes.map fun c => if (L.nbr c (L.fwd a)).isSome then 2 else 1) := by
      have := zst_dropArr hi (f := fun i => (f (L.at i) a).getD u) (d := L.fwd a) (L.width * L.height) 0 (by omega)
      rw [← List.range_eq_range'] at this
      simp only [Arr2.zst]
      rw [hinv.1.data_eq, List.map_map, L.nodes_eq, List.map_map]
      exact this
    simp only [List.map_cons, dropEdges, hax, hi.axis.foward, bind, Except.bind, hda, ih]

/-- **C81**, `Drop` for a zero-sized edge type that has a destructor: it runs twice for every edge, and once for every slot that
belongs to no edge, for which no value was ever made. -/
theorem c81_drop (hs : Storable s L rep) (hb : Built s L g k) (u : E) :
    dropGraph (g.zst u) true = .ok (L.axes.map fun a => L.nodes.map fun c => if (L.nbr c (L.fwd a)).isSome then 2 else 1) := by
  have hg := hs.good hb
  exact zst_dropEdges hg.impl u g.edges L.axes 0 rfl hg.inv.edges

/-- The 3 × 2 square graph with `()` on the edges: it clones, equals itself, and differs after a write to a node; if `()` had a
destructor, dropping the graph would run it 2 * 7 + 5 = 19 times. -/
example : ∃ g : Graph Offset SquareAxis DSquareAxis Nat Unit, newWithZ (squareShape m64 3 2) () exN (fun st _ _ => ((), st)) () = .ok (g, ()) ∧
    g.clone = .ok g ∧ g.eq 8 g true = .ok true ∧ dropGraph g true = .ok [[2, 2, 2, 2, 1, 1], [2, 1, 2, 1, 2, 1]] ∧
    ∃ g', g.modifyNode ⟨1, 1⟩ (· + 1) = .ok (some g') ∧ g.eq 8 g' true = .ok false := by
  refine ⟨_, rfl, rfl, ?_, rfl, _, rfl, ?_⟩
  all_goals
    simp only [Graph.eq, Arr2.eq, eqArrs]
    repeat rw [eqData_short (by decide)]
    rfl

/-- The general statements on the 3 × 2 square graph with `()` on its edges. -/
example : ∃ (g : Graph Offset SquareAxis DSquareAxis Nat Unit) (k : Contents Offset SquareAxis Nat Unit),
    Built (squareShape m64 3 2) (squareLat 3 2) g k ∧
    (g.zst ()).nodeWeight ⟨2, 1⟩ = .ok (some 21) ∧ (g.zst ()).clone = .ok (g.zst ()) ∧
    (∃ b, (g.zst ()).eq 8 (g.zst ()) true = .ok b ∧ (b = true ↔ (∀ c, k.node c = k.node c) ∧ true = true)) ∧
    (g.zst ()).modifyNode ⟨1, 1⟩ (· + 1) = (g.modifyNode ⟨1, 1⟩ (· + 1)).map (·.map (·.zst ())) ∧
    dropGraph (g.zst ()) true = .ok [[2, 2, 2, 2, 1, 1], [2, 1, 2, 1, 2, 1]] := by
  have hs : Storable (squareShape m64 3 2) (squareLat 3 2) _ := .sound (.square m64 3 2)
  obtain ⟨g, hb⟩ := (Lawful.square m64 3 2).exists_built (by decide) exN (fun st _ _ => ((), st)) ()
  refine ⟨g, _, hb, ?_, c81_clone hs hb (), c81_eq hs hb hb () 8 true, (c81_writes () g).1 _ _, c81_drop hs hb ()⟩
  rw [(c81_reads () g).1]
  have hg := hs.good hb
  rw [nodeWeight_eq hg.impl hg.inv hg.total (c := ⟨2, 1⟩) (.inl ⟨2, 1, by decide, by decide, rfl⟩)]; rfl

end
end LG
