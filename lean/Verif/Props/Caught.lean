import Verif.Model.Caught
import Verif.Props.Edges
/- C102: iterators after a caught panic. -/
set_option linter.unusedSectionVars false
namespace LG

/-- The outcomes of the first `n` calls of `next`, where panics are caught and the iterator is used again. -/
def calls {σ α : Type} (next : σ → Res α × σ) : Nat → σ → List (Res α)
  | 0, _ => []
  | n + 1, s => (next s).1 :: calls next n (next s).2

/-- The iterator after `n` such calls. -/
def after {σ α : Type} (next : σ → Res α × σ) : Nat → σ → σ
  | 0, s => s
  | n + 1, s => after next n (next s).2

/-- The first `n` outcomes of an iterator that has the outcomes `l` and from then on returns `None`. -/
def thenNone {α : Type} (l : List (Res (Option α))) (n : Nat) : List (Res (Option α)) :=
  (l ++ List.replicate n (Except.ok none)).take n

/-- `caught` describes the same calls as `plain`, which forgets the state on a fault. -/
def SameCalls {σ α : Type} (caught : σ → Res α × σ) (plain : σ → Res (α × σ)) : Prop :=
  ∀ s, (∀ r s', plain s = .ok (r, s') ↔ caught s = (.ok r, s')) ∧
    ∀ f, plain s = .error f ↔ (caught s).1 = .error f

section
variable {C A D N E : Type} [DecidableEq C] [DecidableEq A] [DecidableEq D]
variable {g : Graph C A D N E} {s : Shape C A D} {L : Lat C A D} {rep : C → Prop} {k : Contents C A N E}

theorem sameCalls_of {σ α : Type} {caught : σ → Res α × σ} {plain : σ → Res (α × σ)}
    (h : ∀ s, plain s = (caught s).1.map fun r => (r, (caught s).2)) : SameCalls caught plain := by
  intro s
  rw [h s]
  obtain ⟨r, s'⟩ := caught s
  cases r with
  | error f => exact ⟨fun r s'' => ⟨fun e => (by simp [Except.map] at e), fun e => (by simp at e)⟩, fun f' => by simp [Except.map]⟩
  | ok r =>
    exact ⟨fun r' s'' => by simp [Except.map], fun f' => by simp [Except.map]⟩

/-- **C102.** The iterators that are used again after a panic are the iterators of the other properties. -/
theorem c102_same_node_identifiers (s : Shape C A D) : SameCalls (nodeIndicesNextCaught s) (nodeIndicesNext s) := by
  refine sameCalls_of fun i => ?_
  unfold nodeIndicesNext nodeIndicesNextCaught
  cases s.nodeCount with
  | error f => rfl
  | ok nc =>
    simp only [bind, Except.bind]
    split
    · cases s.indexToCoordinate i <;> rfl
    · rfl

/-- **C102.** The same for `node_references`. -/
theorem c102_same_node_references (g : Graph C A D N E) : SameCalls (nodeRefsNextCaught g) (nodeRefsNext g) := by
  refine sameCalls_of fun i => ?_
  unfold nodeRefsNext nodeRefsNextCaught
  cases g.s.nodeCount with
  | error f => rfl
  | ok nc =>
    simp only [bind, Except.bind]
    split
    · cases g.s.indexToCoordinate i with
      | error f => rfl
      | ok x => simp only; cases g.nodeWeightUnchecked x <;> rfl
    · rfl

theorem neighborsNext_caught (s : Shape C A D) (c : C) (st : Nat) :
    neighborsNext s c st = (neighborsNextCaught s c st).1.map fun r => (r, (neighborsNextCaught s c st).2) := by
  fun_induction neighborsNextCaught s c st with
  | case1 st h f hd => rw [neighborsNext, dif_pos h, hd]; rfl
  | case2 st h d hd f hm => rw [neighborsNext, dif_pos h, hd]; simp only [bind, Except.bind, hm]; rfl
  | case3 st h d hd t hm => rw [neighborsNext, dif_pos h, hd]; simp only [bind, Except.bind, hm]; rfl
  | case4 st h d hd hm ih => rw [neighborsNext, dif_pos h, hd]; simp only [bind, Except.bind, hm]; exact ih
  | case5 st h => rw [neighborsNext, dif_neg h]; rfl

/-- **C102.** The same for `neighbors`. -/
theorem c102_same_neighbors (s : Shape C A D) (c : C) : SameCalls (neighborsNextCaught s c) (neighborsNext s c) :=
  sameCalls_of (neighborsNext_caught s c)

theorem edgesNext_caught (g : Graph C A D N E) (it : EdgesIt C) :
    edgesNext g it = (edgesNextCaught g it).1.map fun r => (r, (edgesNextCaught g it).2) := by
  fun_induction edgesNextCaught g it with
  | case1 it h f hd => rw [edgesNext, dif_pos h, hd]; rfl
  | case2 it h d hd f hm => rw [edgesNext, dif_pos h, hd]; simp only [bind, Except.bind, hm]; rfl
  | case3 it h d hd t hm f he => rw [edgesNext, dif_pos h, hd]; simp only [bind, Except.bind, hm, he]; rfl
  | case4 it h d hd t hm r he => rw [edgesNext, dif_pos h, hd]; simp only [bind, Except.bind, hm, he]; rfl
  | case5 it h d hd hm ih => rw [edgesNext, dif_pos h, hd]; simp only [bind, Except.bind, hm]; exact ih
  | case6 it h => rw [edgesNext, dif_neg h]; rfl

/-- **C102.** The same for `edges` and `edges_directed`. -/
theorem c102_same_edges (g : Graph C A D N E) : SameCalls (edgesNextCaught g) (edgesNext g) :=
  sameCalls_of (edgesNext_caught g)

theorem edgeRefsPoll_caught (g : Graph C A D N E) (e : Option (EdgesIt C)) :
    edgeRefsPoll g e = (edgeRefsPollCaught g e).1.map fun r => (r, (edgeRefsPollCaught g e).2) := by
  cases e with
  | none => rfl
  | some it =>
    simp only [edgeRefsPoll, edgeRefsPollCaught, edgesNext_caught]
    cases (edgesNextCaught g it).1 <;> rfl

theorem edgeRefsLoop_caught (g : Graph C A D N E) (nc : Nat) (it : EdgeRefsIt C) :
    edgeRefsLoop g nc it = (edgeRefsLoopCaught g nc it).1.map fun r => (r, (edgeRefsLoopCaught g nc it).2) := by
  fun_induction edgeRefsLoopCaught g nc it with
  | case1 it f e' hp => rw [edgeRefsLoop, edgeRefsPoll_caught, hp]; rfl
  | case2 it r e' hp => rw [edgeRefsLoop, edgeRefsPoll_caught, hp]; rfl
  | case3 it e' hp h f hx =>
    rw [edgeRefsLoop, edgeRefsPoll_caught, hp]
    simp only [Except.map, bind, Except.bind, dif_pos h, hx]
  | case4 it e' hp h x hx f hn =>
    rw [edgeRefsLoop, edgeRefsPoll_caught, hp]
    simp only [Except.map, bind, Except.bind, dif_pos h, hx, hn]
  | case5 it e' hp h x hx ed hn ih =>
    rw [edgeRefsLoop, edgeRefsPoll_caught, hp]
    simp only [Except.map, bind, Except.bind, dif_pos h, hx, hn]
    exact ih
  | case6 it e' hp h =>
    rw [edgeRefsLoop, edgeRefsPoll_caught, hp]
    simp only [Except.map, bind, Except.bind, dif_neg h]

/-- **C102.** The same for `edge_references`. -/
theorem c102_same_edge_references (g : Graph C A D N E) : SameCalls (edgeRefsNextCaught g) (edgeRefsNext g) := by
  refine sameCalls_of fun it => ?_
  unfold edgeRefsNext edgeRefsNextCaught
  cases g.s.nodeCount with
  | error f => rfl
  | ok nc => exact edgeRefsLoop_caught g nc it

theorem calls_length {σ α : Type} (next : σ → Res α × σ) : ∀ n s, (calls next n s).length = n
  | 0, _ => rfl
  | n + 1, s => by rw [calls, List.length_cons, calls_length]

theorem calls_stuck {σ α : Type} {next : σ → Res α × σ} {s : σ} {r : Res α} (h : next s = (r, s)) :
    ∀ n, calls next n s = List.replicate n r ∧ after next n s = s
  | 0 => ⟨rfl, rfl⟩
  | n + 1 => by
    rw [calls, after, h]
    exact ⟨by rw [(calls_stuck h n).1, List.replicate_succ], (calls_stuck h n).2⟩

/-! ### Without a panic -/

theorem calls_of_yields {σ α : Type} {caught : σ → Res (Option α) × σ} {plain : σ → Res (Option α × σ)}
    (hc : SameCalls caught plain) (hf : ∀ s s', plain s = .ok (none, s') → plain s' = .ok (none, s')) {s : σ} {l : List α}
    (hy : Yields plain s l) : ∀ n, calls caught n s = thenNone (l.map fun a => .ok (some a)) n := by
  unfold thenNone
  induction hy with
  | @done s s' h =>
    intro n
    cases n with
    | zero => rfl
    | succ n =>
      have h1 := ((hc s).1 _ _).1 h
      have h2 := ((hc s').1 _ _).1 (hf _ _ h)
      rw [calls, h1, (calls_stuck h2 n).1]
      simp [List.replicate_succ]
  | @step s s' a l h _ ih =>
    intro n
    cases n with
    | zero => rfl
    | succ n =>
      rw [calls, ((hc s).1 _ _).1 h]
      simp only [ih n, List.map_cons, List.cons_append, List.take_succ_cons]
      congr 1
      simp only [List.take_append, List.take_replicate]
      congr 2
      omega

theorem edgesNext_none_stuck {it it' : EdgesIt C} (h : edgesNext g it = .ok (none, it')) : edgesNext g it' = .ok (none, it') := by
  rw [edgesNext_caught] at h
  fun_induction edgesNextCaught g it with
  | case1 => simp [Except.map] at h
  | case2 => simp [Except.map] at h
  | case3 => simp [Except.map] at h
  | case4 => simp [Except.map] at h
  | case5 it hlt d hd hm ih => exact ih h
  | case6 it hge =>
    simp only [Except.map, Except.ok.injEq, Prod.mk.injEq, true_and] at h
    subst h
    exact edgesNext_ge hge

/-- **C102.** Where nothing panics nothing changes: on every lawful shape, catching panics around the calls of `next` on
`edges(a)` sees the references of C10 and then `None`, however often it is called. -/
theorem c102_edges (hs : Lawful s L rep) (hb : Built s L g k) {a : C} (ha : L.Node a) :
    ∃ it, g.edgesOf a = .ok it ∧ ∀ n, calls (edgesNextCaught g) n it =
      thenNone ((outEdges L k a).map fun r => .ok (some r)) n := by
  obtain ⟨it, h1, h2⟩ := c10_edges hs hb ha
  exact ⟨it, h1, calls_of_yields (c102_same_edges g) (fun _ _ => edgesNext_none_stuck) h2⟩

theorem nodeIndicesNext_none_stuck {i i' : Nat} (h : nodeIndicesNext s i = .ok (none, i')) : nodeIndicesNext s i' = .ok (none, i') := by
  have : i' = i := by
    have h2 := ((c102_same_node_identifiers s i).1 _ _).1 h
    unfold nodeIndicesNextCaught at h2
    split at h2
    · simp at h2
    · split at h2
      · split at h2 <;> simp at h2
      · simp only [Prod.mk.injEq, true_and] at h2; exact h2.symm
  rw [this] at h ⊢
  exact h

theorem nodeRefsNext_none_stuck {i i' : Nat} (h : nodeRefsNext g i = .ok (none, i')) : nodeRefsNext g i' = .ok (none, i') := by
  have : i' = i := by
    have h2 := ((c102_same_node_references g i).1 _ _).1 h
    unfold nodeRefsNextCaught at h2
    split at h2
    · simp at h2
    · split at h2
      · split at h2
        · simp at h2
        · split at h2 <;> simp at h2
      · simp only [Prod.mk.injEq, true_and] at h2; exact h2.symm
  rw [this] at h ⊢
  exact h

theorem neighborsNext_none_stuck {c : C} {i i' : Nat} (h : neighborsNext s c i = .ok (none, i')) :
    neighborsNext s c i' = .ok (none, i') := by
  rw [neighborsNext_caught] at h
  fun_induction neighborsNextCaught s c i with
  | case1 => simp [Except.map] at h
  | case2 => simp [Except.map] at h
  | case3 => simp [Except.map] at h
  | case4 st hlt d hd hm ih => exact ih h
  | case5 st hge =>
    simp only [Except.map, Except.ok.injEq, Prod.mk.injEq, true_and] at h
    subst h
    rw [neighborsNext, dif_neg hge]

theorem edgeRefsPoll_none_stuck {e e' : Option (EdgesIt C)} (h : edgeRefsPollCaught g e = (.ok none, e')) :
    edgeRefsPollCaught g e' = (.ok none, e') := by
  cases e with
  | none => simp only [edgeRefsPollCaught, Prod.mk.injEq, true_and] at h; subst h; rfl
  | some it =>
    simp only [edgeRefsPollCaught, Prod.mk.injEq] at h
    obtain ⟨h1, rfl⟩ := h
    have h2 := ((c102_same_edges g it).1 none _).2 (by rw [← h1])
    have h3 := ((c102_same_edges g _).1 none _).1 (edgesNext_none_stuck h2)
    simp only [edgeRefsPollCaught, h3]

theorem edgeRefsNext_none_stuck {it it' : EdgeRefsIt C} (h : edgeRefsNext g it = .ok (none, it')) :
    edgeRefsNext g it' = .ok (none, it') := by
  unfold edgeRefsNext at h ⊢
  cases hc : g.s.nodeCount with
  | error f => rw [hc] at h; simp [bind, Except.bind] at h
  | ok nc =>
    rw [hc] at h
    simp only [bind, Except.bind] at h ⊢
    rw [edgeRefsLoop_caught] at h
    fun_induction edgeRefsLoopCaught g nc it with
    | case1 => simp [Except.map] at h
    | case2 => simp [Except.map] at h
    | case3 => simp [Except.map] at h
    | case4 => simp [Except.map] at h
    | case5 it e' hp hlt x hx ed hn ih => exact ih h
    | case6 it e' hp hge =>
      simp only [Except.map, Except.ok.injEq, Prod.mk.injEq, true_and] at h
      subst h
      rw [edgeRefsLoop_caught, edgeRefsLoopCaught, edgeRefsPoll_none_stuck hp]
      simp only [dif_neg hge, Except.map]

/-- **C102.** The same for the other iterators: what they yield is what C05, C06, C07 and C13 say, and `None` ever after. -/
theorem c102_no_panic (hs : Lawful s L rep) (hb : Built s L g k) (n : Nat) :
    calls (nodeIndicesNextCaught g.s) n g.nodeIdentifiers = thenNone (L.nodes.map fun c => .ok (some c)) n ∧
    calls (nodeRefsNextCaught g) n g.nodeReferences = thenNone ((allNodes L k).map fun r => .ok (some r)) n ∧
    (∀ {a}, L.Node a → calls (neighborsNextCaught g.s a) n 0 = thenNone ((L.nbrs a).map fun c => .ok (some c)) n) ∧
    calls (edgeRefsNextCaught g) n edgeRefsInit = thenNone ((allEdges L k).map fun r => .ok (some r)) n :=
  ⟨calls_of_yields (c102_same_node_identifiers g.s) (fun _ _ => nodeIndicesNext_none_stuck) (c05_node_identifiers hs hb) n,
    calls_of_yields (c102_same_node_references g) (fun _ _ => nodeRefsNext_none_stuck) (c06_node_references hs hb) n,
    fun ha => calls_of_yields (c102_same_neighbors g.s _) (fun _ _ => neighborsNext_none_stuck) (c07_neighbors hs hb ha) n,
    calls_of_yields (c102_same_edge_references g) (fun _ _ => edgeRefsNext_none_stuck) (c13_edge_references hs hb) n⟩

/-! ### Incoming edges of a directed graph, debug build -/

theorem edgesNextCaught_none (hi : ImplBase g.s L rep) {it : EdgesIt C} (hc : L.Node it.node)
    (h : it.state < edgesBound g.s it.dt) (hj : it.state < L.dirs.length)
    (ht : L.nbr it.node L.dirs[it.state] = none) :
    edgesNextCaught g it = edgesNextCaught g { it with state := it.state + 1 } := by
  rw [edgesNextCaught, dif_pos h]
  simp only [hi.axis.dirFromIndex _ hj, hi.move hc, ht]

/-- **C102.** `edges_directed(a, Incoming)` on a directed graph in a debug build, where C12 fails: the assertion is tripped
after `state` has been advanced. A caller that catches the panics sees one for every neighbour of `a`, then `None` for ever; no
edge, and no undefined behaviour. `size_hint` in between answers, with an upper bound that covers what is still to come. -/
theorem c102_incoming (hs : Lawful s L rep) (hb : Built s L g k) {a : C} (ha : L.Node a)
    (hd : g.isDirected = true) (hm : g.s.m.mode = .debug) :
    ∃ it, g.edgesDirected a .incoming = .ok it ∧ ∀ n,
      calls (edgesNextCaught g) n it =
        thenNone (List.replicate (L.nbrs a).length (.error .panic)) n ∧
      ∃ x, edgesSizeHint g (after (edgesNextCaught g) n it) = .ok (0, some x) ∧ (L.nbrs a).length ≤ x + n := by
  have hg := hb.good hs
  obtain ⟨x, y, hx, hy, rfl⟩ := ha
  have hnode : L.Node (L.coord x y) := ⟨x, y, hx, hy, rfl⟩
  refine ⟨_, edgesNewD_eq hg.impl hx hy _, ?_⟩
  rw [Graph.isDirected, hg.impl.axis.directed] at hd
  have hbound : edgesBound g.s (.dir .incoming) = L.dirs.length := hg.impl.axis.undirectedCount
  have hint : ∀ j, j ≤ L.dirs.length → edgesSizeHint g ⟨L.coord x y, ⟨x, y⟩, j, .dir .incoming⟩ =
      .ok (0, some (L.dirs.length - j)) := by
    intro j hj
    simp [edgesSizeHint, hbound, usub, hj, bind, Except.bind]
  have key : ∀ (i j n : Nat), j + i = L.dirs.length →
      calls (edgesNextCaught g) n ⟨L.coord x y, ⟨x, y⟩, j, .dir .incoming⟩ =
        thenNone (List.replicate ((L.dirs.drop j).filterMap (L.nbr (L.coord x y))).length (.error .panic)) n ∧
      ∃ u, edgesSizeHint g (after (edgesNextCaught g) n ⟨L.coord x y, ⟨x, y⟩, j, .dir .incoming⟩) = .ok (0, some u) ∧
        ((L.dirs.drop j).filterMap (L.nbr (L.coord x y))).length ≤ u + n := by
    unfold thenNone
    intro i
    induction i with
    | zero =>
      intro j n h
      have hstuck : edgesNextCaught g ⟨L.coord x y, ⟨x, y⟩, j, .dir .incoming⟩ =
          (.ok none, ⟨L.coord x y, ⟨x, y⟩, j, .dir .incoming⟩) := by
        rw [edgesNextCaught, dif_neg (by simp only; omega)]
      rw [(calls_stuck hstuck n).1, (calls_stuck hstuck n).2, List.drop_eq_nil_of_le (by omega)]
      exact ⟨by simp, _, hint j (by omega), by simp⟩
    | succ i ih =>
      intro j n h
      have hj : j < L.dirs.length := by omega
      rw [List.drop_eq_getElem_cons hj, List.filterMap_cons]
      cases n with
      | zero =>
        refine ⟨by simp [calls], _, hint j (by omega), ?_⟩
        have := List.length_filterMap_le (L.nbr (L.coord x y)) (L.dirs.drop (j + 1))
        rw [List.length_drop] at this
        split
        · omega
        · rw [List.length_cons]; omega
      | succ n =>
        cases ht : L.nbr (L.coord x y) L.dirs[j] with
        | none =>
          have hskip : edgesNextCaught g ⟨L.coord x y, ⟨x, y⟩, j, .dir .incoming⟩ =
              edgesNextCaught g ⟨L.coord x y, ⟨x, y⟩, j + 1, .dir .incoming⟩ :=
            edgesNextCaught_none (it := ⟨L.coord x y, ⟨x, y⟩, j, .dir .incoming⟩) hg.impl hnode (by simp only; omega) hj ht
          have := ih (j + 1) (n + 1) (by omega)
          simp only [calls, after, hskip] at this ⊢
          exact this
        | some t =>
          have hp : edgesNextCaught g ⟨L.coord x y, ⟨x, y⟩, j, .dir .incoming⟩ =
              (.error .panic, ⟨L.coord x y, ⟨x, y⟩, j + 1, .dir .incoming⟩) := by
            rw [edgesNextCaught, dif_pos (by simp only; omega)]
            simp only [hg.impl.axis.dirFromIndex _ hj, hg.impl.move hnode, ht,
              edgesMake_incoming_debug hg.laws hg.impl hd hm hx hy ht (List.getElem?_eq_getElem hj)]
          obtain ⟨h1, u, h2, h3⟩ := ih (j + 1) n (by omega)
          simp only [calls, after, hp, List.length_cons]
          refine ⟨?_, u, h2, by omega⟩
          rw [h1]
          simp only [List.replicate_succ, List.cons_append, List.take_succ_cons]
          congr 1
          simp only [List.take_append, List.take_replicate]
          congr 1
          rw [← List.replicate_succ, List.take_replicate]
          congr 1
          omega
  intro n
  have := key L.dirs.length 0 n (by omega)
  rw [List.drop_zero] at this
  exact this

/-! ### Any graph at all -/

/-- **C102.** On any shape: when a call on `neighbors(a)` panics, every later call panics in the same way. The direction whose
move panics is not skipped. -/
theorem c102_neighbors_stuck {c : C} {st st' : Nat} {f : Fault} (h : neighborsNextCaught s c st = (.error f, st')) :
    ∀ n, calls (neighborsNextCaught s c) n st' = List.replicate n (.error f) := by
  refine fun n => (calls_stuck (s := st') ?_ n).1
  fun_induction neighborsNextCaught s c st with
  | case1 st hlt f' hd =>
    simp only [Prod.mk.injEq, Except.error.injEq] at h
    obtain ⟨rfl, rfl⟩ := h
    rw [neighborsNextCaught, dif_pos hlt, hd]
  | case2 st hlt d hd f' hm =>
    simp only [Prod.mk.injEq, Except.error.injEq] at h
    obtain ⟨rfl, rfl⟩ := h
    rw [neighborsNextCaught, dif_pos hlt, hd]
    simp only [hm]
  | case3 => simp at h
  | case4 st hlt d hd hm ih => exact ih h
  | case5 => simp at h

/-- **C102.** On any shape: when a call on `node_identifiers` panics, every later call panics in the same way. -/
theorem c102_node_identifiers_stuck {i i' : Nat} {f : Fault} (h : nodeIndicesNextCaught s i = (.error f, i')) :
    ∀ n, calls (nodeIndicesNextCaught s) n i' = List.replicate n (.error f) := by
  refine fun n => (calls_stuck (s := i') ?_ n).1
  have : i' = i := by
    unfold nodeIndicesNextCaught at h
    split at h
    · simp only [Prod.mk.injEq] at h; exact h.2.symm
    · split at h
      · split at h
        · simp only [Prod.mk.injEq] at h; exact h.2.symm
        · simp at h
      · simp at h
  rw [this] at h ⊢
  exact h

/-- **C102.** On any shape: after a panic in a call on `edges(a)` or `edges_directed(a, _)`, either every later call panics in
the same way, or the iterator has moved on to the directions not tried yet. It never runs past the last direction, so it has
at most as many panics of the second kind as there are directions. -/
theorem c102_edges_progress {it it' : EdgesIt C} {f : Fault} (h : edgesNextCaught g it = (.error f, it')) :
    it'.node = it.node ∧ it'.offset = it.offset ∧ it'.dt = it.dt ∧ it.state ≤ it'.state ∧ it'.state ≤ edgesBound g.s it.dt ∧
    ((∀ n, calls (edgesNextCaught g) n it' = List.replicate n (.error f)) ∨ it.state < it'.state) := by
  fun_induction edgesNextCaught g it with
  | case1 it hlt f' hd =>
    simp only [Prod.mk.injEq, Except.error.injEq] at h
    obtain ⟨rfl, rfl⟩ := h
    refine ⟨rfl, rfl, rfl, Nat.le_refl _, Nat.le_of_lt hlt, .inl fun n => (calls_stuck ?_ n).1⟩
    rw [edgesNextCaught, dif_pos hlt, hd]
  | case2 it hlt d hd f' hm =>
    simp only [Prod.mk.injEq, Except.error.injEq] at h
    obtain ⟨rfl, rfl⟩ := h
    refine ⟨rfl, rfl, rfl, Nat.le_refl _, Nat.le_of_lt hlt, .inl fun n => (calls_stuck ?_ n).1⟩
    rw [edgesNextCaught, dif_pos hlt, hd]
    simp only [hm]
  | case3 it hlt d hd t hm f' he =>
    simp only [Prod.mk.injEq, Except.error.injEq] at h
    obtain ⟨rfl, rfl⟩ := h
    exact ⟨rfl, rfl, rfl, by simp only; omega, by simp only; omega, .inr (by simp only; omega)⟩
  | case4 => simp at h
  | case5 it hlt d hd hm ih =>
    obtain ⟨h1, h2, h3, h4, h5, h6⟩ := ih h
    exact ⟨h1, h2, h3, by simp only at h4; omega, h5, h6.imp id fun h => by simp only at h; omega⟩
  | case6 => simp at h

/-- **C102.** On any shape: `node_references` is stuck when the coordinate of a node panics, and skips the node when the look-up
of its weight does. -/
theorem c102_node_references_after {i i' : Nat} {f : Fault} (h : nodeRefsNextCaught g i = (.error f, i')) :
    (i' = i ∧ ∀ n, calls (nodeRefsNextCaught g) n i' = List.replicate n (.error f)) ∨
    (i' = i + 1 ∧ ∃ c, g.s.indexToCoordinate i = .ok c ∧ g.nodeWeightUnchecked c = .error f) := by
  have h0 := h
  unfold nodeRefsNextCaught at h
  split at h
  · simp only [Prod.mk.injEq] at h
    obtain ⟨_, rfl⟩ := h
    exact .inl ⟨rfl, fun n => (calls_stuck h0 n).1⟩
  · split at h
    · split at h
      · simp only [Prod.mk.injEq] at h
        obtain ⟨_, rfl⟩ := h
        exact .inl ⟨rfl, fun n => (calls_stuck h0 n).1⟩
      · rename_i c hc
        split at h
        · rename_i f' hw
          simp only [Prod.mk.injEq, Except.error.injEq] at h
          obtain ⟨rfl, rfl⟩ := h
          exact .inr ⟨rfl, c, hc, hw⟩
        · simp at h
    · simp at h

theorem edgeRefs_exhausted {e : Option (EdgesIt C)} (he : edgeRefsPollCaught g e = (.ok none, e)) (i : Nat) : ∀ n,
    calls (edgeRefsNextCaught g) n ⟨e, i⟩ = calls (edgeRefsNextCaught g) n ⟨none, i⟩
  | 0 => rfl
  | n + 1 => by
    have hstep : (edgeRefsNextCaught g ⟨e, i⟩ = edgeRefsNextCaught g ⟨none, i⟩) ∨
        ∃ r j, edgeRefsNextCaught g ⟨e, i⟩ = (r, ⟨e, j⟩) ∧ edgeRefsNextCaught g ⟨none, i⟩ = (r, ⟨none, j⟩) := by
      unfold edgeRefsNextCaught
      cases g.s.nodeCount with
      | error f => exact .inr ⟨_, _, rfl, rfl⟩
      | ok nc =>
        simp only
        rw [edgeRefsLoopCaught, edgeRefsLoopCaught, he, show edgeRefsPollCaught g none = (.ok none, none) from rfl]
        simp only
        split
        · cases g.s.indexToCoordinate i with
          | error f => exact .inr ⟨_, _, rfl, rfl⟩
          | ok x =>
            simp only
            cases edgesNewUnchecked g x with
            | error f => exact .inr ⟨_, _, rfl, rfl⟩
            | ok ed => exact .inl rfl
        · exact .inr ⟨_, _, rfl, rfl⟩
    rw [calls, calls]
    obtain h | ⟨r, j, h1, h2⟩ := hstep
    · rw [h]
    · rw [h1, h2]
      simp only [edgeRefs_exhausted he j n]

/-- **C102.** On any shape: if `edge_references` panics because the edges of a node cannot be set up (`to_offset` of the node
panics or answers `None`), that node is skipped: the calls that follow see what a fresh iterator that starts at the next node sees. -/
theorem c102_edge_references_skip {e : Option (EdgesIt C)} {i nc : Nat} {x : C} {f : Fault} (hnc : g.s.nodeCount = .ok nc)
    (hi : i < nc) (he : (edgeRefsPollCaught g e).1 = .ok none) (hx : g.s.indexToCoordinate i = .ok x)
    (hn : edgesNewUnchecked g x = .error f) (n : Nat) :
    calls (edgeRefsNextCaught g) (n + 1) ⟨e, i⟩ = .error f :: calls (edgeRefsNextCaught g) n ⟨none, i + 1⟩ := by
  have hp : edgeRefsPollCaught g e = (.ok none, (edgeRefsPollCaught g e).2) := by rw [← he]
  have h1 : edgeRefsNextCaught g ⟨e, i⟩ = (.error f, ⟨(edgeRefsPollCaught g e).2, i + 1⟩) := by
    unfold edgeRefsNextCaught
    rw [hnc]
    simp only
    rw [edgeRefsLoopCaught, hp]
    simp only [dif_pos hi, hx, hn]
  rw [calls, h1]
  simp only [edgeRefs_exhausted (edgeRefsPoll_none_stuck hp)]

/-- **C102**, reachable with the crate's own shapes: on a square map in a debug build, `neighbors` of a coordinate in the last
representable column panics at the first call (the column after it does not exist), and at every call after that, so the
neighbours in the other directions are never reached. -/
theorem c102_square_far {m : Machine} (hm : m.mode = .debug) {h v y : Nat} (n : Nat) :
    calls (neighborsNextCaught (squareShape m h v) ⟨2 * m.half - 1, y⟩) n 0 = List.replicate n (.error .panic) := by
  refine c102_neighbors_stuck (s := squareShape m h v) (st := 0) ?_ n
  have hp : squareMove m h v ⟨2 * m.half - 1, y⟩ .X = .error .panic := by
    have : ¬ 2 * m.half - 1 + 1 < 2 * m.half := by omega
    simp [this, squareMove, Offset.addX, uadd, overflow, hm, bind, Except.bind]
  rw [neighborsNextCaught, dif_pos (show 0 < (squareShape m h v).axis.undirectedCount from Nat.zero_lt_succ 3)]
  rw [show (squareShape m h v).axis.dirFromIndexUnchecked 0 = .ok .X from rfl]
  simp only [show (squareShape m h v).moveCoord ⟨2 * m.half - 1, y⟩ .X = .error .panic from hp]

end

/-! ### Concrete instances -/

/-- `edges_directed((1, 0), Incoming)` on the directed 3×2 square, debug build: three panics, then `None`. -/
example : ∃ g : Graph Offset DSquareAxis DSquareAxis Nat Nat,
    Built (squareShapeDirected m64 3 2) (squareLatDirected 3 2) g exKD ∧
    ∃ it, g.edgesDirected ⟨1, 0⟩ .incoming = .ok it ∧ calls (edgesNextCaught g) 5 it =
      [.error .panic, .error .panic, .error .panic, .ok none, .ok none] := by
  obtain ⟨g, hb⟩ := exSquareD m64 rfl
  have hsh := (hb.good (.squareDirected _ _ _)).shape
  obtain ⟨it, h1, h2⟩ := c102_incoming (.squareDirected _ _ _) hb ⟨1, 0, by decide, by decide, rfl⟩
    (by rw [Graph.isDirected, hsh]; rfl) (by rw [hsh]; rfl)
  exact ⟨g, hb, it, h1, (h2 5).1⟩

/-- The first of these panics, as `c102_edges_progress` sees it: the iterator has moved on by one direction. -/
example : ∃ (g : Graph Offset DSquareAxis DSquareAxis Nat Nat) (it it' : EdgesIt Offset),
    g.edgesDirected ⟨1, 0⟩ .incoming = .ok it ∧ edgesNextCaught g it = (.error .panic, it') ∧ it.state < it'.state := by
  obtain ⟨g, hb⟩ := exSquareD m64 rfl
  have hsh := (hb.good (.squareDirected _ _ _)).shape
  obtain ⟨it, h1, h2⟩ := c102_incoming (.squareDirected _ _ _) hb ⟨1, 0, by decide, by decide, rfl⟩
    (by rw [Graph.isDirected, hsh]; rfl) (by rw [hsh]; rfl)
  have h3 : (edgesNextCaught g it).1 = .error .panic := by have := (h2 1).1; exact (List.cons.inj this).1
  have h4 := (h2 4).1
  refine ⟨g, it, (edgesNextCaught g it).2, h1, by rw [← h3], ?_⟩
  refine (c102_edges_progress (g := g) (it := it) (f := .panic) (by rw [← h3])).2.2.2.2.2.resolve_left fun h => ?_
  rw [calls, h 3] at h4
  exact nomatch (List.cons.inj (List.cons.inj (List.cons.inj (List.cons.inj h4).2).2).2).1

/-- Where nothing panics: `edges((1, 0))` on the undirected 3×2 square. -/
example : ∃ g : Graph Offset SquareAxis DSquareAxis Nat Nat, Built (squareShape m64 3 2) (squareLat 3 2) g exK ∧
    ∃ it, g.edgesOf ⟨1, 0⟩ = .ok it ∧ calls (edgesNextCaught g) 4 it =
      [.ok (some ⟨⟨1, 0⟩, ⟨2, 0⟩, 1010, .X⟩), .ok (some ⟨⟨1, 0⟩, ⟨1, 1⟩, 2010, .Y⟩),
        .ok (some ⟨⟨1, 0⟩, ⟨0, 0⟩, 1000, .RX⟩), .ok none] := by
  obtain ⟨g, hb⟩ := exSquare
  obtain ⟨it, h1, h2⟩ := c102_edges (.square _ _ _) hb ⟨1, 0, by decide, by decide, rfl⟩
  exact ⟨g, hb, it, h1, h2 4⟩

example : calls (neighborsNextCaught (squareShape m64 3 2) ⟨2 ^ 64 - 1, 1⟩) 3 0 =
    [.error .panic, .error .panic, .error .panic] := c102_square_far (m := m64) rfl (y := 1) 3

/-- A shape of the caller's whose `to_offset` rejects the node `(1, 0)`, debug build: `edge_references` panics at that node
and goes on with the next, `node_references` does the same. -/
def exHole : Graph Offset SquareAxis DSquareAxis Nat Nat where
  s := { squareShape m64 2 2 with
    toOffset := fun c => .ok (if c = ⟨1, 0⟩ then none else rangeCheck 2 2 c)
    toOffsetUnchecked := fun c => if c = ⟨1, 0⟩ then .error .panic else .ok c }
  nodes := ⟨2, 2, [some 0, some 1, some 2, some 3]⟩
  edges := [⟨2, 2, [some 0, some 1, some 2, some 3]⟩, ⟨2, 2, [some 0, some 1, some 2, some 3]⟩]

example (n : Nat) : calls (edgeRefsNextCaught exHole) (n + 1) ⟨none, 2⟩ =
    .error .panic :: calls (edgeRefsNextCaught exHole) n ⟨none, 3⟩ :=
  c102_edge_references_skip (g := exHole) (nc := 4) (x := ⟨1, 0⟩) rfl (by decide) rfl rfl rfl n
example : nodeRefsNextCaught exHole 2 = (.error .panic, 3) ∧ nodeRefsNextCaught exHole 3 = (.ok (some (⟨1, 1⟩, 3)), 4) :=
  ⟨rfl, rfl⟩
example : ∃ c, exHole.s.indexToCoordinate 2 = .ok c ∧ exHole.nodeWeightUnchecked c = .error .panic :=
  ((c102_node_references_after (g := exHole) (i := 2) (f := .panic) rfl).resolve_left fun h => absurd h.1 (by decide)).2

/-- A shape of the caller's that panics when asked to go west, which is the third direction tried. -/
example : calls (neighborsNextCaught { squareShape m64 3 2 with
      moveCoord := fun c d => if d = .RX then .error .panic else squareMove m64 3 2 c d } ⟨1, 0⟩) 3 2 =
    [.error .panic, .error .panic, .error .panic] :=
  c102_neighbors_stuck (s := { squareShape m64 3 2 with
    moveCoord := fun c d => if d = .RX then .error .panic else squareMove m64 3 2 c d }) (st := 2) (by
      rw [neighborsNextCaught]; rfl) 3

/-- A shape of the caller's whose `offset_to_coordinate` panics. -/
example : calls (nodeIndicesNextCaught { squareShape m64 3 2 with offsetToCoordinate := fun _ => .error .panic }) 2 0 =
    [.error .panic, .error .panic] := by
  refine c102_node_identifiers_stuck (s := { squareShape m64 3 2 with offsetToCoordinate := fun _ => .error .panic })
    (i := 0) ?_ 2
  rfl

example : ∃ g : Graph Offset SquareAxis DSquareAxis Nat Nat, Built (squareShape m64 3 2) (squareLat 3 2) g exK ∧
    calls (neighborsNextCaught g.s ⟨2, 1⟩) 3 0 = [.ok (some ⟨1, 1⟩), .ok (some ⟨2, 0⟩), .ok none] ∧
    (calls (nodeRefsNextCaught g) 8 g.nodeReferences)[5]? = some (.ok (some (⟨2, 1⟩, 21))) ∧
    (calls (edgeRefsNextCaught g) 8 edgeRefsInit)[6]? = some (.ok (some ⟨⟨2, 0⟩, ⟨2, 1⟩, 2020, .Y⟩)) ∧
    (calls (edgeRefsNextCaught g) 9 edgeRefsInit)[8]? = some (.ok none) := by
  obtain ⟨g, hb⟩ := exSquare
  have h := fun n => c102_no_panic (.square _ _ _) hb n
  refine ⟨g, hb, (h 3).2.2.1 ⟨2, 1, by decide, by decide, rfl⟩, ?_, ?_, ?_⟩
  · rw [(h 8).2.1]; rfl
  · rw [(h 8).2.2.2]; rfl
  · rw [(h 9).2.2.2]; rfl

/-- Agreement, for the iterators that own a graph. -/
example (g : Graph Offset SquareAxis DSquareAxis Nat Nat) (i : Nat) (it : EdgesIt Offset) (it' : EdgeRefsIt Offset) (f : Fault) :
    (nodeRefsNext g i = .error f ↔ (nodeRefsNextCaught g i).1 = .error f) ∧
    (edgesNext g it = .error f ↔ (edgesNextCaught g it).1 = .error f) ∧
    (edgeRefsNext g it' = .error f ↔ (edgeRefsNextCaught g it').1 = .error f) :=
  ⟨(c102_same_node_references g i).2 f, (c102_same_edges g it).2 f, (c102_same_edge_references g it').2 f⟩

/-- The agreement theorems, on the first call of each kind. -/
example : nodeIndicesNextCaught (squareShape m64 3 2) 4 = (.ok (some ⟨2, 0⟩), 5) ∧
    nodeIndicesNextCaught (squareShape m64 3 2) 6 = (.ok none, 6) ∧
    neighborsNextCaught (squareShape m64 3 2) ⟨2, 1⟩ 0 = (.ok (some ⟨1, 1⟩), 3) :=
  ⟨((c102_same_node_identifiers (squareShape m64 3 2) 4).1 _ _).1 rfl,
    ((c102_same_node_identifiers (squareShape m64 3 2) 6).1 _ _).1 rfl,
    ((c102_same_neighbors (squareShape m64 3 2) ⟨2, 1⟩ 0).1 _ _).1 (by
      rw [neighborsNext]; show neighborsNext _ _ 1 = _
      rw [neighborsNext]; show neighborsNext _ _ 2 = _
      rw [neighborsNext]; rfl)⟩

end LG
