import Verif.Props.AnyShape
import Verif.Lemmas.Hints
/- C80: what an implementation of the traits has to obey for memory safety. Much less than the laws of a lattice. -/
set_option linter.unusedVariables false
namespace LG
section
variable {C A D N E σ : Type}
variable {s : Shape C A D} {g : Graph C A D N E}

/-- `t` is a cell the shape recognises, and moving from it in direction `f` leads somewhere. -/
def LeadsOn (s : Shape C A D) (t : C) (f : D) : Prop := ∃ o t', s.toOffset t = .ok (some o) ∧ s.moveCoord t f = .ok (some t')

/-- The safety contract of `Shape` and `Axis`. Moves need not be reversible, translations, or consistent in any other way: it is
enough that a backward move ends at a cell from which there is a forward move along the same axis. -/
structure Contract (s : Shape C A D) : Prop where
  safe : SafeCode s
  dirSafe : ∀ d, s.axis.isForwardDirection d ≠ .error .ub ∧ s.axis.fromDirection d ≠ .error .ub
  backwardSafe : ∀ a, s.axis.backward a ≠ .error .ub
  axisIndex : CountHonest s
  dirIndex : ∀ i, i < s.axis.count ∨ i < s.axis.undirectedCount → s.axis.dirFromIndexUnchecked i ≠ .error .ub
  coherent : Coherent s
  recognises : ∀ o c, Stands s o → s.offsetToCoordinate o = .ok c → s.toOffset c = .ok (some o)
  unchecked : ∀ c o, s.toOffset c = .ok (some o) → s.toOffsetUnchecked c = .ok o
  forward : ∀ i d, i < s.axis.count ∨ i < s.axis.undirectedCount → s.axis.dirFromIndexUnchecked i = .ok d →
    s.axis.isForwardDirection d = .ok true → i < s.axis.count ∧ ∃ a, s.axis.fromIndexUnchecked i = .ok a ∧ s.axis.foward a = .ok d
  back : ∀ i d, i < s.axis.count ∨ i < s.axis.undirectedCount → s.axis.dirFromIndexUnchecked i = .ok d →
    s.axis.isForwardDirection d = .ok false → s.axis.count ≤ i ∧ i - s.axis.count < s.axis.count ∧
      ∃ a f, s.axis.fromIndexUnchecked (i - s.axis.count) = .ok a ∧ s.axis.foward a = .ok f ∧
        ∀ c o t, s.toOffset c = .ok (some o) → s.moveCoord c d = .ok (some t) → LeadsOn s t f
  incoming : s.axis.directed = true → ∀ d a b, s.axis.fromDirection d = .ok a → s.axis.backward a = .ok b →
    s.axis.dirToIndex b < s.axis.count ∧ ∃ a' f, s.axis.fromIndexUnchecked (s.axis.dirToIndex b) = .ok a' ∧ s.axis.foward a' = .ok f ∧
      ∀ c o t, s.toOffset c = .ok (some o) → s.moveCoord c d = .ok (some t) → LeadsOn s t f

/-- A slot of an edge array that construction filled can be read. -/
theorem raw_safe (hi : AnyInv s g) {o : Offset} {j : Nat} (hj : j < s.axis.count) (ho : Stands s o) (ha : Announced s j o) :
    g.edgeWeightUncheckedRaw o j ≠ .error .ub := by
  obtain ⟨arr, harr⟩ : ∃ arr, g.edges[j]? = some arr := ⟨g.edges[j]'(by rw [hi.count]; exact hj), List.getElem?_eq_getElem _⟩
  simp only [Graph.edgeWeightUncheckedRaw, Graph.edgeArr, harr, bind, Except.bind]
  intro h
  rcases ((hi.edges j arr harr).getUnwrap_ub o.horizontal o.vertical).1 h with h | ⟨-, h⟩
  · exact h ho
  · apply h
    show Announced s j _
    rw [idx_div ho.2, idx_mod ho.2]
    exact ha

theorem Contract.announced (hc : Contract s) {j : Nat} {a : A} {f : D} {t : C} (h1 : s.axis.fromIndexUnchecked j = .ok a)
    (h2 : s.axis.foward a = .ok f) (h3 : LeadsOn s t f) : ∃ o, s.toOffset t = .ok (some o) ∧ Stands s o ∧ Announced s j o := by
  obtain ⟨o, t', h4, h5⟩ := h3
  have h6 := hc.coherent.position t o h4
  exact ⟨o, h4, h6.1, t, a, f, t', h6.2, h1, h2, h5⟩

theorem rawId_safe (hc : Contract s) (hi : AnyInv s g) (dt : Dt) {c t : C} {o : Offset} {i : Nat} {d : D}
    (ho : s.toOffset c = .ok (some o)) (hb : i < s.axis.count ∨ i < s.axis.undirectedCount) (hd : s.axis.dirFromIndexUnchecked i = .ok d)
    (ht : s.moveCoord c d = .ok (some t)) : dt.getRawId s d o t i ≠ .error .ub ∧
    ∀ nx ne, dt.getRawId s d o t i = .ok (nx, ne) → g.edgeWeightUncheckedRaw nx ne ≠ .error .ub := by
  have hdef : defaultRawId s d o t i ≠ .error .ub ∧ ∀ nx ne, defaultRawId s d o t i = .ok (nx, ne) →
      g.edgeWeightUncheckedRaw nx ne ≠ .error .ub := by
    unfold defaultRawId
    cases hf : s.axis.isForwardDirection d with
    | error f =>
      simp only [bind, Except.bind]
      refine ⟨fun h => (hc.dirSafe d).1 (by cases h; exact hf), fun _ _ h => by cases h⟩
    | ok b =>
      cases b with
      | true =>
        simp only [bind, Except.bind, if_true]
        refine ⟨fun h => (nomatch h), fun nx ne h => ?_⟩
        cases h
        obtain ⟨h1, a, h2, h3⟩ := hc.forward i d hb hd hf
        have h4 := hc.coherent.position c o ho
        exact raw_safe hi h1 h4.1 ⟨c, a, d, t, h4.2, h2, h3, ht⟩
      | false =>
        obtain ⟨h1, h2, a, f, h3, h4, h5⟩ := hc.back i d hb hd hf
        obtain ⟨o', h6, h7, h8⟩ := hc.announced h3 h4 (h5 c o t ho ht)
        simp only [bind, Except.bind, Bool.false_eq_true, if_false, hc.unchecked t o' h6, usub, h1, if_true]
        refine ⟨fun h => (nomatch h), fun nx ne h => ?_⟩
        cases h
        exact raw_safe hi h2 h7 h8
  unfold Dt.getRawId
  split
  · rename_i hdir
    cases ha : s.axis.fromDirection d with
    | error f =>
      simp only [bind, Except.bind]
      exact ⟨fun h => (hc.dirSafe d).2 (by cases h; exact ha), fun _ _ h => by cases h⟩
    | ok a =>
      cases hbk : s.axis.backward a with
      | error f =>
        simp only [bind, Except.bind, hbk]
        exact ⟨fun h => hc.backwardSafe a (by cases h; exact hbk), fun _ _ h => by cases h⟩
      | ok b =>
        obtain ⟨h1, a', f, h2, h3, h4⟩ := hc.incoming hdir d a b ha hbk
        obtain ⟨o', h6, h7, h8⟩ := hc.announced h2 h3 (h4 c o t ho ht)
        simp only [bind, Except.bind, hbk, hc.unchecked t o' h6]
        refine ⟨fun h => (nomatch h), fun nx ne h => ?_⟩
        cases h
        exact raw_safe hi h1 h7 h8
  · exact hdef

theorem make_safe (hc : Contract s) (hi : AnyInv s g) {it : EdgesIt C} {t : C} {d : D}
    (ho : s.toOffset it.node = .ok (some it.offset)) (hb : it.state < s.axis.count ∨ it.state < s.axis.undirectedCount)
    (hd : s.axis.dirFromIndexUnchecked it.state = .ok d) (ht : s.moveCoord it.node d = .ok (some t)) :
    edgesMake g it d t ≠ .error .ub := by
  obtain ⟨h1, h2⟩ := rawId_safe hc hi it.dt ho hb hd ht
  have hs := hi.shape
  unfold edgesMake
  rw [hs]
  cases hr : it.dt.getRawId s d it.offset t it.state with
  | error f =>
    simp only [bind, Except.bind]
    intro h
    cases h
    exact h1 hr
  | ok r =>
    obtain ⟨nx, ne⟩ := r
    have h3 := h2 nx ne hr
    have h4 : (do let e ← g.edgeWeightUncheckedRaw nx ne
                  let (src, tgt) := if it.dt.needReverse then (t, it.node) else (it.node, t)
                  (.ok ⟨src, tgt, e, d⟩ : Res (EdgeRef C D E))) ≠ .error .ub := by
      cases hw : g.edgeWeightUncheckedRaw nx ne with
      | error f =>
        simp only [bind, Except.bind]
        intro h
        cases h
        exact h3 hw
      | ok w => simp only [bind, Except.bind]; exact fun h => (nomatch h)
    simp only [bind, Except.bind] at h4 ⊢
    cases hm : s.m.mode with
    | release => exact h4
    | debug =>
      cases hf : s.axis.fromDirection d with
      | error f =>
        simp only
        intro h
        cases h
        exact (hc.dirSafe d).2 hf
      | ok a =>
        simp only [debugAssert, hm]
        split
        · rename_i hx
          split at hx
          · cases hx
          · cases hx; exact fun h => (nomatch h)
        · exact h4

/-- The iterator stands at a cell the shape recognises. -/
def AtCell (s : Shape C A D) (it : EdgesIt C) : Prop := s.toOffset it.node = .ok (some it.offset)

theorem edgesNext_safe (hc : Contract s) (hi : AnyInv s g) (it : EdgesIt C) (ha : AtCell s it) :
    edgesNext g it ≠ .error .ub ∧ ∀ o it', edgesNext g it = .ok (o, it') → AtCell s it' := by
  have hs := hi.shape
  have key : ∀ n, ∀ it : EdgesIt C, AtCell s it → edgesBound g.s it.dt - it.state = n →
      edgesNext g it ≠ .error .ub ∧ ∀ o it', edgesNext g it = .ok (o, it') → AtCell s it' := by
    intro n
    induction n with
    | zero =>
      intro it ha hn
      unfold edgesNext
      rw [dif_neg (by omega)]
      exact ⟨fun h => (nomatch h), fun o it' h => by cases h; exact ha⟩
    | succ n ih =>
      intro it ha hn
      unfold edgesNext
      rw [dif_pos (by omega)]
      have hb : it.state < s.axis.count ∨ it.state < s.axis.undirectedCount := by
        have : it.state < edgesBound g.s it.dt := by omega
        unfold edgesBound at this
        rw [hs] at this
        split at this
        · exact .inl this
        · exact .inr this
      have hn' : edgesBound g.s it.dt - (it.state + 1) = n := by omega
      rw [hs]
      cases hd : s.axis.dirFromIndexUnchecked it.state with
      | error f =>
        refine ⟨fun h => hc.dirIndex _ hb (by rw [hd]; cases h; rfl), fun _ _ h => by cases h⟩
      | ok d =>
        simp only [bind, Except.bind]
        cases hm : s.moveCoord it.node d with
        | error f =>
          refine ⟨fun h => hc.safe.moveCoord it.node d (by rw [hm]; cases h; rfl), fun _ _ h => by cases h⟩
        | ok o =>
          cases o with
          | none => exact ih { it with state := it.state + 1 } ha hn'
          | some t =>
            have hk := make_safe hc hi ha hb hd hm
            simp only
            cases hr : edgesMake g it d t with
            | error f => refine ⟨fun h => hk (by rw [hr]; cases h; rfl), fun _ _ h => by cases h⟩
            | ok r => exact ⟨fun h => (nomatch h), fun o it' h => by cases h; exact ha⟩
  exact key _ it ha rfl

theorem umul_bound {m : Machine} {a b c : Nat} (h : umul m a b = .ok c) : c ≤ a * b := by
  unfold umul overflow at h
  split at h
  · cases h; exact Nat.le_refl _
  · cases hm : m.mode <;> rw [hm] at h <;> cases h
    exact Nat.mod_le _ _

theorem umul_safe (m : Machine) (a b : Nat) : umul m a b ≠ .error .ub := by
  unfold umul overflow
  intro h
  split at h
  · cases h
  · cases hm : m.mode <;> rw [hm] at h <;> cases h

/-- The cell with a number below the node count is one the shape recognises. -/
theorem cell_of_index (hc : Contract s) {i nc : Nat} (hn : s.nodeCount = .ok nc) (hi : i < nc) :
    s.indexToCoordinate i ≠ .error .ub ∧ ∀ c, s.indexToCoordinate i = .ok c → ∃ o, Stands s o ∧ s.toOffset c = .ok (some o) := by
  have hlt : i < s.horizontal * s.vertical := Nat.lt_of_lt_of_le hi (umul_bound hn)
  have hv : s.vertical ≠ 0 := by intro h; rw [h] at hlt; simp at hlt
  have ho : Stands s ⟨i / s.vertical, i % s.vertical⟩ :=
    ⟨Nat.div_lt_of_lt_mul (by rw [Nat.mul_comm]; exact hlt), Nat.mod_lt _ (by omega)⟩
  unfold Shape.indexToCoordinate Shape.indexToOffset
  rw [if_neg hv]
  simp only [bind, Except.bind]
  exact ⟨hc.safe.offsetToCoordinate _, fun c h => ⟨_, ho, hc.recognises _ c ho h⟩⟩

theorem edgeRefsLoop_safe (hc : Contract s) (hi : AnyInv s g) {nc : Nat} (hn : s.nodeCount = .ok nc) : ∀ (n : Nat) (it : EdgeRefsIt C),
    nc - it.index = n → (∀ e, it.e = some e → AtCell s e) →
    edgeRefsLoop g nc it ≠ .error .ub ∧ ∀ o it', edgeRefsLoop g nc it = .ok (o, it') → ∀ e, it'.e = some e → AtCell s e := by
  have hs := hi.shape
  have hpoll : ∀ e : Option (EdgesIt C), (∀ x, e = some x → AtCell s x) → edgeRefsPoll g e ≠ .error .ub ∧
      ∀ o e', edgeRefsPoll g e = .ok (o, e') → ∀ x, e' = some x → AtCell s x := by
    intro e he
    cases e with
    | none => exact ⟨fun h => (nomatch h), fun o e' h x hx => by cases h; cases hx⟩
    | some x =>
      have h1 := edgesNext_safe hc hi x (he x rfl)
      simp only [edgeRefsPoll, bind, Except.bind]
      cases hx : edgesNext g x with
      | error f => exact ⟨fun h => h1.1 (by rw [hx]; cases h; rfl), fun _ _ h => by cases h⟩
      | ok r =>
        obtain ⟨o, x'⟩ := r
        exact ⟨fun h => (nomatch h), fun o e' h y hy => by cases h; cases hy; exact h1.2 _ _ hx⟩
  intro n
  induction n with
  | zero =>
    intro it hn0 he
    have h1 := hpoll it.e he
    unfold edgeRefsLoop
    simp only [bind, Except.bind]
    cases hp : edgeRefsPoll g it.e with
    | error f => exact ⟨fun h => h1.1 (by rw [hp]; cases h; rfl), fun _ _ h => by cases h⟩
    | ok r =>
      obtain ⟨o, e'⟩ := r
      have h2 := h1.2 _ _ hp
      cases o with
      | some r => exact ⟨fun h => (nomatch h), fun _ _ h => by cases h; exact h2⟩
      | none =>
        simp only
        rw [dif_neg (by omega)]
        exact ⟨fun h => (nomatch h), fun _ _ h => by cases h; exact h2⟩
  | succ n ih =>
    intro it hn0 he
    have h1 := hpoll it.e he
    unfold edgeRefsLoop
    simp only [bind, Except.bind]
    cases hp : edgeRefsPoll g it.e with
    | error f => exact ⟨fun h => h1.1 (by rw [hp]; cases h; rfl), fun _ _ h => by cases h⟩
    | ok r =>
      obtain ⟨o, e'⟩ := r
      have h2 := h1.2 _ _ hp
      cases o with
      | some r => exact ⟨fun h => (nomatch h), fun _ _ h => by cases h; exact h2⟩
      | none =>
        simp only
        rw [dif_pos (show it.index < nc by omega), hs]
        have h3 := cell_of_index hc hn (show it.index < nc by omega)
        cases hx : s.indexToCoordinate it.index with
        | error f => exact ⟨fun h => h3.1 (by rw [hx]; cases h; rfl), fun _ _ h => by cases h⟩
        | ok c =>
          obtain ⟨o, -, ho⟩ := h3.2 c hx
          have h4 : edgesNewUnchecked g c = .ok ⟨c, o, 0, .axis⟩ := by
            simp only [edgesNewUnchecked, hs, ho, bind, Except.bind]
          simp only [h4]
          exact ih ⟨some ⟨c, o, 0, .axis⟩, it.index + 1⟩ (show nc - (it.index + 1) = n by omega) (fun e he => by cases he; exact ho)

/-- **C80.** With a shape that obeys the contract, construction with any closures is not undefined behaviour, and on a graph built by safe
calls neither are: weights read and written at any coordinate and axis; every call of `next` on `node_references`, on `neighbors` of any
coordinate, on `edges` and `edges_directed` of any coordinate the shape recognises, and on `edge_references`. -/
theorem c80_safe (hc : Contract s) :
    (∀ (n : σ → C → N × σ) (e : σ → C → A → E × σ) st, newWith s n e st ≠ .error .ub) ∧
    ∀ g : Graph C A D N E, SafelyBuilt s g →
      (∀ c a (f : N → N) (fe : E → E), g.nodeWeight c ≠ .error .ub ∧ g.modifyNode c f ≠ .error .ub ∧ g.edgeWeight c a ≠ .error .ub ∧
        g.modifyEdge c a fe ≠ .error .ub) ∧
      (∀ i, nodeRefsNext g i ≠ .error .ub) ∧
      (∀ c i, neighborsNext g.s c i ≠ .error .ub) ∧
      (∀ c o, s.toOffset c = .ok (some o) → ∀ start ∈ [g.edgesOf c, g.edgesDirected c .outgoing, g.edgesDirected c .incoming],
        ∃ it0, start = .ok it0 ∧ ∀ it, Reaches (edgesNext g) it0 it → edgesNext g it ≠ .error .ub) ∧
      (∀ it, Reaches (edgeRefsNext g) edgeRefsInit it → edgeRefsNext g it ≠ .error .ub) := by
  refine ⟨c76_new_with_partial hc.safe hc.axisIndex, fun g hb => ?_⟩
  have hi := hb.inv
  have hs := hi.shape
  refine ⟨fun c a f fe => c76_weights_safe_partial hc.safe hc.coherent hb c a f fe, fun i => ?_, fun c i => ?_, fun c o ho => ?_, fun it hr => ?_⟩
  · unfold nodeRefsNext
    rw [hs]
    simp only [bind, Except.bind]
    cases hn : s.nodeCount with
    | error f => intro h; exact umul_safe s.m s.horizontal s.vertical (by have := hn; unfold Shape.nodeCount at this; rw [this]; cases h; rfl)
    | ok nc =>
      simp only
      by_cases hlt : i < nc
      · rw [if_pos hlt]
        have h3 := cell_of_index hc hn hlt
        cases hx : s.indexToCoordinate i with
        | error f => intro h; exact h3.1 (by rw [hx]; cases h; rfl)
        | ok c =>
          obtain ⟨o, h4, ho⟩ := h3.2 c hx
          simp only [Graph.nodeWeightUnchecked, Graph.nodeWeightUncheckedRaw, hs, hc.unchecked c o ho, bind, Except.bind]
          cases hw : g.nodes.getUnwrapUnchecked o.horizontal o.vertical with
          | error f =>
            intro h
            cases h
            rcases (hi.nodes.getUnwrap_ub o.horizontal o.vertical).1 hw with h | ⟨-, h⟩
            · exact h h4
            · exact h trivial
          | ok w => intro h; cases h
      · rw [if_neg hlt]; intro h; cases h
  · rw [hs]
    fun_induction neighborsNext s c i with
    | case1 i hlt ih =>
      cases hd : s.axis.dirFromIndexUnchecked i with
      | error f => intro h; exact hc.dirIndex i (.inr hlt) (by rw [hd]; cases h; rfl)
      | ok d =>
        simp only [bind, Except.bind]
        cases hm : s.moveCoord c d with
        | error f => intro h; exact hc.safe.moveCoord c d (by rw [hm]; cases h; rfl)
        | ok o =>
          cases o with
          | none => exact ih
          | some t => intro h; cases h
    | case2 i hlt => intro h; cases h
  · have h4 : ∀ dt, edgesNewD g c dt = .ok ⟨c, o, 0, dt⟩ := fun dt => by simp only [edgesNewD, hs, ho, bind, Except.bind]
    have key : ∀ dt it, Reaches (edgesNext g) ⟨c, o, 0, dt⟩ it → edgesNext g it ≠ .error .ub := fun dt it hr =>
      (edgesNext_safe hc hi it (hr.inv (P := AtCell s) ho fun hp hn => (edgesNext_safe hc hi _ hp).2 _ _ hn)).1
    intro start hm
    simp only [List.mem_cons, List.not_mem_nil, or_false] at hm
    rcases hm with rfl | rfl | rfl
    · exact ⟨_, h4 _, key _⟩
    · exact ⟨_, h4 _, key _⟩
    · exact ⟨_, h4 _, key _⟩
  · have hstep : ∀ it : EdgeRefsIt C, (∀ e, it.e = some e → AtCell s e) → edgeRefsNext g it ≠ .error .ub ∧
        ∀ o it', edgeRefsNext g it = .ok (o, it') → ∀ e, it'.e = some e → AtCell s e := by
      intro it he
      unfold edgeRefsNext
      rw [hs]
      simp only [bind, Except.bind]
      cases hn : s.nodeCount with
      | error f =>
        exact ⟨fun h => umul_safe s.m s.horizontal s.vertical
          (by have := hn; unfold Shape.nodeCount at this; rw [this]; cases h; rfl), fun _ _ h => by cases h⟩
      | ok nc => exact edgeRefsLoop_safe hc hi hn _ it rfl he
    exact (hstep it (hr.inv (P := fun it : EdgeRefsIt C => ∀ e, it.e = some e → AtCell s e) (fun e h => by cases h)
      fun hp hn => (hstep _ hp).2 _ _ hn)).1

/-- **C80**, what exactly goes wrong otherwise, for any shape. Once an edge iterator has a target and has computed from where to read
the weight, reading is undefined behaviour iff that is not a slot `new_with` filled: the axis number is too large, the position is not in the
storage, or the shape did not announce an edge there. (A debug build may stop at its assertion before.) -/
theorem c80_read_iff {g : Graph C A D N E} (hb : SafelyBuilt s g) {it : EdgesIt C} {d : D} {t : C} {nx : Offset} {ne : Nat}
    (hr : it.dt.getRawId s d it.offset t it.state = .ok (nx, ne)) :
    edgesMake g it d t = .error .ub ↔
      (s.m.mode = .debug → ∃ a, s.axis.fromDirection d = .ok a ∧ s.axis.toIndex a = ne) ∧ (s.axis.count ≤ ne ∨ ¬ Stands s nx ∨ ¬ Announced s ne nx) ∨
      (s.m.mode = .debug ∧ s.axis.fromDirection d = .error .ub) := by
  have hi := hb.inv
  have hs := hi.shape
  have h1 : g.edgeWeightUncheckedRaw nx ne = .error .ub ↔ (s.axis.count ≤ ne ∨ ¬ Stands s nx ∨ ¬ Announced s ne nx) := by
    constructor
    · intro h
      by_cases h2 : s.axis.count ≤ ne
      · exact .inl h2
      · by_cases h3 : Stands s nx
        · by_cases h4 : Announced s ne nx
          · exact absurd h (raw_safe hi (by omega) h3 h4)
          · exact .inr (.inr h4)
        · exact .inr (.inl h3)
    · intro h
      simp only [Graph.edgeWeightUncheckedRaw, Graph.edgeArr]
      cases harr : g.edges[ne]? with
      | none => rfl
      | some arr =>
        have hlt := (List.getElem?_eq_some_iff.1 harr).1
        rw [hi.count] at hlt
        simp only [bind, Except.bind]
        refine ((hi.edges ne arr harr).getUnwrap_ub nx.horizontal nx.vertical).2 ?_
        by_cases h3 : Stands s nx
        · refine .inr ⟨h3, ?_⟩
          show ¬ Announced _ _ _
          rw [idx_div h3.2, idx_mod h3.2]
          rcases h with h | h | h
          · omega
          · exact absurd h3 h
          · exact h
        · exact .inl h3
  rw [← h1]
  unfold edgesMake
  rw [hs, hr]
  simp only [bind, Except.bind]
  cases hm : s.m.mode with
  | release =>
    simp only [reduceCtorEq, false_implies, false_and, or_false, true_and]
    cases hw : g.edgeWeightUncheckedRaw nx ne with
    | error f => simp
    | ok w => simp
  | debug =>
    cases hf : s.axis.fromDirection d with
    | error f => simp
    | ok a =>
      simp only [debugAssert, hm, Except.ok.injEq, exists_eq_left', true_implies, reduceCtorEq, and_false, or_false, beq_iff_eq]
      by_cases he : s.axis.toIndex a = ne
      · simp only [he, if_true, true_and]
        cases hw : g.edgeWeightUncheckedRaw nx ne with
        | error f => simp
        | ok w => simp
      · simp [he]

/-! ### Shapes that obey the contract -/

/-- Nothing like a lattice: every move, from anywhere, ends at the origin. -/
def drainSquare (m : Machine) (h v : Nat) : Shape Offset SquareAxis DSquareAxis :=
  { squareShape m h v with
    moveCoord := fun _ _ => .ok (some ⟨0, 0⟩)
    moveCoordUnchecked := defaultMoveCoordUnchecked m fun _ _ => .ok (some ⟨0, 0⟩)
    isNeighbor := defaultIsNeighbor (squareAxis m) fun _ _ => .ok (some ⟨0, 0⟩) }

theorem square_range {h v : Nat} {c o : Offset} (hh : (Except.ok (rangeCheck h v c) : Res (Option Offset)) = .ok (some o)) :
    c.horizontal < h ∧ c.vertical < v := by
  have := rangeCheck_some (Except.ok.inj hh)
  rw [this.2.2]
  exact ⟨this.1, this.2.1⟩

/-- Square lattices with any moves that satisfy the clause on backward directions. -/
theorem square_contract {m : Machine} {h v : Nat} {mv : Offset → DSquareAxis → Res (Option Offset)} (mu : Offset → DSquareAxis → Res Offset)
    (nb : Offset → Offset → Res Bool) (hsafe : ∀ c d, mv c d ≠ .error .ub)
    (hX : ∀ c t, c.horizontal < h → c.vertical < v → mv c .RX = .ok (some t) →
      t.horizontal < h ∧ t.vertical < v ∧ ∃ t', mv t .X = .ok (some t'))
    (hY : ∀ c t, c.horizontal < h → c.vertical < v → mv c .RY = .ok (some t) →
      t.horizontal < h ∧ t.vertical < v ∧ ∃ t', mv t .Y = .ok (some t')) :
    Contract { squareShape m h v with moveCoord := mv, moveCoordUnchecked := mu, isNeighbor := nb } where
  safe := ⟨fun c hh => (nomatch hh), fun o hh => (nomatch hh), hsafe, fun a hh => (nomatch hh)⟩
  dirSafe := by intro d; cases d <;> exact ⟨fun hh => (nomatch hh), fun hh => (nomatch hh)⟩
  backwardSafe := fun a hh => (nomatch hh)
  axisIndex := by
    intro j hj
    have : j < 2 := hj
    match j with
    | 0 => exact fun hh => (nomatch hh)
    | 1 => exact fun hh => (nomatch hh)
  dirIndex := by
    intro j hj
    have : j < 4 := by
      rcases hj with hj | hj
      · have : j < 2 := hj
        omega
      · exact hj
    match j with
    | 0 => exact fun hh => (nomatch hh)
    | 1 => exact fun hh => (nomatch hh)
    | 2 => exact fun hh => (nomatch hh)
    | 3 => exact fun hh => (nomatch hh)
  coherent := ⟨(slipSquare_coherent m h v).position, (slipSquare_coherent m h v).number⟩
  recognises := by
    intro o c ho hc
    cases hc
    exact congrArg Except.ok (rangeCheck_in ho.1 ho.2)
  unchecked := by
    intro c o ho
    exact congrArg Except.ok (rangeCheck_some (Except.ok.inj (ho : Except.ok (rangeCheck h v c) = _))).2.2
  forward := by
    intro j d hj hd hf
    have : j < 4 := by
      rcases hj with hj | hj
      · have : j < 2 := hj
        omega
      · exact hj
    match j with
    | 0 => cases hd; exact ⟨show 0 < 2 by decide, .X, rfl, rfl⟩
    | 1 => cases hd; exact ⟨show 1 < 2 by decide, .Y, rfl, rfl⟩
    | 2 => cases hd; cases hf
    | 3 => cases hd; cases hf
  back := by
    intro j d hj hd hf
    have : j < 4 := by
      rcases hj with hj | hj
      · have : j < 2 := hj
        omega
      · exact hj
    match j with
    | 0 => cases hd; cases hf
    | 1 => cases hd; cases hf
    | 2 =>
      cases hd
      refine ⟨show 2 ≤ 2 by decide, show 0 < 2 by decide, .X, .X, rfl, rfl, fun c o t ho ht => ?_⟩
      obtain ⟨h1, h2⟩ := square_range ho
      obtain ⟨h3, h4, t', h5⟩ := hX c t h1 h2 ht
      exact ⟨t, t', congrArg Except.ok (rangeCheck_in h3 h4), h5⟩
    | 3 =>
      cases hd
      refine ⟨show 2 ≤ 3 by decide, show 1 < 2 by decide, .Y, .Y, rfl, rfl, fun c o t ho ht => ?_⟩
      obtain ⟨h1, h2⟩ := square_range ho
      obtain ⟨h3, h4, t', h5⟩ := hY c t h1 h2 ht
      exact ⟨t, t', congrArg Except.ok (rangeCheck_in h3 h4), h5⟩
  incoming := fun hd => (nomatch hd)

/-- The contract is not about lattices: a shape whose every move ends at the origin obeys it. -/
theorem c80_drain {m : Machine} {h v : Nat} (hh : 0 < h) (hv : 0 < v) : Contract (drainSquare m h v) :=
  square_contract (mv := fun _ _ => .ok (some ⟨0, 0⟩)) _ _ (fun _ _ hh => (nomatch hh)) (fun c t _ _ ht => by cases ht; exact ⟨hh, hv, _, rfl⟩)
    (fun c t _ _ ht => by cases ht; exact ⟨hh, hv, _, rfl⟩)

/-- The square shape of the crate obeys it. -/
theorem c80_square {m : Machine} {h v : Nat} (hc : Constructible (squareShape m h v)) : Contract (squareShape m h v) := by
  refine square_contract (mv := squareMove m h v) _ _ (squareMove_safe m h v) (fun c t hx hy ht => ?_) (fun c t hx hy ht => ?_)
  · have hr : (Except.ok (c.subX 1) : Res (Option Offset)) = .ok (some t) := ht
    unfold Offset.subX at hr
    split at hr
    · cases hr
      have hw : h < 2 * m.half := hc.wordH
      refine ⟨show c.horizontal - 1 < h by omega, hy, ⟨c.horizontal - 1 + 1, c.vertical⟩, ?_⟩
      simp only [squareMove, Offset.addX, Offset.checkX, bind, Except.bind, uadd_ok (show c.horizontal - 1 + 1 < 2 * m.half by omega)]
      rw [if_pos (by omega)]
    · cases hr
  · have hr : (Except.ok (c.subY 1) : Res (Option Offset)) = .ok (some t) := ht
    unfold Offset.subY at hr
    split at hr
    · cases hr
      have hw : v < 2 * m.half := hc.wordV
      refine ⟨hx, show c.vertical - 1 < v by omega, ⟨c.horizontal, c.vertical - 1 + 1⟩, ?_⟩
      simp only [squareMove, Offset.addY, Offset.checkY, bind, Except.bind, uadd_ok (show c.vertical - 1 + 1 < 2 * m.half by omega)]
      rw [if_pos (by omega)]
    · cases hr

/-- The square shape with a slip (C76) does not. -/
theorem c80_slip {m : Machine} {h v : Nat} (hc : Constructible (squareShape m h v)) (hh : 1 ≤ h) (hv : 2 ≤ v) : ¬ Contract (slipSquare m h v) := by
  intro hk
  obtain ⟨-, -, g, st', hg, it, hit, hub⟩ := c76_slip_ub (N := Unit) (E := Unit) hc hh hv (fun (st : Unit) _ => ((), st)) (fun st _ _ => ((), st)) ()
  have hb : SafelyBuilt (slipSquare m h v) g := .new hg
  obtain ⟨it0, h1, h2⟩ := ((c80_safe (σ := Unit) hk).2 g hb).2.2.2.1 ⟨h - 1, v - 1⟩ ⟨h - 1, v - 1⟩
    (congrArg Except.ok (rangeCheck_in (show h - 1 < h by omega) (show v - 1 < v by omega))) (g.edgesOf ⟨h - 1, v - 1⟩) (by simp)
  rw [hit] at h1
  cases h1
  exact h2 _ (.refl _) hub

/-- A graph of the drain: it can be built, and walking the edges of its last cell is safe. -/
example : ∃ (g : Graph Offset SquareAxis DSquareAxis Nat Nat) (st' : Unit), newWith (drainSquare m64r 3 2) exN exE () = .ok (g, st') ∧
    ∃ it, g.edgesOf ⟨2, 1⟩ = .ok it ∧ edgesNext g it ≠ .error .ub := by
  have hr := looseSquare_returns (m := m64r) (h := 3) (v := 2) (by decide)
  obtain ⟨g, st', hg⟩ := c76_new_with_returns (s := drainSquare m64r 3 2)
    ⟨fun o _ => ⟨o, rfl⟩, hr.axis, fun a => ⟨_, rfl⟩, fun _ _ _ _ _ => ⟨_, rfl⟩⟩ (by decide) exN exE ()
  obtain ⟨it, h1, h2⟩ := ((c80_safe (σ := Unit) (c80_drain (by decide) (by decide))).2 g (.new hg)).2.2.2.1 ⟨2, 1⟩ ⟨2, 1⟩ rfl _ (List.mem_cons_self ..)
  exact ⟨g, st', hg, it, h1, h2 it (.refl _)⟩

example : Contract (squareShape m64 3 2) ∧ ¬ Contract (slipSquare m64 3 2) :=
  ⟨c80_square (by decide), c80_slip (by decide) (by decide) (by decide)⟩
/-- On the shape with the slip, a release build: reading a weight one row too high is undefined behaviour, in the storage it is not. -/
example : ∃ (g : Graph Offset SquareAxis DSquareAxis Nat Nat) (st' : Unit), newWith (slipSquare m64r 3 2) exN exE () = .ok (g, st') ∧
    ∀ (it : EdgesIt Offset) (t : Offset) (ne : Nat), it.dt.getRawId (slipSquare m64r 3 2) .X it.offset t it.state = .ok (⟨1, 7⟩, ne) →
      edgesMake g it .X t = .error .ub := by
  obtain ⟨-, -, g, st', hg, -⟩ := c76_slip_ub (m := m64r) (h := 3) (v := 2) (by decide) (by decide) (by decide) exN exE ()
  refine ⟨g, st', hg, fun it t ne hr => (c80_read_iff (.new hg) hr).2 (.inl ⟨fun h => (nomatch h), .inr (.inl fun h => ?_)⟩)⟩
  exact absurd h.2 (by decide)

end
end LG
