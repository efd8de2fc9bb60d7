import Verif.Props.Stored
import Verif.Model.Unwind
/- C70: construction with closures that panic. -/
set_option linter.unusedSectionVars false
namespace LG

/-- Make the calls in order until one panics (`none`): whether all returned, what they returned, and the state of what the
closures captured. -/
def runUntil {C A N E σ : Type} [DecidableEq C] [DecidableEq A] (n : σ → C → Option N × σ) (e : σ → C → A → Option E × σ) :
    List (Call C A) → σ → Contents C A N E → Bool × Contents C A N E × σ
  | [], st, k => (true, k, st)
  | .node c :: rest, st, k =>
    match n st c with
    | (none, st') => (false, k, st')
    | (some x, st') => runUntil n e rest st' { k with node := fun c' => if c' = c then some x else k.node c' }
  | .edge c a :: rest, st, k =>
    match e st c a with
    | (none, st') => (false, k, st')
    | (some x, st') =>
      runUntil n e rest st' { k with edge := fun c' a' => if c' = c ∧ a' = a then some x else k.edge c' a' }

section
variable {C A D N E σ : Type} [DecidableEq C] [DecidableEq A] [DecidableEq D]
variable {g : Graph C A D N E} {s : Shape C A D} {L : Lat C A D} {rep : C → Prop} {k : Contents C A N E}

theorem runUntil_append (n : σ → C → Option N × σ) (e : σ → C → A → Option E × σ) :
    ∀ (l1 l2 : List (Call C A)) (st : σ) (k : Contents C A N E),
    runUntil n e (l1 ++ l2) st k = if (runUntil n e l1 st k).1 then
      runUntil n e l2 (runUntil n e l1 st k).2.2 (runUntil n e l1 st k).2.1 else runUntil n e l1 st k
  | [], l2, st, k => rfl
  | .node c :: l1, l2, st, k => by
    rcases hx : n st c with ⟨_ | x, st'⟩ <;> simp only [List.cons_append, runUntil, hx]
    · rfl
    · exact runUntil_append n e l1 l2 _ _
  | .edge c a :: l1, l2, st, k => by
    rcases hx : e st c a with ⟨_ | x, st'⟩ <;> simp only [List.cons_append, runUntil, hx]
    · rfl
    · exact runUntil_append n e l1 l2 _ _

/-- Edge calls leave node weights and other entries alone. -/
theorem runUntil_edges (n : σ → C → Option N × σ) (e : σ → C → A → Option E × σ) (L : Lat C A D) (c : C) :
    ∀ (as : List A) (st : σ) (k : Contents C A N E),
    (runUntil n e (edgeCalls L c as) st k).2.1.node = k.node ∧
    ∀ c' a', (c' ≠ c ∨ a' ∉ as) → (runUntil n e (edgeCalls L c as) st k).2.1.edge c' a' = k.edge c' a'
  | [], st, k => ⟨rfl, fun _ _ _ => rfl⟩
  | a :: as, st, k => by
    by_cases h : (L.nbr c (L.fwd a)).isSome
    · have hc : edgeCalls L c (a :: as) = .edge c a :: edgeCalls L c as := by simp [edgeCalls, h]
      simp only [hc, runUntil]
      rcases e st c a with ⟨_ | x, st'⟩
      · exact ⟨rfl, fun _ _ _ => rfl⟩
      · obtain ⟨h1, h2⟩ := runUntil_edges n e L c as st'
          { k with edge := fun c' a' => if c' = c ∧ a' = a then some x else k.edge c' a' }
        refine ⟨h1, fun c' a' hh => ?_⟩
        rw [h2 c' a' (by simp only [List.mem_cons, not_or] at hh; exact hh.imp id And.right)]
        simp only
        rw [if_neg]
        rintro ⟨rfl, rfl⟩
        simp at hh
    · have hc : edgeCalls L c (a :: as) = edgeCalls L c as := by simp [edgeCalls, h]
      rw [hc]
      obtain ⟨h1, h2⟩ := runUntil_edges n e L c as st k
      exact ⟨h1, fun c' a' hh => h2 c' a' (by simp only [List.mem_cons, not_or] at hh; exact hh.imp id And.right)⟩

theorem newWithEdgesP_spec (hi : ImplBase s L rep) (hl : LatBase L) (n : σ → C → Option N × σ) (e : σ → C → A → Option E × σ)
    {x y : Nat} (hx : x < L.width) (hy : y < L.height) :
    ∀ (as : List A) (j : Nat) (es : List (Arr2 E)) (st : σ) (k : Contents C A N E), L.axes.drop j = as → as.Nodup →
      EdgesInv L k.edge es as →
      ∃ es', newWithEdgesP s e ⟨x, y⟩ (L.coord x y) j es st =
          .ok ((runUntil n e (edgeCalls L (L.coord x y) as) st k).1, es',
            (runUntil n e (edgeCalls L (L.coord x y) as) st k).2.2) ∧
        EdgesInv L (runUntil n e (edgeCalls L (L.coord x y) as) st k).2.1.edge es' as
  | [], j, [], st, k, _, _, _ => ⟨[], rfl, trivial⟩
  | a :: as, j, arr :: es, st, k, hd, hnd, hinv => by
    obtain ⟨⟨hj, hja⟩, hd'⟩ := drop_get hd
    obtain ⟨hna, hnd'⟩ := List.nodup_cons.1 hnd
    have hnode : L.Node (L.coord x y) := ⟨x, y, hx, hy, rfl⟩
    simp only [newWithEdgesP, hi.axis.fromIndex j hj, hja, hi.axis.foward, hi.move hnode, bind, Except.bind]
    cases hnb : L.nbr (L.coord x y) (L.fwd a) with
    | none =>
      obtain ⟨es', h1, h2⟩ := newWithEdgesP_spec hi hl n e hx hy as (j + 1) es st k hd' hnd' hinv.2
      have hc : edgeCalls L (L.coord x y) (a :: as) = edgeCalls L (L.coord x y) as := by
        simp [edgeCalls, hnb]
      rw [hc]
      simp only [h1]
      refine ⟨arr :: es', rfl, ?_, h2⟩
      refine hinv.1.congr fun c _ => ?_
      rw [(runUntil_edges n e L _ as st k).2 c a (.inr hna)]
    | some t =>
      have hc : edgeCalls L (L.coord x y) (a :: as) = .edge (L.coord x y) a :: edgeCalls L (L.coord x y) as := by
        simp [edgeCalls, hnb]
      rw [hc]
      simp only [runUntil]
      rcases e st (L.coord x y) a with ⟨_ | w, st1⟩
      · exact ⟨_, rfl, hinv⟩
      · obtain ⟨es', h1, h2⟩ := newWithEdgesP_spec hi hl n e hx hy as (j + 1) es st1
          { k with edge := fun c' a' => if c' = L.coord x y ∧ a' = a then some w else k.edge c' a' }
          hd' hnd' (hinv.2.congr fun c b _ hb => by
            simp only
            rw [if_neg]
            rintro ⟨_, rfl⟩
            exact hna hb)
        simp only [h1]
        refine ⟨_ :: es', rfl, ?_, h2⟩
        refine (hinv.1.writeIfPresent hl hx hy w).congr fun c _ => ?_
        rw [(runUntil_edges n e L _ as _ _).2 c a (.inr hna)]
        simp
  | [], _, _ :: _, _, _, _, _, h => h.elim
  | _ :: _, _, [], _, _, _, _, h => h.elim

theorem newWithNodesP_spec (hi : ImplBase s L rep) (hl : LatBase L) (n : σ → C → Option N × σ)
    (e : σ → C → A → Option E × σ) :
    ∀ (cnt i : Nat) (nodes : Arr2 N) (es : List (Arr2 E)) (st : σ) (k : Contents C A N E),
      i + cnt = L.width * L.height → ArrInv L nodes k.node → EdgesInv L k.edge es L.axes →
      ∃ nodes' es', newWithNodesP s n e i cnt nodes es st =
          .ok ((runUntil n e ((List.range' i cnt).flatMap fun i => callsAt L (L.at i)) st k).1, nodes', es',
            (runUntil n e ((List.range' i cnt).flatMap fun i => callsAt L (L.at i)) st k).2.2) ∧
        ArrInv L nodes' (runUntil n e ((List.range' i cnt).flatMap fun i => callsAt L (L.at i)) st k).2.1.node ∧
        EdgesInv L (runUntil n e ((List.range' i cnt).flatMap fun i => callsAt L (L.at i)) st k).2.1.edge es' L.axes
  | 0, i, nodes, es, st, k, _, hn, he => ⟨nodes, es, rfl, hn, he⟩
  | cnt + 1, i, nodes, es, st, k, hc, hn, he => by
    have hil : i < L.width * L.height := by omega
    have hx := div_lt_w hil
    have hy := mod_lt_h hil
    have hslot : i / L.height * L.height + i % L.height = i := idx_eta
    simp only [newWithNodesP, hi.indexToOffset hil, hi.offsetAt hil, bind, Except.bind, hn.len, if_pos hil,
      List.range'_succ, List.flatMap_cons, callsAt, List.cons_append, runUntil]
    rcases hcall : n st (L.at i) with ⟨_ | w, st1⟩
    · exact ⟨nodes, es, rfl, hn, he⟩
    · obtain ⟨es1, h1, h2⟩ := newWithEdgesP_spec hi hl n e hx hy L.axes 0 es st1
        { k with node := fun c' => if c' = L.at i then some w else k.node c' } rfl hl.dir.axes_nodup he
      rw [show L.coord (i / L.height) (i % L.height) = L.at i from rfl] at h1 h2
      have hw := hn.writeSlot hl hx hy w
      rw [hslot] at hw
      have hne := (runUntil_edges n e L (L.at i) L.axes st1
        { k with node := fun c' => if c' = L.at i then some w else k.node c' }).1
      simp only [h1]
      rw [runUntil_append]
      cases hb : (runUntil n e (edgeCalls L (L.at i) L.axes) st1
        { k with node := fun c' => if c' = L.at i then some w else k.node c' }).1 with
      | false =>
        simp only [Bool.false_eq_true, if_false, hb]
        exact ⟨_, es1, rfl, by rw [hne]; exact hw, h2⟩
      | true =>
        simp only [if_true]
        exact newWithNodesP_spec hi hl n e cnt (i + 1) _ es1 _ _ (by omega) (by rw [hne]; exact hw) h2

/-- Slot by slot, what the arrays of a graph hold: `none` is an unwritten slot. -/
structure Slots (L : Lat C A D) (g : Graph C A D N E) (k : Contents C A N E) : Prop where
  node : ∀ {x y : Nat}, x < L.width → y < L.height → g.nodes.data[x * L.height + y]? = some (k.node (L.coord x y))
  nodes : g.nodes.data.length = L.width * L.height
  edge : ∀ {j : Nat} {a : A}, L.axes[j]? = some a → ∃ arr : Arr2 E, g.edges[j]? = some arr ∧ arr.data.length = L.width * L.height ∧
    ∀ {x y : Nat}, x < L.width → y < L.height → arr.data[x * L.height + y]? = some (k.edge (L.coord x y) a)
  edges : g.edges.length = L.axes.length

/-- **C70.** `new_with` makes the calls `callSeq L` in order up to the first that panics and no other. It returns if none
panics and unwinds otherwise, without undefined behaviour; at that moment every value returned by a call is in the slot of that
call, and all other slots are unwritten. -/
theorem c70_new_with (hs : Storable s L rep) (hc : Constructible s) (n : σ → C → Option N × σ)
    (e : σ → C → A → Option E × σ) (st : σ) :
    ∃ g : Graph C A D N E, newWithP s n e st =
        .ok ((runUntil n e (callSeq L) st emptyContents).1, g, (runUntil n e (callSeq L) st emptyContents).2.2) ∧
      g.s = s ∧ Slots L g (runUntil n e (callSeq L) st emptyContents).2.1 := by
  have hi := (hs.impl hc)
  obtain ⟨g, h1, h2, h3⟩ := newUninit_spec (N := N) (E := E) hi.width hi.height hi.axis.count hc
  obtain ⟨nodes', es', h4, h5, h6⟩ := newWithNodesP_spec hi hs.base n e (L.width * L.height) 0 g.nodes g.edges st
    emptyContents (by omega) h3.nodes h3.edges
  rw [← List.range_eq_range', ← callSeq_eq] at *
  refine ⟨⟨nodes', es', s⟩, ?_, rfl, ⟨h5.slot, h5.len, fun hj => ?_, h6.length⟩⟩
  · simp only [newWithP, h1, hi.nodeCount, h4, bind, Except.bind]
  · obtain ⟨arr, h7, h8⟩ := h6.get hj
    exact ⟨arr, h7, h8.len, h8.slot⟩

/-- Which calls those are: all of them, or those before the first that panics. -/
theorem c70_stops_at (n : σ → C → Option N × σ) (e : σ → C → A → Option E × σ) :
    ∀ (l : List (Call C A)) (st : σ) (k : Contents C A N E), (runUntil n e l st k).1 = false →
    ∃ pre x post, l = pre ++ x :: post ∧ (runUntil n e pre st k).1 = true ∧
      (runUntil n e l st k).2.1 = (runUntil n e pre st k).2.1 ∧
      (none, (runUntil n e l st k).2.2) = match x with
        | .node c => ((n (runUntil n e pre st k).2.2 c).1.map fun _ => (), (n (runUntil n e pre st k).2.2 c).2)
        | .edge c a => ((e (runUntil n e pre st k).2.2 c a).1.map fun _ => (), (e (runUntil n e pre st k).2.2 c a).2)
  | [], st, k, h => by simp [runUntil] at h
  | .node c :: l, st, k, h => by
    rcases hx : n st c with ⟨_ | w, st'⟩
    · refine ⟨[], .node c, l, rfl, rfl, ?_, ?_⟩ <;> simp only [runUntil, hx] <;> rfl
    · simp only [runUntil, hx] at h
      obtain ⟨pre, x, post, h1, h2, h3, h4⟩ := c70_stops_at n e l _ _ h
      refine ⟨.node c :: pre, x, post, by rw [h1]; rfl, ?_, ?_, ?_⟩ <;> simp only [runUntil, hx]
      · exact h2
      · exact h3
      · exact h4
  | .edge c a :: l, st, k, h => by
    rcases hx : e st c a with ⟨_ | w, st'⟩
    · refine ⟨[], .edge c a, l, rfl, rfl, ?_, ?_⟩ <;> simp only [runUntil, hx] <;> rfl
    · simp only [runUntil, hx] at h
      obtain ⟨pre, x, post, h1, h2, h3, h4⟩ := c70_stops_at n e l _ _ h
      refine ⟨.edge c a :: pre, x, post, by rw [h1]; rfl, ?_, ?_, ?_⟩ <;> simp only [runUntil, hx]
      · exact h2
      · exact h3
      · exact h4

/-- **C70.** Unwinding runs no destructor on any slot, written or not: nothing is dropped twice or uninitialised (the weights
already made are leaked). -/
theorem c70_unwinding (g : Graph C A D N E) :
    ∃ ns es, dropUninit g = .ok (ns, es) ∧ (∀ x ∈ ns, x = 0) ∧ ∀ l ∈ es, ∀ x ∈ l, x = 0 := by
  refine ⟨_, _, rfl, ?_, ?_⟩ <;> simp

/-- **C70.** Had `new_with` worked on arrays of `N` and `E` instead of `MaybeUninit`, dropping them while unwinding would run a
destructor on an unwritten slot: the one of the call that panicked. -/
theorem c70_needs_uninit (hs : Storable s L rep) (hc : Constructible s) {n : σ → C → Option N × σ}
    {e : σ → C → A → Option E × σ} {st st' : σ} (h : newWithP s n e st = .ok (false, g, st')) :
    dropData g.nodes.data = .error .ub ∨ ∃ arr ∈ g.edges, dropData arr.data = .error .ub := by
  have ub : ∀ {α : Type} {l : List (Option α)} {i : Nat}, l[i]? = some none → dropData l = .error .ub := by
    intro α l
    induction l with
    | nil => intro i h; simp at h
    | cons x l ih =>
      intro i h
      cases x with
      | none => rfl
      | some x =>
        cases i with
        | zero => simp at h
        | succ i => simp only [dropData, ih (i := i) (by simpa using h), bind, Except.bind]
  obtain ⟨g', h1, -, h2⟩ := c70_new_with hs hc n e st
  rw [h] at h1
  simp only [Except.ok.injEq, Prod.mk.injEq] at h1
  obtain ⟨h1, rfl, rfl⟩ := h1
  obtain ⟨pre, x, post, h3, h4, h5, -⟩ := c70_stops_at n e (callSeq L) st emptyContents h1.symm
  have hnd : (callSeq L).Nodup := callSeq_nodup hs.base
  rw [h3] at hnd
  have hx : x ∉ pre := fun hm => (List.nodup_append.1 hnd).2.2 x hm x (by simp) rfl
  have hmem : x ∈ callSeq L := by rw [h3]; simp
  have hkeep : ∀ (l : List (Call C A)) (st : σ) (k : Contents C A N E),
      (∀ c, Call.node c ∉ l → (runUntil n e l st k).2.1.node c = k.node c) ∧
      (∀ c a, Call.edge c a ∉ l → (runUntil n e l st k).2.1.edge c a = k.edge c a) := by
    intro l
    induction l with
    | nil => intro st k; exact ⟨fun _ _ => rfl, fun _ _ _ => rfl⟩
    | cons y l ih =>
      intro st k
      cases y with
      | node c0 =>
        rcases hy : n st c0 with ⟨_ | w, st1⟩ <;> simp only [runUntil, hy]
        · exact ⟨fun _ _ => trivial, fun _ _ _ => trivial⟩
        · refine ⟨fun c hc => ?_, fun c a hc => ?_⟩
          · rw [(ih _ _).1 c (fun h => hc (List.mem_cons_of_mem _ h))]
            simp only
            rw [if_neg]
            rintro rfl; simp at hc
          · rw [(ih _ _).2 c a (fun h => hc (List.mem_cons_of_mem _ h))]
      | edge c0 a0 =>
        rcases hy : e st c0 a0 with ⟨_ | w, st1⟩ <;> simp only [runUntil, hy]
        · exact ⟨fun _ _ => trivial, fun _ _ _ => trivial⟩
        · refine ⟨fun c hc => ?_, fun c a hc => ?_⟩
          · rw [(ih _ _).1 c (fun h => hc (List.mem_cons_of_mem _ h))]
          · rw [(ih _ _).2 c a (fun h => hc (List.mem_cons_of_mem _ h))]
            simp only
            rw [if_neg]
            rintro ⟨rfl, rfl⟩; simp at hc
  cases x with
  | node c =>
    obtain ⟨x, y, hx', hy', rfl⟩ := mem_callSeq_node.1 hmem
    refine .inl (ub (i := x * L.height + y) ?_)
    rw [h2.node hx' hy', h5, (hkeep pre st emptyContents).1 _ hx]
    rfl
  | edge c a =>
    obtain ⟨⟨x, y, hx', hy', rfl⟩, -⟩ := (mem_callSeq_edge hs.base.dir).1 hmem
    obtain ⟨j, hj⟩ := List.getElem?_of_mem (hs.base.dir.axes_mem a)
    obtain ⟨arr, h6, -, h7⟩ := h2.edge hj
    refine .inr ⟨arr, List.mem_of_getElem? h6, ub (i := x * L.height + y) ?_⟩
    rw [h7 hx' hy', h5, (hkeep pre st emptyContents).2 _ _ hx]
    rfl

theorem newWithEdgesP_total {n : σ → C → A → Option E × σ} {n' : σ → C → A → E × σ} {o : Offset} {c : C}
    (hn : ∀ st c a x st', n st c a = (some x, st') → n' st c a = (x, st')) :
    ∀ (es : List (Arr2 E)) (j : Nat) (st : σ) {es' : List (Arr2 E)} {st' : σ},
    newWithEdgesP s n o c j es st = .ok (true, es', st') → newWithEdges s n' o c j es st = .ok (es', st')
  | [], j, st, es', st', h => by
    simp only [newWithEdgesP, Except.ok.injEq, Prod.mk.injEq, true_and] at h
    simp only [newWithEdges, h]
  | arr :: es, j, st, es', st', h => by
    simp only [newWithEdgesP, newWithEdges, bind, Except.bind] at h ⊢
    cases ha : s.axis.fromIndexUnchecked j with
    | error f => rw [ha] at h; cases h
    | ok a =>
      rw [ha] at h
      simp only at h ⊢
      cases hd : s.axis.foward a with
      | error f => rw [hd] at h; cases h
      | ok d =>
        rw [hd] at h
        simp only at h ⊢
        cases hm : s.moveCoord c d with
        | error f => rw [hm] at h; cases h
        | ok r =>
          rw [hm] at h
          cases r with
          | none =>
            simp only at h ⊢
            cases hr : newWithEdgesP s n o c (j + 1) es st with
            | error f => rw [hr] at h; cases h
            | ok r =>
              obtain ⟨b, es1, st1⟩ := r
              rw [hr] at h
              simp only [Except.ok.injEq, Prod.mk.injEq] at h
              obtain ⟨rfl, rfl, rfl⟩ := h
              rw [newWithEdgesP_total hn es (j + 1) st hr]
          | some t =>
            simp only at h ⊢
            rcases hx : n st c a with ⟨_ | w, st1⟩
            · rw [hx] at h; simp at h
            · rw [hx] at h
              rw [hn _ _ _ _ _ hx]
              simp only at h ⊢
              cases hr : newWithEdgesP s n o c (j + 1) es st1 with
              | error f => rw [hr] at h; cases h
              | ok r =>
                obtain ⟨b, es1, st2⟩ := r
                rw [hr] at h
                simp only [Except.ok.injEq, Prod.mk.injEq] at h
                obtain ⟨rfl, rfl, rfl⟩ := h
                rw [newWithEdgesP_total hn es (j + 1) st1 hr]

theorem newWithNodesP_total {n : σ → C → Option N × σ} {e : σ → C → A → Option E × σ} {n' : σ → C → N × σ}
    {e' : σ → C → A → E × σ} (hn : ∀ st c x st', n st c = (some x, st') → n' st c = (x, st'))
    (he : ∀ st c a x st', e st c a = (some x, st') → e' st c a = (x, st')) :
    ∀ (cnt i : Nat) (ns : Arr2 N) (es : List (Arr2 E)) (st : σ) {ns' : Arr2 N} {es' : List (Arr2 E)} {st' : σ},
    newWithNodesP s n e i cnt ns es st = .ok (true, ns', es', st') → newWithNodes s n' e' i cnt ns es st = .ok (ns', es', st')
  | 0, i, ns, es, st, ns', es', st', h => by
    simp only [newWithNodesP, Except.ok.injEq, Prod.mk.injEq, true_and] at h
    simp only [newWithNodes, h]
  | cnt + 1, i, ns, es, st, ns', es', st', h => by
    simp only [newWithNodesP, newWithNodes, bind, Except.bind] at h ⊢
    cases ho : s.indexToOffset i with
    | error f => rw [ho] at h; cases h
    | ok o =>
      rw [ho] at h
      simp only at h ⊢
      cases hc : s.offsetToCoordinate o with
      | error f => rw [hc] at h; cases h
      | ok c =>
        rw [hc] at h
        simp only at h ⊢
        by_cases hl : i < ns.data.length
        · rw [if_pos hl] at h ⊢
          rcases hx : n st c with ⟨_ | w, st1⟩
          · rw [hx] at h; simp at h
          · rw [hx] at h
            rw [hn _ _ _ _ hx]
            simp only at h ⊢
            cases hr : newWithEdgesP s e o c 0 es st1 with
            | error f => rw [hr] at h; cases h
            | ok r =>
              obtain ⟨b, es1, st2⟩ := r
              rw [hr] at h
              cases b with
              | false => simp at h
              | true =>
                simp only [if_true] at h
                rw [newWithEdgesP_total he es 0 st1 hr]
                exact newWithNodesP_total hn he cnt (i + 1) _ es1 st2 h
        · rw [if_neg hl] at h; cases h

/-- **C70.** If it returns, it returns the graph and the state that `new_with` returns for closures that do the same without
panicking. -/
theorem c70_returned {n : σ → C → Option N × σ} {e : σ → C → A → Option E × σ} {n' : σ → C → N × σ}
    {e' : σ → C → A → E × σ} (hn : ∀ st c x st', n st c = (some x, st') → n' st c = (x, st'))
    (he : ∀ st c a x st', e st c a = (some x, st') → e' st c a = (x, st')) {st st' : σ}
    (h : newWithP s n e st = .ok (true, g, st')) : newWith s n' e' st = .ok (g, st') := by
  simp only [newWithP, newWith, bind, Except.bind] at h ⊢
  cases h0 : (newUninit s : Res (Graph C A D N E)) with
  | error f => rw [h0] at h; cases h
  | ok g0 =>
    rw [h0] at h
    simp only at h ⊢
    cases h1 : s.nodeCount with
    | error f => rw [h1] at h; cases h
    | ok cnt =>
      rw [h1] at h
      simp only at h ⊢
      cases h2 : newWithNodesP s n e 0 cnt g0.nodes g0.edges st with
      | error f => rw [h2] at h; cases h
      | ok r =>
        obtain ⟨b, ns, es, st1⟩ := r
        rw [h2] at h
        simp only [Except.ok.injEq, Prod.mk.injEq] at h
        obtain ⟨rfl, rfl, rfl⟩ := h
        rw [newWithNodesP_total hn he _ _ _ _ _ h2]

end

/-- Example: the node closure of a 2 x 2 graph panics at its third call; five calls were made, two nodes and three edges
are in their slots. -/
example : ∃ g : Graph Offset SquareAxis DSquareAxis Nat Nat,
    newWithP (squareShape m64 2 2) (fun log c => (if c.horizontal = 1 then none else some 7, log ++ [Call.node c]))
      (fun log c a => (some 1, log ++ [Call.edge c a])) [] =
    .ok (false, g, [.node ⟨0, 0⟩, .edge ⟨0, 0⟩ .X, .edge ⟨0, 0⟩ .Y, .node ⟨0, 1⟩, .edge ⟨0, 1⟩ .X, .node ⟨1, 0⟩]) ∧
    g.nodes.data[1]? = some (some 7) ∧ g.nodes.data[2]? = some none := by
  obtain ⟨g, h1, -, h2⟩ := c70_new_with (.sound (.square m64 2 2)) (by decide)
    (fun log c => (if c.horizontal = 1 then none else some 7, log ++ [Call.node c]))
    (fun log c a => (some 1, log ++ [Call.edge c a])) []
  refine ⟨g, h1, ?_, ?_⟩
  · exact h2.node (x := 0) (y := 1) (by decide) (by decide)
  · exact h2.node (x := 1) (y := 0) (by decide) (by decide)

/-- The same program through the other statements: the call it stops at, what the unwinding drops, and that a graph of plain
weights could not be dropped. -/
example : ∃ pre x post, callSeq (squareLat 2 2) = pre ++ x :: post ∧
    (runUntil (fun (_ : Unit) (c : Offset) => (if c.horizontal = 1 then none else some 7, ()))
      (fun _ _ (_ : SquareAxis) => (some 1, ())) pre () emptyContents).1 = true := by
  obtain ⟨pre, x, post, h1, h2, -⟩ := c70_stops_at (fun (_ : Unit) (c : Offset) => (if c.horizontal = 1 then none else some 7, ()))
    (fun _ _ (_ : SquareAxis) => (some 1, ())) (callSeq (squareLat 2 2)) () emptyContents (by decide)
  exact ⟨pre, x, post, h1, h2⟩
example : ∃ g : Graph Offset SquareAxis DSquareAxis Nat Nat,
    newWithP (squareShape m64 2 2) (fun u c => (if c.horizontal = 1 then none else some 7, u))
      (fun u _ _ => (some 1, u)) () = .ok (false, g, ()) ∧
    (∃ ns es, dropUninit g = .ok (ns, es) ∧ (∀ x ∈ ns, x = 0) ∧ ∀ l ∈ es, ∀ x ∈ l, x = 0) ∧
    (dropData g.nodes.data = .error .ub ∨ ∃ arr ∈ g.edges, dropData arr.data = .error .ub) :=
  ⟨_, rfl, c70_unwinding _, c70_needs_uninit (.sound (.square m64 2 2)) (by decide)
    (n := fun u c => (if c.horizontal = 1 then none else some 7, u)) (e := fun u _ _ => (some 1, u)) (st := ()) (st' := ()) rfl⟩
example : ∃ g : Graph Offset SquareAxis DSquareAxis Nat Nat,
    newWithP (squareShape m64 2 2) (fun log c => (some c.vertical, log + 1)) (fun log _ _ => (some log, log + 1)) 0 =
      .ok (true, g, 8) ∧
    newWith (squareShape m64 2 2) (fun log c => (c.vertical, log + 1)) (fun log _ _ => (log, log + 1)) 0 = .ok (g, 8) :=
  ⟨_, rfl, c70_returned (n := fun log c => (some c.vertical, log + 1)) (e := fun log _ _ => (some log, log + 1))
    (by intro st c x st' h; cases h; rfl) (by intro st c a x st' h; cases h; rfl) (st := 0) (st' := 8) rfl⟩

end LG
