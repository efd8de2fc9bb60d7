import Verif.Model.LegacyUnwind
import Verif.Props.LegacyBuild
/- C74: `SquareGraph::new_with` with closures that panic. -/
set_option linter.unusedSectionVars false
namespace LG.Sq
section
variable {N E α σ : Type} {k : Cfg} {h v : Nat}

/-- Make the calls in order until one panics (`none`): whether all returned, the values returned in order, and the state of what
the closures captured. -/
def callUntil (fn : σ → Nat → Nat → Option N × σ) (fe : σ → Nat → Nat → Axis → Option E × σ) :
    List (Call NodeIx Axis) → σ → Bool × List (N ⊕ E) × σ
  | [], st => (true, [], st)
  | .node n :: l, st =>
    match fn st n.horizontal n.vertical with
    | (none, st') => (false, [], st')
    | (some x, st') => ((callUntil fn fe l st').1, .inl x :: (callUntil fn fe l st').2.1, (callUntil fn fe l st').2.2)
  | .edge n a :: l, st =>
    match fe st n.horizontal n.vertical a with
    | (none, st') => (false, [], st')
    | (some x, st') => ((callUntil fn fe l st').1, .inr x :: (callUntil fn fe l st').2.1, (callUntil fn fe l st').2.2)

/-- The weights of a graph: nodes, horizontal edges, vertical edges, each in order of position. -/
def G.weights (g : G N E) : List (N ⊕ E) :=
  g.nodes.data.map .inl ++ g.horizontal.data.map .inr ++ g.vertical.data.map .inr

/-- A closure that also writes down what it returned. -/
def logN (fn : σ → Nat → Nat → Option N × σ) : σ × List (N ⊕ E) → Nat → Nat → Option N × (σ × List (N ⊕ E)) :=
  fun st i j => ((fn st.1 i j).1, ((fn st.1 i j).2, st.2 ++ ((fn st.1 i j).1.map .inl).toList))

/-- A closure that also writes down what it returned. -/
def logE (fe : σ → Nat → Nat → Axis → Option E × σ) : σ × List (N ⊕ E) → Nat → Nat → Axis → Option E × (σ × List (N ⊕ E)) :=
  fun st i j a => ((fe st.1 i j a).1, ((fe st.1 i j a).2, st.2 ++ ((fe st.1 i j a).1.map .inr).toList))

/-! ### The loops -/

/-- Call `f` on the cells of the list in order until it panics. -/
def mapUntil (f : σ → NodeIx → Option α × σ) : List NodeIx → σ → Bool × List α × σ
  | [], st => (true, [], st)
  | n :: l, st =>
    match f st n with
    | (none, st') => (false, [], st')
    | (some x, st') => ((mapUntil f l st').1, x :: (mapUntil f l st').2.1, (mapUntil f l st').2.2)

theorem mapUntil_append (f : σ → NodeIx → Option α × σ) : ∀ (l l' : List NodeIx) (st : σ),
    mapUntil f (l ++ l') st = if (mapUntil f l st).1 then
      ((mapUntil f l' (mapUntil f l st).2.2).1, (mapUntil f l st).2.1 ++ (mapUntil f l' (mapUntil f l st).2.2).2.1,
        (mapUntil f l' (mapUntil f l st).2.2).2.2)
      else mapUntil f l st
  | [], l', st => by simp [mapUntil]
  | n :: l, l', st => by
    rw [List.cons_append]
    rcases hx : f st n with ⟨_ | x, st'⟩
    · simp [mapUntil, hx]
    · simp only [mapUntil, hx, mapUntil_append f l l']
      split <;> simp_all

theorem fillRowP_eq (f : σ → Nat → Nat → Option α × σ) (hi : Nat) : ∀ (cnt vi : Nat) (st : σ), fillRowP f hi vi cnt st =
    mapUntil (fun st n => f st n.horizontal n.vertical) ((List.range' vi cnt).map fun j => ⟨hi, j⟩) st
  | 0, vi, st => rfl
  | cnt + 1, vi, st => by
    simp only [fillRowP, List.range'_succ, List.map_cons, mapUntil]
    rcases hx : f st hi vi with ⟨_ | x, st'⟩
    · rfl
    · simp only [fillRowP_eq f hi cnt]

theorem fillP_eq' (f : σ → Nat → Nat → Option α × σ) (v : Nat) : ∀ (cnt hi : Nat) (st : σ), fillP f v hi cnt st =
    mapUntil (fun st n => f st n.horizontal n.vertical)
      ((List.range' hi cnt).flatMap fun i => (List.range v).map fun j => ⟨i, j⟩) st
  | 0, hi, st => rfl
  | cnt + 1, hi, st => by
    simp only [fillP, List.range'_succ, List.flatMap_cons, mapUntil_append, fillRowP_eq, ← List.range_eq_range']
    rcases hr : mapUntil (fun st n => f st n.horizontal n.vertical) ((List.range v).map fun j => ⟨hi, j⟩) st with ⟨_ | _, row, st'⟩
    · rfl
    · simp only [fillP_eq' f v cnt, if_true]

theorem fillP_eq (f : σ → Nat → Nat → Option α × σ) (r c : Nat) (st : σ) :
    fillP f c 0 r st = mapUntil (fun st n => f st n.horizontal n.vertical) (cells r c) st := by
  rw [fillP_eq', ← List.range_eq_range']; rfl

theorem mapUntil_logN (fn : σ → Nat → Nat → Option N × σ) : ∀ (l : List NodeIx) (st : σ) (log : List (N ⊕ E)),
    mapUntil (fun st n => logN fn st n.horizontal n.vertical) l (st, log) =
      ((mapUntil (fun st n => fn st n.horizontal n.vertical) l st).1, (mapUntil (fun st n => fn st n.horizontal n.vertical) l st).2.1,
        ((mapUntil (fun st n => fn st n.horizontal n.vertical) l st).2.2,
          log ++ (mapUntil (fun st n => fn st n.horizontal n.vertical) l st).2.1.map .inl))
  | [], st, log => by simp [mapUntil]
  | n :: l, st, log => by
    rcases hx : fn st n.horizontal n.vertical with ⟨_ | x, st'⟩
    · simp [mapUntil, logN, hx]
    · have ih := mapUntil_logN fn l st' (log ++ [.inl x])
      simp only [mapUntil, logN, hx, Option.map_some, Option.toList_some] at ih ⊢
      rw [ih]
      simp

theorem mapUntil_logE (fe : σ → Nat → Nat → Axis → Option E × σ) (a : Axis) : ∀ (l : List NodeIx) (st : σ) (log : List (N ⊕ E)),
    mapUntil (fun st n => logE fe st n.horizontal n.vertical a) l (st, log) =
      ((mapUntil (fun st n => fe st n.horizontal n.vertical a) l st).1,
        (mapUntil (fun st n => fe st n.horizontal n.vertical a) l st).2.1,
        ((mapUntil (fun st n => fe st n.horizontal n.vertical a) l st).2.2,
          log ++ (mapUntil (fun st n => fe st n.horizontal n.vertical a) l st).2.1.map .inr))
  | [], st, log => by simp [mapUntil]
  | n :: l, st, log => by
    rcases hx : fe st n.horizontal n.vertical a with ⟨_ | x, st'⟩
    · simp [mapUntil, logE, hx]
    · have ih := mapUntil_logE fe a l st' (log ++ [.inr x])
      simp only [mapUntil, logE, hx, Option.map_some, Option.toList_some] at ih ⊢
      rw [ih]
      simp

theorem fillP_logN (fn : σ → Nat → Nat → Option N × σ) (r c : Nat) (st : σ) (log : List (N ⊕ E)) :
    fillP (logN fn) c 0 r (st, log) = ((fillP fn c 0 r st).1, (fillP fn c 0 r st).2.1,
      ((fillP fn c 0 r st).2.2, log ++ (fillP fn c 0 r st).2.1.map .inl)) := by
  rw [fillP_eq, fillP_eq]; exact mapUntil_logN fn _ st log

theorem fillP_logE (fe : σ → Nat → Nat → Axis → Option E × σ) (a : Axis) (r c : Nat) (st : σ) (log : List (N ⊕ E)) :
    fillP (fun st hi vi => logE fe st hi vi a) c 0 r (st, log) =
      ((fillP (fun st hi vi => fe st hi vi a) c 0 r st).1, (fillP (fun st hi vi => fe st hi vi a) c 0 r st).2.1,
      ((fillP (fun st hi vi => fe st hi vi a) c 0 r st).2.2,
        log ++ (fillP (fun st hi vi => fe st hi vi a) c 0 r st).2.1.map .inr)) := by
  rw [fillP_eq, fillP_eq]; exact mapUntil_logE fe a _ st log

/-! ### Every value is dropped once -/

theorem overflow_panics {m : Machine} {x : Nat} : ∀ f, overflow m x = .error f → f = .panic := by
  intro f h
  unfold overflow at h
  cases hm : m.mode <;> rw [hm] at h <;> cases h
  rfl

theorem umul_panics {m : Machine} {a b : Nat} : ∀ f, umul m a b = .error f → f = .panic := by
  intro f h
  unfold umul at h
  by_cases hc : a * b < 2 * m.half
  · rw [if_pos hc] at h; cases h
  · rw [if_neg hc] at h; exact overflow_panics f h

theorem edgeLen_panics {m : Machine} {b : Bool} {a : Nat} : ∀ f, G.edgeLen m b a = .error f → f = .panic := by
  intro f h
  unfold G.edgeLen usub at h
  by_cases hb : b = true
  · rw [if_pos hb] at h; cases h
  · rw [if_neg hb] at h
    by_cases hc : 1 ≤ a
    · rw [if_pos hc] at h; cases h
    · rw [if_neg hc] at h; exact overflow_panics f h

theorem shape_cases (m : Machine) (r c : Nat) (l : List α) :
    Arr.fromShapeVec m r c l = .error .panic ∨ Arr.fromShapeVec m r c l = .ok ⟨r, c, l⟩ := by
  unfold Arr.fromShapeVec
  by_cases hc : (if r = 0 then 1 else r) * (if c = 0 then 1 else c) < m.half ∧ l.length = r * c
  · rw [if_pos hc]; exact .inr rfl
  · rw [if_neg hc]; exact .inl rfl

theorem newRaw_cases (k : Cfg) (nodes : Arr N) (ho ve : Arr E) :
    G.newRaw k nodes ho ve = .error .panic ∨ G.newRaw k nodes ho ve = .ok ⟨k, nodes, ho, ve⟩ := by
  unfold G.newRaw debugAssert
  cases hm : k.m.mode
  · cases hc : (⟨k, nodes, ho, ve⟩ : G N E).checkGen
    · exact .inl (by simp [hc, bind, Except.bind])
    · exact .inr (by simp [hc, bind, Except.bind])
  · exact .inr rfl

/-- Where the values are at the end. -/
def Exit.Owns : Exit N E → List (N ⊕ E) → Prop
  | .returned g, log => g.weights = log
  | .unwound d, log => d.Perm log

/-- **C74.** For all sides, accepted or not, and all closures, `new_with` returns or unwinds without undefined behaviour, and what the
closures returned until then is either in the graph, in order, or has been dropped, each value exactly once. (`logN` and `logE`
write down what the closures return; doing so changes nothing.) -/
theorem c74_drops_once (k : Cfg) (h v : Nat) (fn : σ → Nat → Nat → Option N × σ) (fe : σ → Nat → Nat → Axis → Option E × σ)
    (st : σ) : ∃ x st' log, newWithP k h v fn fe st = .ok (x, st') ∧
      newWithP k h v (logN fn) (logE fe) (st, ([] : List (N ⊕ E))) = .ok (x, (st', log)) ∧ x.Owns log := by
  unfold newWithP
  by_cases hh : h = 0
  · exact ⟨.unwound [], st, [], by rw [if_pos hh], by rw [if_pos hh], .refl _⟩
  simp only [if_neg hh]
  cases e1 : umul k.m h v with
  | error f => rw [umul_panics f e1]; exact ⟨_, _, _, rfl, rfl, .refl _⟩
  | ok x1 =>
  simp only [orUnwind]
  have l1 := fillP_logN (E := E) fn h v st []
  rw [l1]
  rcases fillP fn v 0 h st with ⟨_ | _, ns, st1⟩
  · exact ⟨_, _, _, rfl, rfl, .refl _⟩
  simp only [List.nil_append]
  rcases shape_cases k.m h v ns with e2 | e2
  · rw [e2]; exact ⟨_, _, _, rfl, rfl, .refl _⟩
  rw [e2]
  cases e3 : G.edgeLen k.m k.loopH h with
  | error f => rw [edgeLen_panics f e3]; exact ⟨_, _, _, rfl, rfl, .refl _⟩
  | ok mh =>
  simp only
  cases e4 : umul k.m mh v with
  | error f => rw [umul_panics f e4]; exact ⟨_, _, _, rfl, rfl, .refl _⟩
  | ok x2 =>
  simp only
  have l2 := fillP_logE (N := N) fe .horizontal mh v st1 (ns.map .inl)
  rw [l2]
  rcases fillP (fun st hi vi => fe st hi vi .horizontal) v 0 mh st1 with ⟨_ | _, hs, st2⟩
  · exact ⟨_, _, _, rfl, rfl, List.perm_append_comm⟩
  simp only
  rcases shape_cases k.m mh v hs with e5 | e5
  · rw [e5]; exact ⟨_, _, _, rfl, rfl, List.perm_append_comm⟩
  rw [e5]
  cases e6 : G.edgeLen k.m k.loopV v with
  | error f => rw [edgeLen_panics f e6]; exact ⟨_, _, _, rfl, rfl, List.perm_append_comm⟩
  | ok mv =>
  simp only
  cases e7 : umul k.m h mv with
  | error f => rw [umul_panics f e7]; exact ⟨_, _, _, rfl, rfl, List.perm_append_comm⟩
  | ok x3 =>
  simp only
  have l3 := fillP_logE (N := N) fe .vertical h mv st2 (ns.map .inl ++ hs.map .inr)
  rw [l3]
  have perm : ∀ vs : List E, (vs.map .inr ++ (hs.map .inr ++ ns.map .inl) : List (N ⊕ E)).Perm
      (ns.map .inl ++ hs.map .inr ++ vs.map .inr) := fun vs =>
    List.perm_append_comm.trans (List.Perm.append_right _ List.perm_append_comm)
  rcases fillP (fun st hi vi => fe st hi vi .vertical) mv 0 h st2 with ⟨_ | _, vs, st3⟩
  · exact ⟨_, _, _, rfl, rfl, perm vs⟩
  simp only
  rcases shape_cases k.m h mv vs with e8 | e8
  · rw [e8]; exact ⟨_, _, _, rfl, rfl, perm vs⟩
  rw [e8]
  simp only
  rcases newRaw_cases k ⟨h, v, ns⟩ ⟨mh, v, hs⟩ ⟨h, mv, vs⟩ with e9 | e9
  · rw [e9]; exact ⟨_, _, _, rfl, rfl, by rw [List.append_assoc]; exact .refl _⟩
  · rw [e9]; exact ⟨_, _, _, rfl, rfl, rfl⟩

/-! ### Agreement with the model without panics -/

theorem mapUntil_total (f : σ → NodeIx → α × σ) : ∀ (l : List NodeIx) (st : σ),
    mapUntil (fun st n => (some (f st n).1, (f st n).2)) l st = (true, (mapAcc f l st).1, (mapAcc f l st).2)
  | [], st => rfl
  | n :: l, st => by simp only [mapUntil, mapAcc, mapUntil_total f l]

theorem fillP_total (f : σ → Nat → Nat → α × σ) (r c : Nat) (st : σ) :
    fillP (fun st i j => (some (f st i j).1, (f st i j).2)) c 0 r st = (true, (fill f c 0 r st).1, (fill f c 0 r st).2) := by
  rw [fillP_eq, fill_eq]
  exact mapUntil_total (fun st n => f st n.horizontal n.vertical) _ st

/-- **C74.** With closures that never panic this is `new_with` as it was modelled before: it returns the same graph, and unwinds
where that panics. -/
theorem c74_total (k : Cfg) (h v : Nat) (fn : σ → Nat → Nat → N × σ) (fe : σ → Nat → Nat → Axis → E × σ) (st : σ) :
    (∃ g st', G.newWith k h v fn fe st = .ok (g, st') ∧
      newWithP k h v (fun st i j => (some (fn st i j).1, (fn st i j).2)) (fun st i j a => (some (fe st i j a).1, (fe st i j a).2)) st =
        .ok (.returned g, st')) ∨
    (G.newWith k h v fn fe st = .error .panic ∧ ∃ d st',
      newWithP k h v (fun st i j => (some (fn st i j).1, (fn st i j).2)) (fun st i j a => (some (fe st i j a).1, (fe st i j a).2)) st =
        .ok (.unwound d, st')) := by
  unfold newWithP G.newWith
  by_cases hh : h = 0
  · exact .inr ⟨by rw [if_pos hh], _, _, by rw [if_pos hh]⟩
  simp only [if_neg hh, bind, Except.bind, fillP_total]
  cases e1 : umul k.m h v with
  | error f => rw [umul_panics f e1]; exact .inr ⟨rfl, _, _, rfl⟩
  | ok x1 =>
  simp only [orUnwind]
  rcases shape_cases k.m h v (fill fn v 0 h st).1 with e2 | e2
  · rw [e2]; exact .inr ⟨rfl, _, _, rfl⟩
  rw [e2]
  cases e3 : G.edgeLen k.m k.loopH h with
  | error f => rw [edgeLen_panics f e3]; exact .inr ⟨rfl, _, _, rfl⟩
  | ok mh =>
  simp only
  cases e4 : umul k.m mh v with
  | error f => rw [umul_panics f e4]; exact .inr ⟨rfl, _, _, rfl⟩
  | ok x2 =>
  simp only
  rcases shape_cases k.m mh v (fill (fun st hi vi => fe st hi vi .horizontal) v 0 mh (fill fn v 0 h st).2).1 with e5 | e5
  · rw [e5]; exact .inr ⟨rfl, _, _, rfl⟩
  rw [e5]
  cases e6 : G.edgeLen k.m k.loopV v with
  | error f => rw [edgeLen_panics f e6]; exact .inr ⟨rfl, _, _, rfl⟩
  | ok mv =>
  simp only
  cases e7 : umul k.m h mv with
  | error f => rw [umul_panics f e7]; exact .inr ⟨rfl, _, _, rfl⟩
  | ok x3 =>
  simp only
  rcases shape_cases k.m h mv (fill (fun st hi vi => fe st hi vi .vertical) mv 0 h
    (fill (fun st hi vi => fe st hi vi .horizontal) v 0 mh (fill fn v 0 h st).2).2).1 with e8 | e8
  · rw [e8]; exact .inr ⟨rfl, _, _, rfl⟩
  rw [e8]
  simp only
  rcases newRaw_cases k ⟨h, v, (fill fn v 0 h st).1⟩
    ⟨mh, v, (fill (fun st hi vi => fe st hi vi .horizontal) v 0 mh (fill fn v 0 h st).2).1⟩
    ⟨h, mv, (fill (fun st hi vi => fe st hi vi .vertical) mv 0 h
      (fill (fun st hi vi => fe st hi vi .horizontal) v 0 mh (fill fn v 0 h st).2).2).1⟩ with e9 | e9
  · rw [e9]; exact .inr ⟨rfl, _, _, rfl⟩
  · rw [e9]; exact .inl ⟨_, _, rfl, rfl⟩

/-! ### Which calls are made -/

theorem callUntil_append (fn : σ → Nat → Nat → Option N × σ) (fe : σ → Nat → Nat → Axis → Option E × σ) :
    ∀ (l l' : List (Call NodeIx Axis)) (st : σ),
    callUntil fn fe (l ++ l') st = if (callUntil fn fe l st).1 then
      ((callUntil fn fe l' (callUntil fn fe l st).2.2).1,
        (callUntil fn fe l st).2.1 ++ (callUntil fn fe l' (callUntil fn fe l st).2.2).2.1,
        (callUntil fn fe l' (callUntil fn fe l st).2.2).2.2)
      else callUntil fn fe l st
  | [], l', st => by simp [callUntil]
  | .node n :: l, l', st => by
    rw [List.cons_append]
    rcases hx : fn st n.horizontal n.vertical with ⟨_ | x, st'⟩
    · simp [callUntil, hx]
    · simp only [callUntil, hx, callUntil_append fn fe l l']
      split <;> simp_all
  | .edge n a :: l, l', st => by
    rw [List.cons_append]
    rcases hx : fe st n.horizontal n.vertical a with ⟨_ | x, st'⟩
    · simp [callUntil, hx]
    · simp only [callUntil, hx, callUntil_append fn fe l l']
      split <;> simp_all

theorem callUntil_nodes (fn : σ → Nat → Nat → Option N × σ) (fe : σ → Nat → Nat → Axis → Option E × σ) :
    ∀ (l : List NodeIx) (st : σ), callUntil fn fe (l.map .node) st =
      ((mapUntil (fun st n => fn st n.horizontal n.vertical) l st).1,
        (mapUntil (fun st n => fn st n.horizontal n.vertical) l st).2.1.map .inl,
        (mapUntil (fun st n => fn st n.horizontal n.vertical) l st).2.2)
  | [], st => rfl
  | n :: l, st => by
    rcases hx : fn st n.horizontal n.vertical with ⟨_ | x, st'⟩
    · simp [callUntil, mapUntil, hx]
    · simp [callUntil, mapUntil, hx, callUntil_nodes fn fe l]

theorem callUntil_edges (fn : σ → Nat → Nat → Option N × σ) (fe : σ → Nat → Nat → Axis → Option E × σ) (a : Axis) :
    ∀ (l : List NodeIx) (st : σ), callUntil fn fe (l.map fun n => .edge n a) st =
      ((mapUntil (fun st n => fe st n.horizontal n.vertical a) l st).1,
        (mapUntil (fun st n => fe st n.horizontal n.vertical a) l st).2.1.map .inr,
        (mapUntil (fun st n => fe st n.horizontal n.vertical a) l st).2.2)
  | [], st => rfl
  | n :: l, st => by
    rcases hx : fe st n.horizontal n.vertical a with ⟨_ | x, st'⟩
    · simp [callUntil, mapUntil, hx]
    · simp [callUntil, mapUntil, hx, callUntil_edges fn fe a l]

theorem mapUntil_length (f : σ → NodeIx → Option α × σ) : ∀ (l : List NodeIx) (st : σ) (xs : List α) (st' : σ),
    mapUntil f l st = (true, xs, st') → xs.length = l.length
  | [], st, xs, st', h => by simp only [mapUntil, Prod.mk.injEq] at h; rw [← h.2.1]; rfl
  | n :: l, st, xs, st', h => by
    rcases hx : f st n with ⟨_ | x, st1⟩
    · simp [mapUntil, hx] at h
    · simp only [mapUntil, hx, Prod.mk.injEq] at h
      rw [← h.2.1, List.length_cons, List.length_cons,
        mapUntil_length f l st1 _ _ (Prod.ext h.1 (Prod.ext rfl rfl))]

/-- **C74.** For sides `new_with` accepts, the calls are those of the undisturbed run, up to and including the first that panics:
nodes, then horizontal, then vertical edges. The graph is returned exactly if none of them panics. -/
theorem c74_calls (k : Cfg) {h v : Nat} (hh : 0 < h) (hv : 0 < v) (hs : h * v < k.m.half)
    (fn : σ → Nat → Nat → Option N × σ) (fe : σ → Nat → Nat → Axis → Option E × σ) (st : σ) :
    ∃ x, newWithP k h v fn fe st = .ok (x, (callUntil fn fe (callSeq (k.grid h v)) st).2.2) ∧
      x.Owns (callUntil fn fe (callSeq (k.grid h v)) st).2.1 ∧
      ((∃ g, x = .returned g) ↔ (callUntil fn fe (callSeq (k.grid h v)) st).1 = true) := by
  have hmh := (k.grid h v).mh_le
  have hmv := (k.grid h v).mv_le
  have emh : G.edgeLen k.m k.loopH h = .ok (k.grid h v).mh := by
    unfold G.edgeLen Grid.mh Cfg.grid
    split
    · rfl
    · exact usub_ok hh
  have emv : G.edgeLen k.m k.loopV v = .ok (k.grid h v).mv := by
    unfold G.edgeLen Grid.mv Cfg.grid
    split
    · rfl
    · exact usub_ok hv
  have hsh : (k.grid h v).h = h := rfl
  have hsv : (k.grid h v).v = v := rfl
  have hlh : (k.grid h v).loopH = k.loopH := rfl
  have hlv : (k.grid h v).loopV = k.loopV := rfl
  generalize hse : k.grid h v = s at *
  have hm := k.m.half_ge
  have hle1 : s.mh * v ≤ h * v := Nat.mul_le_mul_right v (by omega)
  have hle2 : h * s.mv ≤ h * v := Nat.mul_le_mul_left h (by omega)
  rw [callSeq_eq, callUntil_append, callUntil_append, hsh, hsv]
  simp only [callUntil_nodes, callUntil_edges]
  unfold newWithP
  rw [if_neg (by omega)]
  simp only [orUnwind, umul_ok (m := k.m) (a := h) (b := v) (by omega), fillP_eq, emh, emv,
    umul_ok (m := k.m) (a := s.mh) (b := v) (by omega), umul_ok (m := k.m) (a := h) (b := s.mv) (by omega)]
  rcases q1 : mapUntil (fun st n => fn st n.horizontal n.vertical) (cells h v) st with ⟨_ | _, ns, st1⟩
  · exact ⟨_, rfl, .refl _, by simp⟩
  have w1 := mapUntil_length _ _ _ _ _ q1
  rw [cells_length] at w1
  simp only [if_true, fromShapeVec_ok (nz_le hh (Nat.le_refl v) hv hs) w1]
  rcases q2 : mapUntil (fun st n => fe st n.horizontal n.vertical .horizontal) (cells s.mh v) st1 with ⟨_ | _, hs', st2⟩
  · exact ⟨_, rfl, List.perm_append_comm, by simp⟩
  have w2 := mapUntil_length _ _ _ _ _ q2
  rw [cells_length] at w2
  simp only [if_true, fromShapeVec_ok (nz_le' hv (by omega) hh hs : _ < k.m.half) w2]
  rcases q3 : mapUntil (fun st n => fe st n.horizontal n.vertical .vertical) (cells h s.mv) st2 with ⟨_ | _, vs, st3⟩
  · exact ⟨_, rfl, List.perm_append_comm.trans (List.Perm.append_right _ List.perm_append_comm), by simp⟩
  have w3 := mapUntil_length _ _ _ _ _ q3
  rw [cells_length] at w3
  simp only [fromShapeVec_ok (nz_le hh (by omega) hv hs : _ < k.m.half) w3]
  have hcheck : G.checkGen (N := N) (E := E) ⟨k, ⟨h, v, ns⟩, ⟨s.mh, v, hs'⟩, ⟨h, s.mv, vs⟩⟩ = true := by
    unfold G.checkGen Grid.mh Grid.mv
    rw [hlh, hlv, hsh, hsv]
    simp only [decide_true, Bool.and_true, Bool.and_eq_true, decide_eq_true_eq]
    constructor
    · split <;> omega
    · split <;> omega
  simp only [G.newRaw, debugAssert_true hcheck, bind, Except.bind]
  exact ⟨_, rfl, rfl, by simp⟩

end

/-! ### Concrete cases

Closures that count their calls; the fifth panics: of a 2 × 2 map looped in one direction all nodes exist by then, and the first
horizontal edge does not. -/

/-- Weights are the number of the call; call `p` panics. -/
def panicAt (p : Nat) (st : Nat) : Option Nat × Nat := (if st = p then none else some st, st + 1)

example : ∃ d, newWithP exCfg 2 2 (fun st _ _ => panicAt 4 st) (fun st _ _ _ => panicAt 4 st) 0 = .ok (.unwound d, 5) ∧
    d = [.inl 0, .inl 1, .inl 2, .inl 3] := ⟨_, rfl, rfl⟩

example : ∃ d, newWithP exCfg 2 2 (fun st _ _ => panicAt 5 st) (fun st _ _ _ => panicAt 5 st) 0 = .ok (.unwound d, 6) ∧
    d = [.inr 4, .inl 0, .inl 1, .inl 2, .inl 3] := ⟨_, rfl, rfl⟩

example : ∃ x st' log, newWithP exCfg 3 2 (fun st _ _ => panicAt 8 st) (fun st _ _ _ => panicAt 8 st) 0 = .ok (x, st') ∧
    newWithP exCfg 3 2 (logN fun st _ _ => panicAt 8 st) (logE fun st _ _ _ => panicAt 8 st) (0, []) = .ok (x, (st', log)) ∧ x.Owns log :=
  c74_drops_once exCfg 3 2 _ _ 0
example : ∃ g : G Nat Nat, G.newWith exCfg 3 2 (fun u i j => (i + j, u)) (fun u i _ _ => (i, u)) () = .ok (g, ()) ∧
    newWithP exCfg 3 2 (fun u i j => (some (i + j), u)) (fun u i _ _ => (some i, u)) () = .ok (.returned g, ()) := by
  rcases c74_total exCfg 3 2 (fun (u : Unit) i j => (i + j, u)) (fun u i _ _ => (i, u)) () with ⟨g, _, h1, h2⟩ | ⟨h, -⟩
  · exact ⟨g, h1, h2⟩
  · cases h

end LG.Sq
