import Verif.Props.History
import Verif.Props.AnyShape
import Verif.Model.DoubleCoord
/-
C90: the visit map, the neighbours and the index conversions for any implementation of the traits, lawful or not.
-/
set_option linter.unusedVariables false
namespace LG
section
variable {C A D : Type}

/-! ### The visit map -/

/-- A set of storage positions. -/
abbrev Positions := Nat → Nat → Bool

/-- What a call on the map should do to a set of the positions of an `h × v` storage, if the coordinate in question has position `p`.
First the answer, then the set. -/
def pspec (h v : Nat) (pos : C → Res (Option Offset)) (S : Positions) : VOp C → Res Bool × Positions
  | .visit c =>
    match pos c with
    | .error f => (.error f, S)
    | .ok none => (.ok false, S)
    | .ok (some o) =>
      if o.horizontal < h ∧ o.vertical < v then
        (.ok (!S o.horizontal o.vertical), fun x y => if x = o.horizontal ∧ y = o.vertical then true else S x y)
      else (.error .panic, S)
  | .unvisit c =>
    match pos c with
    | .error f => (.error f, S)
    | .ok none => (.ok false, S)
    | .ok (some o) =>
      if o.horizontal < h ∧ o.vertical < v then
        (.ok true, fun x y => if x = o.horizontal ∧ y = o.vertical then false else S x y)
      else (.error .panic, S)
  | .isVisited c =>
    match pos c with
    | .error f => (.error f, S)
    | .ok none => (.ok false, S)
    | .ok (some o) =>
      if o.horizontal < h then (.ok (if o.vertical < v then S o.horizontal o.vertical else false), S)
      else (.error .panic, S)
  | .reset => (.ok true, fun _ _ => false)

/-- A program of calls on the set; a panic is caught and the program goes on. -/
def prun (h v : Nat) (pos : C → Res (Option Offset)) : Positions → List (VOp C) → List (Res Bool)
  | _, [] => []
  | S, op :: ops => (pspec h v pos S op).1 :: prun h v pos (pspec h v pos S op).2 ops

/-- A call on the map of the code; a panic is caught. Indexing and the bit sets check before they write, so the map is then as
before. -/
def vtry (vm : VisMap C A D) (op : VOp C) : Res Bool × VisMap C A D :=
  match vexec vm op with
  | .ok (b, vm') => (.ok b, vm')
  | .error f => (.error f, vm)

/-- The program of calls on the map of the code. -/
def vtryRun : VisMap C A D → List (VOp C) → List (Res Bool)
  | _, [] => []
  | vm, op :: ops => (vtry vm op).1 :: vtryRun (vtry vm op).2 ops

/-- The map stands for the set. -/
structure MapIs (s : Shape C A D) (vm : VisMap C A D) (S : Positions) : Prop where
  shape : vm.s = s
  rows : vm.v.length = s.horizontal
  cols : ∀ x col, vm.v[x]? = some col → col.length = s.vertical ∧ ∀ y, y < s.vertical → col[y]? = some (S x y)

theorem MapIs.new (s : Shape C A D) : MapIs s (VisMap.new s) (fun _ _ => false) := by
  refine ⟨rfl, by simp [VisMap.new], fun x col h => ?_⟩
  simp only [VisMap.new, List.getElem?_replicate] at h
  split at h
  · cases h
    refine ⟨by simp, fun y hy => ?_⟩
    simp [hy]
  · cases h

theorem MapIs.column {s : Shape C A D} {vm : VisMap C A D} {S : Positions} (hm : MapIs s vm S) {x : Nat} (hx : x < s.horizontal) :
    ∃ col, vm.column x = .ok col ∧ vm.v[x]? = some col := by
  have : x < vm.v.length := by rw [hm.rows]; exact hx
  exact ⟨vm.v[x], by simp [VisMap.column, List.getElem?_eq_getElem this], List.getElem?_eq_getElem this⟩

theorem MapIs.noColumn {s : Shape C A D} {vm : VisMap C A D} {S : Positions} (hm : MapIs s vm S) {x : Nat} (hx : ¬ x < s.horizontal) :
    vm.column x = .error .panic := by
  have : vm.v[x]? = none := List.getElem?_eq_none (by rw [hm.rows]; omega)
  simp [VisMap.column, this]

theorem MapIs.set {s : Shape C A D} {vm : VisMap C A D} {S : Positions} (hm : MapIs s vm S) {x y : Nat} {col : List Bool} {b : Bool}
    (hcol : vm.v[x]? = some col) :
    MapIs s { v := vm.v.set x (col.set y b), s := s } (fun x' y' => if x' = x ∧ y' = y then b else S x' y') := by
  refine ⟨rfl, by simp [hm.rows], fun x' col' h => ?_⟩
  have hc := hm.cols x col hcol
  simp only [List.getElem?_set] at h
  split at h
  · rename_i hx
    split at h
    · cases h
      subst hx
      refine ⟨by simp [hc.1], fun y' hy' => ?_⟩
      simp only [List.getElem?_set]
      by_cases hyy : y = y'
      · subst hyy
        simp [hc.1, hy']
      · rw [if_neg hyy, hc.2 y' hy']
        simp [Ne.symm hyy]
    · cases h
  · rename_i hx
    have h' := hm.cols x' col' h
    refine ⟨h'.1, fun y' hy' => ?_⟩
    rw [h'.2 y' hy']
    simp [Ne.symm hx]

theorem MapIs.step {s : Shape C A D} {vm : VisMap C A D} {S : Positions} (hm : MapIs s vm S) (op : VOp C) :
    (vtry vm op).1 = (pspec s.horizontal s.vertical s.toOffset S op).1 ∧
    MapIs s (vtry vm op).2 (pspec s.horizontal s.vertical s.toOffset S op).2 := by
  cases op with
  | reset =>
    refine ⟨rfl, hm.shape, by simp [vtry, vexec, VisMap.reset, hm.rows], fun x col h => ?_⟩
    simp only [vtry, vexec, VisMap.reset, List.getElem?_map] at h
    cases hc : vm.v[x]? with
    | none => rw [hc] at h; cases h
    | some c =>
      rw [hc] at h
      cases h
      have := hm.cols x c hc
      refine ⟨by simp [this.1], fun y hy => ?_⟩
      simp [pspec, this.1, hy]
  | visit c =>
    simp only [vtry, vexec, VisMap.visit, hm.shape, pspec, bind, Except.bind]
    cases ho : s.toOffset c with
    | error f => exact ⟨by trivial, hm⟩
    | ok o =>
      cases o with
      | none => exact ⟨by trivial, hm⟩
      | some o =>
        by_cases hx : o.horizontal < s.horizontal
        · obtain ⟨col, h1, h2⟩ := hm.column hx
          have hc := hm.cols _ _ h2
          simp only [h1, hx, true_and]
          by_cases hy : o.vertical < s.vertical
          · simp only [hc.2 _ hy, hy, if_true]
            exact ⟨by trivial, hm.set h2⟩
          · simp only [List.getElem?_eq_none (show col.length ≤ o.vertical by rw [hc.1]; omega), hy, if_false]
            exact ⟨by trivial, hm⟩
        · simp only [hm.noColumn hx, hx, false_and, if_false]
          exact ⟨by trivial, hm⟩
  | unvisit c =>
    simp only [vtry, vexec, VisMap.unvisit, hm.shape, pspec, bind, Except.bind]
    cases ho : s.toOffset c with
    | error f => exact ⟨by trivial, hm⟩
    | ok o =>
      cases o with
      | none => exact ⟨by trivial, hm⟩
      | some o =>
        by_cases hx : o.horizontal < s.horizontal
        · obtain ⟨col, h1, h2⟩ := hm.column hx
          have hc := hm.cols _ _ h2
          simp only [h1, hx, true_and]
          by_cases hy : o.vertical < s.vertical
          · simp only [hc.2 _ hy, hy, if_true]
            exact ⟨by trivial, hm.set h2⟩
          · simp only [List.getElem?_eq_none (show col.length ≤ o.vertical by rw [hc.1]; omega), hy, if_false]
            exact ⟨by trivial, hm⟩
        · simp only [hm.noColumn hx, hx, false_and, if_false]
          exact ⟨by trivial, hm⟩
  | isVisited c =>
    simp only [vtry, vexec, VisMap.isVisited, hm.shape, pspec, bind, Except.bind]
    cases ho : s.toOffset c with
    | error f => exact ⟨by trivial, hm⟩
    | ok o =>
      cases o with
      | none => exact ⟨by trivial, hm⟩
      | some o =>
        by_cases hx : o.horizontal < s.horizontal
        · obtain ⟨col, h1, h2⟩ := hm.column hx
          have hc := hm.cols _ _ h2
          simp only [h1, hx, if_true]
          refine ⟨?_, hm⟩
          by_cases hy : o.vertical < s.vertical
          · simp [hc.2 _ hy, hy]
          · simp [List.getElem?_eq_none (show col.length ≤ o.vertical by rw [hc.1]; omega), hy]
        · simp only [hm.noColumn hx, hx, if_false]
          exact ⟨by trivial, hm⟩

theorem MapIs.run {s : Shape C A D} : ∀ (ops : List (VOp C)) (vm : VisMap C A D) (S : Positions), MapIs s vm S →
    vtryRun vm ops = prun s.horizontal s.vertical s.toOffset S ops
  | [], _, _, _ => rfl
  | op :: ops, vm, S, hm => by
    obtain ⟨h1, h2⟩ := hm.step op
    simp only [vtryRun, prun, h1, MapIs.run ops _ _ h2]

/-- **C90.** Whatever the shape, without any law, the visit map is a set of storage positions: over any program of calls each answer is
that of a set, and leaves the set as it was when it panics: `visit` and `unvisit` exactly where the position the shape gives lies
outside the map, `is_visited` where its column does. -/
theorem c90_visit_map (s : Shape C A D) (ops : List (VOp C)) :
    vtryRun (VisMap.new s) ops = prun s.horizontal s.vertical s.toOffset (fun _ _ => false) ops :=
  MapIs.run ops _ _ (MapIs.new s)

theorem prun_safe {h v : Nat} {pos : C → Res (Option Offset)} (hp : ∀ c, pos c ≠ .error .ub) :
    ∀ (ops : List (VOp C)) (S : Positions), .error .ub ∉ prun h v pos S ops
  | [], _, hm => by cases hm
  | op :: ops, S, hm => by
    rcases List.mem_cons.1 hm with hm | hm
    · cases op with
      | reset => cases hm
      | visit c =>
        have := hp c
        simp only [pspec] at hm
        split at hm
        · rename_i f hf; cases hm; exact this hf
        · cases hm
        · split at hm <;> cases hm
      | unvisit c =>
        have := hp c
        simp only [pspec] at hm
        split at hm
        · rename_i f hf; cases hm; exact this hf
        · cases hm
        · split at hm <;> cases hm
      | isVisited c =>
        have := hp c
        simp only [pspec] at hm
        split at hm
        · rename_i f hf; cases hm; exact this hf
        · cases hm
        · split at hm <;> cases hm
    · exact prun_safe hp ops _ hm

/-- **C90.** With a shape in safe code, however wrong, no program of calls on a visit map is undefined behaviour. -/
theorem c90_visit_safe {s : Shape C A D} (hs : SafeCode s) (ops : List (VOp C)) : .error .ub ∉ vtryRun (VisMap.new s) ops := by
  rw [c90_visit_map]
  exact prun_safe hs.toOffset ops _

/-- **C90.** Two coordinates with the same position are one to the map: after a visit of the one, the other counts as visited and
visiting it is not news. -/
theorem c90_shared {s : Shape C A D} {c c' : C} {o : Offset} (h : s.toOffset c = .ok (some o)) (h' : s.toOffset c' = .ok (some o))
    (ho : Stands s o) : vtryRun (VisMap.new s) [.visit c, .isVisited c', .visit c', .unvisit c', .isVisited c] =
      [.ok true, .ok true, .ok false, .ok true, .ok false] := by
  rw [c90_visit_map]
  simp [prun, pspec, h, h', ho.1, ho.2]

/-! ### Neighbours and indices -/

/-- The direction numbers below `UNDIRECTED_COUNT` are numbers of directions. -/
def DirsHonest (s : Shape C A D) : Prop := ∀ j, j < s.axis.undirectedCount → s.axis.dirFromIndexUnchecked j ≠ .error .ub

/-- **C90.** `neighbors(c).next()`, from any state of the iterator, is not undefined behaviour, whatever the moves and positions
are. -/
theorem c90_neighbors_safe {s : Shape C A D} (hs : SafeCode s) (hd : DirsHonest s) (c : C) (state : Nat) :
    neighborsNext s c state ≠ .error .ub := by
  fun_induction neighborsNext s c state with
  | case1 state hlt ih =>
    have h1 := hd state hlt
    simp only [bind, Except.bind]
    cases hdir : s.axis.dirFromIndexUnchecked state with
    | error f => intro h; cases h; exact h1 hdir
    | ok d =>
      simp only
      have h2 := hs.moveCoord c d
      cases hm : s.moveCoord c d with
      | error f => intro h; cases h; exact h2 hm
      | ok t =>
        cases t with
        | none => exact ih
        | some t => intro h; cases h
  | case2 state hlt => intro h; cases h

theorem getDirectionFrom_safe [DecidableEq C] {s : Shape C A D} (hs : SafeCode s) (hd : DirsHonest s) (a b : C) :
    ∀ (is : List Nat), (∀ i ∈ is, i < s.axis.undirectedCount) → getDirectionFrom s.axis s.moveCoord a b is ≠ .error .ub
  | [], _ => by intro h; cases h
  | i :: is, hi => by
    have h1 := hd i (hi i (by simp))
    have ih := getDirectionFrom_safe hs hd a b is (fun j hj => hi j (by simp [hj]))
    simp only [getDirectionFrom, bind, Except.bind]
    cases hdir : s.axis.dirFromIndexUnchecked i with
    | error f => intro h; cases h; exact h1 hdir
    | ok d =>
      simp only
      have h2 := hs.moveCoord a d
      cases hm : s.moveCoord a d with
      | error f => intro h; cases h; exact h2 hm
      | ok t =>
        cases t with
        | none => exact ih
        | some t =>
          simp only
          split
          · intro h; cases h
          · exact ih

/-- **C90.** `get_direction` is not undefined behaviour either. -/
theorem c90_direction_safe [DecidableEq C] {s : Shape C A D} (hs : SafeCode s) (hd : DirsHonest s) (a b : C) :
    s.getDirection a b ≠ .error .ub :=
  getDirectionFrom_safe hs hd a b _ (fun i hi => by simpa using hi)

/-- `neighbors(c)` tries direction number `j`, and there is none. -/
def AsksInVain (s : Shape C A D) (c : C) (j : Nat) : Prop :=
  j < s.axis.undirectedCount ∧ s.axis.dirFromIndexUnchecked j = .error .ub ∧
  ∀ i, i < j → ∃ d t, s.axis.dirFromIndexUnchecked i = .ok d ∧ s.moveCoord c d = .ok t

theorem neighbors_fails_from {s : Shape C A D} (hs : SafeCode s) (c : C) (state : Nat) :
    Fails (neighborsNext s c) state .ub ↔ ∃ j, state ≤ j ∧ j < s.axis.undirectedCount ∧ s.axis.dirFromIndexUnchecked j = .error .ub ∧
      ∀ i, state ≤ i → i < j → ∃ d t, s.axis.dirFromIndexUnchecked i = .ok d ∧ s.moveCoord c d = .ok t := by
  by_cases hlt : state < s.axis.undirectedCount
  · have ih := neighbors_fails_from hs c (state + 1)
    have hn : neighborsNext s c state = (do
        let d ← s.axis.dirFromIndexUnchecked state
        match ← s.moveCoord c d with
        | some target => .ok (some target, state + 1)
        | none => neighborsNext s c (state + 1)) := by rw [neighborsNext, dif_pos hlt]; rfl
    simp only [bind, Except.bind] at hn
    cases hdir : s.axis.dirFromIndexUnchecked state with
    | error f =>
      simp only [hdir] at hn
      constructor
      · intro h
        cases h with
        | now h => rw [hn] at h; cases h; exact ⟨state, Nat.le_refl _, hlt, hdir, fun i h1 h2 => by omega⟩
        | later h => rw [hn] at h; cases h
      · rintro ⟨j, h1, h2, h3, h4⟩
        by_cases e : state = j
        · subst e; rw [hdir] at h3; cases h3; exact .now hn
        · obtain ⟨d, t, h5, _⟩ := h4 state (Nat.le_refl _) (by omega)
          rw [hdir] at h5; cases h5
    | ok d =>
      simp only [hdir] at hn
      have skip : (∃ t, s.moveCoord c d = .ok t) → ((∃ j, state ≤ j ∧ j < s.axis.undirectedCount ∧ s.axis.dirFromIndexUnchecked j = .error .ub ∧
          ∀ i, state ≤ i → i < j → ∃ d t, s.axis.dirFromIndexUnchecked i = .ok d ∧ s.moveCoord c d = .ok t) ↔
          Fails (neighborsNext s c) (state + 1) .ub) := by
        rintro ⟨t, ht⟩
        rw [ih]
        constructor
        · rintro ⟨j, h1, h2, h3, h4⟩
          have : state ≠ j := by rintro rfl; rw [hdir] at h3; cases h3
          exact ⟨j, by omega, h2, h3, fun i a b => h4 i (by omega) b⟩
        · rintro ⟨j, h1, h2, h3, h4⟩
          refine ⟨j, by omega, h2, h3, fun i a b => ?_⟩
          by_cases e : i = state
          · subst e; exact ⟨d, t, hdir, ht⟩
          · exact h4 i (by omega) b
      cases hm : s.moveCoord c d with
      | error f =>
        simp only [hm] at hn
        have hf : f ≠ .ub := fun e => hs.moveCoord c d (e ▸ hm)
        constructor
        · intro h
          cases h with
          | now h => rw [hn] at h; cases h; exact absurd rfl hf
          | later h => rw [hn] at h; cases h
        · rintro ⟨j, h1, h2, h3, h4⟩
          have : state ≠ j := by rintro rfl; rw [hdir] at h3; cases h3
          obtain ⟨d', t, h5, h6⟩ := h4 state (Nat.le_refl _) (by omega)
          rw [hdir] at h5; cases h5; rw [hm] at h6; cases h6
      | ok t =>
        rw [skip ⟨t, hm⟩]
        simp only [hm] at hn
        cases t with
        | some t =>
          simp only at hn
          constructor
          · intro h
            cases h with
            | now h => rw [hn] at h; cases h
            | later h h' => rw [hn] at h; cases h; exact h'
          · intro h; exact .later hn h
        | none =>
          simp only at hn
          constructor
          · intro h
            cases h with
            | now h => exact .now (hn ▸ h)
            | later h h' => exact .later (hn ▸ h) h'
          · intro h
            cases h with
            | now h => exact .now (hn.trans h)
            | later h h' => exact .later (hn.trans h) h'
  · have hn : neighborsNext s c state = .ok (none, state) := by rw [neighborsNext, dif_neg hlt]
    constructor
    · intro h
      cases h with
      | now h => rw [hn] at h; cases h
      | later h => rw [hn] at h; cases h
    · rintro ⟨j, h1, h2, _⟩; omega
termination_by s.axis.undirectedCount - state

/-- **C90**, `neighbors` exactly: running through it is undefined behaviour iff it comes, all moves before having returned, to a
number below `UNDIRECTED_COUNT` which is not the number of a direction. -/
theorem c90_neighbors_iff {s : Shape C A D} (hs : SafeCode s) (c : C) :
    Fails (neighborsNext s c) 0 .ub ↔ ∃ j, AsksInVain s c j := by
  rw [neighbors_fails_from hs c 0]
  constructor
  · rintro ⟨j, _, h1, h2, h3⟩; exact ⟨j, h1, h2, fun i hi => h3 i (Nat.zero_le _) hi⟩
  · rintro ⟨j, h1, h2, h3⟩; exact ⟨j, Nat.zero_le _, h1, h2, fun i _ hi => h3 i hi⟩

theorem umul_safe (m : Machine) (a b : Nat) : umul m a b ≠ .error .ub := by
  unfold umul
  intro h
  split at h
  · cases h
  · unfold overflow at h
    split at h <;> cases h

theorem indexToCoordinate_safe {s : Shape C A D} (hs : SafeCode s) (i : Nat) : s.indexToCoordinate i ≠ .error .ub := by
  simp only [Shape.indexToCoordinate, Shape.indexToOffset, bind, Except.bind]
  by_cases hv : s.vertical = 0
  · rw [if_pos hv]; intro h; cases h
  · rw [if_neg hv]; exact hs.offsetToCoordinate _

/-- **C90.** Nor are `to_index`, `from_index` and `node_identifiers`, for any coordinate, index and state. -/
theorem c90_index_safe {s : Shape C A D} (hs : SafeCode s) (c : C) (i : Nat) :
    s.toIndex c ≠ .error .ub ∧ s.indexToCoordinate i ≠ .error .ub ∧ s.nodeCount ≠ .error .ub ∧
    nodeIndicesNext s i ≠ .error .ub := by
  refine ⟨?_, indexToCoordinate_safe hs i, umul_safe _ _ _, ?_⟩
  · simp only [Shape.toIndex, bind, Except.bind]
    have h1 := hs.toOffset c
    cases ho : s.toOffset c with
    | error f => intro h; cases h; exact h1 ho
    | ok o =>
      cases o with
      | none => intro h; cases h
      | some o =>
        simp only [Shape.offsetToIndex, bind, Except.bind]
        have h2 := umul_safe s.m o.horizontal s.vertical
        cases hu : umul s.m o.horizontal s.vertical with
        | error f => intro h; cases h; exact h2 hu
        | ok x =>
          simp only
          have h3 := uadd_safe s.m x o.vertical
          cases hu2 : uadd s.m x o.vertical with
          | error f => intro h; cases h; exact h3 hu2
          | ok y => intro h; cases h
  · simp only [nodeIndicesNext, bind, Except.bind]
    have h1 := umul_safe s.m s.horizontal s.vertical
    cases hu : s.nodeCount with
    | error f => intro h; cases h; exact h1 hu
    | ok nc =>
      simp only
      split
      · have h2 := indexToCoordinate_safe hs i
        cases hi : s.indexToCoordinate i with
        | error f => intro h; cases h; exact h2 hi
        | ok x => intro h; cases h
      · intro h; cases h

end

/-- **C90.** An axis in safe code that lies about `COUNT`: in a release build running through `neighbors` of any cell is undefined
behaviour. -/
theorem c90_count_ub {m : Machine} {h v : Nat} (k : Nat) (hc : Constructible (squareShape m h v)) (hm : m.mode = .release)
    {c : Offset} (hx : c.horizontal < h) (hy : c.vertical < v) :
    SafeCode (overCount m h v k) ∧ Fails (neighborsNext (overCount m h v k) c) 0 .ub := by
  have hs : SafeCode (overCount m h v k) :=
    ⟨fun c hx => (by cases hx), fun o hx => (by cases hx), squareMove_safe m h v, fun a hx => (by cases hx)⟩
  refine ⟨hs, (c90_neighbors_iff hs c).mpr ⟨4, ?_, ?_, ?_⟩⟩
  · show 4 < defaultUndirectedCount false (3 + k)
    simp only [defaultUndirectedCount]
    simp; omega
  · show defaultFromIndexUnchecked m DSquareAxis.fromIndex 4 = _
    simp [defaultFromIndexUnchecked, DSquareAxis.fromIndex, unreachableDebugChecked, hm]
  · intro i hi
    have hd : ∃ d, (overCount m h v k).axis.dirFromIndexUnchecked i = .ok d := by
      match i, hi with
      | 0, _ => exact ⟨_, rfl⟩
      | 1, _ => exact ⟨_, rfl⟩
      | 2, _ => exact ⟨_, rfl⟩
      | 3, _ => exact ⟨_, rfl⟩
    obtain ⟨d, hd⟩ := hd
    obtain ⟨t, ht⟩ := squareMove_returns hc hx hy d
    exact ⟨d, t, hd, ht⟩

/-! ### Cases -/

/-- The double-coordinate shape of the crate gives (4, 2) and (5, 2) the same position. -/
example : vtryRun (VisMap.new (dblShape m64 5 5)) [.visit ⟨4, 2⟩, .isVisited ⟨5, 2⟩, .visit ⟨5, 2⟩, .unvisit ⟨5, 2⟩, .isVisited ⟨4, 2⟩] =
    [.ok true, .ok true, .ok false, .ok true, .ok false] :=
  c90_shared (o := ⟨2, 2⟩) (by rfl) (by rfl) ⟨by decide, by decide⟩

/-- The square without a bounds check of C76: visiting outside panics, asking about a row too high answers `false`. -/
example : vtryRun (VisMap.new (looseSquare m64 3 2)) [.visit ⟨1, 1⟩, .visit ⟨1, 2⟩, .isVisited ⟨1, 2⟩, .isVisited ⟨3, 0⟩, .isVisited ⟨1, 1⟩] =
    [.ok true, .error .panic, .ok false, .error .panic, .ok true] ∧
    .error .ub ∉ vtryRun (VisMap.new (looseSquare m64 3 2)) [.visit ⟨1, 1⟩, .visit ⟨1, 2⟩, .unvisit ⟨7, 7⟩] := by
  refine ⟨?_, c90_visit_safe (looseSquare_safe m64 3 2) _⟩
  rw [c90_visit_map]
  rfl

/-- A shape whose moves cannot be undone still has safe neighbours. -/
example (c : Offset) (i : Nat) : neighborsNext (slipSquare m64 3 2) c i ≠ .error .ub :=
  c90_neighbors_safe (slipSquare_safe m64 3 2) (fun j hj => by
    match j, hj with
    | 0, _ => intro h; cases h
    | 1, _ => intro h; cases h
    | 2, _ => intro h; cases h
    | 3, _ => intro h; cases h
    | n + 4, hj => exact absurd hj (by simp [slipSquare, squareShape, squareAxis, defaultUndirectedCount])) c i

/-- In a release build, with `COUNT` one too large on a 3 × 2 square. -/
example : Fails (neighborsNext (overCount m64r 3 2 0) ⟨1, 1⟩) 0 .ub :=
  (c90_count_ub 0 (m := m64r) (h := 3) (v := 2) (by unfold Constructible; decide) rfl (by decide) (by decide)).2

example (a b : Offset) : (slipSquare m64 3 2).getDirection a b ≠ .error .ub :=
  c90_direction_safe (slipSquare_safe m64 3 2) (fun j hj => by
    match j, hj with
    | 0, _ => intro h; cases h
    | 1, _ => intro h; cases h
    | 2, _ => intro h; cases h
    | 3, _ => intro h; cases h
    | n + 4, hj => exact absurd hj (by simp [slipSquare, squareShape, squareAxis, defaultUndirectedCount])) a b
example (i : Nat) : (slipSquare m64 3 2).toIndex ⟨9, 9⟩ ≠ .error .ub ∧ nodeIndicesNext (slipSquare m64 3 2) i ≠ .error .ub :=
  ⟨(c90_index_safe (slipSquare_safe m64 3 2) ⟨9, 9⟩ i).1, (c90_index_safe (slipSquare_safe m64 3 2) ⟨9, 9⟩ i).2.2.2⟩
example : ∃ j, AsksInVain (overCount m64r 3 2 0) ⟨1, 1⟩ j := by
  have h := c90_count_ub 0 (m := m64r) (h := 3) (v := 2) (c := ⟨1, 1⟩) (by unfold Constructible; decide) rfl (by decide) (by decide)
  exact (c90_neighbors_iff h.1 ⟨1, 1⟩).1 h.2

end LG
