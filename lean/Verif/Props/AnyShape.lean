import Verif.Lemmas.Store
import Verif.Props.Ex
import Verif.Lemmas.Square
import Verif.Model.Iter
/-
C76: implementations of the traits that obey no law at all. `Shape` and `Axis` are safe traits, so a program may implement them
wrongly without writing `unsafe`. What the graph then does is stated here without any assumption on the shape.
-/
set_option linter.unusedVariables false
namespace LG
section
variable {C A D N E σ α : Type}

/-- The methods a user writes never cause undefined behaviour themselves: they are safe code. They may panic, loop, or return
anything. -/
structure SafeCode (s : Shape C A D) : Prop where
  toOffset : ∀ c, s.toOffset c ≠ .error .ub
  offsetToCoordinate : ∀ o, s.offsetToCoordinate o ≠ .error .ub
  moveCoord : ∀ c d, s.moveCoord c d ≠ .error .ub
  foward : ∀ a, s.axis.foward a ≠ .error .ub

/-- `from_index_unchecked` (an `unsafe fn` whose default ends in `unreachable_unchecked`) copes with the indices below `COUNT`. -/
def CountHonest (s : Shape C A D) : Prop := ∀ j, j < s.axis.count → s.axis.fromIndexUnchecked j ≠ .error .ub

/-- The position exists in the storage. -/
def Stands (s : Shape C A D) (o : Offset) : Prop := o.horizontal < s.horizontal ∧ o.vertical < s.vertical

instance (s : Shape C A D) (o : Offset) : Decidable (Stands s o) := by unfold Stands; infer_instance

/-- Asked about the cell it has at position `o`, the shape says that there is a cell forward along axis number `j`. -/
def Announced (s : Shape C A D) (j : Nat) (o : Offset) : Prop :=
  ∃ c a d t, s.offsetToCoordinate o = .ok c ∧ s.axis.fromIndexUnchecked j = .ok a ∧ s.axis.foward a = .ok d ∧
    s.moveCoord c d = .ok (some t)

/-- Graphs a program can obtain by safe calls: from `new_with`, then changed through `node_weight_mut` and `edge_weight_mut`. -/
inductive SafelyBuilt (s : Shape C A D) : Graph C A D N E → Prop where
  | new {σ : Type} {n : σ → C → N × σ} {e : σ → C → A → E × σ} {st st' : σ} {g : Graph C A D N E}
      (h : newWith s n e st = .ok (g, st')) : SafelyBuilt s g
  | node {g g' : Graph C A D N E} {c : C} {f : N → N} (hb : SafelyBuilt s g) (h : g.modifyNode c f = .ok (some g')) : SafelyBuilt s g'
  | edge {g g' : Graph C A D N E} {c : C} {a : A} {f : E → E} (hb : SafelyBuilt s g) (h : g.modifyEdge c a f = .ok (some g')) :
      SafelyBuilt s g'

/-! ### Which slots are initialised -/

/-- An array of `h × v` slots of which exactly those in `P` are initialised. -/
structure ArrAny (h v : Nat) (a : Arr2 α) (P : Nat → Prop) : Prop where
  rows : a.rows = h
  cols : a.cols = v
  len : a.data.length = h * v
  init : ∀ q, q < h * v → ((∃ x, a.data[q]? = some (some x)) ↔ P q)

theorem ArrAny.congr {h v : Nat} {a : Arr2 α} {P Q : Nat → Prop} (ha : ArrAny h v a P) (he : ∀ q, q < h * v → (P q ↔ Q q)) :
    ArrAny h v a Q := ⟨ha.rows, ha.cols, ha.len, fun q hq => (ha.init q hq).trans (he q hq)⟩

theorem ArrAny.writeSlot {h v : Nat} {a : Arr2 α} {P : Nat → Prop} (ha : ArrAny h v a P) {q : Nat} (hq : q < h * v) (x : α) :
    ArrAny h v (a.writeSlot q x) (fun r => r = q ∨ P r) := by
  refine ⟨ha.rows, ha.cols, by simp [Arr2.writeSlot, ha.len], fun r hr => ?_⟩
  simp only [Arr2.writeSlot, List.getElem?_set]
  by_cases hqr : q = r
  · subst hqr
    rw [if_pos rfl, if_pos (by rw [ha.len]; exact hq)]
    exact ⟨fun _ => .inl rfl, fun _ => ⟨x, rfl⟩⟩
  · rw [if_neg hqr]
    refine (ha.init r hr).trans ⟨.inr, ?_⟩
    rintro (h | h)
    · exact absurd h.symm hqr
    · exact h

theorem ArrAny.uninit {m : Machine} {h v : Nat} {a : Arr2 α} (ha : Arr2.uninit m h v = .ok a) :
    ArrAny h v a (fun _ => False) ∧ h * v < m.half := by
  unfold Arr2.uninit at ha
  by_cases hc : (if h = 0 then 1 else h) * (if v = 0 then 1 else v) < m.half
  · rw [if_pos hc] at ha
    cases ha
    refine ⟨⟨rfl, rfl, by simp, fun q hq => ?_⟩, ?_⟩
    · simp only [List.getElem?_replicate, hq, if_true]
      simp
    · have := m.half_ge
      by_cases h0 : h = 0
      · subst h0; simp; omega
      · by_cases v0 : v = 0
        · subst v0; simp; omega
        · rwa [if_neg h0, if_neg v0] at hc
  · rw [if_neg hc] at ha
    cases ha

theorem ArrAny.slot {h v : Nat} {a : Arr2 α} {P : Nat → Prop} (ha : ArrAny h v a P) (x y : Nat) :
    a.slot x y = if x < h ∧ y < v then some (x * v + y) else none := by
  unfold Arr2.slot
  rw [ha.rows, ha.cols]

theorem ArrAny.writeIfPresent {h v : Nat} {a : Arr2 α} {P : Nat → Prop} (ha : ArrAny h v a P) (x y : Nat) (w : α) :
    ArrAny h v (a.writeIfPresent x y w) (fun r => (x < h ∧ y < v ∧ r = x * v + y) ∨ P r) := by
  unfold Arr2.writeIfPresent
  rw [ha.slot]
  by_cases hxy : x < h ∧ y < v
  · rw [if_pos hxy]
    exact (ha.writeSlot (idx_lt hxy.1 hxy.2) w).congr fun r _ => by simp [hxy]
  · rw [if_neg hxy]
    exact ha.congr fun r _ => ⟨.inr, fun h => h.resolve_left fun h => hxy ⟨h.1, h.2.1⟩⟩

/-- What reading through `uget` does. -/
theorem ArrAny.uget_ub {m : Machine} {h v : Nat} {a : Arr2 α} {P : Nat → Prop} (ha : ArrAny h v a P) (x y : Nat) :
    a.uget m x y = .error .ub ↔ (¬ (x < h ∧ y < v) ∧ m.mode = .release) ∨ ((x < h ∧ y < v) ∧ ¬ P (x * v + y)) := by
  unfold Arr2.uget
  rw [ha.slot]
  by_cases hxy : x < h ∧ y < v
  · rw [if_pos hxy]
    have hi := ha.init _ (idx_lt hxy.1 hxy.2)
    simp only [Arr2.read, hxy, not_true_eq_false, false_and, true_and, false_or, and_self]
    rw [← hi]
    cases hd : a.data[x * v + y]? with
    | none => simp
    | some o => cases o <;> simp
  · rw [if_neg hxy]
    simp only [unreachableDebugChecked, hxy, not_false_eq_true, true_and, false_and, or_false]
    cases m.mode <;> simp

/-- What reading through `get(..).unwrap_unchecked()` does. -/
theorem ArrAny.getUnwrap_ub {h v : Nat} {a : Arr2 α} {P : Nat → Prop} (ha : ArrAny h v a P) (x y : Nat) :
    a.getUnwrapUnchecked x y = .error .ub ↔ ¬ (x < h ∧ y < v) ∨ ((x < h ∧ y < v) ∧ ¬ P (x * v + y)) := by
  unfold Arr2.getUnwrapUnchecked
  rw [ha.slot]
  by_cases hxy : x < h ∧ y < v
  · rw [if_pos hxy]
    have hi := ha.init _ (idx_lt hxy.1 hxy.2)
    simp only [Arr2.read, hxy, not_true_eq_false, true_and, false_or, and_self]
    rw [← hi]
    cases hd : a.data[x * v + y]? with
    | none => simp
    | some o => cases o <;> simp
  · rw [if_neg hxy]
    simp [hxy]

/-- The edge arrays: number `j` has exactly the slots in `P j` initialised. -/
def EdgesAny (h v : Nat) (es : List (Arr2 E)) (P : Nat → Nat → Prop) : Prop :=
  ∀ j arr, es[j]? = some arr → ArrAny h v arr (P j)

structure AnyInv (s : Shape C A D) (g : Graph C A D N E) : Prop where
  shape : g.s = s
  nodes : ArrAny s.horizontal s.vertical g.nodes (fun _ => True)
  count : g.edges.length = s.axis.count
  edges : EdgesAny s.horizontal s.vertical g.edges (fun j q => Announced s j ⟨q / s.vertical, q % s.vertical⟩)

theorem uninitEdges_any (s : Shape C A D) : ∀ (n : Nat) {es : List (Arr2 E)}, uninitEdges s n = .ok es →
    es.length = n ∧ EdgesAny s.horizontal s.vertical es (fun _ _ => False)
  | 0, es, h => by cases h; exact ⟨rfl, fun j arr h => by simp at h⟩
  | n + 1, es, h => by
    simp only [uninitEdges, bind, Except.bind] at h
    cases ha : (Arr2.uninit s.m s.horizontal s.vertical : Res (Arr2 E)) with
    | error f => rw [ha] at h; cases h
    | ok a =>
      rw [ha] at h
      cases hr : (uninitEdges s n : Res (List (Arr2 E))) with
      | error f => rw [hr] at h; cases h
      | ok rest =>
        rw [hr] at h
        cases h
        obtain ⟨h1, h2⟩ := uninitEdges_any s n hr
        refine ⟨by simp [h1], fun j arr hj => ?_⟩
        cases j with
        | zero => simp at hj; subst hj; exact (ArrAny.uninit ha).1
        | succ j => exact h2 j arr (by simpa using hj)

theorem newWithEdges_any {s : Shape C A D} {e : σ → C → A → E × σ} {o : Offset} {c : C} {h v : Nat}
    (hc : s.offsetToCoordinate o = .ok c) :
    ∀ (es : List (Arr2 E)) (j : Nat) {st st' : σ} {es' : List (Arr2 E)} {P : Nat → Nat → Prop},
    newWithEdges s e o c j es st = .ok (es', st') → EdgesAny h v es P →
    es'.length = es.length ∧ EdgesAny h v es' fun i q =>
      (Announced s (j + i) o ∧ o.horizontal < h ∧ o.vertical < v ∧ q = o.horizontal * v + o.vertical) ∨ P i q
  | [], j, st, st', es', P, hr, hi => by
    simp only [newWithEdges] at hr
    cases hr
    exact ⟨rfl, fun i arr h => by simp at h⟩
  | edge :: rest, j, st, st', es', P, hr, hi => by
    simp only [newWithEdges, bind, Except.bind] at hr
    have htail : EdgesAny h v rest (fun i => P (i + 1)) := fun i arr h => hi (i + 1) arr (by simpa using h)
    have hhead := hi 0 edge rfl
    cases ha : s.axis.fromIndexUnchecked j with
    | error f => rw [ha] at hr; cases hr
    | ok a =>
      rw [ha] at hr
      simp only at hr
      cases hd : s.axis.foward a with
      | error f => rw [hd] at hr; cases hr
      | ok d =>
        rw [hd] at hr
        simp only at hr
        cases hm : s.moveCoord c d with
        | error f => rw [hm] at hr; cases hr
        | ok t =>
          rw [hm] at hr
          simp only at hr
          have key : ∀ {edge' : Arr2 E} {st1 : σ} {r : List (Arr2 E) × σ}, ArrAny h v edge' (fun q =>
              (Announced s j o ∧ o.horizontal < h ∧ o.vertical < v ∧ q = o.horizontal * v + o.vertical) ∨ P 0 q) →
              newWithEdges s e o c (j + 1) rest st1 = .ok r →
              (edge' :: r.1).length = (edge :: rest).length ∧ EdgesAny h v (edge' :: r.1) fun i q =>
                (Announced s (j + i) o ∧ o.horizontal < h ∧ o.vertical < v ∧ q = o.horizontal * v + o.vertical) ∨ P i q := by
            intro edge' st1 r he hrec
            obtain ⟨h1, h2⟩ := newWithEdges_any hc rest (j + 1) hrec htail
            refine ⟨by simp [h1], fun i arr hij => ?_⟩
            cases i with
            | zero => simp at hij; subst hij; exact he
            | succ i =>
              have := h2 i arr (by simpa using hij)
              simp only [show j + 1 + i = j + (i + 1) by omega] at this
              exact this
          cases t with
          | none =>
            simp only at hr
            cases hrec : newWithEdges s e o c (j + 1) rest st with
            | error f => rw [hrec] at hr; cases hr
            | ok r =>
              rw [hrec] at hr
              cases hr
              refine key (hhead.congr fun q _ => ⟨.inr, fun h => h.resolve_left ?_⟩) hrec
              rintro ⟨⟨c', a', d', t', h1, h2, h3, h4⟩, -⟩
              rw [hc] at h1; cases h1
              rw [ha] at h2; cases h2
              rw [hd] at h3; cases h3
              rw [hm] at h4; cases h4
          | some t =>
            simp only at hr
            cases hrec : newWithEdges s e o c (j + 1) rest (e st c a).2 with
            | error f => rw [hrec] at hr; cases hr
            | ok r =>
              rw [hrec] at hr
              cases hr
              refine key ((hhead.writeIfPresent o.horizontal o.vertical _).congr fun q _ => ?_) hrec
              have : Announced s j o := ⟨c, a, d, t, hc, ha, hd, hm⟩
              simp only [this, true_and]

theorem newWithNodes_any {s : Shape C A D} {n : σ → C → N × σ} {e : σ → C → A → E × σ} :
    ∀ (k i : Nat) {nodes nodes' : Arr2 N} {es es' : List (Arr2 E)} {st st' : σ}, i + k = s.horizontal * s.vertical →
    newWithNodes s n e i k nodes es st = .ok (nodes', es', st') →
    ArrAny s.horizontal s.vertical nodes (fun q => q < i) →
    EdgesAny s.horizontal s.vertical es (fun j q => q < i ∧ Announced s j ⟨q / s.vertical, q % s.vertical⟩) →
    ArrAny s.horizontal s.vertical nodes' (fun _ => True) ∧ es'.length = es.length ∧
    EdgesAny s.horizontal s.vertical es' (fun j q => Announced s j ⟨q / s.vertical, q % s.vertical⟩)
  | 0, i, nodes, nodes', es, es', st, st', hik, hr, hn, he => by
    simp only [newWithNodes] at hr
    cases hr
    exact ⟨hn.congr fun q hq => ⟨fun _ => trivial, fun _ => by omega⟩, rfl,
      fun j arr h => (he j arr h).congr fun q hq => ⟨And.right, fun h => ⟨by omega, h⟩⟩⟩
  | k + 1, i, nodes, nodes', es, es', st, st', hik, hr, hn, he => by
    have hi : i < s.horizontal * s.vertical := by omega
    have hv : s.vertical ≠ 0 := by rintro h0; rw [h0] at hi; simp at hi
    simp only [newWithNodes, Shape.indexToOffset, if_neg hv, bind, Except.bind] at hr
    cases hc : s.offsetToCoordinate ⟨i / s.vertical, i % s.vertical⟩ with
    | error f => rw [hc] at hr; cases hr
    | ok c =>
      rw [hc] at hr
      simp only at hr
      rw [if_pos (by rw [hn.len]; exact hi)] at hr
      cases hes : newWithEdges s e ⟨i / s.vertical, i % s.vertical⟩ c 0 es (n st c).2 with
      | error f => rw [hes] at hr; cases hr
      | ok r =>
        obtain ⟨es1, st1⟩ := r
        rw [hes] at hr
        simp only at hr
        obtain ⟨h1, h2⟩ := newWithEdges_any hc es 0 hes he
        obtain ⟨h3, h4, h5⟩ := newWithNodes_any k (i + 1) (by omega) hr
          ((hn.writeSlot hi _).congr fun q _ => by omega)
          (fun j arr h => (h2 j arr h).congr fun q hq => by
            simp only [Nat.zero_add, idx_eta, div_lt_w hi, mod_lt_h hi, true_and]
            constructor
            · rintro (⟨h, rfl⟩ | ⟨h, h'⟩)
              · exact ⟨by omega, h⟩
              · exact ⟨by omega, h'⟩
            · rintro ⟨h, h'⟩
              by_cases hqi : q = i
              · exact .inl ⟨hqi ▸ h', hqi⟩
              · exact .inr ⟨by omega, h'⟩)
        exact ⟨h3, h4.trans h1, h5⟩

theorem newUninit_any {s : Shape C A D} {g : Graph C A D N E} (h : newUninit s = .ok g) :
    g.s = s ∧ ArrAny s.horizontal s.vertical g.nodes (fun _ => False) ∧ g.edges.length = s.axis.count ∧
    EdgesAny s.horizontal s.vertical g.edges (fun _ _ => False) ∧ s.horizontal * s.vertical < s.m.half := by
  simp only [newUninit, bind, Except.bind] at h
  cases ha : (Arr2.uninit s.m s.horizontal s.vertical : Res (Arr2 N)) with
  | error f => rw [ha] at h; cases h
  | ok a =>
    rw [ha] at h
    cases hr : (uninitEdges s s.axis.count : Res (List (Arr2 E))) with
    | error f => rw [hr] at h; cases h
    | ok rest =>
      rw [hr] at h
      cases h
      have h1 := ArrAny.uninit ha
      have h2 := uninitEdges_any s _ hr
      exact ⟨rfl, h1.1, h2.1, h2.2, h1.2⟩

theorem newWith_any {s : Shape C A D} {n : σ → C → N × σ} {e : σ → C → A → E × σ} {st st' : σ} {g : Graph C A D N E}
    (h : newWith s n e st = .ok (g, st')) : AnyInv s g := by
  simp only [newWith, bind, Except.bind] at h
  cases hu : (newUninit s : Res (Graph C A D N E)) with
  | error f => rw [hu] at h; cases h
  | ok g0 =>
    rw [hu] at h
    obtain ⟨h1, h2, h3, h4, h5⟩ := newUninit_any hu
    have h6 : s.nodeCount = .ok (s.horizontal * s.vertical) := by
      unfold Shape.nodeCount umul
      rw [if_pos (by omega)]
    simp only [h6] at h
    cases hn : newWithNodes s n e 0 (s.horizontal * s.vertical) g0.nodes g0.edges st with
    | error f => rw [hn] at h; cases h
    | ok r =>
      obtain ⟨nodes, es, st1⟩ := r
      rw [hn] at h
      cases h
      obtain ⟨h7, h8, h9⟩ := newWithNodes_any _ 0 (by omega) hn (h2.congr fun q _ => by simp)
        (fun j arr h => (h4 j arr h).congr fun q _ => by simp)
      exact ⟨rfl, h7, h8.trans h3, h9⟩

theorem ArrAny.uget_ok {m : Machine} {h v : Nat} {a : Arr2 α} {P : Nat → Prop} (ha : ArrAny h v a P) {x y : Nat} {w : α}
    (hu : a.uget m x y = .ok w) : (x < h ∧ y < v) ∧ P (x * v + y) := by
  unfold Arr2.uget at hu
  rw [ha.slot] at hu
  by_cases hxy : x < h ∧ y < v
  · rw [if_pos hxy] at hu
    refine ⟨hxy, (ha.init _ (idx_lt hxy.1 hxy.2)).1 ?_⟩
    simp only [Arr2.read] at hu
    cases hd : a.data[x * v + y]? with
    | none => rw [hd] at hu; cases hu
    | some o =>
      rw [hd] at hu
      cases o with
      | none => cases hu
      | some z => exact ⟨z, rfl⟩
  · rw [if_neg hxy] at hu
    simp only [unreachableDebugChecked] at hu
    cases hm : m.mode <;> rw [hm] at hu <;> cases hu

theorem SafelyBuilt.inv {s : Shape C A D} {g : Graph C A D N E} (hb : SafelyBuilt s g) : AnyInv s g := by
  induction hb with
  | new h => exact newWith_any h
  | @node g g' c f hb h ih =>
    simp only [Graph.modifyNode, bind, Except.bind] at h
    cases ho : g.s.toOffset c with
    | error f => rw [ho] at h; cases h
    | ok o =>
      rw [ho] at h
      cases o with
      | none => cases h
      | some o =>
        simp only at h
        cases hx : g.nodes.uget g.s.m o.horizontal o.vertical with
        | error f => rw [hx] at h; cases h
        | ok x =>
          rw [hx] at h
          cases h
          exact ⟨ih.shape, (ih.nodes.writeIfPresent _ _ _).congr fun q _ => by simp, ih.count, ih.edges⟩
  | @edge g g' c a f hb h ih =>
    simp only [Graph.modifyEdge, bind, Except.bind] at h
    cases ho : g.s.toOffset c with
    | error f => rw [ho] at h; cases h
    | ok o =>
      rw [ho] at h
      cases o with
      | none => cases h
      | some o =>
        simp only at h
        cases hd : g.s.axis.foward a with
        | error f => rw [hd] at h; cases h
        | ok d =>
          rw [hd] at h
          simp only at h
          cases hm : g.s.moveCoord c d with
          | error f => rw [hm] at h; cases h
          | ok t =>
            rw [hm] at h
            cases t with
            | none => cases h
            | some t =>
              simp only at h
              cases harr : g.edges[g.s.axis.toIndex a]? with
              | none => simp only [Graph.edgeArr, harr] at h; cases h
              | some arr =>
                simp only [Graph.edgeArr, harr] at h
                cases hx : arr.uget g.s.m o.horizontal o.vertical with
                | error f => rw [hx] at h; cases h
                | ok x =>
                  rw [hx] at h
                  cases h
                  have hA := ih.edges _ _ harr
                  have h1 := hA.uget_ok hx
                  refine ⟨ih.shape, ih.nodes, by simpa using ih.count, fun j arr' hj => ?_⟩
                  rw [List.getElem?_set] at hj
                  split at hj
                  · next he =>
                    subst he
                    split at hj
                    · cases hj
                      refine (hA.writeIfPresent _ _ _).congr fun q _ => ⟨fun h => ?_, .inr⟩
                      rcases h with ⟨_, _, rfl⟩ | h
                      · exact h1.2
                      · exact h
                    · cases hj
                  · exact ih.edges _ _ hj

/-! ### Construction -/

theorem newWithEdges_safe {s : Shape C A D} (hs : SafeCode s) (hc : CountHonest s) {e : σ → C → A → E × σ} {o : Offset} {c : C} :
    ∀ (es : List (Arr2 E)) (j : Nat) (st : σ), j + es.length ≤ s.axis.count → newWithEdges s e o c j es st ≠ .error .ub
  | [], j, st, _, h => by simp [newWithEdges] at h
  | edge :: rest, j, st, hj, h => by
    simp only [List.length_cons] at hj
    have ih := fun st => newWithEdges_safe hs hc (e := e) (o := o) (c := c) rest (j + 1) st (by omega)
    simp only [newWithEdges, bind, Except.bind] at h
    cases ha : s.axis.fromIndexUnchecked j with
    | error f => rw [ha] at h; cases h; exact hc j (by omega) ha
    | ok a =>
      rw [ha] at h
      simp only at h
      cases hd : s.axis.foward a with
      | error f => rw [hd] at h; cases h; exact hs.foward a hd
      | ok d =>
        rw [hd] at h
        simp only at h
        cases hm : s.moveCoord c d with
        | error f => rw [hm] at h; cases h; exact hs.moveCoord c d hm
        | ok t =>
          rw [hm] at h
          cases t with
          | none =>
            simp only at h
            cases hr : newWithEdges s e o c (j + 1) rest st with
            | error f => rw [hr] at h; cases h; exact ih _ hr
            | ok r => rw [hr] at h; cases h
          | some t =>
            simp only at h
            cases hr : newWithEdges s e o c (j + 1) rest (e st c a).2 with
            | error f => rw [hr] at h; cases h; exact ih _ hr
            | ok r => rw [hr] at h; cases h

theorem newWithEdges_len {s : Shape C A D} {e : σ → C → A → E × σ} {o : Offset} {c : C} :
    ∀ (es : List (Arr2 E)) (j : Nat) (st : σ) {r : List (Arr2 E) × σ}, newWithEdges s e o c j es st = .ok r → r.1.length = es.length
  | [], j, st, r, h => by simp only [newWithEdges] at h; cases h; rfl
  | edge :: rest, j, st, r, h => by
    have ih := fun st {r} => newWithEdges_len (s := s) (e := e) (o := o) (c := c) rest (j + 1) st (r := r)
    simp only [newWithEdges, bind, Except.bind] at h
    cases ha : s.axis.fromIndexUnchecked j with
    | error f => rw [ha] at h; cases h
    | ok a =>
      rw [ha] at h
      simp only at h
      cases hd : s.axis.foward a with
      | error f => rw [hd] at h; cases h
      | ok d =>
        rw [hd] at h
        simp only at h
        cases hm : s.moveCoord c d with
        | error f => rw [hm] at h; cases h
        | ok t =>
          rw [hm] at h
          cases t with
          | none =>
            simp only at h
            cases hr : newWithEdges s e o c (j + 1) rest st with
            | error f => rw [hr] at h; cases h
            | ok r => rw [hr] at h; cases h; simp [ih _ hr]
          | some t =>
            simp only at h
            cases hr : newWithEdges s e o c (j + 1) rest (e st c a).2 with
            | error f => rw [hr] at h; cases h
            | ok r => rw [hr] at h; cases h; simp [ih _ hr]

theorem newWithNodes_safe {s : Shape C A D} (hs : SafeCode s) (hc : CountHonest s) {n : σ → C → N × σ} {e : σ → C → A → E × σ} :
    ∀ (k i : Nat) (nodes : Arr2 N) (es : List (Arr2 E)) (st : σ), i + k ≤ nodes.data.length → es.length ≤ s.axis.count →
    newWithNodes s n e i k nodes es st ≠ .error .ub
  | 0, i, nodes, es, st, _, _, h => by simp [newWithNodes] at h
  | k + 1, i, nodes, es, st, hi, hes, h => by
    simp only [newWithNodes, bind, Except.bind] at h
    cases ho : s.indexToOffset i with
    | error f =>
      rw [ho] at h
      cases h
      unfold Shape.indexToOffset at ho
      split at ho <;> cases ho
    | ok o =>
      rw [ho] at h
      simp only at h
      cases hcc : s.offsetToCoordinate o with
      | error f => rw [hcc] at h; cases h; exact hs.offsetToCoordinate o hcc
      | ok c =>
        rw [hcc] at h
        simp only at h
        rw [if_pos (by omega)] at h
        cases hr : newWithEdges s e o c 0 es (n st c).2 with
        | error f => rw [hr] at h; cases h; exact newWithEdges_safe hs hc es 0 _ (by omega) hr
        | ok r =>
          rw [hr] at h
          exact newWithNodes_safe hs hc k (i + 1) _ r.1 r.2 (by simp [Arr2.writeSlot]; omega)
            (by rw [newWithEdges_len _ _ _ hr]; exact hes) h

/-- **C76**, construction. Whatever the shape says about its cells and moves, `new_with` causes no undefined behaviour, provided
`COUNT` is honest. -/
theorem c76_new_with_partial {s : Shape C A D} (hs : SafeCode s) (hc : CountHonest s) (n : σ → C → N × σ) (e : σ → C → A → E × σ) (st : σ) :
    (newWith s n e st : Res (Graph C A D N E × σ)) ≠ .error .ub := by
  intro h
  simp only [newWith, bind, Except.bind] at h
  cases hu : (newUninit s : Res (Graph C A D N E)) with
  | error f =>
    rw [hu] at h
    cases h
    have hun : ∀ {α : Type}, (Arr2.uninit s.m s.horizontal s.vertical : Res (Arr2 α)) ≠ .error .ub := by
      intro α h
      unfold Arr2.uninit at h
      generalize (if s.horizontal = 0 then 1 else s.horizontal) * (if s.vertical = 0 then 1 else s.vertical) = z at h
      split at h <;> cases h
    have hes : ∀ n, (uninitEdges s n : Res (List (Arr2 E))) ≠ .error .ub := by
      intro n
      induction n with
      | zero => intro h; cases h
      | succ n ih =>
        intro h
        simp only [uninitEdges, bind, Except.bind] at h
        cases ha : (Arr2.uninit s.m s.horizontal s.vertical : Res (Arr2 E)) with
        | error f => rw [ha] at h; cases h; exact hun ha
        | ok a =>
          rw [ha] at h
          cases hr : (uninitEdges s n : Res (List (Arr2 E))) with
          | error f => rw [hr] at h; cases h; exact ih hr
          | ok r => rw [hr] at h; cases h
    simp only [newUninit, bind, Except.bind] at hu
    cases ha : (Arr2.uninit s.m s.horizontal s.vertical : Res (Arr2 N)) with
    | error f => rw [ha] at hu; cases hu; exact hun ha
    | ok a =>
      rw [ha] at hu
      cases hr : (uninitEdges s s.axis.count : Res (List (Arr2 E))) with
      | error f => rw [hr] at hu; cases hu; exact hes _ hr
      | ok r => rw [hr] at hu; cases hu
  | ok g0 =>
    rw [hu] at h
    obtain ⟨h1, h2, h3, h4, h5⟩ := newUninit_any hu
    have h6 : s.nodeCount = .ok (s.horizontal * s.vertical) := by
      unfold Shape.nodeCount umul
      rw [if_pos (by omega)]
    simp only [h6] at h
    cases hn : newWithNodes s n e 0 (s.horizontal * s.vertical) g0.nodes g0.edges st with
    | error f =>
      rw [hn] at h
      cases h
      exact newWithNodes_safe hs hc _ 0 _ _ _ (by rw [h2.len]; omega) (by omega) hn
    | ok r => rw [hn] at h; cases h

/-! ### Access -/

/-- **C76**, `node_weight`, exactly: it is undefined behaviour in a release build when `to_offset` returns a position outside the
storage, and never otherwise. The same for writing through `node_weight_mut`. -/
theorem c76_node_weight_iff {s : Shape C A D} {g : Graph C A D N E} (hs : SafeCode s) (hb : SafelyBuilt s g) (c : C) :
    (g.nodeWeight c = .error .ub ↔ s.m.mode = .release ∧ ∃ o, s.toOffset c = .ok (some o) ∧ ¬ Stands s o) ∧
    ∀ f, g.modifyNode c f = .error .ub ↔ g.nodeWeight c = .error .ub := by
  have hi := hb.inv
  obtain ⟨rfl⟩ := hi.shape
  simp only [Graph.nodeWeight, Graph.modifyNode, bind, Except.bind]
  cases ho : g.s.toOffset c with
  | error f =>
    have : f ≠ .ub := fun h => hs.toOffset c (h ▸ ho)
    cases f <;> simp_all
  | ok o =>
    cases o with
    | none => simp
    | some o =>
      have h1 := hi.nodes.uget_ub (m := g.s.m) o.horizontal o.vertical
      simp only [not_true_eq_false, and_false, or_false] at h1
      have h2 : (∃ o', (.ok (some o) : Res (Option Offset)) = .ok (some o') ∧ ¬ Stands g.s o') ↔ ¬ Stands g.s o :=
        ⟨fun ⟨o', h, h'⟩ => by cases h; exact h', fun h => ⟨o, rfl, h⟩⟩
      rw [h2, and_comm (a := g.s.m.mode = .release)]
      unfold Stands
      rw [← h1]
      simp only
      cases hu : g.nodes.uget g.s.m o.horizontal o.vertical <;> simp

/-- **C76**, `edge_weight`, exactly: it is undefined behaviour when `to_index` of the axis is not below `COUNT`, when `to_offset`
returns a position outside the storage (release builds), and when there was no edge, as the shape said while the graph was built,
at the position and axis number it now claims. The same for writing through `edge_weight_mut`. -/
theorem c76_edge_weight_iff {s : Shape C A D} {g : Graph C A D N E} (hs : SafeCode s) (hb : SafelyBuilt s g) (c : C) (a : A) :
    (g.edgeWeight c a = .error .ub ↔ ∃ o d t, s.toOffset c = .ok (some o) ∧ s.axis.foward a = .ok d ∧ s.moveCoord c d = .ok (some t) ∧
      (s.axis.count ≤ s.axis.toIndex a ∨ (¬ Stands s o ∧ s.m.mode = .release) ∨
        (Stands s o ∧ ¬ Announced s (s.axis.toIndex a) o))) ∧
    ∀ f, g.modifyEdge c a f = .error .ub ↔ g.edgeWeight c a = .error .ub := by
  have hi := hb.inv
  obtain ⟨rfl⟩ := hi.shape
  simp only [Graph.edgeWeight, Graph.modifyEdge, bind, Except.bind]
  cases ho : g.s.toOffset c with
  | error f =>
    have : f ≠ .ub := fun h => hs.toOffset c (h ▸ ho)
    cases f <;> simp_all
  | ok o =>
    cases o with
    | none => simp
    | some o =>
      simp only
      cases hd : g.s.axis.foward a with
      | error f =>
        have : f ≠ .ub := fun h => hs.foward a (h ▸ hd)
        cases f <;> simp_all
      | ok d =>
        simp only
        cases hm : g.s.moveCoord c d with
        | error f =>
          have : f ≠ .ub := fun h => hs.moveCoord c d (h ▸ hm)
          cases f <;> simp_all
        | ok t =>
          cases t with
          | none =>
            simp only
            refine ⟨⟨fun h => (nomatch h), ?_⟩, fun f => ⟨fun h => (nomatch h), fun h => (nomatch h)⟩⟩
            rintro ⟨o', d', t', h1, h2, h3, -⟩
            cases h1; cases h2
            rw [hm] at h3
            cases h3
          | some t =>
            simp only
            have hred : ∀ {P : Offset → Prop}, (∃ o' d' t', (.ok (some o) : Res (Option Offset)) = .ok (some o') ∧
                (.ok d : Res D) = .ok d' ∧ g.s.moveCoord c d' = .ok (some t') ∧ P o') ↔ P o := by
              intro P
              constructor
              · rintro ⟨o', d', t', h1, h2, h3, h4⟩; cases h1; exact h4
              · intro h; exact ⟨o, d, t, rfl, rfl, hm, h⟩
            rw [hred (P := fun o => g.s.axis.count ≤ g.s.axis.toIndex a ∨ (¬ Stands g.s o ∧ g.s.m.mode = .release) ∨
              (Stands g.s o ∧ ¬ Announced g.s (g.s.axis.toIndex a) o))]
            cases harr : g.edges[g.s.axis.toIndex a]? with
            | none =>
              have : g.s.axis.count ≤ g.s.axis.toIndex a := by
                rw [← hi.count]
                exact List.getElem?_eq_none_iff.1 harr
              simp [Graph.edgeArr, harr, this]
            | some arr =>
              have hlt : ¬ g.s.axis.count ≤ g.s.axis.toIndex a := by
                rw [← hi.count]
                intro h
                rw [List.getElem?_eq_none_iff.2 h] at harr
                cases harr
              have h1 := (hi.edges _ _ harr).uget_ub (m := g.s.m) o.horizontal o.vertical
              simp only [hlt, false_or, Graph.edgeArr, harr]
              have h2 : Stands g.s o → (⟨(o.horizontal * g.s.vertical + o.vertical) / g.s.vertical,
                  (o.horizontal * g.s.vertical + o.vertical) % g.s.vertical⟩ : Offset) = o := fun h => by
                rw [idx_div h.2, idx_mod h.2]
              have h3 : (¬ Stands g.s o ∧ g.s.m.mode = .release) ∨ (Stands g.s o ∧ ¬ Announced g.s (g.s.axis.toIndex a) o) ↔
                  arr.uget g.s.m o.horizontal o.vertical = .error .ub := by
                rw [h1]
                refine or_congr Iff.rfl (and_congr_right fun h => ?_)
                show _ ↔ ¬ Announced g.s (g.s.axis.toIndex a) _
                rw [h2 h]
              rw [h3]
              cases hu : arr.uget g.s.m o.horizontal o.vertical <;> simp

/-- A shape that keeps its own promises: positions it returns are in the storage and are those of the coordinate, and axis numbers
are below `COUNT` and lead back to the axis. Nothing is asked of the moves. -/
structure Coherent (s : Shape C A D) : Prop where
  position : ∀ c o, s.toOffset c = .ok (some o) → Stands s o ∧ s.offsetToCoordinate o = .ok c
  number : ∀ a, s.axis.toIndex a < s.axis.count ∧ s.axis.fromIndexUnchecked (s.axis.toIndex a) = .ok a

/-- **C76**, what is enough. With a coherent shape neither reading nor writing a weight, at any coordinate and axis, is undefined
behaviour, whatever the moves are. -/
theorem c76_weights_safe_partial {s : Shape C A D} {g : Graph C A D N E} (hs : SafeCode s) (hc : Coherent s) (hb : SafelyBuilt s g)
    (c : C) (a : A) (f : N → N) (fe : E → E) : g.nodeWeight c ≠ .error .ub ∧ g.modifyNode c f ≠ .error .ub ∧
    g.edgeWeight c a ≠ .error .ub ∧ g.modifyEdge c a fe ≠ .error .ub := by
  have h1 := c76_node_weight_iff hs hb c
  have h2 := c76_edge_weight_iff hs hb c a
  have h3 : g.nodeWeight c ≠ .error .ub := fun h => by
    obtain ⟨-, o, h4, h5⟩ := h1.1.1 h
    exact h5 (hc.position c o h4).1
  have h4 : g.edgeWeight c a ≠ .error .ub := fun h => by
    obtain ⟨o, d, t, h5, h6, h7, h8⟩ := h2.1.1 h
    have h9 := hc.position c o h5
    have h10 := hc.number a
    rcases h8 with h8 | ⟨h8, -⟩ | ⟨-, h8⟩
    · omega
    · exact h8 h9.1
    · exact h8 ⟨c, a, d, t, h9.2, h10.2, h6, h7⟩
  exact ⟨h3, fun h => h3 ((h1.2 f).1 h), h4, fun h => h4 ((h2.2 fe).1 h)⟩

/-! ### Construction succeeds whenever the methods do not panic -/

/-- On the positions of the storage and the axis numbers below `COUNT`, the methods return. -/
structure MethodsReturn (s : Shape C A D) : Prop where
  coord : ∀ o, Stands s o → ∃ c, s.offsetToCoordinate o = .ok c
  axis : ∀ j, j < s.axis.count → ∃ a, s.axis.fromIndexUnchecked j = .ok a
  dir : ∀ a, ∃ d, s.axis.foward a = .ok d
  move : ∀ o c d, Stands s o → s.offsetToCoordinate o = .ok c → ∃ t, s.moveCoord c d = .ok t

theorem newWithEdges_returns {s : Shape C A D} (hr : MethodsReturn s) {e : σ → C → A → E × σ} {o : Offset} {c : C} (ho : Stands s o)
    (hc : s.offsetToCoordinate o = .ok c) : ∀ (es : List (Arr2 E)) (j : Nat) (st : σ), j + es.length ≤ s.axis.count →
    ∃ r, newWithEdges s e o c j es st = .ok r ∧ r.1.length = es.length
  | [], j, st, _ => ⟨_, rfl, rfl⟩
  | edge :: rest, j, st, hj => by
    simp only [List.length_cons] at hj
    have ih := fun st => newWithEdges_returns hr (e := e) ho hc rest (j + 1) st (by omega)
    obtain ⟨a, ha⟩ := hr.axis j (by omega)
    obtain ⟨d, hd⟩ := hr.dir a
    obtain ⟨t, ht⟩ := hr.move o c d ho hc
    simp only [newWithEdges, bind, Except.bind, ha, hd, ht]
    cases t with
    | none =>
      obtain ⟨r, h1, h2⟩ := ih st
      simp only [h1]
      exact ⟨_, rfl, by simp [h2]⟩
    | some t =>
      obtain ⟨r, h1, h2⟩ := ih (e st c a).2
      simp only [h1]
      exact ⟨_, rfl, by simp [h2]⟩

theorem newWithNodes_returns {s : Shape C A D} (hr : MethodsReturn s) {n : σ → C → N × σ} {e : σ → C → A → E × σ} :
    ∀ (k i : Nat) (nodes : Arr2 N) (es : List (Arr2 E)) (st : σ), i + k = s.horizontal * s.vertical →
    nodes.data.length = s.horizontal * s.vertical → es.length = s.axis.count →
    ∃ r, newWithNodes s n e i k nodes es st = .ok r
  | 0, i, nodes, es, st, _, _, _ => ⟨_, rfl⟩
  | k + 1, i, nodes, es, st, hi, hn, hes => by
    have hv : 0 < s.vertical := Nat.pos_of_ne_zero fun h => by rw [h, Nat.mul_zero] at hi; omega
    have ho : Stands s ⟨i / s.vertical, i % s.vertical⟩ :=
      ⟨(Nat.div_lt_iff_lt_mul hv).2 (by omega), Nat.mod_lt _ hv⟩
    obtain ⟨c, hc⟩ := hr.coord _ ho
    have h1 : s.indexToOffset i = .ok ⟨i / s.vertical, i % s.vertical⟩ := by
      unfold Shape.indexToOffset
      rw [if_neg (by omega)]
    obtain ⟨r, h2, h3⟩ := newWithEdges_returns hr (e := e) ho hc es 0 (n st c).2 (by omega)
    simp only [newWithNodes, bind, Except.bind, h1, hc, h2]
    rw [if_pos (by omega)]
    exact newWithNodes_returns hr k (i + 1) _ _ _ (by omega) (by simp [Arr2.writeSlot, hn]) (by omega)

theorem newUninit_returns {s : Shape C A D} (hc : Constructible s) : ∃ g : Graph C A D N E, newUninit s = .ok g := by
  have h1 : ∀ n, ∃ es : List (Arr2 E), uninitEdges s n = .ok es := by
    intro n
    induction n with
    | zero => exact ⟨_, rfl⟩
    | succ n ih =>
      obtain ⟨es, h⟩ := ih
      obtain ⟨a, ha⟩ := uninit_ok hc (α := E)
      exact ⟨a :: es, by simp only [uninitEdges, ha, h, bind, Except.bind]⟩
  obtain ⟨es, h⟩ := h1 s.axis.count
  obtain ⟨a, ha⟩ := uninit_ok hc (α := N)
  exact ⟨_, by simp only [newUninit, ha, h, bind, Except.bind]; rfl⟩

/-- **C76**, construction succeeds: whatever the answers of the shape's methods are, as long as they return. -/
theorem c76_new_with_returns {s : Shape C A D} (hr : MethodsReturn s) (hc : Constructible s) (n : σ → C → N × σ) (e : σ → C → A → E × σ)
    (st : σ) : ∃ (g : Graph C A D N E) (st' : σ), newWith s n e st = .ok (g, st') := by
  obtain ⟨g0, hu⟩ := newUninit_returns (N := N) (E := E) hc
  obtain ⟨h1, h2, h3, h4, h5⟩ := newUninit_any hu
  have h6 : s.nodeCount = .ok (s.horizontal * s.vertical) := by
    unfold Shape.nodeCount umul
    rw [if_pos (by omega)]
  obtain ⟨r, hn⟩ := newWithNodes_returns hr (n := n) (e := e) (s.horizontal * s.vertical) 0 g0.nodes g0.edges st (by omega) h2.len
    (by omega)
  exact ⟨⟨r.1, r.2.1, s⟩, r.2.2, by simp only [newWith, hu, h6, hn, bind, Except.bind]⟩

end

/-! ### Three wrong implementations, all safe code -/

/-- The square lattice as a user might write it who forgot the bounds check in `to_offset`. -/
def looseSquare (m : Machine) (h v : Nat) : Shape Offset SquareAxis DSquareAxis :=
  { squareShape m h v with toOffset := fun c => .ok (some c) }

/-- The square lattice with `COUNT` larger than the number of axes, and the trait's default `from_index_unchecked`
(shapes.rs:233-235). -/
def overCount (m : Machine) (h v k : Nat) : Shape Offset SquareAxis DSquareAxis :=
  { squareShape m h v with
    axis := { squareAxis m with
      count := 3 + k, undirectedCount := defaultUndirectedCount false (3 + k), fromIndexUnchecked := defaultFromIndexUnchecked m SquareAxis.fromIndex } }

/-- `move_coord` of the square lattice with a slip: the arm of `RX` says `sub_y`. -/
def slipMove (m : Machine) (h v : Nat) (c : Offset) : DSquareAxis → Res (Option Offset)
  | .RX => .ok (c.subY 1)
  | d => squareMove m h v c d

/-- The square lattice with that slip. -/
def slipSquare (m : Machine) (h v : Nat) : Shape Offset SquareAxis DSquareAxis :=
  { squareShape m h v with
    moveCoord := slipMove m h v
    moveCoordUnchecked := defaultMoveCoordUnchecked m (slipMove m h v)
    isNeighbor := defaultIsNeighbor (squareAxis m) (slipMove m h v) }

theorem uadd_safe (m : Machine) (a b : Nat) : uadd m a b ≠ .error .ub := by
  unfold uadd overflow
  intro h
  split at h
  · cases h
  · cases hm : m.mode <;> rw [hm] at h <;> cases h

theorem squareMove_safe (m : Machine) (h v : Nat) (c : Offset) (d : DSquareAxis) : squareMove m h v c d ≠ .error .ub := by
  cases d <;> simp only [squareMove, Offset.addX, Offset.addY, bind, Except.bind, ne_eq] <;> intro hh
  · have := uadd_safe m c.horizontal 1
    cases hu : uadd m c.horizontal 1 <;> rw [hu] at hh <;> cases hh
    exact this hu
  · have := uadd_safe m c.vertical 1
    cases hu : uadd m c.vertical 1 <;> rw [hu] at hh <;> cases hh
    exact this hu
  · cases hh
  · cases hh

theorem looseSquare_safe (m : Machine) (h v : Nat) : SafeCode (looseSquare m h v) where
  toOffset := by intro c hh; cases hh
  offsetToCoordinate := by intro o hh; cases hh
  moveCoord := squareMove_safe m h v
  foward := by intro a hh; cases hh

theorem slipSquare_safe (m : Machine) (h v : Nat) : SafeCode (slipSquare m h v) where
  toOffset := by intro c hh; cases hh
  offsetToCoordinate := by intro o hh; cases hh
  moveCoord := by
    intro c d
    show slipMove m h v c d ≠ _
    cases d
    · exact squareMove_safe m h v c .X
    · exact squareMove_safe m h v c .Y
    · intro hh; cases hh
    · exact squareMove_safe m h v c .RY
  foward := by intro a hh; cases hh

theorem slipSquare_coherent (m : Machine) (h v : Nat) : Coherent (slipSquare m h v) where
  position := by
    intro c o hh
    have := rangeCheck_some (Except.ok.inj hh : rangeCheck h v c = some o)
    exact ⟨⟨this.1, this.2.1⟩, congrArg Except.ok this.2.2.symm⟩
  number := by
    intro a
    cases a
    · exact ⟨show 0 < 2 by decide, rfl⟩
    · exact ⟨show 1 < 2 by decide, rfl⟩

theorem squareMove_returns {m : Machine} {h v : Nat} (hc : Constructible (squareShape m h v)) {o : Offset} (hx : o.horizontal < h)
    (hy : o.vertical < v) (d : DSquareAxis) : ∃ t, squareMove m h v o d = .ok t :=
  ⟨_, squareMove_eq hc.wordH hc.wordV hx hy d⟩

theorem looseSquare_returns {m : Machine} {h v : Nat} (hc : Constructible (squareShape m h v)) : MethodsReturn (looseSquare m h v) where
  coord := fun o _ => ⟨o, rfl⟩
  axis := by
    intro j hj
    have : j < 2 := hj
    match j with
    | 0 => exact ⟨.X, rfl⟩
    | 1 => exact ⟨.Y, rfl⟩
  dir := fun a => ⟨_, rfl⟩
  move := by
    intro o c d ho hoc
    cases hoc
    exact squareMove_returns hc ho.1 ho.2 d

theorem slipSquare_returns {m : Machine} {h v : Nat} (hc : Constructible (squareShape m h v)) : MethodsReturn (slipSquare m h v) where
  coord := fun o _ => ⟨o, rfl⟩
  axis := (looseSquare_returns hc).axis
  dir := fun a => ⟨_, rfl⟩
  move := by
    intro o c d ho hoc
    cases hoc
    show ∃ t, slipMove m h v o d = _
    cases d
    · exact squareMove_returns hc ho.1 ho.2 .X
    · exact squareMove_returns hc ho.1 ho.2 .Y
    · exact ⟨_, rfl⟩
    · exact squareMove_returns hc ho.1 ho.2 .RY

theorem squareMove_lastX {m : Machine} {h v : Nat} (hc : Constructible (squareShape m h v)) (hh : 1 ≤ h) (y : Nat) :
    squareMove m h v ⟨h - 1, y⟩ .X = .ok none := by
  have hw : h < 2 * m.half := hc.wordH
  simp only [squareMove, Offset.addX, bind, Except.bind]
  rw [uadd_ok (by omega)]
  simp only [Offset.checkX]
  rw [if_neg (by omega)]

theorem squareMove_lastY {m : Machine} {h v : Nat} (hc : Constructible (squareShape m h v)) (hv : 1 ≤ v) (x : Nat) :
    squareMove m h v ⟨x, v - 1⟩ .Y = .ok none := by
  have hw : v < 2 * m.half := hc.wordV
  simp only [squareMove, Offset.addY, bind, Except.bind]
  rw [uadd_ok (by omega)]
  simp only [Offset.checkY]
  rw [if_neg (by omega)]

section
variable {N E σ : Type}

/-- **C76** is false, first reason: forgetting a bounds check in safe code. The graph is built without complaint, and reading the
weight at any coordinate outside it is undefined behaviour in a release build. -/
theorem c76_loose_ub {m : Machine} {h v : Nat} (hc : Constructible (squareShape m h v)) (hm : m.mode = .release)
    (n : σ → Offset → N × σ) (e : σ → Offset → SquareAxis → E × σ) (st : σ) :
    SafeCode (looseSquare m h v) ∧ ∃ (g : Graph Offset SquareAxis DSquareAxis N E) (st' : σ), newWith (looseSquare m h v) n e st = .ok (g, st') ∧
      ∀ c : Offset, (h ≤ c.horizontal ∨ v ≤ c.vertical) → g.nodeWeight c = .error .ub := by
  refine ⟨looseSquare_safe m h v, ?_⟩
  obtain ⟨g, st', hg⟩ := c76_new_with_returns (looseSquare_returns hc) hc n e st
  refine ⟨g, st', hg, fun c hout => ((c76_node_weight_iff (looseSquare_safe m h v) (.new hg) c).1.2 ⟨hm, c, rfl, fun hs => ?_⟩)⟩
  have h1 : c.horizontal < h := hs.1
  have h2 : c.vertical < v := hs.2
  omega

/-- **C76** is false, second reason: `COUNT` larger than the number of axes. With at least one cell, `new_with` is undefined
behaviour in a release build. -/
theorem c76_count_ub {m : Machine} {h v : Nat} (k : Nat) (hc : Constructible (squareShape m h v)) (hh : 0 < h) (hv : 0 < v)
    (hm : m.mode = .release) (n : σ → Offset → N × σ) (e : σ → Offset → SquareAxis → E × σ) (st : σ) :
    SafeCode (overCount m h v k) ∧
    (newWith (overCount m h v k) n e st : Res (Graph Offset SquareAxis DSquareAxis N E × σ)) = .error .ub := by
  refine ⟨⟨fun c hx => (by cases hx), fun o hx => (by cases hx), squareMove_safe m h v, fun a hx => (by cases hx)⟩, ?_⟩
  have hc' : Constructible (overCount m h v k) := hc
  obtain ⟨g0, hu⟩ := newUninit_returns (N := N) (E := E) hc'
  obtain ⟨h1, h2, h3, h4, h5⟩ := newUninit_any hu
  have h6 : (overCount m h v k).nodeCount = .ok (h * v) := by
    unfold Shape.nodeCount umul
    exact if_pos (show h * v < 2 * m.half by have := hc.bounds.1; simp only [squareShape] at this; omega)
  have hpos : 0 < h * v := Nat.mul_pos hh hv
  obtain ⟨p, hp⟩ : ∃ p, h * v = p + 1 := ⟨h * v - 1, by omega⟩
  have h7 : (overCount m h v k).indexToOffset 0 = .ok ⟨0, 0⟩ := by
    show (if v = 0 then .error .panic else .ok (⟨0 / v, 0 % v⟩ : Offset) : Res Offset) = _
    rw [if_neg (by omega), Nat.zero_div, Nat.zero_mod]
  have h8 : g0.nodes.data.length = h * v := h2.len
  obtain ⟨e0, e1, e2, es, hes⟩ : ∃ e0 e1 e2 es, g0.edges = e0 :: e1 :: e2 :: es := by
    have h9 : g0.edges.length = 3 + k := h3
    match h10 : g0.edges with
    | [] => rw [h10] at h9; simp only [List.length_nil] at h9; omega
    | [_] => rw [h10] at h9; simp only [List.length_cons, List.length_nil] at h9; omega
    | [_, _] => rw [h10] at h9; simp only [List.length_cons, List.length_nil] at h9; omega
    | e0 :: e1 :: e2 :: es => exact ⟨e0, e1, e2, es, rfl⟩
  obtain ⟨tx, hx⟩ := squareMove_returns hc (o := ⟨0, 0⟩) hh hv .X
  obtain ⟨ty, hy⟩ := squareMove_returns hc (o := ⟨0, 0⟩) hh hv .Y
  have h2' : ∀ (es : List (Arr2 E)) st, newWithEdges (overCount m h v k) e ⟨0, 0⟩ ⟨0, 0⟩ 2 (e2 :: es) st = .error .ub := by
    intro es st
    have : (overCount m h v k).axis.fromIndexUnchecked 2 = .error .ub := by
      show defaultFromIndexUnchecked m SquareAxis.fromIndex 2 = _
      simp [defaultFromIndexUnchecked, SquareAxis.fromIndex, unreachableDebugChecked, hm]
    simp only [newWithEdges, this, bind, Except.bind]
  have h1' : ∀ st, newWithEdges (overCount m h v k) e ⟨0, 0⟩ ⟨0, 0⟩ 1 (e1 :: e2 :: es) st = .error .ub := by
    intro st
    have a1 : (overCount m h v k).axis.fromIndexUnchecked 1 = .ok .Y := rfl
    have a2 : (overCount m h v k).axis.foward .Y = .ok .Y := rfl
    have a3 : (overCount m h v k).moveCoord ⟨0, 0⟩ .Y = .ok ty := hy
    rw [newWithEdges]
    simp only [a1, a2, a3, bind, Except.bind]
    cases ty <;> simp only [h2']
  have h0' : ∀ st, newWithEdges (overCount m h v k) e ⟨0, 0⟩ ⟨0, 0⟩ 0 (e0 :: e1 :: e2 :: es) st = .error .ub := by
    intro st
    have a1 : (overCount m h v k).axis.fromIndexUnchecked 0 = .ok .X := rfl
    have a2 : (overCount m h v k).axis.foward .X = .ok .X := rfl
    have a3 : (overCount m h v k).moveCoord ⟨0, 0⟩ .X = .ok tx := hx
    rw [newWithEdges]
    simp only [a1, a2, a3, bind, Except.bind]
    cases tx <;> simp only [h1']
  have h9 : (overCount m h v k).offsetToCoordinate ⟨0, 0⟩ = .ok ⟨0, 0⟩ := rfl
  simp only [newWith, hu, h6, hp, newWithNodes, h7, h9, hes, bind, Except.bind]
  rw [if_pos (by omega)]
  simp only [h0']

/-- **C76** is false, third reason: a slip in `move_coord` that makes it irreversible. The shape is coherent, `node_weight` and
`edge_weight` are safe, but asking for the edges at the last cell is undefined behaviour in every build. -/
theorem c76_slip_ub {m : Machine} {h v : Nat} (hc : Constructible (squareShape m h v)) (hh : 1 ≤ h) (hv : 2 ≤ v)
    (n : σ → Offset → N × σ) (e : σ → Offset → SquareAxis → E × σ) (st : σ) :
    SafeCode (slipSquare m h v) ∧ Coherent (slipSquare m h v) ∧
    ∃ (g : Graph Offset SquareAxis DSquareAxis N E) (st' : σ), newWith (slipSquare m h v) n e st = .ok (g, st') ∧
      ∃ it, g.edgesOf ⟨h - 1, v - 1⟩ = .ok it ∧ edgesNext g it = .error .ub := by
  refine ⟨slipSquare_safe m h v, slipSquare_coherent m h v, ?_⟩
  obtain ⟨g, st', hg⟩ := c76_new_with_returns (slipSquare_returns hc) hc n e st
  have hi := newWith_any hg
  refine ⟨g, st', hg, ⟨⟨h - 1, v - 1⟩, ⟨h - 1, v - 1⟩, 0, .axisDir⟩, ?_, ?_⟩
  · have : g.s.toOffset ⟨h - 1, v - 1⟩ = .ok (some ⟨h - 1, v - 1⟩) := by
      rw [hi.shape]
      exact congrArg Except.ok (rangeCheck_in (show h - 1 < h by omega) (show v - 1 < v by omega))
    simp only [Graph.edgesOf, edgesNewD, this, bind, Except.bind]
  have hs : g.s = slipSquare m h v := hi.shape
  have hbound : edgesBound g.s .axisDir = 4 := by rw [hs]; rfl
  have mX : g.s.moveCoord ⟨h - 1, v - 1⟩ .X = .ok none := by
    rw [hs]
    exact squareMove_lastX hc hh _
  have mY : g.s.moveCoord ⟨h - 1, v - 1⟩ .Y = .ok none := by
    rw [hs]
    exact squareMove_lastY hc (by omega) _
  have mR : g.s.moveCoord ⟨h - 1, v - 1⟩ .RX = .ok (some ⟨h - 1, v - 2⟩) := by
    rw [hs]
    show (Except.ok (Offset.subY ⟨h - 1, v - 1⟩ 1) : Res (Option Offset)) = _
    unfold Offset.subY
    rw [if_pos (by simp only; omega)]
    rfl
  have d0 : g.s.axis.dirFromIndexUnchecked 0 = .ok .X := by rw [hs]; rfl
  have d1 : g.s.axis.dirFromIndexUnchecked 1 = .ok .Y := by rw [hs]; rfl
  have d2 : g.s.axis.dirFromIndexUnchecked 2 = .ok .RX := by rw [hs]; rfl
  have hraw : (Dt.axisDir).getRawId g.s .RX ⟨h - 1, v - 1⟩ ⟨h - 1, v - 2⟩ 2 = .ok (⟨h - 1, v - 2⟩, 0) := by rw [hs]; rfl
  have hfd : g.s.axis.fromDirection .RX = .ok .X := by rw [hs]; rfl
  have hti : g.s.axis.toIndex .X = 0 := by rw [hs]; rfl
  have hstand : Stands (slipSquare m h v) ⟨h - 1, v - 2⟩ := ⟨show h - 1 < h by omega, show v - 2 < v by omega⟩
  have hna : ¬ Announced (slipSquare m h v) 0 ⟨h - 1, v - 2⟩ := by
    rintro ⟨c, a, d, t, h1, h2, h3, h4⟩
    cases h1; cases h2; cases h3
    have h5 : squareMove m h v ⟨h - 1, v - 2⟩ .X = .ok (some t) := h4
    rw [squareMove_lastX hc hh] at h5
    cases h5
  have hlen : g.edges.length = 2 := hi.count
  obtain ⟨arr, harr⟩ : ∃ arr, g.edges[0]? = some arr := ⟨g.edges[0], List.getElem?_eq_getElem (by omega)⟩
  have hread : g.edgeWeightUncheckedRaw ⟨h - 1, v - 2⟩ 0 = .error .ub := by
    have h1 := (hi.edges 0 arr harr).getUnwrap_ub (h - 1) (v - 2)
    simp only [Graph.edgeWeightUncheckedRaw, Graph.edgeArr, harr, bind, Except.bind]
    refine h1.2 (.inr ⟨hstand, ?_⟩)
    show ¬ Announced _ _ _
    rw [idx_div hstand.2, idx_mod hstand.2]
    exact hna
  have hmake : edgesMake g ⟨⟨h - 1, v - 1⟩, ⟨h - 1, v - 1⟩, 2, .axisDir⟩ .RX ⟨h - 1, v - 2⟩ = .error .ub := by
    simp only [edgesMake, hraw, bind, Except.bind]
    cases hmode : g.s.m.mode
    · simp only [hfd, hti, debugAssert, beq_self_eq_true, if_true, hmode, hread]
    · simp only [hread]
  rw [edgesNext, dif_pos (by rw [hbound]; exact Nat.zero_lt_succ _)]
  simp only [d0, mX, bind, Except.bind]
  rw [edgesNext, dif_pos (by rw [hbound]; exact (by decide : 1 < 4))]
  simp only [d1, mY, bind, Except.bind]
  rw [edgesNext, dif_pos (by rw [hbound]; exact (by decide : 2 < 4))]
  simp only [d2, mR, bind, Except.bind]
  simp only [Nat.zero_add, Nat.reduceAdd, hmake]

/-- Release build of the loose lattice: the cell below the last row, one far away, and one that is there. -/
example : ∃ (g : Graph Offset SquareAxis DSquareAxis Nat Nat) (st' : Unit),
    newWith (looseSquare m64r 3 2) exN exE () = .ok (g, st') ∧ g.nodeWeight ⟨2, 2⟩ = .error .ub ∧ g.nodeWeight ⟨700, 1⟩ = .error .ub ∧
      g.nodeWeight ⟨2, 1⟩ ≠ .error .ub := by
  obtain ⟨hs, g, st', h1, h2⟩ := c76_loose_ub (m := m64r) (h := 3) (v := 2) (by decide) rfl exN exE ()
  refine ⟨g, st', h1, h2 _ (by decide), h2 _ (by decide), fun h => ?_⟩
  obtain ⟨-, o, ho, hn⟩ := (c76_node_weight_iff hs (.new h1) _).1.1 h
  cases ho
  exact hn ⟨(by decide : 2 < 3), (by decide : 1 < 2)⟩

/-- Debug build of the lattice with the slip, 3 × 2: reading the edge to the right of the first cell is safe, iterating over the
edges of the last cell is not. -/
example : ∃ (g : Graph Offset SquareAxis DSquareAxis Nat Nat) (st' : Unit),
    newWith (slipSquare m64 3 2) exN exE () = .ok (g, st') ∧ g.edgeWeight ⟨0, 0⟩ .X ≠ .error .ub ∧
      ∃ it, g.edgesOf ⟨2, 1⟩ = .ok it ∧ edgesNext g it = .error .ub := by
  obtain ⟨hs, hc, g, st', h1, h2⟩ := c76_slip_ub (m := m64) (h := 3) (v := 2) (by decide) (by decide) (by decide) exN exE ()
  exact ⟨g, st', h1, (c76_weights_safe_partial hs hc (.new h1) _ _ id id).2.2.1, h2⟩

/-- `CountHonest` holds of the crate's square axis. -/
example : CountHonest (looseSquare m64r 3 2) := by
  intro j hj h
  obtain ⟨a, ha⟩ := (looseSquare_returns (m := m64r) (h := 3) (v := 2) (by decide)).axis j hj
  rw [ha] at h
  cases h

example : ∃ (g : Graph Offset SquareAxis DSquareAxis Nat Nat) (st' : Unit),
    newWith (looseSquare m64r 3 2) exN exE () = .ok (g, st') ∧ g.edgeWeight ⟨700, 0⟩ .Y = .error .ub ∧
      g.modifyEdge ⟨700, 0⟩ .Y (· + 1) = .error .ub := by
  obtain ⟨hs, g, st', h1, -⟩ := c76_loose_ub (m := m64r) (h := 3) (v := 2) (by decide) rfl exN exE ()
  have h := c76_edge_weight_iff hs (.new h1) ⟨700, 0⟩ .Y
  have he : g.edgeWeight ⟨700, 0⟩ .Y = .error .ub :=
    h.1.2 ⟨⟨700, 0⟩, .Y, ⟨700, 1⟩, rfl, rfl, rfl, .inr (.inl ⟨fun hx => absurd hx.1 (by decide), rfl⟩)⟩
  exact ⟨g, st', h1, he, (h.2 _).2 he⟩
example : (newWith (overCount m64r 3 2 0) exN exE () : Res (Graph Offset SquareAxis DSquareAxis Nat Nat × Unit)) = .error .ub :=
  (c76_count_ub 0 (m := m64r) (h := 3) (v := 2) (by unfold Constructible; decide) (by decide) (by decide) rfl exN exE ()).2

end
end LG
