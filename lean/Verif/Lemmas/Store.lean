import Verif.Lemmas.Sound
/- Storage invariant: the arrays hold exactly the given contents; construction establishes it. -/
set_option linter.unusedVariables false
namespace LG
section
variable {C A D N E σ α : Type}

theorem idx_lt {W H x y : Nat} (hx : x < W) (hy : y < H) : x * H + y < W * H := by
  have : (x + 1) * H ≤ W * H := Nat.mul_le_mul_right _ hx
  rw [Nat.add_mul] at this
  omega

theorem idx_div {H x y : Nat} (hy : y < H) : (x * H + y) / H = x := by
  rw [Nat.mul_comm, Nat.mul_add_div (by omega), Nat.div_eq_of_lt hy, Nat.add_zero]

theorem idx_mod {H x y : Nat} (hy : y < H) : (x * H + y) % H = y := by
  rw [Nat.mul_comm, Nat.mul_add_mod, Nat.mod_eq_of_lt hy]

theorem idx_inj {H x y x' y' : Nat} (hy : y < H) (hy' : y' < H) (h : x * H + y = x' * H + y') : x = x' ∧ y = y' := by
  have h1 := congrArg (· / H) h
  have h2 := congrArg (· % H) h
  simp only [idx_div hy, idx_div hy', idx_mod hy, idx_mod hy'] at h1 h2
  exact ⟨h1, h2⟩

theorem idx_eta {H i : Nat} : i / H * H + i % H = i := by
  rw [Nat.mul_comm]; exact Nat.div_add_mod i H

theorem div_lt_w {W H i : Nat} (h : i < W * H) : i / H < W := by
  have : 0 < H := by
    apply Nat.pos_of_ne_zero; rintro rfl; simp at h
  rw [Nat.div_lt_iff_lt_mul this]; exact h

theorem mod_lt_h {W H i : Nat} (h : i < W * H) : i % H < H := by
  apply Nat.mod_lt
  apply Nat.pos_of_ne_zero; rintro rfl; simp at h

/-- The `i`-th cell in index order. -/
def Lat.at (L : Lat C A D) (i : Nat) : C := L.coord (i / L.height) (i % L.height)

theorem Lat.at_idx {L : Lat C A D} {x y : Nat} (hy : y < L.height) : L.at (x * L.height + y) = L.coord x y := by
  unfold Lat.at; rw [idx_div hy, idx_mod hy]

theorem Lat.at_node {L : Lat C A D} {i : Nat} (h : i < L.width * L.height) : L.Node (L.at i) :=
  ⟨_, _, div_lt_w h, mod_lt_h h, rfl⟩

theorem flatMap_range_map (f : Nat → Nat → α) (H : Nat) : ∀ W, ((List.range W).flatMap fun x => (List.range H).map fun y => f x y)
    = (List.range (W * H)).map fun i => f (i / H) (i % H) := by
  intro W
  induction W with
  | zero => simp
  | succ W ih =>
    rw [List.range_succ, List.flatMap_append, ih, Nat.add_mul, Nat.one_mul, List.range_add, List.map_append]
    congr 1
    simp only [List.flatMap_cons, List.flatMap_nil, List.append_nil, List.map_map]
    apply List.map_congr_left
    intro y hy
    have hy := List.mem_range.1 hy
    simp only [Function.comp, idx_div hy, idx_mod hy]

theorem Lat.nodes_eq (L : Lat C A D) : L.nodes = (List.range (L.width * L.height)).map L.at :=
  flatMap_range_map L.coord L.height L.width

theorem Lat.mem_nodes {L : Lat C A D} {c : C} : c ∈ L.nodes ↔ L.Node c := by
  rw [L.nodes_eq, List.mem_map]
  constructor
  · rintro ⟨i, hi, rfl⟩
    exact Lat.at_node (List.mem_range.1 hi)
  · rintro ⟨x, y, hx, hy, rfl⟩
    exact ⟨_, List.mem_range.2 (idx_lt hx hy), Lat.at_idx hy⟩

/-- The array holds `f c` at the slot of every cell `c`. -/
structure ArrInv (L : Lat C A D) (a : Arr2 α) (f : C → Option α) : Prop where
  rows : a.rows = L.width
  cols : a.cols = L.height
  len : a.data.length = L.width * L.height
  slot : ∀ {x y}, x < L.width → y < L.height → a.data[x * L.height + y]? = some (f (L.coord x y))

theorem ArrInv.congr {L : Lat C A D} {a : Arr2 α} {f f' : C → Option α} (h : ArrInv L a f)
    (he : ∀ c, L.Node c → f c = f' c) : ArrInv L a f' where
  rows := h.rows
  cols := h.cols
  len := h.len
  slot := by
    intro x y hx hy
    rw [h.slot hx hy, he _ ⟨x, y, hx, hy, rfl⟩]

theorem ArrInv.uninit {L : Lat C A D} {m : Machine} {a : Arr2 α}
    (h : Arr2.uninit m L.width L.height = .ok a) : ArrInv L a (fun _ => none) := by
  unfold Arr2.uninit at h
  by_cases hc : (if L.width = 0 then 1 else L.width) * (if L.height = 0 then 1 else L.height) < m.half
  · rw [if_pos hc] at h
    cases h
    exact { rows := rfl, cols := rfl, len := by simp, slot := by
              intro x y hx hy
              simp only [List.getElem?_replicate, idx_lt hx hy, if_true] }
  · rw [if_neg hc] at h
    cases h

theorem ArrInv.slot_eq {L : Lat C A D} {a : Arr2 α} {f : C → Option α} (h : ArrInv L a f) {x y : Nat}
    (hx : x < L.width) (hy : y < L.height) : a.slot x y = some (x * L.height + y) := by
  unfold Arr2.slot
  rw [h.rows, h.cols, if_pos ⟨hx, hy⟩]

theorem ArrInv.writeSlot [DecidableEq C] {L : Lat C A D} (hl : LatBase L) {a : Arr2 α} {f : C → Option α}
    (h : ArrInv L a f) {x y : Nat} (hx : x < L.width) (hy : y < L.height) (w : α) :
    ArrInv L (a.writeSlot (x * L.height + y) w) (fun c => if c = L.coord x y then some w else f c) where
  rows := h.rows
  cols := h.cols
  len := by simp [Arr2.writeSlot, h.len]
  slot := by
    intro x' y' hx' hy'
    simp only [Arr2.writeSlot, List.getElem?_set]
    split
    · rename_i he
      obtain ⟨rfl, rfl⟩ := idx_inj hy hy' he
      rw [h.len, if_pos (idx_lt hx hy), if_pos rfl]
    · rename_i he
      rw [h.slot hx' hy', if_neg]
      intro hc
      obtain ⟨rfl, rfl⟩ := hl.coord_inj hx' hy' hx hy hc
      exact he rfl

theorem ArrInv.writeIfPresent [DecidableEq C] {L : Lat C A D} (hl : LatBase L) {a : Arr2 α} {f : C → Option α}
    (h : ArrInv L a f) {x y : Nat} (hx : x < L.width) (hy : y < L.height) (w : α) :
    ArrInv L (a.writeIfPresent x y w) (fun c => if c = L.coord x y then some w else f c) := by
  unfold Arr2.writeIfPresent
  rw [h.slot_eq hx hy]
  exact h.writeSlot hl hx hy w

theorem ArrInv.read {L : Lat C A D} {a : Arr2 α} {f : C → Option α} (h : ArrInv L a f) {x y : Nat}
    (hx : x < L.width) (hy : y < L.height) {w : α} (hw : f (L.coord x y) = some w) :
    a.read (x * L.height + y) = .ok w := by
  unfold Arr2.read
  rw [h.slot hx hy, hw]

theorem ArrInv.uget {L : Lat C A D} {a : Arr2 α} {f : C → Option α} (h : ArrInv L a f) {x y : Nat} (m : Machine)
    (hx : x < L.width) (hy : y < L.height) {w : α} (hw : f (L.coord x y) = some w) : a.uget m x y = .ok w := by
  unfold Arr2.uget
  rw [h.slot_eq hx hy]
  exact h.read hx hy hw

theorem ArrInv.getUnwrapUnchecked {L : Lat C A D} {a : Arr2 α} {f : C → Option α} (h : ArrInv L a f) {x y : Nat}
    (hx : x < L.width) (hy : y < L.height) {w : α} (hw : f (L.coord x y) = some w) :
    a.getUnwrapUnchecked x y = .ok w := by
  unfold Arr2.getUnwrapUnchecked
  rw [h.slot_eq hx hy]
  exact h.read hx hy hw

theorem ArrInv.uget_none {L : Lat C A D} {a : Arr2 α} {f : C → Option α} (h : ArrInv L a f) {x y : Nat} (m : Machine)
    (hx : x < L.width) (hy : y < L.height) (hw : f (L.coord x y) = none) : a.uget m x y = .error .ub := by
  unfold Arr2.uget Arr2.read
  rw [h.slot_eq hx hy]
  simp only [h.slot hx hy, hw]

/-- Reading a slot that was never written. -/
theorem ArrInv.getUnwrapUnchecked_none {L : Lat C A D} {a : Arr2 α} {f : C → Option α} (h : ArrInv L a f) {x y : Nat}
    (hx : x < L.width) (hy : y < L.height) (hw : f (L.coord x y) = none) :
    a.getUnwrapUnchecked x y = .error .ub := by
  unfold Arr2.getUnwrapUnchecked Arr2.read
  rw [h.slot_eq hx hy]
  simp only [h.slot hx hy, hw]

/-- The edge arrays hold `f c a`, one array per axis. -/
def EdgesInv (L : Lat C A D) (f : C → A → Option E) : List (Arr2 E) → List A → Prop
  | [], [] => True
  | arr :: es, a :: as => ArrInv L arr (fun c => f c a) ∧ EdgesInv L f es as
  | _, _ => False

theorem EdgesInv.congr {L : Lat C A D} {f f' : C → A → Option E} : ∀ {es : List (Arr2 E)} {as : List A},
    EdgesInv L f es as → (∀ c a, L.Node c → a ∈ as → f c a = f' c a) → EdgesInv L f' es as
  | [], [], _, _ => trivial
  | _ :: _, a :: as, h, he =>
    ⟨h.1.congr fun c hc => he c a hc (by simp), h.2.congr fun c b hc hb => he c b hc (by simp [hb])⟩
  | [], _ :: _, h, _ => h.elim
  | _ :: _, [], h, _ => h.elim

theorem EdgesInv.get {L : Lat C A D} {f : C → A → Option E} : ∀ {es : List (Arr2 E)} {as : List A} {j : Nat} {a : A},
    EdgesInv L f es as → as[j]? = some a → ∃ arr, es[j]? = some arr ∧ ArrInv L arr (fun c => f c a)
  | [], [], j, a, _, h => by simp at h
  | arr :: es, b :: as, 0, a, h, hj => by
    simp only [List.getElem?_cons_zero, Option.some.injEq] at hj
    subst hj
    exact ⟨arr, rfl, h.1⟩
  | arr :: es, b :: as, j + 1, a, h, hj => by
    simp only [List.getElem?_cons_succ] at hj ⊢
    exact h.2.get hj
  | [], _ :: _, _, _, h, _ => h.elim
  | _ :: _, [], _, _, h, _ => h.elim

theorem EdgesInv.length {L : Lat C A D} {f : C → A → Option E} : ∀ {es : List (Arr2 E)} {as : List A},
    EdgesInv L f es as → es.length = as.length
  | [], [], _ => rfl
  | _ :: _, _ :: _, h => congrArg (· + 1) h.2.length
  | [], _ :: _, h => h.elim
  | _ :: _, [], h => h.elim

theorem EdgesInv.set [DecidableEq A] {L : Lat C A D} {f f' : C → A → Option E} :
    ∀ {es : List (Arr2 E)} {as : List A} {j : Nat} {a : A} {arr : Arr2 E},
    EdgesInv L f es as → as.Nodup → as[j]? = some a → ArrInv L arr (fun c => f' c a) →
    (∀ c b, b ≠ a → f' c b = f c b) → EdgesInv L f' (es.set j arr) as
  | [], [], j, a, _, _, _, h, _, _ => by simp at h
  | arr :: es, b :: as, 0, a, arr', h, hn, hj, ha, he => by
    simp only [List.getElem?_cons_zero, Option.some.injEq] at hj
    subst hj
    refine ⟨ha, h.2.congr fun c d _ hd => (he c d ?_).symm⟩
    rintro rfl
    exact (List.nodup_cons.1 hn).1 hd
  | arr :: es, b :: as, j + 1, a, arr', h, hn, hj, ha, he => by
    simp only [List.getElem?_cons_succ] at hj
    have hn := List.nodup_cons.1 hn
    refine ⟨h.1.congr fun c _ => (he c b ?_).symm, h.2.set hn.2 hj ha he⟩
    rintro rfl
    exact hn.1 (List.mem_of_getElem? hj)
  | [], _ :: _, _, _, _, h, _, _, _, _ => h.elim
  | _ :: _, [], _, _, _, h, _, _, _, _ => h.elim

/-- The graph stores exactly the contents `k`. -/
structure Inv (g : Graph C A D N E) (L : Lat C A D) (k : Contents C A N E) : Prop where
  nodes : ArrInv L g.nodes k.node
  edges : EdgesInv L k.edge g.edges L.axes

theorem runCalls_append [DecidableEq C] [DecidableEq A] (n : σ → C → N × σ) (e : σ → C → A → E × σ) :
    ∀ (l1 l2 : List (Call C A)) (st : σ) (k : Contents C A N E),
    runCalls n e (l1 ++ l2) st k = runCalls n e l2 (runCalls n e l1 st k).2 (runCalls n e l1 st k).1
  | [], l2, st, k => rfl
  | .node c :: l1, l2, st, k => runCalls_append n e l1 l2 _ _
  | .edge c a :: l1, l2, st, k => runCalls_append n e l1 l2 _ _

/-- The edge calls of one node along the axes `as`. -/
def edgeCalls (L : Lat C A D) (c : C) (as : List A) : List (Call C A) :=
  (as.filter fun a => (L.nbr c (L.fwd a)).isSome).map fun a => Call.edge c a

/-- Edge calls leave node weights and other entries alone. -/
theorem runCalls_edges [DecidableEq C] [DecidableEq A] (n : σ → C → N × σ) (e : σ → C → A → E × σ) (L : Lat C A D) (c : C) :
    ∀ (as : List A) (st : σ) (k : Contents C A N E),
    (runCalls n e (edgeCalls L c as) st k).1.node = k.node ∧
    ∀ c' a', (c' ≠ c ∨ a' ∉ as) → (runCalls n e (edgeCalls L c as) st k).1.edge c' a' = k.edge c' a'
  | [], st, k => ⟨rfl, fun _ _ _ => rfl⟩
  | a :: as, st, k => by
    by_cases h : (L.nbr c (L.fwd a)).isSome
    · simp only [edgeCalls, List.filter_cons, h, if_true, List.map_cons, runCalls]
      obtain ⟨h1, h2⟩ := runCalls_edges n e L c as (e st c a).2
        { k with edge := fun c' a' => if c' = c ∧ a' = a then some (e st c a).1 else k.edge c' a' }
      refine ⟨h1, fun c' a' hh => ?_⟩
      rw [edgeCalls] at h2
      rw [h2 c' a' (by simp only [List.mem_cons, not_or] at hh; exact hh.imp id And.right)]
      simp only
      rw [if_neg]
      rintro ⟨rfl, rfl⟩
      simp at hh
    · simp only [edgeCalls, List.filter_cons, h]
      obtain ⟨h1, h2⟩ := runCalls_edges n e L c as st k
      exact ⟨h1, fun c' a' hh => h2 c' a' (by simp only [List.mem_cons, not_or] at hh; exact hh.imp id And.right)⟩

theorem drop_get {l as : List α} {j : Nat} {a : α} (h : l.drop j = a :: as) :
    (∃ hj : j < l.length, l[j] = a) ∧ l.drop (j + 1) = as := by
  have hj : j < l.length := by
    rcases Nat.lt_or_ge j l.length with hj | hj
    · exact hj
    · rw [List.drop_eq_nil_of_le hj] at h; cases h
  rw [List.drop_eq_getElem_cons hj] at h
  cases h
  exact ⟨⟨hj, rfl⟩, rfl⟩

theorem newWithEdges_spec [DecidableEq C] [DecidableEq A] [DecidableEq D] {s : Shape C A D} {L : Lat C A D} {rep : C → Prop}
    (hi : ImplBase s L rep) (hl : LatBase L) (n : σ → C → N × σ) (e : σ → C → A → E × σ) {x y : Nat} (hx : x < L.width)
    (hy : y < L.height) :
    ∀ (as : List A) (j : Nat) (es : List (Arr2 E)) (st : σ) (k : Contents C A N E), L.axes.drop j = as → as.Nodup →
      EdgesInv L k.edge es as →
      ∃ es', newWithEdges s e ⟨x, y⟩ (L.coord x y) j es st =
          .ok (es', (runCalls n e (edgeCalls L (L.coord x y) as) st k).2) ∧
        EdgesInv L (runCalls n e (edgeCalls L (L.coord x y) as) st k).1.edge es' as
  | [], j, [], st, k, _, _, _ => ⟨[], rfl, trivial⟩
  | a :: as, j, arr :: es, st, k, hd, hnd, hinv => by
    obtain ⟨⟨hj, hja⟩, hd'⟩ := drop_get hd
    obtain ⟨hna, hnd'⟩ := List.nodup_cons.1 hnd
    have hnode : L.Node (L.coord x y) := ⟨x, y, hx, hy, rfl⟩
    simp only [newWithEdges, hi.axis.fromIndex j hj, hja, hi.axis.foward, hi.move hnode, bind, Except.bind]
    cases hnb : L.nbr (L.coord x y) (L.fwd a) with
    | none =>
      obtain ⟨es', h1, h2⟩ := newWithEdges_spec hi hl n e hx hy as (j + 1) es st k hd' hnd' hinv.2
      have hc : edgeCalls L (L.coord x y) (a :: as) = edgeCalls L (L.coord x y) as := by
        simp [edgeCalls, hnb]
      rw [hc]
      simp only [h1]
      refine ⟨arr :: es', rfl, ?_, h2⟩
      refine hinv.1.congr fun c _ => ?_
      rw [(runCalls_edges n e L _ as st k).2 c a (.inr hna)]
    | some t =>
      have hc : edgeCalls L (L.coord x y) (a :: as) = .edge (L.coord x y) a :: edgeCalls L (L.coord x y) as := by
        simp [edgeCalls, hnb]
      rw [hc]
      simp only [runCalls]
      obtain ⟨es', h1, h2⟩ := newWithEdges_spec hi hl n e hx hy as (j + 1) es (e st (L.coord x y) a).2
        { k with edge := fun c' a' => if c' = L.coord x y ∧ a' = a then some (e st (L.coord x y) a).1 else k.edge c' a' }
        hd' hnd' (hinv.2.congr fun c b _ hb => by
          simp only
          rw [if_neg]
          rintro ⟨_, rfl⟩
          exact hna hb)
      simp only [h1]
      refine ⟨_ :: es', rfl, ?_, h2⟩
      refine (hinv.1.writeIfPresent hl hx hy (e st (L.coord x y) a).1).congr fun c _ => ?_
      rw [(runCalls_edges n e L _ as _ _).2 c a (.inr hna)]
      simp
  | [], _, _ :: _, _, _, _, _, h => h.elim
  | _ :: _, _, [], _, _, _, _, h => h.elim

/-- All calls for the node `c`. -/
def callsAt (L : Lat C A D) (c : C) : List (Call C A) := .node c :: edgeCalls L c L.axes

theorem callSeq_eq (L : Lat C A D) : callSeq L = (List.range (L.width * L.height)).flatMap fun i => callsAt L (L.at i) := by
  unfold callSeq
  rw [L.nodes_eq, List.flatMap_map]
  rfl

theorem ImplBase.indexToOffset [DecidableEq C] [DecidableEq D] {s : Shape C A D} {L : Lat C A D} {rep : C → Prop}
    (hi : ImplBase s L rep) {i : Nat} (h : i < L.width * L.height) :
    s.indexToOffset i = .ok ⟨i / L.height, i % L.height⟩ := by
  have hy := mod_lt_h h
  unfold Shape.indexToOffset
  rw [hi.height, if_neg (by omega)]

theorem ImplBase.offsetAt [DecidableEq C] [DecidableEq D] {s : Shape C A D} {L : Lat C A D} {rep : C → Prop}
    (hi : ImplBase s L rep) {i : Nat} (h : i < L.width * L.height) :
    s.offsetToCoordinate ⟨i / L.height, i % L.height⟩ = .ok (L.at i) :=
  hi.offsetToCoordinate (div_lt_w h) (mod_lt_h h)

theorem newWithNodes_spec [DecidableEq C] [DecidableEq A] [DecidableEq D] {s : Shape C A D} {L : Lat C A D} {rep : C → Prop}
    (hi : ImplBase s L rep) (hl : LatBase L) (n : σ → C → N × σ) (e : σ → C → A → E × σ) :
    ∀ (cnt i : Nat) (nodes : Arr2 N) (es : List (Arr2 E)) (st : σ) (k : Contents C A N E),
      i + cnt = L.width * L.height → ArrInv L nodes k.node → EdgesInv L k.edge es L.axes →
      ∃ nodes' es', newWithNodes s n e i cnt nodes es st =
          .ok (nodes', es', (runCalls n e ((List.range' i cnt).flatMap fun i => callsAt L (L.at i)) st k).2) ∧
        ArrInv L nodes' (runCalls n e ((List.range' i cnt).flatMap fun i => callsAt L (L.at i)) st k).1.node ∧
        EdgesInv L (runCalls n e ((List.range' i cnt).flatMap fun i => callsAt L (L.at i)) st k).1.edge es' L.axes
  | 0, i, nodes, es, st, k, _, hn, he => ⟨nodes, es, rfl, hn, he⟩
  | cnt + 1, i, nodes, es, st, k, hc, hn, he => by
    have hil : i < L.width * L.height := by omega
    have hx := div_lt_w hil
    have hy := mod_lt_h hil
    have hv : s.vertical ≠ 0 := by rw [hi.height]; omega
    have hslot : i / L.height * L.height + i % L.height = i := idx_eta
    obtain ⟨es1, h1, h2⟩ := newWithEdges_spec hi hl n e hx hy L.axes 0 es (n st (L.at i)).2
      { k with node := fun c' => if c' = L.at i then some (n st (L.at i)).1 else k.node c' } rfl hl.dir.axes_nodup he
    have hw := hn.writeSlot hl hx hy (n st (L.at i)).1
    rw [hslot] at hw
    have hne := (runCalls_edges n e L (L.at i) L.axes (n st (L.at i)).2
      { k with node := fun c' => if c' = L.at i then some (n st (L.at i)).1 else k.node c' }).1
    obtain ⟨nodes', es', h3, h4, h5⟩ := newWithNodes_spec hi hl n e cnt (i + 1) _ es1
      (runCalls n e (edgeCalls L (L.at i) L.axes) (n st (L.at i)).2
        { k with node := fun c' => if c' = L.at i then some (n st (L.at i)).1 else k.node c' }).2
      (runCalls n e (edgeCalls L (L.at i) L.axes) (n st (L.at i)).2
        { k with node := fun c' => if c' = L.at i then some (n st (L.at i)).1 else k.node c' }).1
      (by omega) (by rw [hne]; exact hw) h2
    refine ⟨nodes', es', ?_, ?_, ?_⟩
    · rw [show L.coord (i / L.height) (i % L.height) = L.at i from rfl] at h1
      simp only [newWithNodes, hi.indexToOffset hil, hi.offsetAt hil, bind, Except.bind, hn.len, if_pos hil, h1, h3, List.range'_succ, List.flatMap_cons, callsAt, List.cons_append, runCalls, runCalls_append]
    · simpa only [List.range'_succ, List.flatMap_cons, callsAt, List.cons_append, runCalls, runCalls_append] using h4
    · simpa only [List.range'_succ, List.flatMap_cons, callsAt, List.cons_append, runCalls, runCalls_append] using h5

theorem uninit_ok {m : Machine} {r c : Nat}
    (h : (if r = 0 then 1 else r) * (if c = 0 then 1 else c) < m.half) :
    ∃ a : Arr2 α, Arr2.uninit m r c = .ok a := by
  unfold Arr2.uninit
  rw [if_pos h]
  exact ⟨_, rfl⟩

theorem uninitEdges_spec {s : Shape C A D} {L : Lat C A D} (hw : s.horizontal = L.width) (hh : s.vertical = L.height)
    (hc : Constructible s) : ∀ (as : List A),
    ∃ es : List (Arr2 E), uninitEdges s as.length = .ok es ∧ EdgesInv L (fun _ _ => none) es as
  | [] => ⟨[], rfl, trivial⟩
  | a :: as => by
    obtain ⟨es, h1, h2⟩ := uninitEdges_spec hw hh hc as
    obtain ⟨arr, h3⟩ := uninit_ok hc (α := E)
    refine ⟨arr :: es, ?_, ?_, h2⟩
    · simp only [List.length_cons, uninitEdges, h3, h1, bind, Except.bind]
    · rw [hw, hh] at h3; exact ArrInv.uninit h3

theorem newUninit_spec {s : Shape C A D} {L : Lat C A D} (hw : s.horizontal = L.width) (hh : s.vertical = L.height)
    (hn : s.axis.count = L.axes.length) (hc : Constructible s) :
    ∃ g : Graph C A D N E, newUninit s = .ok g ∧ g.s = s ∧ Inv g L emptyContents := by
  obtain ⟨es, h1, h2⟩ := uninitEdges_spec hw hh hc L.axes (E := E)
  obtain ⟨arr, h3⟩ := uninit_ok hc (α := N)
  refine ⟨⟨arr, es, s⟩, ?_, rfl, ?_, h2⟩
  · simp only [newUninit, h3, bind, Except.bind, hn, h1]
  · rw [hw, hh] at h3; exact ArrInv.uninit h3

theorem newUninit_panic {s : Shape C A D} (hc : ¬ Constructible s) :
    (newUninit s : Res (Graph C A D N E)) = .error .panic := by
  unfold Constructible at hc
  simp only [newUninit, Arr2.uninit, if_neg hc, bind, Except.bind]

theorem umul_ok {m : Machine} {a b : Nat} (h : a * b < 2 * m.half) : umul m a b = .ok (a * b) := by
  simp [umul, h]

theorem ImplBase.nodeCount [DecidableEq C] [DecidableEq D] {s : Shape C A D} {L : Lat C A D} {rep : C → Prop}
    (hi : ImplBase s L rep) : s.nodeCount = .ok (L.width * L.height) := by
  unfold Shape.nodeCount
  rw [hi.width, hi.height, umul_ok]
  have := hi.small
  omega

/-- Construction, for any shape that implements a lattice. -/
theorem newWith_base [DecidableEq C] [DecidableEq A] [DecidableEq D] {s : Shape C A D} {L : Lat C A D} {rep : C → Prop}
    (hi : ImplBase s L rep) (hl : LatBase L) (hc : Constructible s) (n : σ → C → N × σ) (e : σ → C → A → E × σ) (st : σ) :
    ∃ g : Graph C A D N E, newWith s n e st = .ok (g, (runCalls n e (callSeq L) st emptyContents).2) ∧ g.s = s ∧
      Inv g L (runCalls n e (callSeq L) st emptyContents).1 := by
  obtain ⟨g, h1, h2, h3⟩ := newUninit_spec (N := N) (E := E) hi.width hi.height hi.axis.count hc
  obtain ⟨nodes', es', h4, h5, h6⟩ := newWithNodes_spec hi hl n e (L.width * L.height) 0 g.nodes g.edges st
    emptyContents (by omega) h3.nodes h3.edges
  rw [← List.range_eq_range', ← callSeq_eq] at *
  refine ⟨⟨nodes', es', s⟩, ?_, rfl, h5, h6⟩
  simp only [newWith, h1, hi.nodeCount, h4, bind, Except.bind]

theorem newWith_ok [DecidableEq C] [DecidableEq A] [DecidableEq D] {s : Shape C A D} {L : Lat C A D} {rep : C → Prop}
    (hs : Lawful s L rep) (hc : Constructible s) (n : σ → C → N × σ) (e : σ → C → A → E × σ) (st : σ) :
    ∃ g : Graph C A D N E, newWith s n e st = .ok (g, (runCalls n e (callSeq L) st emptyContents).2) ∧ g.s = s ∧
      Inv g L (runCalls n e (callSeq L) st emptyContents).1 :=
  newWith_base (hs.impl hc).toImplBase hs.laws.toLatBase hc n e st

theorem newWith_panic {s : Shape C A D} (hc : ¬ Constructible s) (n : σ → C → N × σ) (e : σ → C → A → E × σ) (st : σ) :
    newWith s n e st = .error .panic := by
  simp only [newWith, newUninit_panic hc, bind, Except.bind]

end
end LG
