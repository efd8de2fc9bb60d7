import Verif.Lemmas.Legacy
import Verif.Lemmas.Hints
/- The iterators of the legacy graph. -/
set_option linter.unusedSectionVars false
namespace LG.Sq
section
variable {N E α σ : Type}
variable {g : G N E} {k : Cfg} {s : Grid} {c : Contents NodeIx Axis N E}

/-- Sizes the arithmetic relies on. -/
structure Sizes (k : Cfg) (s : Grid) : Prop where
  pos_h : 0 < s.h
  pos_v : 0 < s.v
  small : s.h * s.v < k.m.half
  fit_h : s.h ≤ k.ix
  fit_v : s.v ≤ k.ix
  loopH : s.loopH = k.loopH
  loopV : s.loopV = k.loopV

theorem Sizes.h_lt (z : Sizes k s) : s.h < k.m.half :=
  Nat.lt_of_le_of_lt (Nat.le_mul_of_pos_right s.h z.pos_v) z.small
theorem Sizes.v_lt (z : Sizes k s) : s.v < k.m.half :=
  Nat.lt_of_le_of_lt (Nat.le_mul_of_pos_left s.v z.pos_h) z.small

theorem Stores.sizes (hs : Stores g k s c) (hf : k.Fits s.h s.v) : Sizes k s :=
  ⟨hs.pos_h, hs.pos_v, hs.small, hf.1, hf.2, hs.loopH, hs.loopV⟩

theorem new_of_lt {x : Nat} (h : x < k.ix) : k.new x = x := Nat.mod_eq_of_lt h
theorem new_zero : k.new 0 = 0 := Nat.zero_mod _

theorem uadd1 (z : Sizes k s) {x : Nat} (h : x < s.h ∨ x < s.v) : uadd k.m x 1 = .ok (x + 1) := by
  have := z.h_lt; have := z.v_lt
  exact uadd_ok (by omega)

/-! ### Nodes -/

/-- The `p`-th cell. -/
def Grid.at (s : Grid) (p : Nat) : NodeIx := ⟨p / s.v, p % s.v⟩

theorem Grid.nodes_eq (s : Grid) : s.nodes = (List.range (s.h * s.v)).map s.at := cells_eq s.h s.v

theorem Grid.at_node {p : Nat} (h : p < s.h * s.v) : s.Node (s.at p) := ⟨div_lt_w h, mod_lt_h h⟩

/-- The index iterator has produced `p` cells. -/
structure Pos (s : Grid) (it : NodeIndices) (p : Nat) : Prop where
  hMax : it.hMax = s.h
  vMax : it.vMax = s.v
  h : it.h < s.h
  v : it.v ≤ s.v
  pos : p = it.h * s.v + it.v

theorem Pos.new (z : Sizes k s) : Pos s (.new s.h s.v) 0 := ⟨rfl, rfl, z.pos_h, Nat.zero_le _, by simp [NodeIndices.new]⟩

theorem Pos.le {it : NodeIndices} {p : Nat} (hp : Pos s it p) : p ≤ s.h * s.v := by
  have h1 : (it.h + 1) * s.v ≤ s.h * s.v := Nat.mul_le_mul_right _ hp.h
  rw [Nat.add_mul] at h1
  have := hp.v; have := hp.pos
  omega

theorem Pos.next (z : Sizes k s) {it : NodeIndices} {p : Nat} (hp : Pos s it p) (h : p < s.h * s.v) :
    ∃ it', it.next k = .ok (some (s.at p), it') ∧ Pos s it' (p + 1) ∧ it.Advanced it' := by
  have hpos := hp.pos
  have hh := hp.h
  have hfh := z.fit_h
  have hfv := z.fit_v
  unfold NodeIndices.next NodeIndices.Advanced
  rw [hp.hMax, hp.vMax]
  by_cases hv : it.v < s.v
  · rw [if_pos hv]
    refine ⟨⟨it.hMax, it.h, it.vMax, it.v + 1⟩, ?_,
      ⟨hp.hMax, hp.vMax, hp.h, hv, by simp only; omega⟩, .inr ⟨by simp only [hp.hMax], by simp only [hp.vMax]; omega⟩⟩
    unfold Grid.at
    rw [hpos, idx_div hv, idx_mod hv, new_of_lt (by omega), new_of_lt (by omega), hp.hMax, hp.vMax]
  · rw [if_neg hv]
    have hve : it.v = s.v := by have := hp.v; omega
    have hlt : it.h + 1 < s.h := by
      rcases Nat.lt_or_ge (it.h + 1) s.h with h1 | h1
      · exact h1
      · exfalso
        have : it.h + 1 = s.h := by omega
        rw [← this, Nat.add_mul] at h
        omega
    simp only [uadd1 z (.inl hh), bind, Except.bind]
    rw [if_pos hlt]
    have hp0 := z.pos_v
    have hp1 : p = (it.h + 1) * s.v + 0 := by rw [Nat.add_mul]; omega
    refine ⟨⟨s.h, it.h + 1, s.v, 1⟩, ?_, ⟨rfl, rfl, hlt, by simp only; omega, by simp only; omega⟩, .inl (by simp only; omega)⟩
    unfold Grid.at
    rw [hp1, idx_div hp0, idx_mod hp0, new_of_lt (by omega), new_zero]

theorem Pos.next_end (z : Sizes k s) {it : NodeIndices} {p : Nat} (hp : Pos s it p) (h : ¬ p < s.h * s.v) :
    it.next k = .ok (none, it) := by
  have hpos := hp.pos
  have hh := hp.h
  have hle := hp.le
  have h1 : (it.h + 1) * s.v ≤ s.h * s.v := Nat.mul_le_mul_right _ hp.h
  rw [Nat.add_mul] at h1
  have hv := hp.v
  have hp0 := z.pos_v
  have hlt : ¬ it.h + 1 < s.h := by
    intro hlt
    have h2 : (it.h + 2) * s.v ≤ s.h * s.v := Nat.mul_le_mul_right _ hlt
    rw [Nat.add_mul] at h2
    omega
  unfold NodeIndices.next
  rw [hp.hMax, hp.vMax, if_neg (by omega)]
  simp only [uadd1 z (.inl hh), bind, Except.bind]
  rw [if_neg hlt]

theorem nodeIndices_yields (z : Sizes k s) : ∀ (n p : Nat) (it : NodeIndices), Pos s it p → p + n = s.h * s.v →
    Yields (NodeIndices.next k) it ((List.range' p n).map s.at)
  | 0, p, it, hp, h => .done (hp.next_end z (by omega))
  | n + 1, p, it, hp, h => by
    obtain ⟨it', h1, h2, _⟩ := hp.next z (by omega)
    rw [List.range'_succ]
    exact .step h1 (nodeIndices_yields z n (p + 1) it' h2 (by omega))

theorem Pos.sizeHint (z : Sizes k s) {it : NodeIndices} {p : Nat} (hp : Pos s it p) :
    it.sizeHint k = .ok (s.h * s.v - p, some (s.h * s.v - p)) := by
  have hpos := hp.pos
  have hh := hp.h
  have hv := hp.v
  have h1 : (it.h + 1) * s.v ≤ s.h * s.v := Nat.mul_le_mul_right _ hp.h
  rw [Nat.add_mul] at h1
  have hsm := z.small
  unfold NodeIndices.sizeHint
  rw [hp.hMax, hp.vMax]
  have e1 : s.v * (s.h - it.h) = s.h * s.v - it.h * s.v := by rw [Nat.mul_comm, Nat.sub_mul]
  simp only [usub_ok (m := k.m) (Nat.le_of_lt hh), bind, Except.bind]
  rw [umul_ok (by omega)]
  simp only
  rw [usub_ok (by omega)]
  simp only
  have : s.v * (s.h - it.h) - it.v = s.h * s.v - p := by omega
  rw [this]

theorem nodeRefs_yields (hs : Stores g k s c) (z : Sizes k s) : ∀ (n p : Nat) (it : NodeIndices), Pos s it p → p + n = s.h * s.v →
    Yields (nodeRefsNext g) ⟨it, p⟩ (((List.range' p n).map s.at).filterMap fun x => (c.node x).map fun w => (x, w))
  | 0, p, it, hp, h => by
    refine .done (s' := ⟨it, p⟩) ?_
    unfold nodeRefsNext
    rw [List.getElem?_eq_none (by rw [hs.nodes.len]; show s.h * s.v ≤ p; omega)]
  | n + 1, p, it, hp, h => by
    have hlt : p < s.h * s.v := by omega
    obtain ⟨it', h1, h2, _⟩ := hp.next z hlt
    have hget := hs.nodes.get (p / s.v) (p % s.v)
    unfold Arr.get Arr.slot at hget
    rw [hs.nodes.rows, hs.nodes.cols, if_pos ⟨div_lt_w hlt, mod_lt_h hlt⟩, Option.bind_some, idx_eta] at hget
    have hl : p < g.nodes.data.length := by rw [hs.nodes.len]; exact hlt
    rw [List.getElem?_eq_getElem hl] at hget
    rw [List.range'_succ, List.map_cons, List.filterMap_cons]
    have he : (c.node (s.at p)).map (fun w => (s.at p, w)) = some (s.at p, g.nodes.data[p]) := by
      unfold Grid.at; rw [← hget]; rfl
    rw [he]
    refine .step (s' := ⟨it', p + 1⟩) ?_ (nodeRefs_yields hs z n (p + 1) it' h2 (by omega))
    unfold nodeRefsNext
    simp only [List.getElem?_eq_getElem hl, bind, Except.bind]
    rw [hs.cfg, h1]

/-! ### Neighbours -/

theorem left_ok (z : Sizes k s) {n : NodeIx} (hn : s.Node n) (h : n.horizontal ≠ 0) :
    n.left k = .ok ⟨n.horizontal - 1, n.vertical⟩ := by
  have h1 := hn.1
  have := z.fit_h
  simp only [NodeIx.left, usub_ok (m := k.m) (show 1 ≤ n.horizontal by omega), bind, Except.bind]
  rw [new_of_lt (by omega)]
theorem down_ok (z : Sizes k s) {n : NodeIx} (hn : s.Node n) (h : n.vertical ≠ 0) :
    n.down k = .ok ⟨n.horizontal, n.vertical - 1⟩ := by
  have h1 := hn.2
  have := z.fit_v
  simp only [NodeIx.down, usub_ok (m := k.m) (show 1 ≤ n.vertical by omega), bind, Except.bind]
  rw [new_of_lt (by omega)]
theorem right_ok (z : Sizes k s) {n : NodeIx} (h : n.horizontal + 1 < s.h) :
    n.right k = .ok ⟨n.horizontal + 1, n.vertical⟩ := by
  have := z.fit_h
  simp only [NodeIx.right, uadd1 z (.inl (show n.horizontal < s.h by omega)), bind, Except.bind]
  rw [new_of_lt (by omega)]
theorem up_ok (z : Sizes k s) {n : NodeIx} (h : n.vertical + 1 < s.v) :
    n.up k = .ok ⟨n.horizontal, n.vertical + 1⟩ := by
  have := z.fit_v
  simp only [NodeIx.up, uadd1 z (.inr (show n.vertical < s.v by omega)), bind, Except.bind]
  rw [new_of_lt (by omega)]

theorem step_left {n : NodeIx} (hn : s.Node n) : s.step n (.backward .horizontal) =
    if n.horizontal ≠ 0 then some ⟨n.horizontal - 1, n.vertical⟩ else if s.loopH then some ⟨s.h - 1, n.vertical⟩ else none := by
  simp only [Grid.step, along_bwd hn.1]; split
  · rfl
  · split <;> rfl
theorem step_right {n : NodeIx} (hn : s.Node n) : s.step n (.foward .horizontal) =
    if n.horizontal + 1 < s.h then some ⟨n.horizontal + 1, n.vertical⟩ else if s.loopH then some ⟨0, n.vertical⟩ else none := by
  simp only [Grid.step, along_fwd hn.1]; split
  · rfl
  · split <;> rfl
theorem step_down {n : NodeIx} (hn : s.Node n) : s.step n (.backward .vertical) =
    if n.vertical ≠ 0 then some ⟨n.horizontal, n.vertical - 1⟩ else if s.loopV then some ⟨n.horizontal, s.v - 1⟩ else none := by
  simp only [Grid.step, along_bwd hn.2]; split
  · rfl
  · split <;> rfl
theorem step_up {n : NodeIx} (hn : s.Node n) : s.step n (.foward .vertical) =
    if n.vertical + 1 < s.v then some ⟨n.horizontal, n.vertical + 1⟩ else if s.loopV then some ⟨n.horizontal, 0⟩ else none := by
  simp only [Grid.step, along_fwd hn.2]; split
  · rfl
  · split <;> rfl

theorem arm_eq (z : Sizes k s) {n : NodeIx} (hn : s.Node n) {st : Nat} {d : Dir} (hd : Grid.dirs[st]? = some d) :
    Nbrs.arm k ⟨n, st, s.h, s.v⟩ = .ok (s.step n d) := by
  have h1 := hn.1
  have h2 := hn.2
  have f1 := z.fit_h
  have f2 := z.fit_v
  have p1 := z.pos_h
  have p2 := z.pos_v
  unfold Grid.dirs at hd
  match st, hd with
  | 0, hd =>
    simp only [List.getElem?_cons_zero, Option.some.injEq] at hd
    subst hd
    rw [step_left hn]
    unfold Nbrs.arm
    simp only
    split
    · rename_i h; simp only [left_ok z hn h, bind, Except.bind]
    · rw [← z.loopH]
      split
      · simp only [usub_ok (m := k.m) (show 1 ≤ s.h by omega), bind, Except.bind]; rw [new_of_lt (by omega)]
      · rfl
  | 1, hd =>
    simp only [List.getElem?_cons_zero, List.getElem?_cons_succ, Option.some.injEq] at hd
    subst hd
    rw [step_right hn]
    unfold Nbrs.arm
    simp only [uadd1 z (.inl h1), bind, Except.bind]
    split
    · rename_i h; simp only [right_ok z h]
    · rename_i h
      rw [← z.loopH]
      have : n.horizontal + 1 = s.h := by omega
      simp only [this, and_true]
      split
      · rw [new_zero]
      · rfl
  | 2, hd =>
    simp only [List.getElem?_cons_zero, List.getElem?_cons_succ, Option.some.injEq] at hd
    subst hd
    rw [step_down hn]
    unfold Nbrs.arm
    simp only
    split
    · rename_i h; simp only [down_ok z hn h, bind, Except.bind]
    · rw [← z.loopV]
      split
      · simp only [usub_ok (m := k.m) (show 1 ≤ s.v by omega), bind, Except.bind]; rw [new_of_lt (by omega)]
      · rfl
  | 3, hd =>
    simp only [List.getElem?_cons_zero, List.getElem?_cons_succ, Option.some.injEq] at hd
    subst hd
    rw [step_up hn]
    unfold Nbrs.arm
    simp only [uadd1 z (.inr h2), bind, Except.bind]
    split
    · rename_i h; simp only [up_ok z h]
    · rename_i h
      rw [← z.loopV]
      have : n.vertical + 1 = s.v := by omega
      simp only [this, and_true]
      split
      · rw [new_zero]
      · rfl
  | st + 4, hd => simp at hd

/-- What is left to yield in state `st`. -/
def rest (s : Grid) (n : NodeIx) (st : Nat) : List NodeIx := (Grid.dirs.drop st).filterMap (s.step n)

theorem dirs_drop {st : Nat} (h : st < 4) : ∃ d, Grid.dirs[st]? = some d ∧ Grid.dirs.drop st = d :: Grid.dirs.drop (st + 1) := by
  have hl : st < Grid.dirs.length := h
  exact ⟨Grid.dirs[st], List.getElem?_eq_getElem hl, List.drop_eq_getElem_cons hl⟩

theorem nbrsNext_ge {it : Nbrs} (h : ¬ it.state < 4) : it.next k = .ok (none, it) := by
  unfold Nbrs.next; rw [dif_neg h]

theorem nbrsNext_some (z : Sizes k s) {n t : NodeIx} (hn : s.Node n) {st : Nat} (h : st < 4) {d : Dir}
    (hd : Grid.dirs[st]? = some d) (ht : s.step n d = some t) :
    Nbrs.next k ⟨n, st, s.h, s.v⟩ = .ok (some t, ⟨n, st + 1, s.h, s.v⟩) := by
  unfold Nbrs.next; rw [dif_pos h]; simp only [arm_eq z hn hd, ht, bind, Except.bind]

theorem nbrsNext_none (z : Sizes k s) {n : NodeIx} (hn : s.Node n) {st : Nat} (h : st < 4) {d : Dir}
    (hd : Grid.dirs[st]? = some d) (ht : s.step n d = none) :
    Nbrs.next k ⟨n, st, s.h, s.v⟩ = Nbrs.next k ⟨n, st + 1, s.h, s.v⟩ := by
  conv => lhs; unfold Nbrs.next
  rw [dif_pos h]; simp only [arm_eq z hn hd, ht, bind, Except.bind]

theorem nbrs_yields (z : Sizes k s) {n : NodeIx} (hn : s.Node n) : ∀ (r st : Nat), st + r = 4 →
    Yields (Nbrs.next k) ⟨n, st, s.h, s.v⟩ (rest s n st)
  | 0, st, h => by
    have : rest s n st = [] := by unfold rest; rw [List.drop_eq_nil_of_le (by show 4 ≤ st; omega)]; rfl
    rw [this]
    exact .done (nbrsNext_ge (by show ¬ st < 4; omega))
  | r + 1, st, h => by
    have ih := nbrs_yields z hn r (st + 1) (by omega)
    obtain ⟨d, h1, h2⟩ := dirs_drop (show st < 4 by omega)
    have hr : rest s n st = (d :: Grid.dirs.drop (st + 1)).filterMap (s.step n) := by unfold rest; rw [h2]
    rw [hr, List.filterMap_cons]
    cases ht : s.step n d with
    | none => exact Yields.congr_head (nbrsNext_none z hn (by omega) h1 ht) ih
    | some t => exact .step (nbrsNext_some z hn (by omega) h1 ht) ih

/-! ### Edges -/

/-- Whether a direction is a forward one. -/
def Dir.isFwd : Dir → Bool
  | .foward _ => true
  | .backward _ => false

theorem Grid.step_node {n t : NodeIx} {d : Dir} (hn : s.Node n) (h : s.step n d = some t) : s.Node t := by
  have h1 := hn.1
  have h2 := hn.2
  unfold Grid.Node
  rcases d with (a | a) | (a | a)
  · rw [step_right hn] at h
    split at h
    · cases h; exact ⟨by simp only; omega, by simp only; omega⟩
    · split at h <;> cases h
      exact ⟨by simp only; omega, by simp only; omega⟩
  · rw [step_up hn] at h
    split at h
    · cases h; exact ⟨by simp only; omega, by simp only; omega⟩
    · split at h <;> cases h
      exact ⟨by simp only; omega, by simp only; omega⟩
  · rw [step_left hn] at h
    split at h
    · cases h; exact ⟨by simp only; omega, by simp only; omega⟩
    · split at h <;> cases h
      exact ⟨by simp only; omega, by simp only; omega⟩
  · rw [step_down hn] at h
    split at h
    · cases h; exact ⟨by simp only; omega, by simp only; omega⟩
    · split at h <;> cases h
      exact ⟨by simp only; omega, by simp only; omega⟩

/-- The opposite direction. -/
def Dir.opp : Dir → Dir
  | .foward a => .backward a
  | .backward a => .foward a

theorem Grid.step_opp {n t : NodeIx} {d : Dir} (hn : s.Node n) (h : s.step n d = some t) : s.step t d.opp = some n := by
  have ht := step_node hn h
  have h1 := hn.1
  have h2 := hn.2
  obtain ⟨x, y⟩ := n
  simp only at h1 h2
  rcases d with (a | a) | (a | a)
  · rw [step_right hn] at h
    show s.step t (.backward .horizontal) = _
    rw [step_left ht]
    simp only at h
    split at h
    · cases h; simp
    · rename_i hx
      split at h <;> cases h
      rename_i hl
      simp only [ne_eq, not_true_eq_false, if_false, hl, if_true, Option.some.injEq, NodeIx.mk.injEq, and_true]
      omega
  · rw [step_up hn] at h
    show s.step t (.backward .vertical) = _
    rw [step_down ht]
    simp only at h
    split at h
    · cases h; simp
    · rename_i hx
      split at h <;> cases h
      rename_i hl
      simp only [ne_eq, not_true_eq_false, if_false, hl, if_true, Option.some.injEq, NodeIx.mk.injEq, true_and]
      omega
  · rw [step_left hn] at h
    show s.step t (.foward .horizontal) = _
    rw [step_right ht]
    simp only at h
    split at h
    · rename_i hx
      cases h
      simp only
      rw [if_pos (by omega)]
      simp only [Option.some.injEq, NodeIx.mk.injEq, and_true]
      omega
    · rename_i hx
      split at h <;> cases h
      rename_i hl
      simp only
      rw [if_neg (by omega), if_pos hl]
      simp only [Option.some.injEq, NodeIx.mk.injEq, and_true]
      omega
  · rw [step_down hn] at h
    show s.step t (.foward .vertical) = _
    rw [step_up ht]
    simp only at h
    split at h
    · rename_i hx
      cases h
      simp only
      rw [if_pos (by omega)]
      simp only [Option.some.injEq, NodeIx.mk.injEq, true_and]
      omega
    · rename_i hx
      split at h <;> cases h
      rename_i hl
      simp only
      rw [if_neg (by omega), if_pos hl]
      simp only [Option.some.injEq, NodeIx.mk.injEq, true_and]
      omega

theorem Grid.key_hasEdge {n t : NodeIx} {d : Dir} (hn : s.Node n) (h : s.step n d = some t) :
    s.HasEdge (key n t d).node (key n t d).axis := by
  cases d with
  | foward a => exact ⟨hn, by show (s.step n (.foward a)).isSome; rw [h]; rfl⟩
  | backward a =>
    refine ⟨step_node hn h, ?_⟩
    have := step_opp hn h
    show (s.step t (.foward a)).isSome
    rw [show s.step t (.foward a) = some n from this]; rfl

theorem Stores.edge_isSome (hs : Stores g k s c) {n : NodeIx} {a : Axis} : (c.edge n a).isSome ↔ s.HasEdge n a := by
  cases a with
  | horizontal => rw [Grid.hasEdge_h]; exact hs.horizontal.isSome (i := n.horizontal) (j := n.vertical)
  | vertical => rw [Grid.hasEdge_v]; exact hs.vertical.isSome (i := n.horizontal) (j := n.vertical)

theorem Stores.node_isSome (hs : Stores g k s c) {n : NodeIx} : (c.node n).isSome ↔ s.Node n :=
  hs.nodes.isSome (i := n.horizontal) (j := n.vertical)

/-- The edge reference for going from `n` in direction `d`. -/
def refOf (k : Cfg) (s : Grid) (c : Contents NodeIx Axis N E) (n : NodeIx) (d : Dir) : Option (Ref E) :=
  (s.step n d).bind fun t => (c.edge (Grid.key n t d).node (Grid.key n t d).axis).map fun w =>
    ⟨Grid.key n t d, w, d.isFwd, k.sizeInfo s.h s.v⟩

theorem refOf_some (hs : Stores g k s c) {n t : NodeIx} {d : Dir} (hn : s.Node n) (h : s.step n d = some t) :
    ∃ w, c.edge (Grid.key n t d).node (Grid.key n t d).axis = some w ∧
      refOf k s c n d = some ⟨Grid.key n t d, w, d.isFwd, k.sizeInfo s.h s.v⟩ := by
  have := hs.edge_isSome.2 (Grid.key_hasEdge hn h)
  obtain ⟨w, hw⟩ := Option.isSome_iff_exists.1 this
  refine ⟨w, hw, ?_⟩
  unfold refOf
  rw [h, Option.bind_some, hw]; rfl

theorem refOf_none {n : NodeIx} {d : Dir} (h : s.step n d = none) : refOf k s c n d = none := by
  unfold refOf; rw [h]; rfl

theorem edgesArm_eq (hs : Stores g k s c) (z : Sizes k s) {n : NodeIx} (hn : s.Node n) {st : Nat} {d : Dir}
    (hd : Grid.dirs[st]? = some d) : EdgesOf.arm g ⟨n, st⟩ = .ok (refOf k s c n d) := by
  have h1 := hn.1
  have h2 := hn.2
  have f1 := z.fit_h
  have f2 := z.fit_v
  have p1 := z.pos_h
  have p2 := z.pos_v
  have eh : g.horizontalNodeCount = s.h := hs.nodes.rows
  have ev : g.verticalNodeCount = s.v := hs.nodes.cols
  unfold Grid.dirs at hd
  match st, hd with
  | 0, hd =>
    simp only [List.getElem?_cons_zero, Option.some.injEq] at hd
    subst hd
    unfold EdgesOf.arm
    simp only [eh, ev, hs.cfg]
    have hst := step_left hn
    by_cases h : n.horizontal = 0
    · rw [if_pos h]
      rw [if_neg (by omega)] at hst
      rw [← z.loopH]
      by_cases hl : s.loopH
      · rw [if_pos hl] at hst
        obtain ⟨w, hw, hr⟩ := refOf_some hs hn hst
        rw [hr]
        simp only [hl, Bool.not_true, Bool.false_eq_true, if_false, usub_ok (m := k.m) (show 1 ≤ s.h by omega), bind,
          Except.bind]
        rw [new_of_lt (by omega)]
        rw [hs.horizontal.uget k.m hw]
        rfl
      · rw [if_neg hl] at hst
        rw [refOf_none hst]
        simp [hl]
    · rw [if_neg h]
      rw [if_pos h] at hst
      obtain ⟨w, hw, hr⟩ := refOf_some hs hn hst
      rw [hr]
      simp only [left_ok z hn h, bind, Except.bind]
      rw [hs.horizontal.uget k.m hw]
      rfl
  | 1, hd =>
    simp only [List.getElem?_cons_zero, List.getElem?_cons_succ, Option.some.injEq] at hd
    subst hd
    unfold EdgesOf.arm
    simp only [eh, ev, hs.cfg, debugAssert_true (decide_eq_true h1), bind, Except.bind]
    have hst := step_right hn
    rw [← z.loopH]
    by_cases hl : s.loopH
    · obtain ⟨t, ht⟩ : ∃ t, s.step n (.foward .horizontal) = some t := by
        rw [hst, if_pos hl]; split <;> exact ⟨_, rfl⟩
      obtain ⟨w, hw, hr⟩ := refOf_some hs hn ht
      rw [hr]
      simp only [hl, Bool.not_true, Bool.false_eq_true, if_false]
      rw [hs.horizontal.uget k.m hw]
      rfl
    · simp only [hl, Bool.not_false, if_true, uadd1 z (.inl h1)]
      by_cases h : n.horizontal + 1 = s.h
      · rw [if_pos h]
        rw [if_neg (by omega), if_neg hl] at hst
        rw [refOf_none hst]
      · rw [if_neg h]
        rw [if_pos (by omega)] at hst
        obtain ⟨w, hw, hr⟩ := refOf_some hs hn hst
        rw [hr, hs.horizontal.uget k.m hw]
        rfl
  | 2, hd =>
    simp only [List.getElem?_cons_zero, List.getElem?_cons_succ, Option.some.injEq] at hd
    subst hd
    unfold EdgesOf.arm
    simp only [eh, ev, hs.cfg]
    have hst := step_down hn
    by_cases h : n.vertical = 0
    · rw [if_pos h]
      rw [if_neg (by omega)] at hst
      rw [← z.loopV]
      by_cases hl : s.loopV
      · rw [if_pos hl] at hst
        obtain ⟨w, hw, hr⟩ := refOf_some hs hn hst
        rw [hr]
        simp only [hl, Bool.not_true, Bool.false_eq_true, if_false, usub_ok (m := k.m) (show 1 ≤ s.v by omega), bind,
          Except.bind]
        rw [new_of_lt (by omega)]
        rw [hs.vertical.uget k.m hw]
        rfl
      · rw [if_neg hl] at hst
        rw [refOf_none hst]
        simp [hl]
    · rw [if_neg h]
      rw [if_pos h] at hst
      obtain ⟨w, hw, hr⟩ := refOf_some hs hn hst
      rw [hr]
      simp only [down_ok z hn h, bind, Except.bind]
      rw [hs.vertical.uget k.m hw]
      rfl
  | 3, hd =>
    simp only [List.getElem?_cons_zero, List.getElem?_cons_succ, Option.some.injEq] at hd
    subst hd
    unfold EdgesOf.arm
    simp only [eh, ev, hs.cfg, debugAssert_true (decide_eq_true h2), bind, Except.bind]
    have hst := step_up hn
    rw [← z.loopV]
    by_cases hl : s.loopV
    · obtain ⟨t, ht⟩ : ∃ t, s.step n (.foward .vertical) = some t := by
        rw [hst, if_pos hl]; split <;> exact ⟨_, rfl⟩
      obtain ⟨w, hw, hr⟩ := refOf_some hs hn ht
      rw [hr]
      simp only [hl, Bool.not_true, Bool.false_eq_true, if_false]
      rw [hs.vertical.uget k.m hw]
      rfl
    · simp only [hl, Bool.not_false, if_true, uadd1 z (.inr h2)]
      by_cases h : n.vertical + 1 = s.v
      · rw [if_pos h]
        rw [if_neg (by omega), if_neg hl] at hst
        rw [refOf_none hst]
      · rw [if_neg h]
        rw [if_pos (by omega)] at hst
        obtain ⟨w, hw, hr⟩ := refOf_some hs hn hst
        rw [hr, hs.vertical.uget k.m hw]
        rfl
  | st + 4, hd => simp at hd

theorem edgesOfNext_ge {it : EdgesOf} (h : ¬ it.state < 4) : it.next g = .ok (none, it) := by
  unfold EdgesOf.next; rw [dif_neg h]

theorem edgesOfNext_some (hs : Stores g k s c) (z : Sizes k s) {n : NodeIx} (hn : s.Node n) {st : Nat} (h : st < 4) {d : Dir}
    (hd : Grid.dirs[st]? = some d) {r : Ref E} (ht : refOf k s c n d = some r) :
    EdgesOf.next g ⟨n, st⟩ = .ok (some r, ⟨n, st + 1⟩) := by
  unfold EdgesOf.next; rw [dif_pos h]; simp only [edgesArm_eq hs z hn hd, ht, bind, Except.bind]

theorem edgesOfNext_none (hs : Stores g k s c) (z : Sizes k s) {n : NodeIx} (hn : s.Node n) {st : Nat} (h : st < 4) {d : Dir}
    (hd : Grid.dirs[st]? = some d) (ht : refOf k s c n d = none) :
    EdgesOf.next g ⟨n, st⟩ = EdgesOf.next g ⟨n, st + 1⟩ := by
  conv => lhs; unfold EdgesOf.next
  rw [dif_pos h]; simp only [edgesArm_eq hs z hn hd, ht, bind, Except.bind]

theorem edgesOf_yields (hs : Stores g k s c) (z : Sizes k s) {n : NodeIx} (hn : s.Node n) : ∀ (r st : Nat), st + r = 4 →
    Yields (EdgesOf.next g) ⟨n, st⟩ ((Grid.dirs.drop st).filterMap (refOf k s c n))
  | 0, st, h => by
    rw [List.drop_eq_nil_of_le (by show 4 ≤ st; omega)]
    exact .done (edgesOfNext_ge (by show ¬ st < 4; omega))
  | r + 1, st, h => by
    have ih := edgesOf_yields hs z hn r (st + 1) (by omega)
    obtain ⟨d, h1, h2⟩ := dirs_drop (show st < 4 by omega)
    rw [h2, List.filterMap_cons]
    cases ht : refOf k s c n d with
    | none => exact Yields.congr_head (edgesOfNext_none hs z hn (by omega) h1 ht) ih
    | some t => exact .step (edgesOfNext_some hs z hn (by omega) h1 ht) ih

theorem getNode_fwd (z : Sizes k s) {n t : NodeIx} {a : Axis} (hn : s.Node n) (h : s.step n (.foward a) = some t) (w : E)
    (b : Bool) : Ref.getNode k ⟨⟨n, a⟩, w, b, k.sizeInfo s.h s.v⟩ false = .ok t := by
  have h1 := hn.1
  have h2 := hn.2
  unfold Ref.getNode
  simp only [Bool.false_eq_true, if_false]
  cases a with
  | horizontal =>
    simp only
    rw [step_right hn] at h
    rw [← z.loopH]
    split
    · rename_i hl
      simp only [uadd1 z (.inl h1), bind, Except.bind, Cfg.sizeInfo, ← z.loopH, hl, if_true, sizeOf]
      rw [if_pos hl] at h
      by_cases he : n.horizontal + 1 = s.h
      · rw [if_pos he, new_zero]
        rw [if_neg (by omega)] at h
        cases h; rfl
      · rw [if_neg he]
        rw [if_pos (by omega)] at h
        cases h
        exact right_ok z (by omega)
    · rename_i hl
      rw [if_neg hl] at h
      split at h
      · cases h; exact right_ok z (by omega)
      · cases h
  | vertical =>
    simp only
    rw [step_up hn] at h
    rw [← z.loopV]
    split
    · rename_i hl
      simp only [uadd1 z (.inr h2), bind, Except.bind, Cfg.sizeInfo, ← z.loopV, hl, if_true, sizeOf]
      rw [if_pos hl] at h
      by_cases he : n.vertical + 1 = s.v
      · rw [if_pos he, new_zero]
        rw [if_neg (by omega)] at h
        cases h; rfl
      · rw [if_neg he]
        rw [if_pos (by omega)] at h
        cases h
        exact up_ok z (by omega)
    · rename_i hl
      rw [if_neg hl] at h
      split at h
      · cases h; exact up_ok z (by omega)
      · cases h

theorem view_eq (z : Sizes k s) {n t : NodeIx} {d : Dir} (hn : s.Node n) (h : s.step n d = some t) (w : E) :
    Ref.view k ⟨Grid.key n t d, w, d.isFwd, k.sizeInfo s.h s.v⟩ = .ok ⟨n, t, w, Grid.key n t d⟩ := by
  unfold Ref.view Ref.source Ref.target
  cases d with
  | foward a =>
    simp only [Dir.isFwd, Bool.not_true, Grid.key, getNode_fwd z hn h, bind, Except.bind]
    simp only [Ref.getNode, if_true]
  | backward a =>
    have h' : s.step t (.foward a) = some n := Grid.step_opp hn h
    simp only [Dir.isFwd, Bool.not_false, Grid.key, getNode_fwd z (Grid.step_node hn h) h', bind, Except.bind]
    simp only [Ref.getNode, if_true]

/-- The edge reference of `edge_references` for axis `a` of cell `n`. -/
def ownRef (k : Cfg) (s : Grid) (c : Contents NodeIx Axis N E) (n : NodeIx) (a : Axis) : Option (Ref E) :=
  (c.edge n a).map fun w => ⟨⟨n, a⟩, w, true, k.sizeInfo s.h s.v⟩

/-- The references for one cell. -/
def ownRefs (k : Cfg) (s : Grid) (c : Contents NodeIx Axis N E) (n : NodeIx) : List (Ref E) :=
  [Axis.horizontal, Axis.vertical].filterMap (ownRef k s c n)

theorem edgeRefsNext_v_some (hs : Stores g k s c) {it : NodeIndices} {p : Nat} (hp : Pos s it p) {x : NodeIx} {r : Ref E}
    (h : ownRef k s c x .vertical = some r) : edgeRefsNext g ⟨it, some x⟩ = .ok (some r, ⟨it, none⟩) := by
  unfold ownRef at h
  rw [edgeRefsNext, hs.vertical.get, hs.cfg, hp.hMax, hp.vMax]
  cases hw : c.edge x .vertical with
  | none => rw [hw] at h; cases h
  | some w => rw [hw] at h; cases h; rfl

theorem edgeRefsNext_v_none (hs : Stores g k s c) {it : NodeIndices} {x : NodeIx}
    (h : ownRef k s c x .vertical = none) : edgeRefsNext g ⟨it, some x⟩ = edgeRefsNext g ⟨it, none⟩ := by
  unfold ownRef at h
  conv => lhs; rw [edgeRefsNext, hs.vertical.get]
  cases hw : c.edge x .vertical with
  | none => rfl
  | some w => rw [hw] at h; cases h

theorem edgeRefsNext_h_some (hs : Stores g k s c) {it it' : NodeIndices} {p : Nat} (hp : Pos s it p)
    (hn : it.next k = .ok (some (s.at p), it')) {r : Ref E}
    (h : ownRef k s c (s.at p) .horizontal = some r) : edgeRefsNext g ⟨it, none⟩ = .ok (some r, ⟨it', some (s.at p)⟩) := by
  unfold ownRef at h
  rw [edgeRefsNext, hs.cfg, hn]
  simp only
  rw [hs.horizontal.get, hp.hMax, hp.vMax]
  cases hw : c.edge (s.at p) .horizontal with
  | none => rw [hw] at h; cases h
  | some w => rw [hw] at h; cases h; rfl

theorem edgeRefsNext_h_none (hs : Stores g k s c) {it it' : NodeIndices} {p : Nat}
    (hn : it.next k = .ok (some (s.at p), it')) (ha : it.Advanced it')
    (h : ownRef k s c (s.at p) .horizontal = none) : edgeRefsNext g ⟨it, none⟩ = edgeRefsNext g ⟨it', some (s.at p)⟩ := by
  unfold ownRef at h
  conv => lhs; rw [edgeRefsNext, hs.cfg, hn]
  simp only
  rw [hs.horizontal.get]
  cases hw : c.edge (s.at p) .horizontal with
  | none => simp only [dif_pos ha]
  | some w => rw [hw] at h; cases h

theorem edgeRefs_yields (hs : Stores g k s c) (z : Sizes k s) : ∀ (n p : Nat) (it : NodeIndices), Pos s it p →
    p + n = s.h * s.v →
    Yields (edgeRefsNext g) ⟨it, none⟩ (((List.range' p n).map s.at).flatMap (ownRefs k s c))
  | 0, p, it, hp, h => by
    refine .done (s' := ⟨it, none⟩) ?_
    rw [edgeRefsNext, hs.cfg, hp.next_end z (by omega)]
  | n + 1, p, it, hp, h => by
    obtain ⟨it', h1, h2, h3⟩ := hp.next z (by omega)
    have ih := edgeRefs_yields hs z n (p + 1) it' h2 (by omega)
    rw [List.range'_succ, List.map_cons, List.flatMap_cons]
    have hv : Yields (edgeRefsNext g) ⟨it', some (s.at p)⟩ ([Axis.vertical].filterMap (ownRef k s c (s.at p)) ++
        ((List.range' (p + 1) n).map s.at).flatMap (ownRefs k s c)) := by
      rw [List.filterMap_cons]
      cases hr : ownRef k s c (s.at p) .vertical with
      | none => exact Yields.congr_head (edgeRefsNext_v_none hs hr) ih
      | some r => exact .step (edgeRefsNext_v_some hs h2 hr) ih
    unfold ownRefs at hv ⊢
    rw [List.filterMap_cons]
    cases hr : ownRef k s c (s.at p) .horizontal with
    | none => exact Yields.congr_head (edgeRefsNext_h_none hs h1 h3 hr) hv
    | some r => exact .step (edgeRefsNext_h_some hs hp h1 hr) hv

end
end LG.Sq
