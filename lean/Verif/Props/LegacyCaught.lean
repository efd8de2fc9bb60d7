import Verif.Model.LegacyCaught
import Verif.Props.Caught
import Verif.Props.LegacyRaw
/- C102 for the old `SquareGraph`. -/
namespace LG.Sq
variable {N E : Type} {k : Cfg} {h v : Nat} {g : G N E} {c : Contents NodeIx Axis N E}

theorem Nbrs.next_caught (k : Cfg) (it : Nbrs) :
    Nbrs.next k it = (Nbrs.nextCaught k it).1.map fun r => (r, (Nbrs.nextCaught k it).2) := by
  fun_induction Nbrs.nextCaught k it with
  | case1 it hlt f ha => rw [Nbrs.next, dif_pos hlt, ha]; rfl
  | case2 it hlt x ha => rw [Nbrs.next, dif_pos hlt, ha]; rfl
  | case3 it hlt ha ih => rw [Nbrs.next, dif_pos hlt, ha]; exact ih
  | case4 it hge => rw [Nbrs.next, dif_neg hge]; rfl

theorem EdgesOf.next_caught (g : G N E) (it : EdgesOf) :
    EdgesOf.next g it = (EdgesOf.nextCaught g it).1.map fun r => (r, (EdgesOf.nextCaught g it).2) := by
  fun_induction EdgesOf.nextCaught g it with
  | case1 it hlt f ha => rw [EdgesOf.next, dif_pos hlt, ha]; rfl
  | case2 it hlt x ha => rw [EdgesOf.next, dif_pos hlt, ha]; rfl
  | case3 it hlt ha ih => rw [EdgesOf.next, dif_pos hlt, ha]; exact ih
  | case4 it hge => rw [EdgesOf.next, dif_neg hge]; rfl

/-- **C102**, `SquareGraph`: the iterators that are used again after a panic are those of the other properties. -/
theorem c102_same (g : G N E) (k : Cfg) :
    SameCalls (Nbrs.nextCaught k) (Nbrs.next k) ∧ SameCalls (EdgesOf.nextCaught g) (EdgesOf.next g) :=
  ⟨sameCalls_of (Nbrs.next_caught k), sameCalls_of (EdgesOf.next_caught g)⟩

theorem Nbrs.stuck {it it' : Nbrs} {f : Fault} (h : Nbrs.nextCaught k it = (.error f, it')) :
    Nbrs.nextCaught k it' = (.error f, it') := by
  fun_induction Nbrs.nextCaught k it with
  | case1 it hlt f' ha =>
    simp only [Prod.mk.injEq, Except.error.injEq] at h
    obtain ⟨rfl, rfl⟩ := h
    rw [Nbrs.nextCaught, dif_pos hlt, ha]
  | case2 => simp at h
  | case3 it hlt ha ih => exact ih h
  | case4 => simp at h

theorem EdgesOf.stuck {it it' : EdgesOf} {f : Fault} (h : EdgesOf.nextCaught g it = (.error f, it')) :
    EdgesOf.nextCaught g it' = (.error f, it') := by
  fun_induction EdgesOf.nextCaught g it with
  | case1 it hlt f' ha =>
    simp only [Prod.mk.injEq, Except.error.injEq] at h
    obtain ⟨rfl, rfl⟩ := h
    rw [EdgesOf.nextCaught, dif_pos hlt, ha]
  | case2 => simp at h
  | case3 it hlt ha ih => exact ih h
  | case4 => simp at h

/-- **C102**, `SquareGraph`, on any arrays whatever: once `neighbors` or `edges` has panicked, every later call panics in the same
way. -/
theorem c102_stuck {f : Fault} :
    (∀ {it it' : Nbrs}, Nbrs.nextCaught k it = (.error f, it') →
      ∀ n, calls (Nbrs.nextCaught k) n it' = List.replicate n (.error f)) ∧
    (∀ {it it' : EdgesOf}, EdgesOf.nextCaught g it = (.error f, it') →
      ∀ n, calls (EdgesOf.nextCaught g) n it' = List.replicate n (.error f)) :=
  ⟨fun h n => (calls_stuck (Nbrs.stuck h) n).1, fun h n => (calls_stuck (EdgesOf.stuck h) n).1⟩

/-- The first `n` outcomes of an iterator that yields `l` and from then on faults with `f`. -/
def thenFault {α : Type} (l : List α) (f : Fault) (n : Nat) : List (Res (Option α)) :=
  (l.map (fun a => Except.ok (some a)) ++ List.replicate n (Except.error f)).take n

theorem calls_of_fails {σ α : Type} {caught : σ → Res (Option α) × σ} {plain : σ → Res (Option α × σ)}
    (hc : SameCalls caught plain) (hf : ∀ {s s' f}, caught s = (.error f, s') → caught s' = (.error f, s')) {s : σ} {f : Fault}
    (hy : Fails plain s f) : ∃ l : List α, ∀ n, calls caught n s = thenFault l f n := by
  unfold thenFault
  induction hy with
  | @now s f h =>
    refine ⟨[], fun n => ?_⟩
    have h1 := ((hc s).2 f).1 h
    have h2 : caught s = (.error f, (caught s).2) := by rw [← h1]
    cases n with
    | zero => rfl
    | succ n =>
      rw [calls, (calls_stuck (hf h2) n).1, h1]
      simp [List.replicate_succ]
  | @later s s' a f h _ ih =>
    obtain ⟨l, ih⟩ := ih
    refine ⟨a :: l, fun n => ?_⟩
    cases n with
    | zero => rfl
    | succ n =>
      rw [calls, ((hc s).1 _ _).1 h]
      simp only [ih n, List.map_cons, List.cons_append, List.take_succ_cons]
      congr 1
      simp only [List.take_append, List.take_replicate]
      congr 2
      omega

/-- **C102**, `SquareGraph`: on a graph built by `new_with` and an index of the index type, in a debug build. If the index is a
node, `edges` shows its edges and then `None` for ever; if it is not, it shows some items, then panics at every further call: the
caller never sees the end of the iteration. -/
theorem c102_edges_debug (hb : Built k h v g c) (hf : k.Fits h v) (hm : k.m.mode = .debug) {n : NodeIx} (hx : n.horizontal < k.ix)
    (hy : n.vertical < k.ix) :
    ((k.grid h v).Node n → ∃ l, Yields (EdgesOf.next g) (g.edges n) l ∧
      ∀ i, calls (EdgesOf.nextCaught g) i (g.edges n) = thenNone (l.map fun r => .ok (some r)) i) ∧
    (¬ (k.grid h v).Node n → ∃ l : List (Ref E), ∀ i, calls (EdgesOf.nextCaught g) i (g.edges n) = thenFault l .panic i) := by
  obtain ⟨h1, h2⟩ := c53_edges_exact hb hf hx hy
  constructor
  · intro hn
    obtain ⟨l, hl⟩ := h1.2 hn
    refine ⟨l, hl, calls_of_yields (c102_same g k).2 (fun it it' h => ?_) hl⟩
    rw [EdgesOf.next_caught] at h
    clear hl
    fun_induction EdgesOf.nextCaught g it with
    | case1 => simp [Except.map] at h
    | case2 => simp [Except.map] at h
    | case3 it hlt ha ih => exact ih h
    | case4 it hge =>
      simp only [Except.map, Except.ok.injEq, Prod.mk.injEq, true_and] at h
      subst h
      rw [EdgesOf.next, dif_neg hge]
  · intro hn
    have := h2 hn
    rw [if_pos hm] at this
    exact calls_of_fails (c102_same g k).2 EdgesOf.stuck this

/-- The 3×2 graph, debug build: `edges((200, 1))` panics for ever. -/
example : ∃ (g : G Nat Nat) (c : Contents NodeIx Axis Nat Nat), Built exCfg 3 2 g c ∧
    (∃ l : List (Ref Nat), ∀ i, calls (EdgesOf.nextCaught g) i (g.edges ⟨200, 1⟩) = thenFault l .panic i) ∧
    (∃ l, Yields (EdgesOf.next g) (g.edges ⟨2, 1⟩) l ∧
      ∀ i, calls (EdgesOf.nextCaught g) i (g.edges ⟨2, 1⟩) = thenNone (l.map fun r => .ok (some r)) i) := by
  obtain ⟨g, c, hb, -⟩ := exGraph exCfg (by decide)
  have hf : exCfg.Fits 3 2 := ⟨by decide, by decide⟩
  exact ⟨g, c, hb, (c102_edges_debug hb hf rfl (n := ⟨200, 1⟩) (by decide) (by decide)).2 (by decide),
    (c102_edges_debug hb hf rfl (n := ⟨2, 1⟩) (by decide) (by decide)).1 (by decide)⟩

/-- A vertically looped graph of no rows (which `new_with` accepts), debug build: `neighbors` panics for ever at its third
direction. -/
example (k : Cfg) (hl : k.loopV = true) (hm : k.m.mode = .debug) (n : Nat) :
    calls (Nbrs.nextCaught k) n ⟨⟨0, 0⟩, 2, 3, 0⟩ = List.replicate n (.error .panic) := by
  refine (c102_stuck (k := k) (g := (⟨k, ⟨0, 0, []⟩, ⟨0, 0, []⟩, ⟨0, 0, []⟩⟩ : G Unit Unit))).1 (it := ⟨⟨0, 0⟩, 2, 3, 0⟩) ?_ n
  rw [Nbrs.nextCaught]
  simp [Nbrs.arm, hl, usub, overflow, hm, bind, Except.bind]
example (k : Cfg) (it : Nbrs) (f : Fault) : Nbrs.next k it = .error f ↔ (Nbrs.nextCaught k it).1 = .error f :=
  ((c102_same (⟨k, ⟨0, 0, []⟩, ⟨0, 0, []⟩, ⟨0, 0, []⟩⟩ : G Unit Unit) k).1 it).2 f

end LG.Sq
