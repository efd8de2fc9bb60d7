import Verif.Props.Axes
import Verif.Props.Custom
/-
C89: the deprecated `AxisDirection::is_forward` and `is_backward` against `Axis::is_forward_direction`.
-/
namespace LG

/-- What `is_forward` of a direction should say, seen from the axis: the direction is the forward one of its axis. -/
def IsForwardOf {A D : Type} (ax : Axis A D) (d : D) : Prop := ∃ a, ax.fromDirection d = .ok a ∧ ax.foward a = .ok d

/-- Agreement of a pair `is_forward`, `is_backward` with the axis: both the description above and `is_forward_direction`. -/
def ForwardAgrees {A D : Type} (ax : Axis A D) (fw bw : D → Bool) (d : D) : Prop :=
  (fw d = true ↔ IsForwardOf ax d) ∧ ax.isForwardDirection d = .ok (fw d) ∧ bw d = !fw d

/-- **C89**, directed axes: every direction is a forward one, and all three functions say so. -/
theorem c89_directed (m : Machine) :
    (∀ d, ForwardAgrees (dSquareAxis m) (blanketIsForward (dSquareAxis m)) (blanketIsBackward (dSquareAxis m)) d) ∧
    (∀ d, ForwardAgrees (dDiagAxis m) (blanketIsForward (dDiagAxis m)) (blanketIsBackward (dDiagAxis m)) d) ∧
    (∀ d, ForwardAgrees (axisDR m) (blanketIsForward (axisDR m)) (blanketIsBackward (axisDR m)) d) ∧
    (∀ d, ForwardAgrees (axisDQ m) (blanketIsForward (axisDQ m)) (blanketIsBackward (axisDQ m)) d) := by
  refine ⟨?_, ?_, ?_, ?_⟩ <;> intro d <;> exact ⟨⟨fun _ => ⟨d, rfl, rfl⟩, fun _ => rfl⟩, rfl, rfl⟩

/-- **C89**, undirected axes of the crate, for every direction: `is_forward_direction` says whether the direction is a forward one.
The deprecated `is_forward` of the same value agrees on the forward directions only. Missing for the full claim: it is wrong on the
others (`c89_undirected_wrong`). -/
theorem c89_undirected_partial (m : Machine) :
    (∀ d, ((squareAxis m).isForwardDirection d = .ok true ↔ IsForwardOf (squareAxis m) d) ∧
      (ForwardAgrees (squareAxis m) (blanketIsForward (dSquareAxis m)) (blanketIsBackward (dSquareAxis m)) d ↔
        IsForwardOf (squareAxis m) d)) ∧
    (∀ d, ((diagAxis m).isForwardDirection d = .ok true ↔ IsForwardOf (diagAxis m) d) ∧
      (ForwardAgrees (diagAxis m) (blanketIsForward (dDiagAxis m)) (blanketIsBackward (dDiagAxis m)) d ↔
        IsForwardOf (diagAxis m) d)) ∧
    (∀ d, ((axisR m).isForwardDirection d = .ok true ↔ IsForwardOf (axisR m) d) ∧
      (ForwardAgrees (axisR m) (blanketIsForward (axisDR m)) (blanketIsBackward (axisDR m)) d ↔ IsForwardOf (axisR m) d)) ∧
    (∀ d, ((axisQ m).isForwardDirection d = .ok true ↔ IsForwardOf (axisQ m) d) ∧
      (ForwardAgrees (axisQ m) (blanketIsForward (axisDQ m)) (blanketIsBackward (axisDQ m)) d ↔ IsForwardOf (axisQ m) d)) := by
  have key : ∀ {A D : Type} (ax : Axis A D) (fw bw : D → Bool) (d : D), fw d = true → bw d = false →
      (ax.isForwardDirection d = .ok true ↔ IsForwardOf ax d) →
      ((ax.isForwardDirection d = .ok true ↔ IsForwardOf ax d) ∧ (ForwardAgrees ax fw bw d ↔ IsForwardOf ax d)) := by
    intro A D ax fw bw d hf hb h
    refine ⟨h, fun g => g.1.1 hf, fun g => ⟨⟨fun _ => g, fun _ => hf⟩, ?_, by rw [hf, hb]; rfl⟩⟩
    rw [hf]; exact h.2 g
  have no : ∀ {A D : Type} (ax : Axis A D) (d : D) (a : A) (d' : D), ax.fromDirection d = .ok a → ax.foward a = .ok d' → d' ≠ d →
      ax.isForwardDirection d = .ok false → (ax.isForwardDirection d = .ok true ↔ IsForwardOf ax d) := by
    intro A D ax d a d' h1 h2 hn h3
    rw [h3]
    refine ⟨fun h => (by cases h), fun ⟨b, h4, h5⟩ => ?_⟩
    rw [h1] at h4; cases h4
    rw [h2] at h5; cases h5
    exact absurd rfl hn
  have yes : ∀ {A D : Type} (ax : Axis A D) (d : D) (a : A), ax.fromDirection d = .ok a → ax.foward a = .ok d →
      ax.isForwardDirection d = .ok true → (ax.isForwardDirection d = .ok true ↔ IsForwardOf ax d) :=
    fun ax d a h1 h2 h3 => ⟨fun _ => ⟨a, h1, h2⟩, fun _ => h3⟩
  refine ⟨?_, ?_, ?_, ?_⟩ <;> intro d <;> refine key _ _ _ _ rfl rfl ?_ <;> cases d <;>
    first
    | exact yes _ _ _ rfl rfl rfl
    | exact no _ _ _ _ rfl rfl (by decide) rfl

/-- **C89** fails on every undirected axis of the crate: the backward direction of an axis says of itself that it is forward and not
backward, while `is_forward_direction` rightly denies it. -/
theorem c89_undirected_wrong (m : Machine) :
    (∀ a, ∃ d, (squareAxis m).backward a = .ok d ∧ blanketIsForward (dSquareAxis m) d = true ∧
      blanketIsBackward (dSquareAxis m) d = false ∧ (squareAxis m).isForwardDirection d = .ok false) ∧
    (∀ a, ∃ d, (diagAxis m).backward a = .ok d ∧ blanketIsForward (dDiagAxis m) d = true ∧
      blanketIsBackward (dDiagAxis m) d = false ∧ (diagAxis m).isForwardDirection d = .ok false) ∧
    (∀ a, ∃ d, (axisR m).backward a = .ok d ∧ blanketIsForward (axisDR m) d = true ∧
      blanketIsBackward (axisDR m) d = false ∧ (axisR m).isForwardDirection d = .ok false) ∧
    (∀ a, ∃ d, (axisQ m).backward a = .ok d ∧ blanketIsForward (axisDQ m) d = true ∧
      blanketIsBackward (axisDQ m) d = false ∧ (axisQ m).isForwardDirection d = .ok false) := by
  refine ⟨?_, ?_, ?_, ?_⟩ <;> intro a <;> cases a <;> exact ⟨_, rfl, rfl, rfl, rfl⟩

/-- **C89**, the deprecated `Direction<T>` used as the directions of an undirected axis, whatever the axis: it agrees with the trait's
default `is_forward_direction`. -/
theorem c89_direction {A : Type} (ax : Axis A (Direction A)) (hi : IndexedAxis ax)
    (hf : ∀ a, ax.foward a = .ok (.foward a))
    (hd : ∀ a, ax.fromDirection (.foward a) = .ok a ∧ ax.fromDirection (.backward a) = .ok a)
    (hx : ax.isForwardDirection = defaultIsForwardDirection false (Direction.dirToIndex ax) ax.fromDirection ax.toIndex)
    (d : Direction A) : ForwardAgrees ax Direction.isForward Direction.isBackward d := by
  cases d with
  | foward a =>
    refine ⟨⟨fun _ => ⟨a, (hd a).1, hf a⟩, fun _ => rfl⟩, ?_, rfl⟩
    rw [hx]
    simp [defaultIsForwardDirection, (hd a).1, Direction.dirToIndex, Direction.isForward, bind, Except.bind]
  | backward a =>
    refine ⟨⟨fun h => (by cases h), fun ⟨b, h1, h2⟩ => ?_⟩, ?_, rfl⟩
    · rw [hf] at h2; cases h2
    · have := hi.index_lt a
      rw [hx]
      simp only [defaultIsForwardDirection, (hd a).2, Direction.dirToIndex, Direction.isForward, bind, Except.bind]
      simp; omega

/-- The user's torus of C75 is such an axis. -/
example (m : Machine) (d : Direction TorusAxis) :
    ForwardAgrees (torusAxis m) Direction.isForward Direction.isBackward d := by
  refine c89_direction _ ⟨?_, ?_, ?_, ?_⟩ (fun _ => rfl) (fun _ => ⟨rfl, rfl⟩) rfl d
  · intro a; cases a <;> rfl
  · intro i a h
    match i, h with
    | 0, h => cases h; rfl
    | 1, h => cases h; rfl
    | _ + 2, h => cases h
  · intro i
    match i with
    | 0 => simp [torusAxis, torusAxisBase, TorusAxis.fromIndex]
    | 1 => simp [torusAxis, torusAxisBase, TorusAxis.fromIndex]
    | n + 2 => simp [torusAxis, torusAxisBase, TorusAxis.fromIndex]
  · intro i a h
    match i, h with
    | 0, h => cases h; rfl
    | 1, h => cases h; rfl
    | _ + 2, h => cases h

/-- West on a hexagonal grid claims to be forward. -/
example : blanketIsForward (axisDR m64) .W = true ∧ (axisR m64).isForwardDirection .W = .ok false := ⟨rfl, rfl⟩

example : ForwardAgrees (axisDR m64) (blanketIsForward (axisDR m64)) (blanketIsBackward (axisDR m64)) .SW := (c89_directed m64).2.2.1 _
example : ¬ ForwardAgrees (squareAxis m64) (blanketIsForward (dSquareAxis m64)) (blanketIsBackward (dSquareAxis m64)) .RX :=
  fun h => by
    have := ((c89_undirected_partial m64).1 .RX).1.2 (((c89_undirected_partial m64).1 .RX).2.1 h)
    cases this
example : ∃ d, (squareAxis m64).backward .Y = .ok d ∧ blanketIsForward (dSquareAxis m64) d = true ∧
    (squareAxis m64).isForwardDirection d = .ok false := by
  obtain ⟨d, h1, h2, -, h3⟩ := (c89_undirected_wrong m64).1 .Y
  exact ⟨d, h1, h2, h3⟩

end LG
