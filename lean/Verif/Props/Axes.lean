import Verif.Props.Geometry
/-
C36: the eight axis types. C37: the deprecated `Direction<T>` wrapper. C42: a reference to a shape.
-/
set_option linter.unusedSimpArgs false
namespace LG

/-- What the documentation of `Axis` and `AxisDirection` asks of an axis type. `vec` places the directions in the plane. -/
structure LawfulAxis {A D : Type} (ax : Axis A D) (vec : D → Int × Int) : Prop where
  /-- axes are numbered `0..COUNT` -/
  index_lt : ∀ a, ax.toIndex a < ax.count
  from_to : ∀ a, ax.fromIndex (ax.toIndex a) = some a
  to_from : ∀ i a, ax.fromIndex i = some a → ax.toIndex a = i
  from_some : ∀ i, (ax.fromIndex i).isSome ↔ i < ax.count
  /-- the unchecked conversion agrees, and faults on every other index -/
  unchecked : ∀ i a, ax.fromIndex i = some a → ax.fromIndexUnchecked i = .ok a
  unchecked_fault : ∀ i, ax.fromIndex i = none → ∃ f, ax.fromIndexUnchecked i = .error f
  /-- directions are numbered `0..UNDIRECTED_COUNT` -/
  dir_lt : ∀ d, ax.dirToIndex d < ax.undirectedCount
  dir_from_to : ∀ d, ax.dirFromIndex (ax.dirToIndex d) = some d
  dir_to_from : ∀ i d, ax.dirFromIndex i = some d → ax.dirToIndex d = i
  dir_from_some : ∀ i, (ax.dirFromIndex i).isSome ↔ i < ax.undirectedCount
  dir_unchecked : ∀ i d, ax.dirFromIndex i = some d → ax.dirFromIndexUnchecked i = .ok d
  dir_unchecked_fault : ∀ i, ax.dirFromIndex i = none → ∃ f, ax.dirFromIndexUnchecked i = .error f
  /-- there are twice as many directions as axes, unless each direction is an axis of its own -/
  counts : ax.undirectedCount = if ax.directed then ax.count else 2 * ax.count
  /-- the two directions of an axis: different, geometrically opposite, separated by `is_forward_direction` (which holds of
  every direction of a directed axis type), and both on that axis (unless each direction is an axis of its own) -/
  two : ∀ a, ∃ f b, ax.foward a = .ok f ∧ ax.backward a = .ok b ∧
    vec b = (-(vec f).1, -(vec f).2) ∧ vec f ≠ vec b ∧
    ax.isForwardDirection f = .ok true ∧ ax.isForwardDirection b = .ok ax.directed ∧
    ax.fromDirection f = .ok a ∧
    (if ax.directed then ∃ a', ax.fromDirection b = .ok a' ∧ ax.foward a' = .ok b ∧ ax.backward a' = .ok f
      else ax.fromDirection b = .ok a)
  /-- every direction is one of the two directions of its axis -/
  cover : ∀ d, ∃ a, ax.fromDirection d = .ok a ∧ (ax.foward a = .ok d ∨ ax.backward a = .ok d)
  /-- different directions point to different places -/
  vec_inj : ∀ d d', vec d = vec d' → d = d'

/-- Doubled-plane vector of a flat-top direction. -/
def AxisDQ.vec : AxisDQ → Int × Int
  | .N => (0, 2) | .S => (0, -2) | .NE => (1, 1) | .NW => (-1, 1) | .SE => (1, -1) | .SW => (-1, -1)



theorem unreachable_fault {α : Type} (m : Machine) : ∃ f, (unreachableDebugChecked m : Res α) = .error f := by
  unfold unreachableDebugChecked; split <;> exact ⟨_, rfl⟩

/-- C36, `SquareAxis`: `X`, `Y`. -/
theorem c36_square (m : Machine) : LawfulAxis (squareAxis m) DSquareAxis.vec := by
  constructor
  case to_from =>
    intro i a; rcases i with _ | _ | i <;> cases a <;> simp [squareAxis, dSquareAxis, SquareAxis.toIndex, SquareAxis.fromIndex, SquareAxis.fromIndexUnchecked, DSquareAxis.toIndex, DSquareAxis.fromIndex, defaultUndirectedCount, defaultFromIndexUnchecked]
  case from_some => intro i; rcases i with _ | _ | i <;> simp [squareAxis, dSquareAxis, SquareAxis.toIndex, SquareAxis.fromIndex, SquareAxis.fromIndexUnchecked, DSquareAxis.toIndex, DSquareAxis.fromIndex, defaultUndirectedCount, defaultFromIndexUnchecked]
  case unchecked =>
    intro i a h; rcases i with _ | _ | i <;> simp_all [squareAxis, dSquareAxis, SquareAxis.toIndex, SquareAxis.fromIndex, SquareAxis.fromIndexUnchecked, DSquareAxis.toIndex, DSquareAxis.fromIndex, defaultUndirectedCount, defaultFromIndexUnchecked]
  case unchecked_fault =>
    intro i h
    rcases i with _ | _ | i <;> first | exact ⟨_, rfl⟩ | exact unreachable_fault m | cases h
  case dir_to_from =>
    intro i d; rcases i with _ | _ | _ | _ | i <;> cases d <;> simp [squareAxis, dSquareAxis, SquareAxis.toIndex, SquareAxis.fromIndex, SquareAxis.fromIndexUnchecked, DSquareAxis.toIndex, DSquareAxis.fromIndex, defaultUndirectedCount, defaultFromIndexUnchecked]
  case dir_from_some => intro i; rcases i with _ | _ | _ | _ | i <;> simp [squareAxis, dSquareAxis, SquareAxis.toIndex, SquareAxis.fromIndex, SquareAxis.fromIndexUnchecked, DSquareAxis.toIndex, DSquareAxis.fromIndex, defaultUndirectedCount, defaultFromIndexUnchecked]
  case dir_unchecked =>
    intro i d h; rcases i with _ | _ | _ | _ | i <;> simp_all [squareAxis, dSquareAxis, SquareAxis.toIndex, SquareAxis.fromIndex, SquareAxis.fromIndexUnchecked, DSquareAxis.toIndex, DSquareAxis.fromIndex, defaultUndirectedCount, defaultFromIndexUnchecked]
  case dir_unchecked_fault =>
    intro i h
    rcases i with _ | _ | _ | _ | i <;> first | exact ⟨_, rfl⟩ | exact unreachable_fault m | cases h
  case counts => rfl
  case two =>
    intro a
    cases a <;> first
      | exact ⟨_, _, rfl, rfl, by decide, by decide, rfl, rfl, rfl, rfl⟩
      | exact ⟨_, _, rfl, rfl, by decide, by decide, rfl, rfl, rfl, _, rfl, rfl, rfl⟩
  case cover => intro d; cases d <;> first | exact ⟨_, rfl, .inl rfl⟩ | exact ⟨_, rfl, .inr rfl⟩
  case vec_inj => intro d d'; cases d <;> cases d' <;> decide
  case from_to => intro a; cases a <;> rfl
  case dir_from_to => intro a; cases a <;> rfl
  case index_lt => intro a; cases a <;> simp [squareAxis, dSquareAxis, SquareAxis.toIndex, SquareAxis.fromIndex, SquareAxis.fromIndexUnchecked, DSquareAxis.toIndex, DSquareAxis.fromIndex, defaultUndirectedCount, defaultFromIndexUnchecked]
  case dir_lt => intro a; cases a <;> simp [squareAxis, dSquareAxis, SquareAxis.toIndex, SquareAxis.fromIndex, SquareAxis.fromIndexUnchecked, DSquareAxis.toIndex, DSquareAxis.fromIndex, defaultUndirectedCount, defaultFromIndexUnchecked]

/-- C36, `DirectedSquareAxis`. -/
theorem c36_square_directed (m : Machine) : LawfulAxis (dSquareAxis m) DSquareAxis.vec := by
  constructor
  case to_from =>
    intro i a; rcases i with _ | _ | _ | _ | i <;> cases a <;> simp [dSquareAxis, DSquareAxis.toIndex, DSquareAxis.fromIndex, defaultUndirectedCount, defaultFromIndexUnchecked]
  case from_some => intro i; rcases i with _ | _ | _ | _ | i <;> simp [dSquareAxis, DSquareAxis.toIndex, DSquareAxis.fromIndex, defaultUndirectedCount, defaultFromIndexUnchecked]
  case unchecked =>
    intro i a h; rcases i with _ | _ | _ | _ | i <;> simp_all [dSquareAxis, DSquareAxis.toIndex, DSquareAxis.fromIndex, defaultUndirectedCount, defaultFromIndexUnchecked]
  case unchecked_fault =>
    intro i h
    rcases i with _ | _ | _ | _ | i <;> first | exact ⟨_, rfl⟩ | exact unreachable_fault m | cases h
  case dir_to_from =>
    intro i d; rcases i with _ | _ | _ | _ | i <;> cases d <;> simp [dSquareAxis, DSquareAxis.toIndex, DSquareAxis.fromIndex, defaultUndirectedCount, defaultFromIndexUnchecked]
  case dir_from_some => intro i; rcases i with _ | _ | _ | _ | i <;> simp [dSquareAxis, DSquareAxis.toIndex, DSquareAxis.fromIndex, defaultUndirectedCount, defaultFromIndexUnchecked]
  case dir_unchecked =>
    intro i d h; rcases i with _ | _ | _ | _ | i <;> simp_all [dSquareAxis, DSquareAxis.toIndex, DSquareAxis.fromIndex, defaultUndirectedCount, defaultFromIndexUnchecked]
  case dir_unchecked_fault =>
    intro i h
    rcases i with _ | _ | _ | _ | i <;> first | exact ⟨_, rfl⟩ | exact unreachable_fault m | cases h
  case counts => rfl
  case two =>
    intro a
    cases a <;> first
      | exact ⟨_, _, rfl, rfl, by decide, by decide, rfl, rfl, rfl, rfl⟩
      | exact ⟨_, _, rfl, rfl, by decide, by decide, rfl, rfl, rfl, _, rfl, rfl, rfl⟩
  case cover => intro d; cases d <;> first | exact ⟨_, rfl, .inl rfl⟩ | exact ⟨_, rfl, .inr rfl⟩
  case vec_inj => intro d d'; cases d <;> cases d' <;> decide
  case from_to => intro a; cases a <;> rfl
  case dir_from_to => intro a; cases a <;> rfl
  case index_lt => intro a; cases a <;> simp [dSquareAxis, DSquareAxis.toIndex, DSquareAxis.fromIndex, defaultUndirectedCount, defaultFromIndexUnchecked]
  case dir_lt => intro a; cases a <;> simp [dSquareAxis, DSquareAxis.toIndex, DSquareAxis.fromIndex, defaultUndirectedCount, defaultFromIndexUnchecked]

/-- C36, `SquareDiagonalAxis`. -/
theorem c36_diag (m : Machine) : LawfulAxis (diagAxis m) DDiagAxis.vec := by
  constructor
  case to_from =>
    intro i a; rcases i with _ | _ | _ | _ | i <;> cases a <;> simp [diagAxis, dDiagAxis, DiagAxis.toIndex, DiagAxis.fromIndex, DDiagAxis.toIndex, DDiagAxis.fromIndex, DDiagAxis.fromIndexUnchecked, defaultUndirectedCount, defaultFromIndexUnchecked]
  case from_some => intro i; rcases i with _ | _ | _ | _ | i <;> simp [diagAxis, dDiagAxis, DiagAxis.toIndex, DiagAxis.fromIndex, DDiagAxis.toIndex, DDiagAxis.fromIndex, DDiagAxis.fromIndexUnchecked, defaultUndirectedCount, defaultFromIndexUnchecked]
  case unchecked =>
    intro i a h; rcases i with _ | _ | _ | _ | i <;> simp_all [diagAxis, dDiagAxis, DiagAxis.toIndex, DiagAxis.fromIndex, DDiagAxis.toIndex, DDiagAxis.fromIndex, DDiagAxis.fromIndexUnchecked, defaultUndirectedCount, defaultFromIndexUnchecked]
  case unchecked_fault =>
    intro i h
    rcases i with _ | _ | _ | _ | i <;> first | exact ⟨_, rfl⟩ | exact unreachable_fault m | cases h
  case dir_to_from =>
    intro i d; rcases i with _ | _ | _ | _ | _ | _ | _ | _ | i <;> cases d <;> simp [diagAxis, dDiagAxis, DiagAxis.toIndex, DiagAxis.fromIndex, DDiagAxis.toIndex, DDiagAxis.fromIndex, DDiagAxis.fromIndexUnchecked, defaultUndirectedCount, defaultFromIndexUnchecked]
  case dir_from_some => intro i; rcases i with _ | _ | _ | _ | _ | _ | _ | _ | i <;> simp [diagAxis, dDiagAxis, DiagAxis.toIndex, DiagAxis.fromIndex, DDiagAxis.toIndex, DDiagAxis.fromIndex, DDiagAxis.fromIndexUnchecked, defaultUndirectedCount, defaultFromIndexUnchecked]
  case dir_unchecked =>
    intro i d h; rcases i with _ | _ | _ | _ | _ | _ | _ | _ | i <;> simp_all [diagAxis, dDiagAxis, DiagAxis.toIndex, DiagAxis.fromIndex, DDiagAxis.toIndex, DDiagAxis.fromIndex, DDiagAxis.fromIndexUnchecked, defaultUndirectedCount, defaultFromIndexUnchecked]
  case dir_unchecked_fault =>
    intro i h
    rcases i with _ | _ | _ | _ | _ | _ | _ | _ | i <;> first | exact ⟨_, rfl⟩ | exact unreachable_fault m | cases h
  case counts => rfl
  case two =>
    intro a
    cases a <;> first
      | exact ⟨_, _, rfl, rfl, by decide, by decide, rfl, rfl, rfl, rfl⟩
      | exact ⟨_, _, rfl, rfl, by decide, by decide, rfl, rfl, rfl, _, rfl, rfl, rfl⟩
  case cover => intro d; cases d <;> first | exact ⟨_, rfl, .inl rfl⟩ | exact ⟨_, rfl, .inr rfl⟩
  case vec_inj => intro d d'; cases d <;> cases d' <;> decide
  case from_to => intro a; cases a <;> rfl
  case dir_from_to => intro a; cases a <;> rfl
  case index_lt => intro a; cases a <;> simp [diagAxis, dDiagAxis, DiagAxis.toIndex, DiagAxis.fromIndex, DDiagAxis.toIndex, DDiagAxis.fromIndex, DDiagAxis.fromIndexUnchecked, defaultUndirectedCount, defaultFromIndexUnchecked]
  case dir_lt => intro a; cases a <;> simp [diagAxis, dDiagAxis, DiagAxis.toIndex, DiagAxis.fromIndex, DDiagAxis.toIndex, DDiagAxis.fromIndex, DDiagAxis.fromIndexUnchecked, defaultUndirectedCount, defaultFromIndexUnchecked]

/-- C36, `DirectedSquareDiagonalAxis`. -/
theorem c36_diag_directed (m : Machine) : LawfulAxis (dDiagAxis m) DDiagAxis.vec := by
  constructor
  case to_from =>
    intro i a; rcases i with _ | _ | _ | _ | _ | _ | _ | _ | i <;> cases a <;> simp [dDiagAxis, DDiagAxis.toIndex, DDiagAxis.fromIndex, DDiagAxis.fromIndexUnchecked, defaultUndirectedCount, defaultFromIndexUnchecked]
  case from_some => intro i; rcases i with _ | _ | _ | _ | _ | _ | _ | _ | i <;> simp [dDiagAxis, DDiagAxis.toIndex, DDiagAxis.fromIndex, DDiagAxis.fromIndexUnchecked, defaultUndirectedCount, defaultFromIndexUnchecked]
  case unchecked =>
    intro i a h; rcases i with _ | _ | _ | _ | _ | _ | _ | _ | i <;> simp_all [dDiagAxis, DDiagAxis.toIndex, DDiagAxis.fromIndex, DDiagAxis.fromIndexUnchecked, defaultUndirectedCount, defaultFromIndexUnchecked]
  case unchecked_fault =>
    intro i h
    rcases i with _ | _ | _ | _ | _ | _ | _ | _ | i <;> first | exact ⟨_, rfl⟩ | exact unreachable_fault m | cases h
  case dir_to_from =>
    intro i d; rcases i with _ | _ | _ | _ | _ | _ | _ | _ | i <;> cases d <;> simp [dDiagAxis, DDiagAxis.toIndex, DDiagAxis.fromIndex, DDiagAxis.fromIndexUnchecked, defaultUndirectedCount, defaultFromIndexUnchecked]
  case dir_from_some => intro i; rcases i with _ | _ | _ | _ | _ | _ | _ | _ | i <;> simp [dDiagAxis, DDiagAxis.toIndex, DDiagAxis.fromIndex, DDiagAxis.fromIndexUnchecked, defaultUndirectedCount, defaultFromIndexUnchecked]
  case dir_unchecked =>
    intro i d h; rcases i with _ | _ | _ | _ | _ | _ | _ | _ | i <;> simp_all [dDiagAxis, DDiagAxis.toIndex, DDiagAxis.fromIndex, DDiagAxis.fromIndexUnchecked, defaultUndirectedCount, defaultFromIndexUnchecked]
  case dir_unchecked_fault =>
    intro i h
    rcases i with _ | _ | _ | _ | _ | _ | _ | _ | i <;> first | exact ⟨_, rfl⟩ | exact unreachable_fault m | cases h
  case counts => rfl
  case two =>
    intro a
    cases a <;> first
      | exact ⟨_, _, rfl, rfl, by decide, by decide, rfl, rfl, rfl, rfl⟩
      | exact ⟨_, _, rfl, rfl, by decide, by decide, rfl, rfl, rfl, _, rfl, rfl, rfl⟩
  case cover => intro d; cases d <;> first | exact ⟨_, rfl, .inl rfl⟩ | exact ⟨_, rfl, .inr rfl⟩
  case vec_inj => intro d d'; cases d <;> cases d' <;> decide
  case from_to => intro a; cases a <;> rfl
  case dir_from_to => intro a; cases a <;> rfl
  case index_lt => intro a; cases a <;> simp [dDiagAxis, DDiagAxis.toIndex, DDiagAxis.fromIndex, DDiagAxis.fromIndexUnchecked, defaultUndirectedCount, defaultFromIndexUnchecked]
  case dir_lt => intro a; cases a <;> simp [dDiagAxis, DDiagAxis.toIndex, DDiagAxis.fromIndex, DDiagAxis.fromIndexUnchecked, defaultUndirectedCount, defaultFromIndexUnchecked]

/-- C36, `AxisR`. -/
theorem c36_hex_r (m : Machine) : LawfulAxis (axisR m) AxisDR.vec := by
  constructor
  case to_from =>
    intro i a; rcases i with _ | _ | _ | i <;> cases a <;> simp [axisR, axisDR, AxisR.toIndex, AxisR.fromIndex, AxisR.fromIndexUnchecked, AxisDR.toIndex, AxisDR.fromIndex, AxisDR.fromIndexUnchecked, defaultUndirectedCount, defaultFromIndexUnchecked]
  case from_some => intro i; rcases i with _ | _ | _ | i <;> simp [axisR, axisDR, AxisR.toIndex, AxisR.fromIndex, AxisR.fromIndexUnchecked, AxisDR.toIndex, AxisDR.fromIndex, AxisDR.fromIndexUnchecked, defaultUndirectedCount, defaultFromIndexUnchecked]
  case unchecked =>
    intro i a h; rcases i with _ | _ | _ | i <;> simp_all [axisR, axisDR, AxisR.toIndex, AxisR.fromIndex, AxisR.fromIndexUnchecked, AxisDR.toIndex, AxisDR.fromIndex, AxisDR.fromIndexUnchecked, defaultUndirectedCount, defaultFromIndexUnchecked]
  case unchecked_fault =>
    intro i h
    rcases i with _ | _ | _ | i <;> first | exact ⟨_, rfl⟩ | exact unreachable_fault m | cases h
  case dir_to_from =>
    intro i d; rcases i with _ | _ | _ | _ | _ | _ | i <;> cases d <;> simp [axisR, axisDR, AxisR.toIndex, AxisR.fromIndex, AxisR.fromIndexUnchecked, AxisDR.toIndex, AxisDR.fromIndex, AxisDR.fromIndexUnchecked, defaultUndirectedCount, defaultFromIndexUnchecked]
  case dir_from_some => intro i; rcases i with _ | _ | _ | _ | _ | _ | i <;> simp [axisR, axisDR, AxisR.toIndex, AxisR.fromIndex, AxisR.fromIndexUnchecked, AxisDR.toIndex, AxisDR.fromIndex, AxisDR.fromIndexUnchecked, defaultUndirectedCount, defaultFromIndexUnchecked]
  case dir_unchecked =>
    intro i d h; rcases i with _ | _ | _ | _ | _ | _ | i <;> simp_all [axisR, axisDR, AxisR.toIndex, AxisR.fromIndex, AxisR.fromIndexUnchecked, AxisDR.toIndex, AxisDR.fromIndex, AxisDR.fromIndexUnchecked, defaultUndirectedCount, defaultFromIndexUnchecked]
  case dir_unchecked_fault =>
    intro i h
    rcases i with _ | _ | _ | _ | _ | _ | i <;> first | exact ⟨_, rfl⟩ | exact unreachable_fault m | cases h
  case counts => rfl
  case two =>
    intro a
    cases a <;> first
      | exact ⟨_, _, rfl, rfl, by decide, by decide, rfl, rfl, rfl, rfl⟩
      | exact ⟨_, _, rfl, rfl, by decide, by decide, rfl, rfl, rfl, _, rfl, rfl, rfl⟩
  case cover => intro d; cases d <;> first | exact ⟨_, rfl, .inl rfl⟩ | exact ⟨_, rfl, .inr rfl⟩
  case vec_inj => intro d d'; cases d <;> cases d' <;> decide
  case from_to => intro a; cases a <;> rfl
  case dir_from_to => intro a; cases a <;> rfl
  case index_lt => intro a; cases a <;> simp [axisR, axisDR, AxisR.toIndex, AxisR.fromIndex, AxisR.fromIndexUnchecked, AxisDR.toIndex, AxisDR.fromIndex, AxisDR.fromIndexUnchecked, defaultUndirectedCount, defaultFromIndexUnchecked]
  case dir_lt => intro a; cases a <;> simp [axisR, axisDR, AxisR.toIndex, AxisR.fromIndex, AxisR.fromIndexUnchecked, AxisDR.toIndex, AxisDR.fromIndex, AxisDR.fromIndexUnchecked, defaultUndirectedCount, defaultFromIndexUnchecked]

/-- C36, `AxisDR`. -/
theorem c36_hex_dr (m : Machine) : LawfulAxis (axisDR m) AxisDR.vec := by
  constructor
  case to_from =>
    intro i a; rcases i with _ | _ | _ | _ | _ | _ | i <;> cases a <;> simp [axisDR, AxisDR.toIndex, AxisDR.fromIndex, AxisDR.fromIndexUnchecked, defaultUndirectedCount, defaultFromIndexUnchecked]
  case from_some => intro i; rcases i with _ | _ | _ | _ | _ | _ | i <;> simp [axisDR, AxisDR.toIndex, AxisDR.fromIndex, AxisDR.fromIndexUnchecked, defaultUndirectedCount, defaultFromIndexUnchecked]
  case unchecked =>
    intro i a h; rcases i with _ | _ | _ | _ | _ | _ | i <;> simp_all [axisDR, AxisDR.toIndex, AxisDR.fromIndex, AxisDR.fromIndexUnchecked, defaultUndirectedCount, defaultFromIndexUnchecked]
  case unchecked_fault =>
    intro i h
    rcases i with _ | _ | _ | _ | _ | _ | i <;> first | exact ⟨_, rfl⟩ | exact unreachable_fault m | cases h
  case dir_to_from =>
    intro i d; rcases i with _ | _ | _ | _ | _ | _ | i <;> cases d <;> simp [axisDR, AxisDR.toIndex, AxisDR.fromIndex, AxisDR.fromIndexUnchecked, defaultUndirectedCount, defaultFromIndexUnchecked]
  case dir_from_some => intro i; rcases i with _ | _ | _ | _ | _ | _ | i <;> simp [axisDR, AxisDR.toIndex, AxisDR.fromIndex, AxisDR.fromIndexUnchecked, defaultUndirectedCount, defaultFromIndexUnchecked]
  case dir_unchecked =>
    intro i d h; rcases i with _ | _ | _ | _ | _ | _ | i <;> simp_all [axisDR, AxisDR.toIndex, AxisDR.fromIndex, AxisDR.fromIndexUnchecked, defaultUndirectedCount, defaultFromIndexUnchecked]
  case dir_unchecked_fault =>
    intro i h
    rcases i with _ | _ | _ | _ | _ | _ | i <;> first | exact ⟨_, rfl⟩ | exact unreachable_fault m | cases h
  case counts => rfl
  case two =>
    intro a
    cases a <;> first
      | exact ⟨_, _, rfl, rfl, by decide, by decide, rfl, rfl, rfl, rfl⟩
      | exact ⟨_, _, rfl, rfl, by decide, by decide, rfl, rfl, rfl, _, rfl, rfl, rfl⟩
  case cover => intro d; cases d <;> first | exact ⟨_, rfl, .inl rfl⟩ | exact ⟨_, rfl, .inr rfl⟩
  case vec_inj => intro d d'; cases d <;> cases d' <;> decide
  case from_to => intro a; cases a <;> rfl
  case dir_from_to => intro a; cases a <;> rfl
  case index_lt => intro a; cases a <;> simp [axisDR, AxisDR.toIndex, AxisDR.fromIndex, AxisDR.fromIndexUnchecked, defaultUndirectedCount, defaultFromIndexUnchecked]
  case dir_lt => intro a; cases a <;> simp [axisDR, AxisDR.toIndex, AxisDR.fromIndex, AxisDR.fromIndexUnchecked, defaultUndirectedCount, defaultFromIndexUnchecked]

/-- C36, `AxisQ`. -/
theorem c36_hex_q (m : Machine) : LawfulAxis (axisQ m) AxisDQ.vec := by
  constructor
  case to_from =>
    intro i a; rcases i with _ | _ | _ | i <;> cases a <;> simp [axisQ, axisDQ, AxisQ.toIndex, AxisQ.fromIndex, AxisQ.fromIndexUnchecked, AxisDQ.toIndex, AxisDQ.fromIndex, AxisDQ.fromIndexUnchecked, defaultUndirectedCount, defaultFromIndexUnchecked]
  case from_some => intro i; rcases i with _ | _ | _ | i <;> simp [axisQ, axisDQ, AxisQ.toIndex, AxisQ.fromIndex, AxisQ.fromIndexUnchecked, AxisDQ.toIndex, AxisDQ.fromIndex, AxisDQ.fromIndexUnchecked, defaultUndirectedCount, defaultFromIndexUnchecked]
  case unchecked =>
    intro i a h; rcases i with _ | _ | _ | i <;> simp_all [axisQ, axisDQ, AxisQ.toIndex, AxisQ.fromIndex, AxisQ.fromIndexUnchecked, AxisDQ.toIndex, AxisDQ.fromIndex, AxisDQ.fromIndexUnchecked, defaultUndirectedCount, defaultFromIndexUnchecked]
  case unchecked_fault =>
    intro i h
    rcases i with _ | _ | _ | i <;> first | exact ⟨_, rfl⟩ | exact unreachable_fault m | cases h
  case dir_to_from =>
    intro i d; rcases i with _ | _ | _ | _ | _ | _ | i <;> cases d <;> simp [axisQ, axisDQ, AxisQ.toIndex, AxisQ.fromIndex, AxisQ.fromIndexUnchecked, AxisDQ.toIndex, AxisDQ.fromIndex, AxisDQ.fromIndexUnchecked, defaultUndirectedCount, defaultFromIndexUnchecked]
  case dir_from_some => intro i; rcases i with _ | _ | _ | _ | _ | _ | i <;> simp [axisQ, axisDQ, AxisQ.toIndex, AxisQ.fromIndex, AxisQ.fromIndexUnchecked, AxisDQ.toIndex, AxisDQ.fromIndex, AxisDQ.fromIndexUnchecked, defaultUndirectedCount, defaultFromIndexUnchecked]
  case dir_unchecked =>
    intro i d h; rcases i with _ | _ | _ | _ | _ | _ | i <;> simp_all [axisQ, axisDQ, AxisQ.toIndex, AxisQ.fromIndex, AxisQ.fromIndexUnchecked, AxisDQ.toIndex, AxisDQ.fromIndex, AxisDQ.fromIndexUnchecked, defaultUndirectedCount, defaultFromIndexUnchecked]
  case dir_unchecked_fault =>
    intro i h
    rcases i with _ | _ | _ | _ | _ | _ | i <;> first | exact ⟨_, rfl⟩ | exact unreachable_fault m | cases h
  case counts => rfl
  case two =>
    intro a
    cases a <;> first
      | exact ⟨_, _, rfl, rfl, by decide, by decide, rfl, rfl, rfl, rfl⟩
      | exact ⟨_, _, rfl, rfl, by decide, by decide, rfl, rfl, rfl, _, rfl, rfl, rfl⟩
  case cover => intro d; cases d <;> first | exact ⟨_, rfl, .inl rfl⟩ | exact ⟨_, rfl, .inr rfl⟩
  case vec_inj => intro d d'; cases d <;> cases d' <;> decide
  case from_to => intro a; cases a <;> rfl
  case dir_from_to => intro a; cases a <;> rfl
  case index_lt => intro a; cases a <;> simp [axisQ, axisDQ, AxisQ.toIndex, AxisQ.fromIndex, AxisQ.fromIndexUnchecked, AxisDQ.toIndex, AxisDQ.fromIndex, AxisDQ.fromIndexUnchecked, defaultUndirectedCount, defaultFromIndexUnchecked]
  case dir_lt => intro a; cases a <;> simp [axisQ, axisDQ, AxisQ.toIndex, AxisQ.fromIndex, AxisQ.fromIndexUnchecked, AxisDQ.toIndex, AxisDQ.fromIndex, AxisDQ.fromIndexUnchecked, defaultUndirectedCount, defaultFromIndexUnchecked]

/-- C36, `AxisDQ`. -/
theorem c36_hex_dq (m : Machine) : LawfulAxis (axisDQ m) AxisDQ.vec := by
  constructor
  case to_from =>
    intro i a; rcases i with _ | _ | _ | _ | _ | _ | i <;> cases a <;> simp [axisDQ, AxisDQ.toIndex, AxisDQ.fromIndex, AxisDQ.fromIndexUnchecked, defaultUndirectedCount, defaultFromIndexUnchecked]
  case from_some => intro i; rcases i with _ | _ | _ | _ | _ | _ | i <;> simp [axisDQ, AxisDQ.toIndex, AxisDQ.fromIndex, AxisDQ.fromIndexUnchecked, defaultUndirectedCount, defaultFromIndexUnchecked]
  case unchecked =>
    intro i a h; rcases i with _ | _ | _ | _ | _ | _ | i <;> simp_all [axisDQ, AxisDQ.toIndex, AxisDQ.fromIndex, AxisDQ.fromIndexUnchecked, defaultUndirectedCount, defaultFromIndexUnchecked]
  case unchecked_fault =>
    intro i h
    rcases i with _ | _ | _ | _ | _ | _ | i <;> first | exact ⟨_, rfl⟩ | exact unreachable_fault m | cases h
  case dir_to_from =>
    intro i d; rcases i with _ | _ | _ | _ | _ | _ | i <;> cases d <;> simp [axisDQ, AxisDQ.toIndex, AxisDQ.fromIndex, AxisDQ.fromIndexUnchecked, defaultUndirectedCount, defaultFromIndexUnchecked]
  case dir_from_some => intro i; rcases i with _ | _ | _ | _ | _ | _ | i <;> simp [axisDQ, AxisDQ.toIndex, AxisDQ.fromIndex, AxisDQ.fromIndexUnchecked, defaultUndirectedCount, defaultFromIndexUnchecked]
  case dir_unchecked =>
    intro i d h; rcases i with _ | _ | _ | _ | _ | _ | i <;> simp_all [axisDQ, AxisDQ.toIndex, AxisDQ.fromIndex, AxisDQ.fromIndexUnchecked, defaultUndirectedCount, defaultFromIndexUnchecked]
  case dir_unchecked_fault =>
    intro i h
    rcases i with _ | _ | _ | _ | _ | _ | i <;> first | exact ⟨_, rfl⟩ | exact unreachable_fault m | cases h
  case counts => rfl
  case two =>
    intro a
    cases a <;> first
      | exact ⟨_, _, rfl, rfl, by decide, by decide, rfl, rfl, rfl, rfl⟩
      | exact ⟨_, _, rfl, rfl, by decide, by decide, rfl, rfl, rfl, _, rfl, rfl, rfl⟩
  case cover => intro d; cases d <;> first | exact ⟨_, rfl, .inl rfl⟩ | exact ⟨_, rfl, .inr rfl⟩
  case vec_inj => intro d d'; cases d <;> cases d' <;> decide
  case from_to => intro a; cases a <;> rfl
  case dir_from_to => intro a; cases a <;> rfl
  case index_lt => intro a; cases a <;> simp [axisDQ, AxisDQ.toIndex, AxisDQ.fromIndex, AxisDQ.fromIndexUnchecked, defaultUndirectedCount, defaultFromIndexUnchecked]
  case dir_lt => intro a; cases a <;> simp [axisDQ, AxisDQ.toIndex, AxisDQ.fromIndex, AxisDQ.fromIndexUnchecked, defaultUndirectedCount, defaultFromIndexUnchecked]

/-- The index laws alone, which is all `Direction<T>` needs of `T`. -/
structure IndexedAxis {A D : Type} (ax : Axis A D) : Prop where
  from_to : ∀ a, ax.fromIndex (ax.toIndex a) = some a
  to_from : ∀ i a, ax.fromIndex i = some a → ax.toIndex a = i
  from_some : ∀ i, (ax.fromIndex i).isSome ↔ i < ax.count
  unchecked : ∀ i a, ax.fromIndex i = some a → ax.fromIndexUnchecked i = .ok a

theorem LawfulAxis.indexed {A D : Type} {ax : Axis A D} {vec : D → Int × Int} (h : LawfulAxis ax vec) : IndexedAxis ax :=
  ⟨h.from_to, h.to_from, h.from_some, h.unchecked⟩

section
variable {A D : Type} {ax : Axis A D}

theorem IndexedAxis.index_lt (h : IndexedAxis ax) (a : A) : ax.toIndex a < ax.count :=
  (h.from_some _).1 (by rw [h.from_to]; rfl)

theorem IndexedAxis.at (h : IndexedAxis ax) {i : Nat} (hi : i < ax.count) :
    ∃ a, ax.fromIndex i = some a ∧ ax.fromIndexUnchecked i = .ok a ∧ ax.toIndex a = i := by
  obtain ⟨a, ha⟩ := Option.isSome_iff_exists.1 ((h.from_some i).2 hi)
  exact ⟨a, ha, h.unchecked _ _ ha, h.to_from _ _ ha⟩

theorem IndexedAxis.none (h : IndexedAxis ax) {i : Nat} (hi : ¬ i < ax.count) : ax.fromIndex i = .none := by
  rw [← h.from_some i] at hi
  simpa using hi

/-- **C37.** Direction indices lie in `0 .. 2 * COUNT`, the forward ones below `COUNT`. -/
theorem c37_index_range (h : IndexedAxis ax) (d : Direction A) :
    d.dirToIndex ax < 2 * ax.count ∧ (d.isForward = true ↔ d.dirToIndex ax < ax.count) ∧
    (d.isBackward = true ↔ ax.count ≤ d.dirToIndex ax) := by
  cases d with
  | foward a =>
    have := h.index_lt a
    simp only [Direction.dirToIndex, Direction.isForward, Direction.isBackward]
    exact ⟨by omega, by simp; omega, by simp; omega⟩
  | backward a =>
    have := h.index_lt a
    simp only [Direction.dirToIndex, Direction.isForward, Direction.isBackward]
    exact ⟨by omega, by simp, by simp⟩

/-- **C37.** `dir_from_index` undoes `dir_to_index` (and so does the unchecked version). -/
theorem c37_from_to (h : IndexedAxis ax) (d : Direction A) :
    Direction.dirFromIndex ax (d.dirToIndex ax) = .ok (some d) ∧
    Direction.dirFromIndexUnchecked ax (d.dirToIndex ax) = .ok d := by
  cases d with
  | foward a =>
    have hl := h.index_lt a
    have hu := h.unchecked _ _ (h.from_to a)
    simp only [Direction.dirToIndex, Direction.dirFromIndex, Direction.dirFromIndexUnchecked, if_pos hl, hu, bind, Except.bind]
    trivial
  | backward a =>
    have hl : ¬ ax.toIndex a + ax.count < ax.count := by omega
    have hu := h.unchecked _ _ (h.from_to a)
    simp only [Direction.dirToIndex, Direction.dirFromIndex, Direction.dirFromIndexUnchecked, if_neg hl, Nat.add_sub_cancel,
      hu, h.from_to, bind, Except.bind]
    exact ⟨rfl, trivial⟩

/-- **C37.** `dir_to_index` undoes `dir_from_index` on `0 .. 2 * COUNT`. -/
theorem c37_to_from (h : IndexedAxis ax) {i : Nat} (hi : i < 2 * ax.count) :
    ∃ d, Direction.dirFromIndex ax i = .ok (some d) ∧ Direction.dirFromIndexUnchecked ax i = .ok d ∧ d.dirToIndex ax = i := by
  by_cases hlt : i < ax.count
  · obtain ⟨a, -, h2, h3⟩ := h.at hlt
    refine ⟨.foward a, ?_, ?_, h3⟩
    · simp only [Direction.dirFromIndex, if_pos hlt, h2, bind, Except.bind]
    · simp only [Direction.dirFromIndexUnchecked, if_pos hlt, h2, bind, Except.bind]
  · obtain ⟨a, h1, h2, h3⟩ := h.at (i := i - ax.count) (by omega)
    refine ⟨.backward a, ?_, ?_, by simp only [Direction.dirToIndex, h3]; omega⟩
    · simp only [Direction.dirFromIndex, if_neg hlt, h1, Option.map_some]
    · simp only [Direction.dirFromIndexUnchecked, if_neg hlt, h2, bind, Except.bind]

/-- **C37.** All other indices are rejected, without a fault. -/
theorem c37_rejects (h : IndexedAxis ax) {i : Nat} (hi : 2 * ax.count ≤ i) : Direction.dirFromIndex ax i = .ok none := by
  by_cases hlt : i < ax.count
  · omega
  · simp only [Direction.dirFromIndex, if_neg hlt, h.none (i := i - ax.count) (by omega), Option.map_none]

end

example : Direction.dirFromIndex (axisR m64) 4 = .ok (some (.backward .E)) ∧
    Direction.dirFromIndex (axisR m64) 6 = .ok none :=
  ⟨rfl, c37_rejects (c36_hex_r m64).indexed (by decide)⟩

/-! ### C42 -/
section
variable {C A D N E σ : Type}

/-- The same storage seen through a reference to the shape. -/
def Graph.byRef (g : Graph C A D N E) : Graph C A D N E := { g with s := g.s.byRef }

theorem newWithEdges_byRef (s : Shape C A D) (e : σ → C → A → E × σ) (o : Offset) (c : C) :
    ∀ (l : List (Arr2 E)) (j : Nat) (st : σ), newWithEdges s.byRef e o c j l st = newWithEdges s e o c j l st
  | [], _, _ => rfl
  | a :: l, j, st => by
    simp only [newWithEdges, newWithEdges_byRef s e o c l]
    rfl

theorem newWithNodes_byRef (s : Shape C A D) (n : σ → C → N × σ) (e : σ → C → A → E × σ) :
    ∀ (k i : Nat) (ns : Arr2 N) (es : List (Arr2 E)) (st : σ),
      newWithNodes s.byRef n e i k ns es st = newWithNodes s n e i k ns es st
  | 0, _, _, _, _ => rfl
  | k + 1, i, ns, es, st => by
    simp only [newWithNodes, newWithNodes_byRef s n e k, newWithEdges_byRef]
    rfl

theorem uninitEdges_byRef (s : Shape C A D) : ∀ n, uninitEdges (E := E) s.byRef n = uninitEdges s n
  | 0 => rfl
  | n + 1 => by simp only [uninitEdges, uninitEdges_byRef s n]; rfl

/-- **C42** (graphs). Building a graph over a reference to any shape `s` — sound or not — gives the graph over `s` itself,
seen through the reference, with the same effects on the closures' state, or the same fault. -/
theorem c42_new_with (s : Shape C A D) (n : σ → C → N × σ) (e : σ → C → A → E × σ) (st : σ) :
    newWith s.byRef n e st = (newWith s n e st).map fun p => (p.1.byRef, p.2) := by
  simp only [newWith, newUninit, uninitEdges_byRef, newWithNodes_byRef, bind, Except.bind, Except.map]
  simp only [Shape.byRef, Shape.nodeCount]
  cases (Arr2.uninit s.m s.horizontal s.vertical : Res (Arr2 N)) with
  | error f => rfl
  | ok ns =>
    cases (uninitEdges s s.axis.count : Res (List (Arr2 E))) with
    | error f => rfl
    | ok es =>
      cases umul s.m s.horizontal s.vertical with
      | error f => rfl
      | ok cnt =>
        simp only
        cases newWithNodes s n e 0 cnt ns es st with
        | error f => rfl
        | ok r => rfl

/-- **C42** (graphs). Reads and writes through the reference. -/
theorem c42_access (g : Graph C A D N E) (c : C) (a : A) (f : N → N) (fe : E → E) :
    g.byRef.nodeWeight c = g.nodeWeight c ∧ g.byRef.edgeWeight c a = g.edgeWeight c a ∧
    g.byRef.modifyNode c f = (g.modifyNode c f).map (Option.map Graph.byRef) ∧
    g.byRef.modifyEdge c a fe = (g.modifyEdge c a fe).map (Option.map Graph.byRef) := by
  refine ⟨rfl, rfl, ?_, ?_⟩
  · simp only [Graph.modifyNode, Graph.byRef, Shape.byRef, bind, Except.bind, Except.map]
    cases g.s.toOffset c with
    | error f => rfl
    | ok o =>
      cases o with
      | none => rfl
      | some o =>
        simp only
        cases g.nodes.uget g.s.m o.horizontal o.vertical <;> rfl
  · simp only [Graph.modifyEdge, Graph.byRef, Shape.byRef, Graph.edgeArr, bind, Except.bind, Except.map]
    cases g.s.toOffset c with
    | error f => rfl
    | ok o =>
      cases o with
      | none => rfl
      | some o =>
        simp only
        cases g.s.axis.foward a with
        | error f => rfl
        | ok d =>
          simp only
          cases g.s.moveCoord c d with
          | error f => rfl
          | ok t =>
            cases t with
            | none => rfl
            | some t =>
              simp only
              cases g.edges[g.s.axis.toIndex a]? with
              | none => rfl
              | some arr =>
                simp only
                cases arr.uget g.s.m o.horizontal o.vertical <;> rfl

theorem neighborsNext_byRef (s : Shape C A D) (c : C) (st : Nat) :
    neighborsNext s.byRef c st = neighborsNext s c st := by
  fun_induction neighborsNext s c st with
  | case1 st h ih =>
    rw [neighborsNext, dif_pos (show st < s.byRef.axis.undirectedCount from h)]
    simp only [bind, Except.bind, Shape.byRef] at ih ⊢
    cases s.axis.dirFromIndexUnchecked st with
    | error f => rfl
    | ok d =>
      simp only
      cases s.moveCoord c d with
      | error f => rfl
      | ok t =>
        cases t with
        | none => exact ih
        | some t => rfl
  | case2 st h => rw [neighborsNext, dif_neg (show ¬ st < s.byRef.axis.undirectedCount from h)]

theorem edgesNext_byRef (g : Graph C A D N E) (it : EdgesIt C) : edgesNext g.byRef it = edgesNext g it := by
  fun_induction edgesNext g it with
  | case1 it h ih =>
    rw [edgesNext, dif_pos (show it.state < edgesBound g.byRef.s it.dt from h)]
    simp only [bind, Except.bind, Graph.byRef, Shape.byRef] at ih ⊢
    cases g.s.axis.dirFromIndexUnchecked it.state with
    | error f => rfl
    | ok d =>
      simp only
      cases g.s.moveCoord it.node d with
      | error f => rfl
      | ok t =>
        cases t with
        | none => exact ih
        | some t => rfl
  | case2 it h => rw [edgesNext, dif_neg (show ¬ it.state < edgesBound g.byRef.s it.dt from h)]

theorem edgeRefsLoop_byRef (g : Graph C A D N E) (nc : Nat) (it : EdgeRefsIt C) :
    edgeRefsLoop g.byRef nc it = edgeRefsLoop g nc it := by
  have hp : ∀ e, edgeRefsPoll g.byRef e = edgeRefsPoll g e := by
    intro e; cases e <;> simp only [edgeRefsPoll, edgesNext_byRef]
  fun_induction edgeRefsLoop g nc it with
  | case1 it ih =>
    rw [edgeRefsLoop]
    simp only [hp, bind, Except.bind] at ih ⊢
    cases edgeRefsPoll g it.e with
    | error f => rfl
    | ok r =>
      obtain ⟨o, e'⟩ := r
      cases o with
      | some r => rfl
      | none =>
        simp only
        split
        · rename_i hlt
          have h1 : g.byRef.s.indexToCoordinate = g.s.indexToCoordinate := rfl
          have h2 : edgesNewUnchecked g.byRef = edgesNewUnchecked g := rfl
          rw [h1, h2]
          cases g.s.indexToCoordinate it.index with
          | error f => rfl
          | ok x =>
            simp only
            cases edgesNewUnchecked g x with
            | error f => rfl
            | ok ed => exact ih hlt ed
        · rfl

/-- **C42** (graphs). Every iterator of the graph over the reference steps as that of the graph over the shape. -/
theorem c42_iterators (g : Graph C A D N E) :
    nodeIndicesNext g.byRef.s = nodeIndicesNext g.s ∧ nodeRefsNext g.byRef = nodeRefsNext g ∧
    neighborsNext g.byRef.s = neighborsNext g.s ∧
    g.byRef.edgesOf = g.edgesOf ∧ g.byRef.edgesDirected = g.edgesDirected ∧ edgesNext g.byRef = edgesNext g ∧
    edgeRefsNext g.byRef = edgeRefsNext g := by
  refine ⟨rfl, rfl, ?_, rfl, rfl, ?_, ?_⟩
  · funext c st; exact neighborsNext_byRef g.s c st
  · funext it; exact edgesNext_byRef g it
  · funext it
    simp only [edgeRefsNext]
    have : g.byRef.s.nodeCount = g.s.nodeCount := rfl
    rw [this]
    cases g.s.nodeCount with
    | error f => rfl
    | ok nc => exact edgeRefsLoop_byRef g nc it

/-- **C42** (methods). All methods of `Shape` but `horizontal_edge_size` and `vertical_edge_size` answer alike; the full
claim has these two as well, and fails: `c42_edge_size_wrong`. -/
theorem c42_methods_partial [DecidableEq C] (s : Shape C A D) :
    s.byRef.horizontal = s.horizontal ∧ s.byRef.vertical = s.vertical ∧ s.byRef.nodeCount = s.nodeCount ∧
    s.byRef.toOffset = s.toOffset ∧ s.byRef.toOffsetUnchecked = s.toOffsetUnchecked ∧
    s.byRef.offsetToCoordinate = s.offsetToCoordinate ∧ s.byRef.toIndex = s.toIndex ∧
    s.byRef.offsetToIndex = s.offsetToIndex ∧ s.byRef.indexToOffset = s.indexToOffset ∧
    s.byRef.indexToCoordinate = s.indexToCoordinate ∧ s.byRef.moveCoord = s.moveCoord ∧
    s.byRef.moveCoordUnchecked = s.moveCoordUnchecked ∧ s.byRef.isNeighbor = s.isNeighbor ∧
    s.byRef.getDirection = s.getDirection :=
  ⟨rfl, rfl, rfl, rfl, rfl, rfl, rfl, rfl, rfl, rfl, rfl, rfl, rfl, rfl⟩

/-- **C42** fails for the deprecated edge sizes: for every square graph with at least one column, `&S` reports one column of
horizontal edges too many, and likewise for rows of vertical edges. -/
theorem c42_edge_size_wrong (m : Machine) (h v : Nat) (hh : 0 < h) (hv : 0 < v) :
    (squareShape m h v).horizontalEdgeSize .X = .ok (h - 1) ∧ (squareShape m h v).byRef.horizontalEdgeSize .X = .ok h ∧
    (squareShape m h v).verticalEdgeSize .Y = .ok (v - 1) ∧ (squareShape m h v).byRef.verticalEdgeSize .Y = .ok v := by
  refine ⟨?_, rfl, ?_, rfl⟩
  · exact usub_ok hh
  · exact usub_ok hv

/-! Instances of the remaining theorems. -/

example : (squareAxis m64).fromIndex 1 = some .Y ∧ (dSquareAxis m64).fromIndex 3 = some .RY ∧ (diagAxis m64).fromIndex 2 = some .E ∧
    (dDiagAxis m64).fromIndex 7 = some .NW ∧ (axisDR m64).fromIndex 4 = some .W ∧ (axisQ m64).fromIndex 1 = some .NE ∧ (axisDQ m64).fromIndex 3 = some .S :=
  ⟨(c36_square m64).from_to .Y, (c36_square_directed m64).from_to .RY, (c36_diag m64).from_to .E, (c36_diag_directed m64).from_to .NW,
    (c36_hex_dr m64).from_to .W, (c36_hex_q m64).from_to .NE, (c36_hex_dq m64).from_to .S⟩
example : (Direction.backward AxisR.E).dirToIndex (axisR m64) = 4 ∧ 3 ≤ (Direction.backward AxisR.E).dirToIndex (axisR m64) ∧
    Direction.dirFromIndexUnchecked (axisR m64) 4 = .ok (.backward .E) ∧ ∃ d, Direction.dirFromIndex (axisR m64) 5 = .ok (some d) :=
  ⟨rfl, ((c37_index_range (c36_hex_r m64).indexed (.backward .E)).2.2).1 rfl, (c37_from_to (c36_hex_r m64).indexed (.backward .E)).2,
    let ⟨d, h, _⟩ := c37_to_from (c36_hex_r m64).indexed (i := 5) (by decide); ⟨d, h⟩⟩

example : ∃ g, newWith (squareShape m64 3 2).byRef exN exE () = .ok (g, ()) ∧ g.nodeWeight ⟨2, 1⟩ = .ok (some 21) ∧
    edgeRefsNext g = edgeRefsNext { g with s := squareShape m64 3 2 } := by
  refine ⟨_, (c42_new_with (squareShape m64 3 2) exN exE ()).trans rfl, (c42_access _ (⟨2, 1⟩ : Offset) SquareAxis.X id id).1.trans rfl, (c42_iterators _).2.2.2.2.2.2⟩
example : (squareShape m64 3 2).byRef.moveCoord ⟨1, 1⟩ .X = .ok (some ⟨2, 1⟩) ∧ (squareShape m64 3 2).byRef.horizontalEdgeSize .X = .ok 3 :=
  ⟨by rw [(c42_methods_partial (squareShape m64 3 2)).2.2.2.2.2.2.2.2.2.2.1]; rfl, (c42_edge_size_wrong m64 3 2 (by decide) (by decide)).2.1⟩

end
end LG
