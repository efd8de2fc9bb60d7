import Verif.Props.Axes
/-
C36, the other half: what an unchecked conversion does with an index no axis (or direction) has. Six of the eight axis types stop
with a panic in a debug build; `SquareAxis` and `DirectedSquareDiagonalAxis` call `core::hint::unreachable_unchecked` themselves and
have undefined behaviour in both modes, and so have the directions of `SquareDiagonalAxis`.
-/
namespace LG

/-- What a debug build does with an index out of range: `true`, it panics; `false`, undefined behaviour. A release build has
undefined behaviour either way. -/
def outOfRange (checked : Bool) (mode : Mode) : Fault := if checked = true ∧ mode = .debug then .panic else .ub

/-- An axis type whose unchecked conversions end exactly so on every index out of range. -/
def FaultsAs {A D : Type} (m : Machine) (ax : Axis A D) (checked dirChecked : Bool) : Prop :=
  (∀ i, ax.count ≤ i → ax.fromIndexUnchecked i = .error (outOfRange checked m.mode)) ∧
  (∀ i, ax.undirectedCount ≤ i → ax.dirFromIndexUnchecked i = .error (outOfRange dirChecked m.mode))

theorem unreachable_outOfRange {α : Type} (m : Machine) :
    (unreachableDebugChecked m : Res α) = .error (outOfRange true m.mode) := by
  unfold unreachableDebugChecked outOfRange
  cases m.mode <;> rfl

/-- **C36.** Out of range, the two conversions of every axis type of the crate end exactly as listed: `true` where a debug build
panics, `false` where both builds have undefined behaviour. -/
theorem c36_faults (m : Machine) :
    FaultsAs m (squareAxis m) false true ∧ FaultsAs m (dSquareAxis m) true true ∧
    FaultsAs m (diagAxis m) true false ∧ FaultsAs m (dDiagAxis m) false false ∧
    FaultsAs m (axisR m) true true ∧ FaultsAs m (axisDR m) true true ∧
    FaultsAs m (axisQ m) true true ∧ FaultsAs m (axisDQ m) true true := by
  have u : (.error .ub : Res SquareAxis) = .error (outOfRange false m.mode) := rfl
  have u' : (.error .ub : Res DDiagAxis) = .error (outOfRange false m.mode) := rfl
  refine ⟨⟨?_, ?_⟩, ⟨?_, ?_⟩, ⟨?_, ?_⟩, ⟨?_, ?_⟩, ⟨?_, ?_⟩, ⟨?_, ?_⟩, ⟨?_, ?_⟩, ⟨?_, ?_⟩⟩
  · intro i (hi : 2 ≤ i); obtain ⟨j, rfl⟩ := Nat.exists_eq_add_of_le' hi; exact u
  · intro i (hi : 4 ≤ i); obtain ⟨j, rfl⟩ := Nat.exists_eq_add_of_le' hi; exact unreachable_outOfRange m
  · intro i (hi : 4 ≤ i); obtain ⟨j, rfl⟩ := Nat.exists_eq_add_of_le' hi; exact unreachable_outOfRange m
  · intro i (hi : 4 ≤ i); obtain ⟨j, rfl⟩ := Nat.exists_eq_add_of_le' hi; exact unreachable_outOfRange m
  · intro i (hi : 4 ≤ i); obtain ⟨j, rfl⟩ := Nat.exists_eq_add_of_le' hi; exact unreachable_outOfRange m
  · intro i (hi : 8 ≤ i); obtain ⟨j, rfl⟩ := Nat.exists_eq_add_of_le' hi; exact u'
  · intro i (hi : 8 ≤ i); obtain ⟨j, rfl⟩ := Nat.exists_eq_add_of_le' hi; exact u'
  · intro i (hi : 8 ≤ i); obtain ⟨j, rfl⟩ := Nat.exists_eq_add_of_le' hi; exact u'
  · intro i (hi : 3 ≤ i); obtain ⟨j, rfl⟩ := Nat.exists_eq_add_of_le' hi; exact unreachable_outOfRange m
  · intro i (hi : 6 ≤ i); obtain ⟨j, rfl⟩ := Nat.exists_eq_add_of_le' hi; exact unreachable_outOfRange m
  · intro i (hi : 6 ≤ i); obtain ⟨j, rfl⟩ := Nat.exists_eq_add_of_le' hi; exact unreachable_outOfRange m
  · intro i (hi : 6 ≤ i); obtain ⟨j, rfl⟩ := Nat.exists_eq_add_of_le' hi; exact unreachable_outOfRange m
  · intro i (hi : 3 ≤ i); obtain ⟨j, rfl⟩ := Nat.exists_eq_add_of_le' hi; exact unreachable_outOfRange m
  · intro i (hi : 6 ≤ i); obtain ⟨j, rfl⟩ := Nat.exists_eq_add_of_le' hi; exact unreachable_outOfRange m
  · intro i (hi : 6 ≤ i); obtain ⟨j, rfl⟩ := Nat.exists_eq_add_of_le' hi; exact unreachable_outOfRange m
  · intro i (hi : 6 ≤ i); obtain ⟨j, rfl⟩ := Nat.exists_eq_add_of_le' hi; exact unreachable_outOfRange m

/-- A debug build: the axis 2 of a square graph is undefined behaviour, the axis 3 of a hexagonal one a panic (`c36_faults`). -/
example : (squareAxis m64).fromIndexUnchecked 2 = .error .ub ∧ (axisR m64).fromIndexUnchecked 3 = .error .panic ∧
    (axisR m64r).fromIndexUnchecked 3 = .error .ub :=
  ⟨(c36_faults m64).1.1 2 (by decide), (c36_faults m64).2.2.2.2.1.1 3 (by decide), (c36_faults m64r).2.2.2.2.1.1 3 (by decide)⟩

end LG
