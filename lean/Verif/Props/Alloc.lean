import Verif.Model.Alloc
import Verif.Props.Stored
import Verif.Props.Ex
/- C104: construction and visit maps when the requested memory exceeds what a `Vec` may hold. -/
set_option linter.unusedSectionVars false
namespace LG
section
variable {C A D N E σ : Type}

/-- Every array of the graph takes at most `isize::MAX` bytes. -/
def ByteFits (szN szE szA : Nat) (s : Shape C A D) : Prop :=
  s.horizontal * s.vertical * szN < s.m.half ∧ s.axis.count * szA < s.m.half ∧
    (s.axis.count = 0 ∨ s.horizontal * s.vertical * szE < s.m.half)

theorem uninitB_eq {α : Type} (m : Machine) (size r c : Nat) : (Arr2.uninitB m size r c : Res (Arr2 α)) =
    if r * c * size < m.half then Arr2.uninit m r c else .error .panic := by
  unfold Arr2.uninitB Arr2.uninit withCapacity
  by_cases h1 : (if r = 0 then 1 else r) * (if c = 0 then 1 else c) < m.half
  · by_cases h2 : r * c * size < m.half
    · simp only [if_pos h1, if_pos h2, bind, Except.bind]
    · simp only [if_pos h1, if_neg h2, bind, Except.bind]
  · by_cases h2 : r * c * size < m.half
    · simp only [if_neg h1, if_pos h2, bind, Except.bind]
    · simp only [if_neg h1, if_neg h2, bind, Except.bind]

theorem uninitEdgesB_eq (szE : Nat) (s : Shape C A D) : ∀ n, (uninitEdgesB szE s n : Res (List (Arr2 E))) =
    if n = 0 ∨ s.horizontal * s.vertical * szE < s.m.half then uninitEdges s n else .error .panic
  | 0 => by simp [uninitEdgesB, uninitEdges]
  | n + 1 => by
    unfold uninitEdgesB uninitEdges
    rw [uninitB_eq, uninitEdgesB_eq szE s n]
    by_cases h : s.horizontal * s.vertical * szE < s.m.half
    · simp only [if_pos h, if_pos (Or.inr h : _ ∨ s.horizontal * s.vertical * szE < s.m.half)]
    · have h1 : ¬ (n + 1 = 0 ∨ s.horizontal * s.vertical * szE < s.m.half) := fun h1 => h (h1.resolve_left (Nat.succ_ne_zero n))
      rw [if_neg h, if_neg h1]; rfl

theorem uninit_fault {α : Type} {m : Machine} {r c : Nat} {f : Fault} (h : (Arr2.uninit m r c : Res (Arr2 α)) = .error f) :
    f = .panic := by
  unfold Arr2.uninit at h
  by_cases h1 : (if r = 0 then 1 else r) * (if c = 0 then 1 else c) < m.half
  · rw [if_pos h1] at h; cases h
  · rw [if_neg h1] at h; cases h; rfl

theorem newUninitB_eq (szN szE szA : Nat) (s : Shape C A D) [Decidable (ByteFits szN szE szA s)] :
    (newUninitB szN szE szA s : Res (Graph C A D N E)) =
      if ByteFits szN szE szA s then newUninit s else .error .panic := by
  unfold newUninitB newUninit
  rw [uninitB_eq, uninitEdgesB_eq]
  by_cases h : ByteFits szN szE szA s
  · obtain ⟨h1, h2, h3⟩ := id h
    simp only [if_pos h, if_pos h1, if_pos h3, withCapacity, if_pos h2]
    rfl
  · rw [if_neg h]
    by_cases h1 : s.horizontal * s.vertical * szN < s.m.half
    · rw [if_pos h1]
      cases hu : (Arr2.uninit s.m s.horizontal s.vertical : Res (Arr2 N)) with
      | error f => cases uninit_fault hu; rfl
      | ok a =>
        by_cases h2 : s.axis.count * szA < s.m.half
        · have h3 : ¬ (s.axis.count = 0 ∨ s.horizontal * s.vertical * szE < s.m.half) := fun h3 => h ⟨h1, h2, h3⟩
          simp only [withCapacity, if_pos h2, if_neg h3, bind, Except.bind]
        · simp only [withCapacity, if_neg h2, bind, Except.bind]
    · rw [if_neg h1]; rfl

variable [DecidableEq C] [DecidableEq A] [DecidableEq D] {s : Shape C A D} {L : Lat C A D} {rep : C → Prop}

/-- **C104.** Whatever the sizes of the weights: `new_with` does what the other theorems say if every array takes at most
`isize::MAX` bytes; otherwise it panics, and so does `new_uninit`, which it calls before either closure. For any shape at all. -/
theorem c104_new_with (szN szE szA : Nat) (s : Shape C A D) (n : σ → C → N × σ) (e : σ → C → A → E × σ) (st : σ) :
    (ByteFits szN szE szA s → newWithB szN szE szA s n e st = newWith s n e st) ∧
    (¬ ByteFits szN szE szA s → (newUninitB szN szE szA s : Res (Graph C A D N E)) = .error .panic ∧
      newWithB szN szE szA s n e st = .error .panic) := by
  have := Classical.propDecidable (ByteFits szN szE szA s)
  constructor
  · intro h
    unfold newWithB newWith
    rw [newUninitB_eq, if_pos h]
  · intro h
    refine ⟨(newUninitB_eq ..).trans (if_neg h), ?_⟩
    unfold newWithB
    rw [newUninitB_eq, if_neg h]
    rfl

/-- **C104.** So on every shape of the crate it returns exactly if the dimensions are in range and the arrays fit, and panics
otherwise. -/
theorem c104_outcome (hs : Storable s L rep) (szN szE szA : Nat) (n : σ → C → N × σ) (e : σ → C → A → E × σ) (st : σ) :
    (∃ g st', newWithB szN szE szA s n e st = .ok (g, st') ∧ newWith s n e st = .ok (g, st') ∧
      Constructible s ∧ ByteFits szN szE szA s) ∨
    newWithB szN szE szA s n e st = .error .panic ∧ ¬ (Constructible s ∧ ByteFits szN szE szA s) := by
  by_cases hf : ByteFits szN szE szA s
  · by_cases hc : Constructible s
    · obtain ⟨g, h1, -⟩ := c57_new_with hs hc n e st
      exact .inl ⟨g, _, ((c104_new_with szN szE szA s n e st).1 hf).trans h1, h1, hc, hf⟩
    · refine .inr ⟨?_, fun h => hc h.1⟩
      rw [(c104_new_with szN szE szA s n e st).1 hf]
      unfold newWith
      rw [newUninit_panic hc]
      rfl
  · exact .inr ⟨((c104_new_with szN szE szA s n e st).2 hf).2, fun h => hf h.2⟩

/-- **C104.** The graph exists and has a node, and a node weight is no smaller than the head of a bit set: then `visit_map()`
succeeds. -/
theorem c104_visit_map {szN szE szA szB : Nat} (hf : ByteFits szN szE szA s) (hv : 0 < s.vertical) (hz : szB ≤ szN) :
    VisMap.newB szB s = .ok (VisMap.new s) := by
  have h1 : s.horizontal * szB ≤ s.horizontal * s.vertical * szN := by
    rw [Nat.mul_assoc]
    refine Nat.mul_le_mul_left _ (Nat.le_trans hz ?_)
    have := Nat.mul_le_mul_right szN hv
    omega
  unfold VisMap.newB withCapacity
  rw [if_pos (Nat.lt_of_le_of_lt h1 hf.1)]
  rfl

/-- **C104.** Without nodes it need not: a graph without rows is built, calling neither closure, whatever the sizes of the weights,
but `visit_map()` panics if one bit set for each column would take more than `isize::MAX` bytes. -/
theorem c104_visit_map_wrong (hs : Storable s L rep) (hc : Constructible s) (hv : s.vertical = 0) {szN szE szA szB : Nat}
    (ha : s.axis.count * szA < s.m.half) (hb : s.m.half ≤ s.horizontal * szB) (n : σ → C → N × σ) (e : σ → C → A → E × σ) (st : σ) :
    (∃ g, newWithB szN szE szA s n e st = .ok (g, st) ∧ g.s = s) ∧ VisMap.newB szB s = .error .panic := by
  have hf : ByteFits szN szE szA s := by
    have := s.m.half_ge
    refine ⟨?_, ha, .inr ?_⟩ <;> rw [hv] <;> simp only [Nat.mul_zero, Nat.zero_mul] <;> omega
  constructor
  · obtain ⟨g, h1, h2⟩ := c57_new_with hs hc n e st
    have h3 : callSeq L = [] := by
      rw [callSeq_eq, ← (hs.impl hc).height, hv, Nat.mul_zero]
      rfl
    rw [h3] at h1
    exact ⟨g, ((c104_new_with szN szE szA s n e st).1 hf).trans h1, (hs.good h2).shape⟩
  · unfold VisMap.newB withCapacity
    rw [if_neg (by omega)]
    rfl
end

/-- Example: square graphs with weights of 8 bytes on a 64-bit machine. The 3 × 2 graph fits; 2⁶⁰ × 2 cells are few enough for ndarray
but take too many bytes; 2⁶⁰ columns without rows make a graph, but no visit map. -/
example : ∃ g, newWithB 8 8 72 (squareShape m64 3 2) (fun (_ : Unit) _ => (7, ())) (fun _ _ _ => (5, ())) () = .ok (g, ()) ∧
    VisMap.newB 8 (squareShape m64 3 2) = .ok (VisMap.new (squareShape m64 3 2)) := by
  have hf : ByteFits 8 8 72 (squareShape m64 3 2) := ⟨by decide, by decide, .inr (by decide)⟩
  rcases c104_outcome (N := Nat) (E := Nat) (.sound (.square m64 3 2)) 8 8 72 (fun (_ : Unit) _ => (7, ())) (fun _ _ _ => (5, ())) () with
    ⟨g, st', h1, -⟩ | ⟨-, h⟩
  · exact ⟨g, h1, c104_visit_map hf (by decide) (Nat.le_refl _)⟩
  · exact absurd ⟨by decide, hf⟩ h

example : newWithB 8 8 72 (squareShape m64 (2 ^ 60) 2) (fun (_ : Unit) _ => (7, ())) (fun _ _ _ => (5, ())) () = .error .panic ∧
    Constructible (squareShape m64 (2 ^ 60) 2) :=
  ⟨((c104_new_with (N := Nat) (E := Nat) 8 8 72 (squareShape m64 (2 ^ 60) 2) _ _ _).2 (fun h => absurd h.1 (by decide))).2, by decide⟩

example : (∃ g : Graph _ _ _ Nat Nat, newWithB 8 8 72 (squareShape m64 (2 ^ 60) 0) (fun (_ : Unit) _ => (7, ())) (fun _ _ _ => (5, ()))
    () = .ok (g, ()) ∧ g.s = squareShape m64 (2 ^ 60) 0) ∧ VisMap.newB 32 (squareShape m64 (2 ^ 60) 0) = .error .panic :=
  c104_visit_map_wrong (.sound (.square m64 (2 ^ 60) 0)) (by decide) rfl (by decide) (by decide) _ _ ()
end LG
