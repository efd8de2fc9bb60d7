import Verif.Props.Defaults
/- C79, the derived orders of the coordinates as such: they are total orders whose equality is that of `PartialEq`, so that
coordinates are sound keys of ordered containers. -/
namespace LG

/-- What `Ord` demands of `cmp`: consistent with equality, antisymmetric, transitive. -/
structure TotalOrder {α : Type} (cmp : α → α → Ordering) : Prop where
  eq_iff : ∀ a b, cmp a b = .eq ↔ a = b
  swap : ∀ a b, cmp b a = (cmp a b).swap
  trans : ∀ a b c, cmp a b = .lt → cmp b c = .lt → cmp a c = .lt

theorem TotalOrder.trans_le {α : Type} {cmp : α → α → Ordering} (h : TotalOrder cmp) (a b c : α) :
    cmp a b ≠ .gt → cmp b c ≠ .gt → cmp a c ≠ .gt := by
  intro h1 h2
  cases e1 : cmp a b with
  | gt => exact absurd e1 h1
  | eq => rw [(h.eq_iff _ _).1 e1]; exact h2
  | lt =>
    cases e2 : cmp b c with
    | gt => exact absurd e2 h2
    | eq => rw [← (h.eq_iff _ _).1 e2, e1]; exact fun e => by cases e
    | lt => rw [h.trans _ _ _ e1 e2]; exact fun e => by cases e

/-- Two keys that determine the value, compared one after the other. -/
theorem TotalOrder.lex {α β γ : Type} {f : α → β} {k : α → γ} {c1 : β → β → Ordering} {c2 : γ → γ → Ordering}
    (h1 : TotalOrder c1) (h2 : TotalOrder c2) (inj : ∀ a b, f a = f b → k a = k b → a = b) :
    TotalOrder fun a b => lexCmp (c1 (f a) (f b)) (c2 (k a) (k b)) := by
  refine ⟨fun a b => ⟨fun h => ?_, ?_⟩, fun a b => ?_, fun a b c ha hb => ?_⟩
  · cases e : c1 (f a) (f b) with
    | eq => rw [e] at h; exact inj _ _ ((h1.eq_iff _ _).1 e) ((h2.eq_iff _ _).1 h)
    | lt => rw [e] at h; cases h
    | gt => rw [e] at h; cases h
  · rintro rfl
    simp only [(h1.eq_iff _ _).2 rfl, (h2.eq_iff _ _).2 rfl, lexCmp]
  · simp only [h1.swap (f a), h2.swap (k a)]
    cases c1 (f a) (f b) <;> rfl
  · cases e : c1 (f a) (f b) with
    | gt => rw [e] at ha; cases ha
    | eq =>
      rw [e] at ha
      have e' := (h1.eq_iff _ _).1 e
      rw [e']
      cases e2 : c1 (f b) (f c) with
      | gt => rw [e2] at hb; cases hb
      | lt => rfl
      | eq => rw [e2] at hb; exact h2.trans _ _ _ ha hb
    | lt =>
      cases e2 : c1 (f b) (f c) with
      | gt => rw [e2] at hb; cases hb
      | lt => rw [h1.trans _ _ _ e e2]; rfl
      | eq => rw [← (h1.eq_iff _ _).1 e2, e]; rfl

theorem totalOrder_nat : TotalOrder (compare : Nat → Nat → Ordering) :=
  ⟨fun _ _ => Nat.compare_eq_eq, fun a b => (Nat.compare_swap a b).symm, fun a b c h1 h2 => by
    rw [Nat.compare_eq_lt] at *; omega⟩

theorem totalOrder_int : TotalOrder (compare : Int → Int → Ordering) :=
  ⟨fun _ _ => Std.compare_eq_iff_eq, fun _ _ => Std.OrientedCmp.eq_swap, fun _ _ _ h1 h2 => Std.TransCmp.lt_trans h1 h2⟩

theorem totalOrder_bool : TotalOrder (compare : Bool → Bool → Ordering) :=
  ⟨by decide, by decide, by decide⟩

/-- **C79.** The derived orders of `Offset`, `HexAxial` and `DoubleCoord` are total orders in which only equal coordinates
compare equal. -/
theorem c79_total : TotalOrder Offset.cmp ∧ TotalOrder Axial.cmp ∧ TotalOrder DCoord.cmp := by
  refine ⟨?_, ?_, ?_⟩
  · exact totalOrder_nat.lex totalOrder_nat fun a b h1 h2 => by cases a; cases b; cases h1; cases h2; rfl
  · exact totalOrder_int.lex totalOrder_int fun a b h1 h2 => by cases a; cases b; cases h1; cases h2; rfl
  · exact totalOrder_nat.lex totalOrder_nat fun a b h1 h2 => by cases a; cases b; cases h1; cases h2; rfl

/-- What `#[derive(Ord)]` makes of an enumeration: the order of declaration. -/
def declCmp {α : Type} (ix : α → Nat) (a b : α) : Ordering := compare (ix a) (ix b)

/-- The derived order of the axes of `ax` is that of `to_index`, and the derived order of the directions that of
`dir_to_index`; `ia`, `id` are the positions in the declaration. -/
def AxisOrder {A D : Type} (ax : Axis A D) (ia : A → Nat) (id : D → Nat) : Prop :=
  (∀ a b, declCmp ia a b = compare (ax.toIndex a) (ax.toIndex b)) ∧ (∀ d e, declCmp id d e = compare (ax.dirToIndex d) (ax.dirToIndex e)) ∧
    TotalOrder (declCmp ia) ∧ TotalOrder (declCmp id)

/-- **C79.** The derived orders of the eight axis types are those of their indices. The enumerations are declared at
square.rs:20, 216, 312, 374 and hex/shapes/mod.rs:9, 69, 143, 203. -/
theorem c79_axes (m : Machine) :
    AxisOrder (squareAxis m) SquareAxis.ctorIdx DSquareAxis.ctorIdx ∧ AxisOrder (dSquareAxis m) DSquareAxis.ctorIdx DSquareAxis.ctorIdx ∧
    AxisOrder (diagAxis m) DiagAxis.ctorIdx DDiagAxis.ctorIdx ∧ AxisOrder (dDiagAxis m) DDiagAxis.ctorIdx DDiagAxis.ctorIdx ∧
    AxisOrder (axisR m) AxisR.ctorIdx AxisDR.ctorIdx ∧ AxisOrder (axisDR m) AxisDR.ctorIdx AxisDR.ctorIdx ∧
    AxisOrder (axisQ m) AxisQ.ctorIdx AxisDQ.ctorIdx ∧ AxisOrder (axisDQ m) AxisDQ.ctorIdx AxisDQ.ctorIdx := by
  have key : ∀ {α : Type} {f : α → Nat}, (∀ a b, f a = f b → a = b) → TotalOrder (declCmp f) := fun inj =>
    ⟨fun a b => Nat.compare_eq_eq.trans ⟨inj a b, fun e => e ▸ rfl⟩, fun a b => totalOrder_nat.swap _ _,
      fun a b c => totalOrder_nat.trans _ _ _⟩
  refine ⟨⟨?_, ?_, key ?_, key ?_⟩, ⟨?_, ?_, key ?_, key ?_⟩, ⟨?_, ?_, key ?_, key ?_⟩, ⟨?_, ?_, key ?_, key ?_⟩,
    ⟨?_, ?_, key ?_, key ?_⟩, ⟨?_, ?_, key ?_, key ?_⟩, ⟨?_, ?_, key ?_, key ?_⟩, ⟨?_, ?_, key ?_, key ?_⟩⟩ <;>
  intro a b <;> cases a <;> cases b <;> first | rfl | exact fun _ => rfl | (intro h; cases h)

example : Offset.cmp ⟨1, 5⟩ ⟨2, 0⟩ = .lt ∧ Offset.cmp ⟨2, 0⟩ ⟨2, 3⟩ = .lt ∧ Offset.cmp ⟨1, 5⟩ ⟨2, 3⟩ = .lt :=
  ⟨rfl, rfl, c79_total.1.trans ⟨1, 5⟩ ⟨2, 0⟩ ⟨2, 3⟩ rfl rfl⟩
example : declCmp AxisDR.ctorIdx .SE .W = .lt ∧ (axisDR m64).toIndex .SE = 2 ∧ (axisDR m64).toIndex .W = 4 :=
  ⟨((c79_axes m64).2.2.2.2.2.1.1 .SE .W).trans rfl, rfl, rfl⟩

end LG
