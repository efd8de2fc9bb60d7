import Verif.Props.Orders
import Verif.Props.LegacyRefEq
/- C96, the derived orders of the legacy indices and edge references as such. -/
namespace LG.Sq

/-- **C96.** The derived orders of the legacy `Axis`, `SquareDirection`, `NodeIndex` and `EdgeIndex` are total orders in which only
equal values compare equal. -/
theorem c96_index_orders :
    TotalOrder Axis.cmp ∧ TotalOrder Dir.cmp ∧ TotalOrder NodeIx.cmp ∧ TotalOrder EdgeIx.cmp := by
  have ha : TotalOrder Axis.cmp := by
    refine ⟨fun a b => ?_, fun a b => ?_, fun a b c => ?_⟩
    · cases a <;> cases b <;> decide
    · cases a <;> cases b <;> rfl
    · cases a <;> cases b <;> cases c <;> decide
  have hn : TotalOrder NodeIx.cmp :=
    totalOrder_nat.lex totalOrder_nat fun a b h1 h2 => by cases a; cases b; cases h1; cases h2; rfl
  refine ⟨ha, ⟨fun a b => ?_, fun a b => ?_, fun a b c => ?_⟩, hn,
    hn.lex ha fun a b h1 h2 => by cases a; cases b; cases h1; cases h2; rfl⟩
  · cases a <;> cases b <;> simp [Dir.cmp, ha.eq_iff]
  · cases a <;> cases b <;> first | exact ha.swap _ _ | rfl
  · cases a <;> cases b <;> cases c <;> first | exact ha.trans _ _ _ | (intro h1 h2; first | rfl | (cases h1; done) | (cases h2; done))

/-- **C96.** So is the derived order of the legacy `EdgeReference`, if the orders of the weights and of the sizes are. -/
theorem c96_order {E : Type} {wcmp : E → E → Ordering} {scmp : SizeInfo → SizeInfo → Ordering} (hw : TotalOrder wcmp)
    (hs : TotalOrder scmp) : TotalOrder (Ref.cmp wcmp scmp) := by
  have hp : TotalOrder fun (p q : Bool × SizeInfo) => lexCmp (compare p.1 q.1) (scmp p.2 q.2) :=
    totalOrder_bool.lex hs fun a b h1 h2 => Prod.ext h1 h2
  have hq : TotalOrder fun (p q : E × Bool × SizeInfo) => lexCmp (wcmp p.1 q.1) (lexCmp (compare p.2.1 q.2.1) (scmp p.2.2 q.2.2)) :=
    hw.lex hp fun a b h1 h2 => Prod.ext h1 h2
  exact c96_index_orders.2.2.2.lex (k := fun r : Ref E => (r.weight, r.direction, r.s)) hq fun a b h1 h2 => by
    cases a; cases b; cases h1; cases h2; rfl

/-- The lexicographic order of the sizes of a graph that loops along both axes. -/
example : TotalOrder (Ref.cmp (compare : Nat → Nat → Ordering)
    fun a b => lexCmp (compare (a.h.elim 0 (· + 1)) (b.h.elim 0 (· + 1))) (compare (a.v.elim 0 (· + 1)) (b.v.elim 0 (· + 1)))) := by
  have inj : ∀ a b : Option Nat, a.elim 0 (· + 1) = b.elim 0 (· + 1) → a = b := by
    intro a b h
    cases a <;> cases b <;> simp_all
  exact c96_order totalOrder_nat (totalOrder_nat.lex totalOrder_nat (f := fun a : SizeInfo => a.h.elim 0 (· + 1))
    (k := fun a : SizeInfo => a.v.elim 0 (· + 1)) fun a b h1 h2 => by
      cases a; cases b; cases inj _ _ h1; cases inj _ _ h2; rfl)

example : Dir.cmp .right .up = .lt ∧ Dir.cmp .up .left = .lt ∧ Dir.cmp .right .left = .lt :=
  ⟨by decide, by decide, c96_index_orders.2.1.trans .right .up .left (by decide) (by decide)⟩
example : EdgeIx.cmp ⟨⟨0, 1⟩, .vertical⟩ ⟨⟨0, 1⟩, .vertical⟩ = .eq ∧ NodeIx.cmp ⟨1, 0⟩ ⟨0, 5⟩ = .gt ∧ Axis.cmp .horizontal .vertical = .lt :=
  ⟨(c96_index_orders.2.2.2.eq_iff _ _).2 rfl, rfl, by decide⟩

end LG.Sq
