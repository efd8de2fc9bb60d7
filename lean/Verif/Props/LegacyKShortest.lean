import Verif.Lemmas.KShortest
import Verif.Props.LegacyAstar
import Verif.Props.LegacyWhole
/- C119 on the deprecated `SquareGraph`. -/
set_option linter.unusedSectionVars false
namespace LG.Sq
section
variable {N E : Type}
variable {g : G N E} {k : Cfg} {s : Grid} {h v : Nat} {c : Contents NodeIx Axis N E} {cost : Ref E → Nat}
variable {goal : Option NodeIx} {m : Nat} {sc : NodeIx → Option Nat}

/-- **C119.** No run on a `SquareGraph` is infinite, and each can be completed. -/
theorem c119_legacy_runs (hb : Built k h v g c) (hf : k.Fits h v) {a : NodeIx} (ha : (k.grid h v).Node a) (cost : Ref E → Nat)
    (goal : Option NodeIx) (m : Nat) :
    (∀ run : Nat → KSt NodeIx, run 0 = kNew g.nodeCount a → ¬ ∀ i, KStep g.toIndex (sqEdges g cost) goal m (run i) (run (i + 1))) ∧
    (∀ st, KSteps g.toIndex (sqEdges g cost) goal m (kNew g.nodeCount a) st →
      ∃ st' sc, KSteps g.toIndex (sqEdges g cost) goal m st st' ∧ KReturns g.toIndex goal m st' sc) ∧
    ∃ sc, g.KShortest cost a goal m sc := by
  have hc : ∀ st, KSteps g.toIndex (sqEdges g cost) goal m (kNew g.nodeCount a) st →
      ∃ st' sc, KSteps g.toIndex (sqEdges g cost) goal m st st' ∧ KReturns g.toIndex goal m st' sc := fun st h1 => by
    rw [(c45_index_bijection_partial hb hf).1] at h1
    exact k_completes (sqGraph hb hf cost) (indexed hb hf) (fun x hx => nodeIdx_eq hb hf hx) ha h1
  refine ⟨fun run _ => k_ends run, hc, ?_⟩
  obtain ⟨st, sc, h1, h2⟩ := hc _ .refl
  exact ⟨sc, st, h1, h2⟩

theorem kShortest_bound (hb : Built k h v g c) (hf : k.Fits h v) {a : NodeIx} (hk : g.KShortest cost a goal m sc) :
    KShortest g.toIndex (sqEdges g cost) (h * v) a goal m sc := by
  unfold G.KShortest at hk
  rwa [(c45_index_bijection_partial hb hf).1] at hk

/-- **C119.** Every score on a `SquareGraph` is the cost of the `m`-th cheapest walk along `edges`, and without a goal, or at the goal,
every node has one (unless it is the only node), at most the cost of a walk there and `m - 1` round trips. With `k = 1` it is the least
cost. -/
theorem c119_legacy (hb : Built k h v g c) (hf : k.Fits h v) {a : NodeIx} (ha : (k.grid h v).Node a) (hk : g.KShortest cost a goal m sc) :
    (∀ b x, sc b = some x → KthWalk (sqEdges g cost) a b m x) ∧
    ∀ b, (goal = none ∨ goal = some b) →
      (∀ x, sc b = some x ↔ KthWalk (sqEdges g cost) a b m x) ∧
      (m = 1 → ∀ x, sc b = some x ↔ CostWalk g cost a b x ∧ ∀ y, CostWalk g cost a b y → x ≤ y) ∧
      ∀ b', (k.grid h v).Node b → (k.grid h v).Node b' → b ≠ b' → 0 < m →
        ∃ x, sc b = some x ∧ ∀ n d d', CostWalk g cost a b n → CostWalk g cost b b' d → CostWalk g cost b' b d' →
          x ≤ n + (m - 1) * (d + d') := by
  have hk' := kShortest_bound hb hf hk
  have hg := sqGraph hb hf cost
  have hi := indexed hb hf
  have hix := fun x hx => nodeIdx_eq (n := x) hb hf hx
  refine ⟨(k_result hg hi hix ha hk').1, fun b hgb => ⟨(k_exact hg hi hix ha hk' hgb).1, ?_, fun b' hbn hbn' hne hm => ?_⟩⟩
  · rintro rfl x
    rw [(k_exact hg hi hix ha hk' hgb).1 x, kthWalk_one hg ha]
    simp only [aWalk_iff hb hf ha]
  · obtain ⟨n, w1⟩ := costWalk_exists (cost := cost) hb hf ha hbn
    obtain ⟨d, w2⟩ := costWalk_exists (cost := cost) hb hf hbn hbn'
    obtain ⟨d', w3⟩ := costWalk_exists (cost := cost) hb hf hbn' hbn
    have := k_all hg hi hix ha hk' hne hgb hm
      ⟨n, d, d', (aWalk_iff hb hf ha).2 w1, (aWalk_iff hb hf hbn).2 w2, (aWalk_iff hb hf hbn').2 w3⟩
    simpa only [aWalk_iff hb hf ha, aWalk_iff hb hf hbn, aWalk_iff hb hf hbn'] using this
end

/-- On the legacy 3 × 2 graph every node has a tenth cheapest walk from the corner. -/
example : ∃ (g : G Nat Nat) (sc : NodeIx → Option Nat), g.KShortest (fun r => r.weight) ⟨0, 0⟩ none 10 sc ∧
    ∃ x, sc ⟨2, 1⟩ = some x ∧ KthWalk (sqEdges g fun r => r.weight) ⟨0, 0⟩ ⟨2, 1⟩ 10 x := by
  obtain ⟨g, c, hb, -⟩ := exGraph exCfg (by decide)
  have hf : exCfg.Fits 3 2 := ⟨by decide, by decide⟩
  obtain ⟨-, -, sc, hsc⟩ := c119_legacy_runs hb hf (a := ⟨0, 0⟩) ⟨by decide, by decide⟩ (fun r => r.weight) none 10
  obtain ⟨h1, h2⟩ := c119_legacy hb hf (a := ⟨0, 0⟩) ⟨by decide, by decide⟩ hsc
  obtain ⟨x, h3, -⟩ := (h2 ⟨2, 1⟩ (.inl rfl)).2.2 ⟨0, 0⟩ ⟨by decide, by decide⟩ ⟨by decide, by decide⟩ (by decide) (by decide)
  exact ⟨g, sc, hsc, x, h3, h1 _ _ h3⟩
end LG.Sq
