import Verif.Props.LoopSearch
/- C72: searches on double-coordinate graphs. -/
set_option linter.unusedSectionVars false
namespace LG

/-- `c` lies in the cone west of `a`, where the moves W, NW and SW lead. -/
def WestOf (a c : DCoord) : Prop := c.h ≤ a.h ∧ a.v ≤ c.v + (a.h - c.h) ∧ c.v ≤ a.v + (a.h - c.h)

theorem dbl_step {h v : Nat} {a c t : DCoord} (d : AxisDR) (hr : Reach (dblLat h v) a c) (ht : InDouble h v t) (hs : DStep c d t)
    (hw : t.h < h ∨ d.west = true) : Reach (dblLat h v) a t :=
  hr.step (inner_nbr.2 ⟨dblNbr_iff.2 ⟨hs, ht.1, hw⟩, dblLat_node.2 ht⟩)

theorem dbl_reach_only {h v : Nat} {a c : DCoord} (hr : Reach (dblLat h v) a c) : 2 ≤ h ∧ c.h < h ∨ WestOf a c := by
  obtain ⟨n, hp⟩ := hr
  induction hp with
  | nil => exact .inr (by unfold WestOf; omega)
  | @step n c t d _ hd ih =>
    obtain ⟨hs, -, hw⟩ := dblNbr_iff.1 (inner_nbr.1 hd).1
    unfold DStep at hs
    unfold WestOf at *
    cases d <;> simp only [AxisDR.vec, AxisDR.west, Bool.false_eq_true, or_false, or_true] at hs hw <;> omega

/-- Going west. -/
theorem dbl_west {h v : Nat} {a : DCoord} (ha : InDouble h v a) : ∀ (n : Nat) (c : DCoord), a.h - c.h ≤ n → InDouble h v c →
    WestOf a c → Reach (dblLat h v) a c := by
  intro n
  induction n with
  | zero =>
    rintro ⟨x, y⟩ hn hc hw
    obtain ⟨x', y'⟩ := a
    unfold WestOf at hw
    simp only at hn hw
    have h1 : x = x' := by omega
    have h2 : y = y' := by omega
    subst h1 h2
    exact .refl
  | succ n ih =>
    rintro ⟨x, y⟩ hn hc hw
    obtain ⟨x', y'⟩ := a
    by_cases hx : x = x'
    · subst hx
      unfold WestOf at hw
      simp only at hw
      have : y = y' := by omega
      subst this
      exact .refl
    · unfold WestOf InDouble at *
      simp only at *
      by_cases h1 : y' = y + (x' - x)
      · exact dbl_step .SW (ih ⟨x + 1, y + 1⟩ (by simp only; omega) (by simp only; omega) (by simp only; omega)) hc
          (by simp only [DStep, AxisDR.vec]; omega) (.inr rfl)
      · by_cases h2 : y = y' + (x' - x)
        · exact dbl_step .NW (ih ⟨x + 1, y - 1⟩ (by simp only; omega) (by simp only; omega) (by simp only; omega)) hc
            (by simp only [DStep, AxisDR.vec]; omega) (.inr rfl)
        · exact dbl_step .W (ih ⟨x + 2, y⟩ (by simp only; omega) (by simp only; omega) (by simp only; omega)) hc
            (by simp only [DStep, AxisDR.vec]; omega) (.inr rfl)

theorem Reach.trans {C A D : Type} [DecidableEq C] {L : Lat C A D} {a b c : C} (h1 : Reach L a b) (h2 : Reach L b c) :
    Reach L a c := by
  obtain ⟨n, h1⟩ := h1
  obtain ⟨m, h2⟩ := h2
  exact ⟨_, h1.trans h2⟩

/-- Along the western margin. -/
theorem dbl_margin {h v : Nat} (hh : 2 ≤ h) : ∀ y, y < v →
    Reach (dblLat h v) ⟨y % 2, y⟩ ⟨0, 0⟩ ∧ Reach (dblLat h v) ⟨0, 0⟩ ⟨y % 2, y⟩
  | 0, _ => ⟨.refl, .refl⟩
  | y + 1, hy => by
    obtain ⟨h1, h2⟩ := dbl_margin (v := v) hh y (by omega)
    have e1 : InDouble h v ⟨(y + 1) % 2, y + 1⟩ := by unfold InDouble; simp only; omega
    have e0 : InDouble h v ⟨y % 2, y⟩ := by unfold InDouble; simp only; omega
    rcases Nat.mod_two_eq_zero_or_one y with hm | hm
    · refine ⟨Reach.trans (dbl_step .SW .refl e0 ?_ (.inr rfl)) h1, dbl_step .NE h2 e1 ?_ (.inl ?_)⟩
      · simp only [DStep, AxisDR.vec]; omega
      · simp only [DStep, AxisDR.vec]; omega
      · simp only; omega
    · refine ⟨Reach.trans (dbl_step .SE .refl e0 ?_ (.inl ?_)) h1, dbl_step .NW h2 e1 ?_ (.inr rfl)⟩
      · simp only [DStep, AxisDR.vec]; omega
      · simp only; omega
      · simp only [DStep, AxisDR.vec]; omega

/-- Going east, as far as the moves allow. -/
theorem dbl_east {h v y : Nat} (hy : y < v) : ∀ x, 2 * x + y % 2 < h → Reach (dblLat h v) ⟨y % 2, y⟩ ⟨2 * x + y % 2, y⟩
  | 0, _ => by rw [Nat.mul_zero, Nat.zero_add]; exact .refl
  | x + 1, hx => by
    refine dbl_step .E (dbl_east hy x (by omega)) ?_ ?_ (.inl hx)
    · unfold InDouble; simp only; omega
    · simp only [DStep, AxisDR.vec]; omega

theorem dbl_reach {h v : Nat} {a c : DCoord} (ha : InDouble h v a) :
    Reach (dblLat h v) a c ↔ InDouble h v c ∧ (2 ≤ h ∧ c.h < h ∨ WestOf a c) := by
  refine ⟨fun hr => ⟨dblLat_node.1 (hr.node (dblLat_node.2 ha)), dbl_reach_only hr⟩, ?_⟩
  rintro ⟨hc, ⟨hh, hch⟩ | hw⟩
  · obtain ⟨x, y⟩ := a
    obtain ⟨x', y'⟩ := c
    have h1 : Reach (dblLat h v) ⟨x, y⟩ ⟨y % 2, y⟩ := by
      refine dbl_west ha _ _ (Nat.le_refl _) ?_ ?_
      · unfold InDouble at *; simp only at *; omega
      · unfold InDouble WestOf at *; simp only at *; omega
    have h2 := dbl_margin (h := h) (v := v) hh y ha.1
    have h3 := dbl_margin (h := h) (v := v) hh y' hc.1
    have h4 := dbl_east (h := h) hc.1 (x' / 2) (by unfold InDouble at hc; simp only at *; omega)
    rw [show 2 * (x' / 2) + y' % 2 = x' by unfold InDouble at hc; simp only at *; omega] at h4
    exact ((h1.trans h2.1).trans h3.2).trans h4
  · exact dbl_west ha _ c (Nat.le_refl _) hc hw

section
variable {N E : Type} {m : Machine} {h v : Nat} {g : Graph DCoord AxisR AxisDR N E} {k : Contents DCoord AxisR N E}

/-- **C72**, what is within reach on an `h × v` double-coordinate map: the western half (unless there is only one column), and the
cone west of the start. -/
theorem c72_reach (hb : Built (dblShape m h v) (dblLat h v) g k) {a c : DCoord} (ha : InDouble h v a) :
    (∃ n, InWalk g.s a n c) ↔ InDouble h v c ∧ (2 ≤ h ∧ c.h < h ∨ WestOf a c) := by
  rw [← dbl_reach ha]
  exact ⟨fun ⟨n, hw⟩ => ⟨n, (inWalk_iff (.double m h v) hb (dblLat_node.2 ha)).1 hw⟩,
    fun ⟨n, hp⟩ => ⟨n, (inWalk_iff (.double m h v) hb (dblLat_node.2 ha)).2 hp⟩⟩

/-- **C72.** Both searches end without fault having returned exactly that. -/
theorem c72_search (hb : Built (dblShape m h v) (dblLat h v) g k) {a : DCoord} (ha : InDouble h v a) :
    (∃ b l, bfsNew g a = .ok b ∧ (∀ l', BfsRun g b l' ↔ l' = l) ∧ l.Nodup ∧
      ∀ c, c ∈ l ↔ InDouble h v c ∧ (2 ≤ h ∧ c.h < h ∨ WestOf a c)) ∧
    ∃ l, (∀ l', DfsRun g (dfsNew g a) l' ↔ l' = l) ∧ l.Nodup ∧
      ∀ c, c ∈ l ↔ InDouble h v c ∧ (2 ≤ h ∧ c.h < h ∨ WestOf a c) := by
  obtain ⟨b, l, h1, h2, h3, h4, -⟩ := c68_bfs (.double m h v) hb (dblLat_node.2 ha)
  obtain ⟨l', h5, h6, h7, -⟩ := c68_dfs (.double m h v) hb (dblLat_node.2 ha)
  exact ⟨⟨b, l, h1, h2, h3, fun c => (h4 c).trans (c72_reach hb ha)⟩, l', h5, h6, fun c => (h7 c).trans (c72_reach hb ha)⟩

/-- **C72.** On every map with more than one node some node in the eastern half is missed from every western start. -/
theorem c72_misses (hb : Built (dblShape m h v) (dblLat h v) g k) (hh : 2 ≤ h ∧ 1 ≤ v ∨ 1 ≤ h ∧ 2 ≤ v) :
    ∃ c, InDouble h v c ∧ h ≤ c.h ∧ ∀ a, InDouble h v a → a.h < h → ¬ ∃ n, InWalk g.s a n c := by
  have key : ∀ c, InDouble h v c → h ≤ c.h → ∀ a, InDouble h v a → a.h < h → ¬ ∃ n, InWalk g.s a n c := by
    intro c hc hch a ha hah
    rw [c72_reach hb ha]
    unfold WestOf
    omega
  by_cases h2 : 2 ≤ h
  · exact ⟨⟨2 * (h - 1), 0⟩, by unfold InDouble; simp only; omega, by simp only; omega,
      key _ (by unfold InDouble; simp only; omega) (by simp only; omega)⟩
  · have hc : InDouble h v ⟨1, 1⟩ := ⟨by simp only; omega, rfl, by simp only; omega⟩
    exact ⟨⟨1, 1⟩, hc, by simp only; omega, key _ hc (by simp only; omega)⟩

/-- **C72.** Dijkstra from `a` can be completed iff `a` is in the western half (else the very first `edges` call reads
uninitialised memory). -/
theorem c72_dijkstra (hb : Built (dblShape m h v) (dblLat h v) g k) {a : DCoord} (ha : InDouble h v a)
    (cost : EdgeRef DCoord AxisDR E → Nat) :
    (∃ j st, DijSteps g cost (dijNew g a) j st ∧ st.heap = []) ↔ a.h < h := by
  rw [c69_completes_iff (.double m h v) hb (dblLat_node.2 ha)]
  constructor
  · intro hall
    obtain ⟨it, l, h1, h2, -⟩ := hall a 0 .nil
    refine Nat.lt_of_not_le fun hle => ?_
    obtain ⟨it', h3, h4⟩ := c58_edges_ub (.double m h v) hb (dblLat_node.2 ha) (c34_edges_readable ha).1
      (fun hr => by have := (c34_edges_readable ha).2.1 hr; omega)
    rw [h1] at h3
    cases h3
    exact h4.not_yields ⟨l, h2⟩
  · intro hah c n hw
    obtain ⟨hc, hw⟩ := (c72_reach hb ha).1 ⟨n, hw⟩
    have hch : c.h < h := by unfold WestOf at hw; omega
    obtain ⟨it, h1, h2⟩ := c58_edges_partial (.double m h v) hb (dblLat_node.2 hc) ((c34_edges_readable hc).2.2 hch)
    refine ⟨it, _, h1, h2, fun r hr => ?_⟩
    have hn := ((mem_outEdges (dblLat_base h v).dir).1 hr).2.1
    obtain ⟨hs, e1, e2⟩ := dblNbr_iff.1 hn
    refine dblLat_node.2 ⟨e1, hs.parity hc, ?_⟩
    unfold DStep at hs
    unfold InDouble at hc
    revert hs e2
    cases r.direction <;> simp only [AxisDR.vec, AxisDR.west, Bool.false_eq_true, or_false, or_true] <;> intro hs e2 <;> omega

end

/-- Example: on a 3 × 3 map a search from (0,0) returns (2,2) but not (4,2); a search from (4,2) returns both, and (3,1) (in the
eastern half, in its cone); Dijkstra can be completed from (0,0) but not from (4,2). -/
example : ∃ g : Graph DCoord AxisR AxisDR Nat Nat,
    (∃ st, newWith (dblShape m64 3 3) (fun n _ => (n, n + 1)) (fun n _ _ => (n, n + 1)) 0 = .ok (g, st)) ∧
    (∃ b l, bfsNew g ⟨0, 0⟩ = .ok b ∧ BfsRun g b l ∧ (⟨2, 2⟩ : DCoord) ∈ l ∧ (⟨4, 2⟩ : DCoord) ∉ l) ∧
    (∃ b l, bfsNew g ⟨4, 2⟩ = .ok b ∧ BfsRun g b l ∧ (⟨2, 2⟩ : DCoord) ∈ l ∧ (⟨3, 1⟩ : DCoord) ∈ l) ∧
    (∃ j st, DijSteps g EdgeRef.weight (dijNew g ⟨0, 0⟩) j st ∧ st.heap = []) ∧
    ¬ ∃ j st, DijSteps g EdgeRef.weight (dijNew g ⟨4, 2⟩) j st ∧ st.heap = [] := by
  obtain ⟨g, h1, h2⟩ := c57_new_with (.double m64 3 3) (by decide) (fun (n : Nat) _ => (n, n + 1)) (fun (n : Nat) _ _ => (n, n + 1)) 0
  have e1 : InDouble 3 3 ⟨0, 0⟩ := by decide
  have e2 : InDouble 3 3 ⟨4, 2⟩ := by decide
  obtain ⟨⟨b, l, h3, h4, -, h5⟩, -⟩ := c72_search h2 e1
  obtain ⟨⟨b', l', h6, h7, -, h8⟩, -⟩ := c72_search h2 e2
  refine ⟨g, ⟨_, h1⟩, ⟨b, l, h3, (h4 l).2 rfl, (h5 _).2 ?_, fun h => ?_⟩, ⟨b', l', h6, (h7 l').2 rfl, (h8 _).2 ?_, (h8 _).2 ?_⟩,
    (c72_dijkstra h2 e1 _).2 (by decide), fun h => ?_⟩
  · exact ⟨by decide, .inl (by decide)⟩
  · have := ((h5 _).1 h).2
    simp [WestOf] at this
  · exact ⟨by decide, .inl (by decide)⟩
  · exact ⟨by decide, .inr (by unfold WestOf; decide)⟩
  · exact absurd ((c72_dijkstra h2 e2 _).1 h) (by decide)

example : ∃ g : Graph DCoord AxisR AxisDR Nat Nat, (∃ n, InWalk g.s ⟨0, 0⟩ n ⟨2, 2⟩) ∧ (¬ ∃ n, InWalk g.s ⟨0, 0⟩ n ⟨4, 2⟩) ∧
    ∃ c, InDouble 3 3 c ∧ 3 ≤ c.h ∧ ∀ a, InDouble 3 3 a → a.h < 3 → ¬ ∃ n, InWalk g.s a n c := by
  obtain ⟨g, h1, h2⟩ := c57_new_with (.double m64 3 3) (by decide) (fun (n : Nat) _ => (n, n + 1)) (fun (n : Nat) _ _ => (n, n + 1)) 0
  have e1 : InDouble 3 3 ⟨0, 0⟩ := by decide
  refine ⟨g, (c72_reach h2 e1).2 ⟨by decide, .inl ⟨by decide, by decide⟩⟩, fun h => ?_, c72_misses h2 (.inl ⟨by decide, by decide⟩)⟩
  have := ((c72_reach h2 e1).1 h).2
  unfold WestOf at this
  simp only at this
  omega

end LG
