import Verif.Model.LegacyAlloc
import Verif.Props.LegacyDist
/- C104 for `SquareGraph`. -/
set_option linter.unusedSectionVars false
namespace LG.Sq
section
variable {N E σ : Type}
variable {g : G N E} {k : Cfg} {h v : Nat} {c : Contents NodeIx Axis N E}

/-- Every array of the graph takes at most `isize::MAX` bytes. -/
def ByteFits (szN szE : Nat) (k : Cfg) (h v : Nat) : Prop :=
  h * v * szN < k.m.half ∧ (if k.loopH then h else h - 1) * v * szE < k.m.half ∧ h * (if k.loopV then v else v - 1) * szE < k.m.half

theorem newWithB_or (szN szE : Nat) (k : Cfg) (h v : Nat) (fn : σ → Nat → Nat → N × σ) (fe : σ → Nat → Nat → Axis → E × σ) (st : σ) :
    G.newWithB szN szE k h v fn fe st = G.newWith k h v fn fe st ∨ G.newWithB szN szE k h v fn fe st = .error .panic := by
  unfold G.newWithB G.newWith
  by_cases h0 : h = 0
  · simp only [if_pos h0, true_or]
  simp only [if_neg h0, bind, Except.bind]
  cases umul k.m h v with
  | error f => exact .inl rfl
  | ok p =>
    simp only [withCapacity]
    by_cases h1 : p * szN < k.m.half
    · simp only [if_pos h1]
      cases Arr.fromShapeVec k.m h v (fill fn v 0 h st).1 with
      | error f => exact .inl rfl
      | ok nodes =>
        simp only
        cases G.edgeLen k.m k.loopH h with
        | error f => exact .inl rfl
        | ok mh =>
          simp only
          cases umul k.m mh v with
          | error f => exact .inl rfl
          | ok p =>
            simp only
            by_cases h2 : p * szE < k.m.half
            · simp only [if_pos h2]
              cases Arr.fromShapeVec k.m mh v (fill (fun st hi vi => fe st hi vi .horizontal) v 0 mh (fill fn v 0 h st).2).1 with
              | error f => exact .inl rfl
              | ok hor =>
                simp only
                cases G.edgeLen k.m k.loopV v with
                | error f => exact .inl rfl
                | ok mv =>
                  simp only
                  cases umul k.m h mv with
                  | error f => exact .inl rfl
                  | ok p =>
                    simp only
                    by_cases h3 : p * szE < k.m.half
                    · simp only [if_pos h3, true_or]
                    · simp only [if_neg h3, or_true]
            · simp only [if_neg h2, or_true]
    · simp only [if_neg h1, or_true]

theorem fromShapeVec_fault {α : Type} {m : Machine} {r c : Nat} {l : List α} {f : Fault}
    (h : Arr.fromShapeVec m r c l = .error f) : f = .panic := by
  unfold Arr.fromShapeVec at h
  by_cases h1 : (if r = 0 then 1 else r) * (if c = 0 then 1 else c) < m.half ∧ l.length = r * c
  · rw [if_pos h1] at h; cases h
  · rw [if_neg h1] at h; cases h; rfl

/-- **C104.** `SquareGraph::new_with`, whatever the sizes of the weights: on dimensions in range it does what the other theorems say
if every array takes at most `isize::MAX` bytes, and panics otherwise. -/
theorem c104_new_with (szN szE : Nat) (k : Cfg) (hh : 0 < h) (hv : 0 < v) (hs : h * v < k.m.half) (fn : σ → Nat → Nat → N × σ)
    (fe : σ → Nat → Nat → Axis → E × σ) (st : σ) :
    (ByteFits szN szE k h v → G.newWithB szN szE k h v fn fe st = G.newWith k h v fn fe st ∧
      ∃ r, G.newWithB szN szE k h v fn fe st = .ok r) ∧
    (¬ ByteFits szN szE k h v → G.newWithB szN szE k h v fn fe st = .error .panic) := by
  have hm := k.m.half_ge
  have emh : G.edgeLen k.m k.loopH h = .ok (if k.loopH then h else h - 1) := by
    unfold G.edgeLen
    split
    · rfl
    · exact usub_ok hh
  have emv : G.edgeLen k.m k.loopV v = .ok (if k.loopV then v else v - 1) := by
    unfold G.edgeLen
    split
    · rfl
    · exact usub_ok hv
  have h1 : (if k.loopH then h else h - 1) ≤ h := by split <;> omega
  have h2 : (if k.loopV then v else v - 1) ≤ v := by split <;> omega
  have h3 := Nat.mul_le_mul_right v h1
  have h4 := Nat.mul_le_mul_left h h2
  unfold ByteFits
  generalize (if k.loopH then h else h - 1) = mh at *
  generalize (if k.loopV then v else v - 1) = mv at *
  constructor
  · rintro ⟨f1, f2, f3⟩
    have e : G.newWithB szN szE k h v fn fe st = G.newWith k h v fn fe st := by
      unfold G.newWithB G.newWith
      simp only [umul_ok (m := k.m) (a := h) (b := v) (by omega), bind, Except.bind, emh, emv,
        umul_ok (m := k.m) (a := mh) (b := v) (by omega), umul_ok (m := k.m) (a := h) (b := mv) (by omega), withCapacity,
        if_pos f1, if_pos f2, if_pos f3]
    obtain ⟨g, h5, -⟩ := c43_new_with k hh hv hs fn fe st
    exact ⟨e, _, e.trans h5⟩
  · intro hn
    have h0 : h ≠ 0 := by omega
    unfold G.newWithB
    simp only [if_neg h0, umul_ok (m := k.m) (a := h) (b := v) (by omega), bind, Except.bind, emh, emv,
      umul_ok (m := k.m) (a := mh) (b := v) (by omega), umul_ok (m := k.m) (a := h) (b := mv) (by omega), withCapacity]
    by_cases f1 : h * v * szN < k.m.half
    · simp only [if_pos f1]
      cases hx : Arr.fromShapeVec k.m h v (fill fn v 0 h st).1 with
      | error f => cases fromShapeVec_fault hx; rfl
      | ok nodes =>
        simp only
        by_cases f2 : mh * v * szE < k.m.half
        · simp only [if_pos f2]
          cases hx : Arr.fromShapeVec k.m mh v (fill (fun st hi vi => fe st hi vi .horizontal) v 0 mh (fill fn v 0 h st).2).1 with
          | error f => cases fromShapeVec_fault hx; rfl
          | ok hor =>
            simp only
            rw [if_neg fun f3 => hn ⟨f1, f2, f3⟩]
        · simp only [if_neg f2]
    · simp only [if_neg f1]

/-- **C104.** Dimensions out of range make it panic in any case. -/
theorem c104_rejects (szN szE : Nat) (k : Cfg) (hb : h = 0 ∨ (v = 0 ∧ k.loopV = false) ∨ k.m.half ≤ h * v)
    (fn : σ → Nat → Nat → N × σ) (fe : σ → Nat → Nat → Axis → E × σ) (st : σ) :
    G.newWithB szN szE k h v fn fe st = .error .panic := by
  rcases newWithB_or szN szE k h v fn fe st with e | e
  · rw [e]; exact c43_rejects k hb fn fe st
  · exact e

/-- **C104.** If the node weights are no smaller than the head of a bit set, a graph that could be built also has a visit map. -/
theorem c104_visit_map (hb : Built k h v g c) (hv : 0 < v) {szN szE szB : Nat} (hf : ByteFits szN szE k h v) (hz : szB ≤ szN) :
    g.visitMapB szB = .ok (Vis.new h v) := by
  have e1 : g.horizontalNodeCount = h := hb.stores.nodes.rows
  have e2 : g.verticalNodeCount = v := hb.stores.nodes.cols
  have h1 : h * szB ≤ h * v * szN := by
    rw [Nat.mul_assoc]
    refine Nat.mul_le_mul_left _ (Nat.le_trans hz ?_)
    have := Nat.mul_le_mul_right szN hv
    omega
  unfold G.visitMapB withCapacity
  rw [e1, e2, hb.stores.cfg, if_pos (Nat.lt_of_le_of_lt h1 hf.1)]
  rfl
end

/-- Example: the 3 × 2 graph with weights of 8 bytes is built and has a visit map; 2⁶⁰ × 2 cells take too many bytes; no columns are
refused. -/
example : (∃ r : G Nat Nat × Unit, G.newWithB 8 8 exCfg 3 2 (fun u _ _ => (7, u)) (fun u _ _ _ => (5, u)) () = .ok r) ∧
    (G.newWithB 8 8 exCfg (2 ^ 60) 2 (fun u _ _ => (7, u)) (fun u _ _ _ => (5, u)) () : Res (G Nat Nat × Unit)) = .error .panic ∧
    (G.newWithB 8 8 exCfg 0 2 (fun u _ _ => (7, u)) (fun u _ _ _ => (5, u)) () : Res (G Nat Nat × Unit)) = .error .panic :=
  ⟨((c104_new_with 8 8 exCfg (by decide) (by decide) (by decide) _ _ ()).1 ⟨by decide, by decide, by decide⟩).2,
   (c104_new_with 8 8 exCfg (by decide) (by decide) (by decide) _ _ ()).2 (fun h => absurd h.1 (by decide)),
   c104_rejects 8 8 exCfg (.inl rfl) _ _ ()⟩

example : ∃ g : G Nat Nat, g.visitMapB 8 = .ok (Vis.new 3 2) := by
  obtain ⟨g, c, hb, _⟩ := exGraph exCfg (by decide)
  exact ⟨g, c104_visit_map hb (by decide) (szN := 8) (szE := 8) ⟨by decide, by decide, by decide⟩ (by decide)⟩
end LG.Sq
