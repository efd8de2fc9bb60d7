import Verif.Props.LegacyEdges
/- C48: the loop of `EdgeReferences::next`, without the test the model has for the sake of termination. -/
namespace LG.Sq
section
variable {N E : Type}

/-- The `loop` of `EdgeReferences::next` (square/edges.rs:127-167), entered in this state, returns or faults as told, after any number
of turns. -/
inductive LoopEnds (g : G N E) : EdgeRefs → Res (Option (Ref E) × EdgeRefs) → Prop where
  | fault {it : NodeIndices} {f : Fault} : it.next g.k = .error f → LoopEnds g ⟨it, none⟩ (.error f)
  | done {it it' : NodeIndices} : it.next g.k = .ok (none, it') → LoopEnds g ⟨it, none⟩ (.ok (none, ⟨it', none⟩))
  | horizontal {it it' : NodeIndices} {x : NodeIx} {w : E} : it.next g.k = .ok (some x, it') →
    g.horizontal.get x.horizontal x.vertical = some w →
    LoopEnds g ⟨it, none⟩ (.ok (some ⟨⟨x, .horizontal⟩, w, true, g.k.sizeInfo it.hMax it.vMax⟩, ⟨it', some x⟩))
  | skip {it it' : NodeIndices} {x : NodeIx} {o : Res (Option (Ref E) × EdgeRefs)} : it.next g.k = .ok (some x, it') →
    g.horizontal.get x.horizontal x.vertical = none → LoopEnds g ⟨it', some x⟩ o → LoopEnds g ⟨it, none⟩ o
  | vertical {it : NodeIndices} {x : NodeIx} {w : E} : g.vertical.get x.horizontal x.vertical = some w →
    LoopEnds g ⟨it, some x⟩ (.ok (some ⟨⟨x, .vertical⟩, w, true, g.k.sizeInfo it.hMax it.vMax⟩, ⟨it, none⟩))
  | turn {it : NodeIndices} {x : NodeIx} {o : Res (Option (Ref E) × EdgeRefs)} : g.vertical.get x.horizontal x.vertical = none →
    LoopEnds g ⟨it, none⟩ o → LoopEnds g ⟨it, some x⟩ o

/-- The row counter of an index iterator can be stepped, and its bound is a `usize`. -/
def NodeIndices.InRange (k : Cfg) (it : NodeIndices) : Prop := it.h + 1 < 2 * k.m.half ∧ it.hMax < 2 * k.m.half

theorem NodeIndices.next_advanced {k : Cfg} {it it' : NodeIndices} {x : NodeIx} (hi : it.InRange k)
    (h : it.next k = .ok (some x, it')) : it.Advanced it' ∧ it'.InRange k := by
  unfold NodeIndices.next at h
  unfold NodeIndices.InRange at hi ⊢
  unfold NodeIndices.Advanced
  split at h
  · cases h
    exact ⟨.inr ⟨rfl, by simp only; omega⟩, hi⟩
  · rw [uadd_ok hi.1] at h
    simp only [bind, Except.bind] at h
    split at h
    · cases h
      exact ⟨.inl (by simp only; omega), by simp only; omega⟩
    · cases h

theorem loop_model {g : G N E} {it : EdgeRefs} {o : Res (Option (Ref E) × EdgeRefs)} (h : LoopEnds g it o)
    (hi : it.nodes.InRange g.k) : edgeRefsNext g it = o := by
  induction h with
  | fault h => rw [edgeRefsNext, h]
  | done h => rw [edgeRefsNext, h]
  | horizontal h e => rw [edgeRefsNext, h]; simp only [e]
  | skip h e _ ih =>
    have a := NodeIndices.next_advanced hi h
    rw [edgeRefsNext, h]; simp only [e]
    rw [dif_pos a.1]
    exact ih a.2
  | vertical e => rw [edgeRefsNext]; simp only [e]
  | turn e _ ih => rw [edgeRefsNext]; simp only [e]; exact ih hi

theorem model_loop (g : G N E) (it : EdgeRefs) (hi : it.nodes.InRange g.k) : LoopEnds g it (edgeRefsNext g it) := by
  fun_induction edgeRefsNext g it with
  | case1 it f h => exact .fault h
  | case2 it it' h => exact .done h
  | case3 it x it' h w e => exact .horizontal h e
  | case4 it x it' h e _ ih => exact .skip h e (ih (NodeIndices.next_advanced hi h).2)
  | case5 it x it' h e n => exact absurd (NodeIndices.next_advanced hi h).1 n
  | case6 it x w e => exact .vertical e
  | case7 it x e ih => exact .turn e (ih hi)

/-- The loop of the code ends from every state the iterator can be in, of any graph, and ends with what the model says. -/
theorem c48_loop_exact (g : G N E) (it : EdgeRefs) (hi : it.nodes.InRange g.k) (o : Res (Option (Ref E) × EdgeRefs)) :
    LoopEnds g it o ↔ edgeRefsNext g it = o :=
  ⟨fun h => loop_model h hi, fun h => h ▸ model_loop g it hi⟩

theorem NodeIndices.next_range {k : Cfg} {it it' : NodeIndices} {o : Option NodeIx} (hi : it.InRange k)
    (h : it.next k = .ok (o, it')) : it'.InRange k := by
  cases o with
  | some x => exact (NodeIndices.next_advanced hi h).2
  | none =>
    unfold NodeIndices.next at h
    split at h
    · cases h
    · rw [uadd_ok hi.1] at h
      simp only [bind, Except.bind] at h
      split at h <;> cases h
      exact hi

theorem NodeIndices.next_ok {k : Cfg} {it : NodeIndices} (hi : it.InRange k) : ∃ o it', it.next k = .ok (o, it') := by
  unfold NodeIndices.next
  split
  · exact ⟨_, _, rfl⟩
  · rw [uadd_ok hi.1]
    simp only [bind, Except.bind]
    split
    · exact ⟨_, _, rfl⟩
    · exact ⟨_, _, rfl⟩

theorem loop_range {g : G N E} {it : EdgeRefs} {o : Res (Option (Ref E) × EdgeRefs)} (h : LoopEnds g it o)
    (hi : it.nodes.InRange g.k) : ∃ r it', o = .ok (r, it') ∧ it'.nodes.InRange g.k := by
  induction h with
  | fault h =>
    obtain ⟨_, _, e⟩ := NodeIndices.next_ok hi
    rw [h] at e; cases e
  | done h => exact ⟨_, _, rfl, NodeIndices.next_range hi h⟩
  | horizontal h _ => exact ⟨_, _, rfl, NodeIndices.next_range hi h⟩
  | skip h _ _ ih => exact ih (NodeIndices.next_range hi h)
  | vertical _ => exact ⟨_, _, rfl, hi⟩
  | turn _ _ ih => exact ih hi

/-- The states `next` takes an iterator of edge references through. -/
inductive Follows (g : G N E) : EdgeRefs → EdgeRefs → Prop where
  | start {it : EdgeRefs} : Follows g it it
  | call {a b c : EdgeRefs} {r : Option (Ref E)} : Follows g a b → LoopEnds g b (.ok (r, c)) → Follows g a c

/-- However often `next` has been called on the `edge_references` of a graph, whatever its three arrays are, also past the end: the next
call returns, with what the model says, and does not panic. -/
theorem c48_loop_total (g : G N E) (hm : 0 < g.k.m.half) (hh : g.horizontalNodeCount < 2 * g.k.m.half) {it : EdgeRefs}
    (h : Follows g (edgeRefsInit g) it) :
    ∃ r it', edgeRefsNext g it = .ok (r, it') ∧ ∀ o, LoopEnds g it o ↔ o = .ok (r, it') := by
  have hr : it.nodes.InRange g.k := by
    generalize ha : edgeRefsInit g = a at h
    induction h with
    | start => subst ha; exact ⟨by simp only [edgeRefsInit, NodeIndices.new]; omega, hh⟩
    | call _ l ih =>
      obtain ⟨_, _, e, r⟩ := loop_range l ih
      cases e; exact r
  obtain ⟨r, it', e, _⟩ := loop_range (model_loop g it hr) hr
  exact ⟨r, it', e, fun o => (c48_loop_exact g it hr o).trans (by rw [e]; exact eq_comm)⟩

/-- Two rows of one node and one edge between them: past the first edge, the loop turns three times (no vertical edge of the first node,
no edge of the second) and finds nothing more. -/
example : ∃ g : G Nat Nat, 0 < g.k.m.half ∧ g.horizontalNodeCount < 2 * g.k.m.half ∧ Follows g (edgeRefsInit g) ⟨⟨2, 0, 1, 1⟩, some ⟨0, 0⟩⟩ ∧
    LoopEnds g ⟨⟨2, 0, 1, 1⟩, some ⟨0, 0⟩⟩ (.ok (none, ⟨⟨2, 1, 1, 1⟩, none⟩)) := by
  refine ⟨⟨exPlainR, ⟨2, 1, [1, 2]⟩, ⟨1, 1, [7]⟩, ⟨2, 0, []⟩⟩, by decide, by decide, .call (.start) (.horizontal (x := ⟨0, 0⟩) (w := 7) rfl rfl), ?_⟩
  exact .turn rfl (.skip (x := ⟨1, 0⟩) (it' := ⟨2, 1, 1, 1⟩) rfl rfl (.turn rfl (.done rfl)))

example (o : Res (Option (Ref Nat) × EdgeRefs)) :
    LoopEnds (⟨exPlainR, ⟨2, 1, [1, 2]⟩, ⟨1, 1, [7]⟩, ⟨2, 0, []⟩⟩ : G Nat Nat) ⟨⟨2, 0, 1, 1⟩, some ⟨0, 0⟩⟩ o ↔
      o = .ok (none, ⟨⟨2, 1, 1, 1⟩, none⟩) := by
  have h1 : LoopEnds (⟨exPlainR, ⟨2, 1, [1, 2]⟩, ⟨1, 1, [7]⟩, ⟨2, 0, []⟩⟩ : G Nat Nat) ⟨⟨2, 0, 1, 1⟩, some ⟨0, 0⟩⟩
      (.ok (none, ⟨⟨2, 1, 1, 1⟩, none⟩)) := .turn rfl (.skip (x := ⟨1, 0⟩) (it' := ⟨2, 1, 1, 1⟩) rfl rfl (.turn rfl (.done rfl)))
  have hi : NodeIndices.InRange exPlainR ⟨2, 0, 1, 1⟩ := ⟨by decide, by decide⟩
  rw [c48_loop_exact _ _ hi, (c48_loop_exact _ _ hi _).1 h1]
  exact ⟨Eq.symm, Eq.symm⟩
example : ∃ (g : G Nat Nat) (r : Option (Ref Nat)) (it' : EdgeRefs), edgeRefsNext g (edgeRefsInit g) = .ok (r, it') ∧
    g.horizontalNodeCount = 2 := by
  obtain ⟨r, it', h, -⟩ := c48_loop_total (⟨exPlainR, ⟨2, 1, [1, 2]⟩, ⟨1, 1, [7]⟩, ⟨2, 0, []⟩⟩ : G Nat Nat) (by decide) (by decide) .start
  exact ⟨_, r, it', h, rfl⟩

end
end LG.Sq
