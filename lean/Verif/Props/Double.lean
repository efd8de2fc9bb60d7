import Verif.Lemmas.Stored
import Verif.Props.Edges
/- C34: the edges of the double-coordinate shape (its moves are in Props/DoubleMoves.lean). -/
set_option linter.unusedSectionVars false
namespace LG

/-- **C34** (edges): which nodes' `edges` only read initialised weights: exactly those in the western half. -/
theorem c34_edges_readable {h v : Nat} {c : DCoord} (hc : InDouble h v c) :
    (∀ d t, (dblLat h v).nbr c d = some t → (dblLat h v).Node ((dblLat h v).key c d t).1) ∧
    ((dblLat h v).Readable c ↔ c.h < h) := by
  have hnode : ∀ d t, (dblLat h v).nbr c d = some t → (dblLat h v).Node t := by
    intro d t hn
    obtain ⟨hs, h1, h2⟩ := dblNbr_iff.1 hn
    rw [dblLat_node]
    refine ⟨h1, hs.parity hc, ?_⟩
    unfold DStep at hs
    unfold InDouble at hc
    cases d <;> simp only [AxisDR.vec, AxisDR.west, Bool.false_eq_true, or_false] at hs h2 <;> omega
  have hk : ∀ d t, (dblLat h v).nbr c d = some t → (dblLat h v).Node ((dblLat h v).key c d t).1 := by
    intro d t hn
    unfold Lat.key
    split
    · exact dblLat_node.2 hc
    · exact hnode d t hn
  refine ⟨hk, ?_, ?_⟩
  · intro hr
    apply Classical.byContradiction
    intro hge
    have hsome : ∀ t a, (dblLat h v).HasEdge t a → ∃ t', dblNbr h v t ((dblLat h v).fwd a) = some t' :=
      fun t a hh => Option.isSome_iff_exists.1 hh.2
    obtain ⟨x, y⟩ := c
    unfold InDouble at hc
    simp only at hc hge
    by_cases h2 : 2 ≤ x
    · have hn : (dblLat h v).nbr ⟨x, y⟩ .W = some ⟨x - 2, y⟩ := by
        show dblNbr _ _ _ _ = _
        rw [dblNbr_iff]
        simp only [DStep, AxisDR.vec, AxisDR.west, or_true, and_true]
        omega
      obtain ⟨t', ht⟩ := hsome _ _ (hr _ _ hn)
      simp only [dblLat, hexLatR, Lat.key, reduceCtorEq, if_false] at ht
      rw [dblNbr_iff] at ht
      simp only [DStep, AxisDR.vec, AxisDR.west, Bool.false_eq_true, or_false] at ht
      omega
    · have hn : (dblLat h v).nbr ⟨x, y⟩ .SW = some ⟨x - 1, y - 1⟩ := by
        show dblNbr _ _ _ _ = _
        rw [dblNbr_iff]
        simp only [DStep, AxisDR.vec, AxisDR.west, or_true, and_true]
        omega
      obtain ⟨t', ht⟩ := hsome _ _ (hr _ _ hn)
      simp only [dblLat, hexLatR, Lat.key, reduceCtorEq, if_false] at ht
      rw [dblNbr_iff] at ht
      simp only [DStep, AxisDR.vec, AxisDR.west, Bool.false_eq_true, or_false] at ht
      omega
  · intro hlt d t hn
    refine ⟨hk d t hn, ?_⟩
    have hback : d.west = true → dblNbr h v t d.rev = some c := by
      intro hw
      rw [dblNbr_iff]
      have hs := (dblNbr_iff.1 hn).1
      unfold InDouble at hc
      unfold DStep at hs ⊢
      refine ⟨?_, hc.1, .inl hlt⟩
      cases d <;> simp only [AxisDR.vec, AxisDR.rev, AxisDR.west] at hs hw ⊢ <;> omega
    cases d with
    | NE | E | SE => simp only [dblLat, hexLatR, Lat.key, if_true] at hn ⊢; rw [hn]; rfl
    | SW | W | NW =>
      have := hback rfl
      simp only [AxisDR.rev] at this
      simp only [dblLat, hexLatR, Lat.key, reduceCtorEq, if_false]
      rw [this]; rfl

section
variable {N E σ : Type} {m : Machine} {h v : Nat} {n : σ → DCoord → N × σ} {e : σ → DCoord → AxisR → E × σ} {st st' : σ}
variable {g : Graph DCoord AxisR AxisDR N E}

theorem dbl_good (hb : newWith (dblShape m h v) n e st = .ok (g, st')) :
    GoodBase (dblShape m h v) (dblLat h v) (fun c => c.h % 2 = c.v % 2) g
      (runCalls n e (callSeq (dblLat h v)) st emptyContents).1 := by
  have hc : Constructible (dblShape m h v) := by
    apply Classical.byContradiction
    intro hc
    rw [newWith_panic hc] at hb
    cases hb
  obtain ⟨g', h1, h2, h3⟩ := newWith_base (dblShape_impl hc) (dblLat_base h v) hc n e st
  rw [hb] at h1
  cases h1
  exact ⟨h2, hc, h2 ▸ dblShape_impl hc, h3, runCalls_total (dblLat_base h v).dir n e st⟩

/-- **C34** (edges), western half: after `new_with`, `edges(c)` yields one reference per neighbour, each with the weight the
edge closure gave it. The full claim is for every node; in the eastern half it fails, see `c34_edges_ub`. -/
theorem c34_edges_partial (hb : newWith (dblShape m h v) n e st = .ok (g, st')) {c : DCoord} (hc : InDouble h v c)
    (hw : c.h < h) : ∃ it, g.edgesOf c = .ok it ∧
      Yields (edgesNext g) it (outEdges (dblLat h v) (runCalls n e (callSeq (dblLat h v)) st emptyContents).1 c) :=
  (dbl_good hb).edges_yields (dblLat_base h v) (dblLat_node.2 hc) ((c34_edges_readable hc).2.2 hw)

/-- **C34** (edges) fails: `edges(c)` of every node in the eastern half reads uninitialised memory. -/
theorem c34_edges_ub (hb : newWith (dblShape m h v) n e st = .ok (g, st')) {c : DCoord} (hc : InDouble h v c)
    (hw : h ≤ c.h) : ∃ it, g.edgesOf c = .ok it ∧ Fails (edgesNext g) it .ub :=
  (dbl_good hb).edges_fails (dblLat_base h v) (dblLat_node.2 hc) (c34_edges_readable hc).1
    (fun hr => by have := (c34_edges_readable hc).2.1 hr; omega)

/-- **C34** (coordinates): what the safe `edge_weight` and `edge_weight_mut` do at any coordinate in range, of either parity: the
move is checked from the coordinate given, the weight is looked up at the node whose position it shares. When the first succeeds
but not the second, uninitialised memory is read. -/
theorem c34_alias_edge {k : Contents DCoord AxisR N E} (hb : Built (dblShape m h v) (dblLat h v) g k) {c c' : DCoord}
    (hc : InDouble h v c) (ev : c'.v = c.v) (eh : c'.h / 2 = c.h / 2) (a : AxisR) (f : E → E) :
    (∀ d, d = (dblLat h v).fwd a → (¬ ∃ t, DStep c' d t ∧ t.v < v ∧ t.h < h) → g.edgeWeight c' a = .ok none ∧
      g.modifyEdge c' a f = .ok none) ∧
    (∀ d t, d = (dblLat h v).fwd a → DStep c' d t ∧ t.v < v ∧ t.h < h →
      ((¬ ∃ t, DStep c d t ∧ t.v < v ∧ t.h < h) → g.edgeWeight c' a = .error .ub ∧ g.modifyEdge c' a f = .error .ub) ∧
      ((∃ t, DStep c d t ∧ t.v < v ∧ t.h < h) → g.edgeWeight c' a = .ok (k.edge c a) ∧ (k.edge c a).isSome)) := by
  have hg := hb.goodBase (rep := fun c => c.h % 2 = c.v % 2) dblShape_impl (dblLat_base h v)
  have hi := hg.impl
  have hwest : ((dblLat h v).fwd a).west = false := by cases a <;> rfl
  have hmv : g.s.moveCoord c' ((dblLat h v).fwd a) = .ok (dblNbr h v c' ((dblLat h v).fwd a)) := by
    obtain ⟨r, h1, h2⟩ := c34_exact m h v (Constructible.bounds hg.constructible).2.1 (Constructible.bounds hg.constructible).2.2 c'
      ⟨by have := hc.1; omega, by have := hc.2.2; omega⟩ ((dblLat h v).fwd a)
    rw [hg.shape, h1]
    congr 1
    ext t
    rw [h2]
    exact dblNbr_iff.symm
  have hoff : g.s.toOffset c' = .ok (some ⟨c.h / 2, c.v⟩) := by
    rw [hg.shape]
    simp only [dblShape, ev, eh]
    rw [if_pos ⟨hc.2.2, hc.1⟩]
  have hcoord : (dblLat h v).coord (c.h / 2) c.v = c := by
    obtain ⟨x, y⟩ := c
    have := hc.2.1
    simp only at this
    simp only [dblLat, hexLatR, DCoord.mk.injEq, and_true]
    omega
  obtain ⟨arr, h1, h2⟩ := hi.axis.getEdgeArr hg.inv a rfl
  refine ⟨?_, ?_⟩
  · rintro d rfl hno
    have hn : dblNbr h v c' ((dblLat h v).fwd a) = none := by
      cases he : dblNbr h v c' ((dblLat h v).fwd a) with
      | none => rfl
      | some t =>
        obtain ⟨e1, e2, e3⟩ := dblNbr_iff.1 he
        rw [hwest] at e3
        exact absurd ⟨t, e1, e2, by simpa using e3⟩ hno
    unfold Graph.edgeWeight Graph.modifyEdge
    simp only [hoff, bind, Except.bind, hi.axis.foward, hmv, hn, and_self]
  · rintro d t rfl ⟨e1, e2, e3⟩
    have hs : dblNbr h v c' ((dblLat h v).fwd a) = some t := dblNbr_iff.2 ⟨e1, e2, .inl e3⟩
    refine ⟨fun hno => ?_, ?_⟩
    · have hk : k.edge ((dblLat h v).coord (c.h / 2) c.v) a = none := by
        rw [hcoord]
        cases hk : k.edge c a with
        | none => rfl
        | some w =>
          have he := (hg.total.edge c a).1 (by simp [hk])
          obtain ⟨t', ht'⟩ := Option.isSome_iff_exists.1 he.2
          obtain ⟨e1, e2, e3⟩ := dblNbr_iff.1 ht'
          rw [hwest] at e3
          exact absurd ⟨t', e1, e2, by simpa using e3⟩ hno
      have := h2.uget_none g.s.m (x := c.h / 2) (y := c.v) hc.2.2 hc.1 hk
      unfold Graph.edgeWeight Graph.modifyEdge
      simp only [hoff, bind, Except.bind, hi.axis.foward, hmv, hs, h1, this, and_self]
    · rintro ⟨t', e1, e2, e3⟩
      have he : (dblLat h v).HasEdge c a := ⟨dblLat_node.2 hc, by
        show (dblNbr h v c ((dblLat h v).fwd a)).isSome = true
        rw [dblNbr_iff.2 ⟨e1, e2, .inl e3⟩]; rfl⟩
      obtain ⟨w, hw⟩ := Option.isSome_iff_exists.1 ((hg.total.edge c a).2 he)
      have := h2.uget g.s.m (x := c.h / 2) (y := c.v) hc.2.2 hc.1 (w := w) (by rw [hcoord]; exact hw)
      unfold Graph.edgeWeight
      simp only [hoff, bind, Except.bind, hi.axis.foward, hmv, hs, h1, this, hw, Option.isSome_some, and_self]

/-- **C34** (coordinates) fails: on every map at least two columns wide and two rows high, at every odd row, the safe `edge_weight` and
`edge_weight_mut` read uninitialised memory when given a certain coordinate of the wrong parity. -/
theorem c34_alias_edge_ub {k : Contents DCoord AxisR N E} (hb : Built (dblShape m h v) (dblLat h v) g k) (hh : 2 ≤ h) {y : Nat}
    (hy : y < v) (hodd : y % 2 = 1) : ∃ x a, (x / 2 < h ∧ x % 2 = 0) ∧ ∀ f,
      g.edgeWeight ⟨x, y⟩ a = .error .ub ∧ g.modifyEdge ⟨x, y⟩ a f = .error .ub := by
  rcases Nat.mod_two_eq_zero_or_one h with he | he
  · refine ⟨h - 2, .SE, ⟨by omega, by omega⟩, fun f => ?_⟩
    refine ((c34_alias_edge hb (c := ⟨h - 1, y⟩) (c' := ⟨h - 2, y⟩) ?_ rfl ?_ .SE f).2 .SE ⟨h - 1, y - 1⟩ rfl ?_).1 ?_
    · unfold InDouble; simp only; omega
    · simp only; omega
    · simp only [DStep, AxisDR.vec]; omega
    · rintro ⟨t, e1, e2, e3⟩
      simp only [DStep, AxisDR.vec] at e1
      omega
  · refine ⟨h - 3, .E, ⟨by omega, by omega⟩, fun f => ?_⟩
    refine ((c34_alias_edge hb (c := ⟨h - 2, y⟩) (c' := ⟨h - 3, y⟩) ?_ rfl ?_ .E f).2 .E ⟨h - 1, y⟩ rfl ?_).1 ?_
    · unfold InDouble; simp only; omega
    · simp only; omega
    · simp only [DStep, AxisDR.vec]; omega
    · rintro ⟨t, e1, e2, e3⟩
      simp only [DStep, AxisDR.vec] at e1
      omega

/-- Every acceptable size has a graph. -/
theorem c34_new_with (hc : Constructible (dblShape m h v)) (n : σ → DCoord → N × σ) (e : σ → DCoord → AxisR → E × σ) (st : σ) :
    ∃ g : Graph DCoord AxisR AxisDR N E,
      newWith (dblShape m h v) n e st = .ok (g, (runCalls n e (callSeq (dblLat h v)) st emptyContents).2) := by
  obtain ⟨g, h1, _⟩ := newWith_base (dblShape_impl hc) (dblLat_base h v) hc n e st
  exact ⟨g, h1⟩

end

example : InDouble 5 5 ⟨4, 2⟩ ∧ (dblShape m64 5 5).moveCoord ⟨4, 2⟩ .W = .ok (some ⟨2, 2⟩) ∧
    InDouble 5 5 ⟨6, 2⟩ ∧ (dblShape m64 5 5).moveCoord ⟨4, 2⟩ .E = .ok none := ⟨by decide, rfl, by decide, rfl⟩
example : ∃ g st', newWith (dblShape m64 5 5) (fun u c => (c.v, u)) (fun u c _ => (c.h, u)) () = .ok (g, st') ∧
    (∃ it, g.edgesOf ⟨6, 2⟩ = .ok it ∧ Fails (edgesNext g) it .ub) ∧
    ∃ it l, g.edgesOf ⟨4, 2⟩ = .ok it ∧ Yields (edgesNext g) it l := by
  obtain ⟨g, hg⟩ := c34_new_with (m := m64) (h := 5) (v := 5) (by decide) (fun u c => (c.v, u)) (fun u c _ => (c.h, u)) ()
  refine ⟨g, _, hg, c34_edges_ub hg (by decide) (by decide), ?_⟩
  obtain ⟨it, h1, h2⟩ := c34_edges_partial hg (c := ⟨4, 2⟩) (by decide) (by decide)
  exact ⟨it, _, h1, h2⟩

/-- Example: on a 3 × 2 map, after `new_with`, `edge_weight` of (0,1) going east reads uninitialised memory. -/
example : ∃ (g : Graph DCoord AxisR AxisDR Nat Nat) (st : Nat),
    newWith (dblShape m64 3 2) (fun n _ => (n, n + 1)) (fun n _ _ => (n, n + 1)) 0 = .ok (g, st) ∧
    g.edgeWeight ⟨0, 1⟩ .E = .error .ub ∧ g.edgeWeight ⟨1, 1⟩ .E = .ok none := by
  obtain ⟨g, hg⟩ := c34_new_with (m := m64) (h := 3) (v := 2) (by decide) (fun n _ => (n, n + 1)) (fun n _ _ => (n, n + 1)) 0
  refine ⟨g, _, hg, ((c34_alias_edge (.new hg) (c := ⟨1, 1⟩) (c' := ⟨0, 1⟩) (by decide) rfl rfl .E id).2 .E ⟨2, 1⟩ rfl ?_).1 ?_ |>.1,
    ((c34_alias_edge (.new hg) (c := ⟨1, 1⟩) (c' := ⟨1, 1⟩) (by decide) rfl rfl .E id).1 .E rfl ?_).1⟩
  · simp [DStep, AxisDR.vec]
  · rintro ⟨t, e1, e2, e3⟩
    simp only [DStep, AxisDR.vec] at e1
    omega
  · rintro ⟨t, e1, e2, e3⟩
    simp only [DStep, AxisDR.vec] at e1
    omega

example : (dblLat 5 5).Readable ⟨4, 2⟩ ∧ ¬ (dblLat 5 5).Readable ⟨6, 2⟩ :=
  ⟨(c34_edges_readable (by decide)).2.2 (by decide), fun h => absurd ((c34_edges_readable (by decide)).2.1 h) (by decide)⟩
example : ∃ (g : Graph DCoord AxisR AxisDR Nat Nat) (x : Nat) (a : AxisR), g.edgeWeight ⟨x, 1⟩ a = .error .ub := by
  obtain ⟨g, hg⟩ := c34_new_with (m := m64) (h := 3) (v := 2) (by decide) (fun n _ => (n, n + 1)) (fun n _ _ => (n, n + 1)) 0
  obtain ⟨x, a, -, h⟩ := c34_alias_edge_ub (.new hg) (by decide) (y := 1) (by decide) rfl
  exact ⟨g, x, a, (h id).1⟩

end LG
