import Verif.Props.Memory
import Verif.Props.Geometry
import Verif.Props.Stored
/- C62: the `unsafe` unchecked accessors agree with the checked ones wherever those succeed. -/
set_option linter.unusedSectionVars false
namespace LG
section
variable {C A D N E σ α : Type} [DecidableEq C] [DecidableEq A] [DecidableEq D]
variable {g : Graph C A D N E} {s : Shape C A D} {L : Lat C A D} {rep : C → Prop} {k : Contents C A N E}

omit [DecidableEq C] [DecidableEq A] [DecidableEq D] in
/-- **C62**, positions: where `to_offset` finds a position, `to_offset_unchecked` returns the same one. -/
theorem c62_to_offset (hs : Stored s L rep) (hc : Constructible s) {c : C} {o : Offset}
    (h : s.toOffset c = .ok (some o)) : s.toOffsetUnchecked c = .ok o := by
  induction hs with
  | @single C _ D _ _ _ hs =>
    have : DecidableEq C := fun _ _ => Classical.propDecidable _
    have : DecidableEq D := fun _ _ => Classical.propDecidable _
    have hi := hs.impl hc
    obtain ⟨h1, h2, h3⟩ := hi.toOffset_some h
    rw [h3, hi.toOffsetUnchecked h1 h2]
  | double m w v =>
    simp only [dblShape] at h ⊢
    split at h
    · cases h; rfl
    · cases h
  | byRef _ ih => exact ih hc h

omit [DecidableEq C] [DecidableEq A] [DecidableEq D] in
theorem defaultMove_unchecked {m : Machine} {mv : C → D → Res (Option C)} {c t : C} {d : D}
    (h : mv c d = .ok (some t)) : defaultMoveCoordUnchecked m mv c d = .ok t := by
  simp [defaultMoveCoordUnchecked, h, bind, Except.bind]

omit [DecidableEq C] [DecidableEq A] [DecidableEq D] in
theorem axMove_unchecked {mv : Axial → D → Res Axial} {to : Axial → Res (Option Offset)} {c t : Axial} {d : D}
    (h : (do let c' ← mv c d
             match ← to c' with
             | some _ => .ok (some c')
             | none => .ok none) = (.ok (some t) : Res (Option Axial))) : mv c d = .ok t := by
  simp only [bind, Except.bind] at h
  split at h
  · cases h
  · rename_i c' hc'
    split at h
    · cases h
    · split at h
      · cases h; exact hc'
      · cases h

omit [DecidableEq C] [DecidableEq A] [DecidableEq D] in
theorem Sound.move_unchecked (hs : Sound s L rep) {c t : C} {d : D} (h : s.moveCoord c d = .ok (some t)) :
    s.moveCoordUnchecked c d = .ok t := by
  induction hs with
  | byRef _ ih => exact ih h
  | _ => first
    | exact defaultMove_unchecked h
    | exact axMove_unchecked h

/-- **C62**, moves: where `move_coord` succeeds, from any coordinate, `move_coord_unchecked` returns the same cell. (On the
shapes with wrong moves, C31–C33, it is wrong in the same way.) -/
theorem c62_move (hs : Stored s L rep) {c t : C} {d : D} (h : s.moveCoord c d = .ok (some t)) :
    s.moveCoordUnchecked c d = .ok t := by
  have single : ∀ {C A D : Type} {s : Shape C A D} {L : Lat C A D} {rep : C → Prop} {c t : C} {d : D}, Single s L rep →
      s.moveCoord c d = .ok (some t) → s.moveCoordUnchecked c d = .ok t := by
    intro C A D s L rep c t d hs h
    induction hs with
    | sound hs => exact hs.move_unchecked h
    | byRef _ ih => exact ih h
    | _ => exact defaultMove_unchecked h
  induction hs with
  | single hs => exact single hs h
  | double m w v => exact defaultMove_unchecked h
  | byRef _ ih => exact ih h

/-- **C62**, reads. -/
theorem c62_reads (hs : Storable s L rep) (hb : Built s L g k) {c : C} (hn : L.Node c) :
    (∃ w, g.nodeWeight c = .ok (some w) ∧ g.nodeWeightUnchecked c = .ok w) ∧
    ∀ a, L.HasEdge c a → ∃ w, g.edgeWeight c a = .ok (some w) ∧ g.edgeWeightUnchecked c a = .ok w := by
  have hg := hs.good hb
  refine ⟨?_, fun a ha => ?_⟩
  · obtain ⟨w, h1, h2⟩ := nodeWeightUnchecked_eq hg.impl hg.inv hg.total hn
    exact ⟨w, by rw [nodeWeight_eq hg.impl hg.inv hg.total (.inl hn), h1], h2⟩
  · obtain ⟨w, h1, h2⟩ := edgeWeightUnchecked_eq hg.impl hg.inv hg.total ha
    exact ⟨w, by rw [edgeWeight_eq hg.impl hg.inv hg.total (.inl hn), h1], h2⟩

/-- **C62**, reads by storage position: at the position and axis number of an edge the raw accessors return the weight the
checked ones return. -/
theorem c62_raw (hs : Stored s L rep) (hb : Built s L g k) {c : C} {o : Offset} (h : g.s.toOffset c = .ok (some o)) :
    (∃ w, g.nodeWeight c = .ok (some w) ∧ g.nodeWeightUncheckedRaw o = .ok w) ∧
    ∀ a, L.HasEdge c a →
      ∃ w, g.edgeWeight c a = .ok (some w) ∧ g.edgeWeightUncheckedRaw o (g.s.axis.toIndex a) = .ok w := by
  have hg := hs.good hb
  rw [hg.shape] at h
  obtain ⟨c', hc', hcc⟩ := hs.names hg.constructible h
  have hu := c62_to_offset hs hg.constructible h
  have hu' := c62_to_offset hs hg.constructible (hcc ▸ h)
  rw [← hg.shape] at hu hu' hcc
  refine ⟨?_, fun a ha => ?_⟩
  · obtain ⟨w, e1, e2⟩ := (c62_reads hs.storable hb hc').1
    refine ⟨w, ?_, by rw [← e2, Graph.nodeWeightUnchecked, hu']; rfl⟩
    rw [← e1, Graph.nodeWeight, Graph.nodeWeight, hcc]
  · obtain ⟨w, e1, e2⟩ := (c62_reads hs.storable hb ha.1).2 a ha
    exact ⟨w, e1, by rw [← e2, Graph.edgeWeightUnchecked, hu]; rfl⟩

/-- **C62**, writes: writing through `node_weight_mut_unchecked` / `edge_weight_mut_unchecked` leaves the very graph that
writing through `node_weight_mut` / `edge_weight_mut` leaves. -/
theorem c62_writes (hs : Storable s L rep) (hb : Built s L g k) {c : C} (hn : L.Node c) (fn : N → N) (fe : E → E) :
    (∃ g', g.modifyNode c fn = .ok (some g') ∧ g.modifyNodeUnchecked c fn = .ok g') ∧
    ∀ a, L.HasEdge c a → ∃ g', g.modifyEdge c a fe = .ok (some g') ∧ g.modifyEdgeUnchecked c a fe = .ok g' := by
  have hg := hs.good hb
  refine ⟨?_, fun a ha => ?_⟩
  · obtain ⟨w, hw⟩ := hg.total.node_some hn
    obtain ⟨x, y, hx, hy, rfl⟩ := hn
    refine ⟨{ g with nodes := g.nodes.writeIfPresent x y (fn w) }, ?_, ?_⟩
    rotate_left
    · simp only [Graph.modifyNodeUnchecked, hg.impl.toOffsetUnchecked hx hy, bind, Except.bind,
        hg.inv.nodes.getUnwrapUnchecked hx hy hw]
    · simp only [Graph.modifyNode, hg.impl.toOffset_coord hx hy, bind, Except.bind, hg.inv.nodes.uget _ hx hy hw]
  · obtain ⟨w, hw⟩ := hg.total.edge_some ha
    obtain ⟨t, ht⟩ := Option.isSome_iff_exists.1 ha.2
    have hmove := hg.impl.move hn (L.fwd a)
    obtain ⟨x, y, hx, hy, rfl⟩ := hn
    obtain ⟨arr, h1, h2⟩ := hg.impl.axis.getEdgeArr hg.inv a rfl
    refine ⟨{ g with edges := g.edges.set (g.s.axis.toIndex a) (arr.writeIfPresent x y (fe w)) }, ?_, ?_⟩
    rotate_left
    · simp only [Graph.modifyEdgeUnchecked, hg.impl.toOffsetUnchecked hx hy, bind, Except.bind, h1,
        h2.getUnwrapUnchecked hx hy hw]
    · simp only [Graph.modifyEdge, hg.impl.toOffset_coord hx hy, bind, Except.bind, hg.impl.axis.foward, hmove, ht, h1,
        h2.uget _ hx hy hw]

end

/-- Example: the 3 × 2 square graph: edge `+x` of (1,1) exists, and the unchecked reads return its stored weight 1011. -/
example : ∃ g : Graph Offset SquareAxis DSquareAxis Nat Nat,
    g.edgeWeightUnchecked ⟨1, 1⟩ .X = .ok 1011 ∧ g.edgeWeightUncheckedRaw ⟨1, 1⟩ 0 = .ok 1011 := by
  obtain ⟨g, hb⟩ := exSquare
  have hn : (squareLat 3 2).Node ⟨1, 1⟩ := ⟨1, 1, by decide, by decide, rfl⟩
  have he : (squareLat 3 2).HasEdge ⟨1, 1⟩ .X := ⟨hn, by decide⟩
  have hg := hb.good (.square m64 3 2)
  have hw : g.edgeWeight ⟨1, 1⟩ .X = .ok (some 1011) := by
    rw [edgeWeight_eq hg.impl hg.inv hg.total (.inl hn)]; rfl
  refine ⟨g, ?_, ?_⟩
  · obtain ⟨w, h1, h2⟩ := (c62_reads (.sound (.square m64 3 2)) hb hn).2 .X he
    rw [hw] at h1; cases h1; exact h2
  · obtain ⟨w, h1, h2⟩ := (c62_raw (.sound (.square m64 3 2)) hb (c := ⟨1, 1⟩) (o := ⟨1, 1⟩) (by rw [hg.shape]; rfl)).2 .X he
    rw [hw] at h1; cases h1
    rw [hg.shape] at h2
    exact h2

/-- Example: on a 4 × 4 axial map the move north-east from (0,1) is accepted, so the unchecked move agrees. -/
example : (hexAxR m64 (isizeTy m64) oddR 4 4).moveCoordUnchecked ⟨0, 1⟩ .NE = .ok ⟨0, 2⟩ :=
  c62_move (.sound (.hexAxR m64 _ oddR 4 4 (by constructor <;> decide))) (t := ⟨0, 2⟩) rfl

example : ∃ (g g' : Graph Offset SquareAxis DSquareAxis Nat Nat), Built (squareShape m64 3 2) (squareLat 3 2) g exK ∧
    g.modifyNodeUnchecked ⟨1, 1⟩ (· + 5) = .ok g' ∧ g.modifyNode ⟨1, 1⟩ (· + 5) = .ok (some g') := by
  obtain ⟨g, hb⟩ := exSquare
  obtain ⟨⟨g', h1, h2⟩, -⟩ := c62_writes (.sound (.square m64 3 2)) hb (c := ⟨1, 1⟩) ⟨1, 1, by decide, by decide, rfl⟩ (· + 5) id
  exact ⟨g, g', hb, h2, h1⟩

end LG
