import Verif.Lemmas.Tarjan
import Verif.Props.Events
import Verif.Props.Floyd
/- C116: `tarjan_scc` of petgraph. -/
set_option linter.unusedSectionVars false
namespace LG
section
variable {C A D N E : Type} [DecidableEq C] [DecidableEq A] [DecidableEq D]
variable {g : Graph C A D N E} {s : Shape C A D} {L : Lat C A D} {rep : C → Prop} {k : Contents C A N E}

/-- `neighbors` of a node yields nodes only. -/
def StaysIn (L : Lat C A D) (g : Graph C A D N E) : Prop :=
  ∀ c l b, L.Node c → Yields (neighborsNext g.s c) 0 l → b ∈ l → L.Node b

/-- Groups later in the list are never reached from earlier ones. -/
def SinksFirst (g : Graph C A D N E) (gs : List (List C)) : Prop :=
  ∀ a l b, gs = a ++ l :: b → ∀ x ∈ l, ∀ y, Walkable g x y → y ∈ l ∨ y ∈ a.flatten

theorem staysIn_iff (hs : Searchable s L rep) (hb : Built s L g k) : StaysIn L g ↔ ∀ c, L.Node c → ∀ y ∈ L.nbrs c, L.Node y := by
  have hT := hs.roams hb
  constructor
  · exact fun h c hc y hy => h c _ y hc (hT.neighbors (Lat.mem_nodes.2 hc)) hy
  · intro h c l b hc hl hbl
    rw [Yields.unique hl (hT.neighbors (Lat.mem_nodes.2 hc))] at hbl
    exact h c hc b hbl

theorem tar_numbered (hs : Searchable s L rep) (hb : Built s L g k) : Numbered g.toIndex L.nodes (nodeIdx g) (s.horizontal * s.vertical) := by
  obtain ⟨-, h2, -, -⟩ := c71_indices hs.toStorable hb
  have heq : ∀ {c}, L.Node c → g.toIndex c = .ok (nodeIdx g c) ∧ nodeIdx g c < s.horizontal * s.vertical ∧ g.fromIndex (nodeIdx g c) = .ok c := by
    intro c hc
    obtain ⟨i, q1, q2, q3⟩ := h2 c hc
    have : nodeIdx g c = i := by unfold nodeIdx; rw [q1]
    rw [this]
    exact ⟨q1, q2, q3⟩
  refine ⟨fun hc => (heq (Lat.mem_nodes.1 hc)).1, fun hc hd h => ?_, fun hc => (heq (Lat.mem_nodes.1 hc)).2.1⟩
  have e := (heq (Lat.mem_nodes.1 hc)).2.2
  rw [h, (heq (Lat.mem_nodes.1 hd)).2.2] at e
  cases e
  rfl

/-- **C116.** If `neighbors` of nodes yields nodes only, `tarjan_scc` ends without a fault and has one result: every node is in exactly
one group, no group is empty, two nodes are in the same group exactly if they lead to each other, and no group leads to a later one. -/
theorem c116_tarjan (hs : Searchable s L rep) (hb : Built s L g k) (hin : StaysIn L g) :
    ∃ sccs, (∀ gs, g.Tarjan gs ↔ gs = sccs) ∧ sccs.flatten.Nodup ∧ (∀ c, c ∈ sccs.flatten ↔ L.Node c) ∧ (∀ l ∈ sccs, l ≠ []) ∧
      RightSccs L g sccs ∧ SinksFirst g sccs := by
  have hT := hs.roams hb
  have hg := hs.toStorable.good hb
  have hi := hs.impl hg.constructible
  have hbd := (c71_indices hs.toStorable hb).1
  have hn : ∀ {a}, a ∈ L.nodes ↔ L.Node a := Lat.mem_nodes
  have hm : L.nodes.length + 1 ≤ 2 * g.s.m.half - 1 := by
    have := hi.small
    rw [hg.shape, Lat.nodes_eq, List.length_map, List.length_range]
    omega
  obtain ⟨sccs, k1, k2, k3, k4, k5, k6⟩ := tarjan_spec (tar_numbered hs hb) hm hT.neighbors
    (fun hc hy => hn.2 ((staysIn_iff hs hb).1 hin _ (hn.1 hc) _ hy)) hT.uniqueN hT.ids hT.uniqueIds
  refine ⟨sccs, fun gs => ?_, k2, fun c => (k3 c).trans hn, k4, fun a b ha hb' => ?_, fun a l b e x hx y hy => ?_⟩
  · rw [← k1]
    constructor
    · rintro ⟨n, h1, h2⟩
      rw [hbd] at h1
      cases h1
      exact h2
    · exact fun h => ⟨_, hbd, h⟩
  · rw [k5 a (hn.2 ha) b (hn.2 hb'), reached_inWalk hs hb ha, reached_inWalk hs hb hb']; rfl
  · have hxn : L.Node x := hn.1 ((k3 x).1 (by rw [e]; simp [hx]))
    exact k6 a l b e x hx y ((reached_inWalk hs hb hxn).2 hy)

/-- **C116.** And otherwise no run of it is completed: `to_index` of the neighbour outside faults. -/
theorem c116_exact (hs : Searchable s L rep) (hb : Built s L g k) : (∃ gs, g.Tarjan gs) ↔ StaysIn L g := by
  constructor
  · rintro ⟨gs, n, h1, h2⟩
    obtain ⟨hbd, -, -, h4⟩ := c71_indices hs.toStorable hb
    rw [hbd] at h1
    cases h1
    have hT := hs.roams hb
    have hg := hs.toStorable.good hb
    refine (staysIn_iff hs hb).2 fun c hc y hy => Lat.mem_nodes.1 (tarjan_off (nb := L.nbrs) (tar_numbered hs hb)
      (fun hc h => hT.uniqueN h (hT.neighbors hc)) (fun {c y i} hc hy hix => ?_) (fun h => hT.uniqueIds h hT.ids) h2 c (Lat.mem_nodes.2 hc) y hy)
    refine Lat.mem_nodes.2 (Classical.byContradiction fun hno => ?_)
    have hr := (hs.nbrs_ok hg.constructible (Lat.mem_nodes.1 hc) y hy).resolve_left hno
    rw [h4 y hr hno] at hix
    cases hix
  · intro h
    obtain ⟨sccs, k1, -⟩ := c116_tarjan hs hb h
    exact ⟨sccs, (k1 _).2 rfl⟩

/-- **C116.** On the shapes that obey the laws it always ends. -/
theorem c116_lawful (hs : Lawful s L rep) (hb : Built s L g k) : StaysIn L g :=
  (staysIn_iff hs.searchable hb).2 fun _ hc _ hy => (nbrs_back hs hc hy).1

/-- **C116.** On the connected maps (C68) the result, if there is one, is a single group of all the nodes. -/
theorem c116_single (hs : Single s L rep) (hb : Built s L g k) {a : C} (ha : L.Node a) {gs : List (List C)} (h : g.Tarjan gs) :
    ∃ l, gs = [l] ∧ l.Nodup ∧ ∀ c, c ∈ l ↔ L.Node c := by
  obtain ⟨sccs, k1, k2, k3, k4, k5, -⟩ := c116_tarjan hs.stored.searchable hb ((c116_exact hs.stored.searchable hb).1 ⟨gs, h⟩)
  cases (k1 _).1 h
  have hw : ∀ {x y}, L.Node x → L.Node y → Walkable g x y := fun hx hy => (c68_connected hs hb hx).1 hy
  match gs, k2, k3, k4, k5 with
  | [], _, k3, _, _ => exact absurd ((k3 a).2 ha) (by simp)
  | [l], k2, k3, _, _ => exact ⟨l, rfl, by simpa using k2, fun c => by simpa using k3 c⟩
  | l :: l' :: r, k2, k3, k4, k5 =>
    exfalso
    obtain ⟨x, hx⟩ := List.exists_mem_of_ne_nil l (k4 l (by simp))
    obtain ⟨y, hy⟩ := List.exists_mem_of_ne_nil l' (k4 l' (by simp))
    have hxn := (k3 x).1 (by simp [hx])
    have hyn := (k3 y).1 (by simp [hy])
    obtain ⟨l'', hm, h1, h2⟩ := (k5 x y hxn hyn).2 ⟨hw hxn hyn, hw hyn hxn⟩
    rw [List.flatten_cons, List.nodup_append] at k2
    obtain ⟨-, k21, k22⟩ := k2
    rcases List.mem_cons.1 hm with rfl | hm
    · exact k22 y h2 y (by simp [hy]) rfl
    · exact k22 x hx x (List.mem_flatten.2 ⟨l'', hm, h1⟩) rfl
end

/-- **C116.** On double coordinates it always ends, so that its result is right (`c116_tarjan`) where that of `kosaraju_scc` is wrong
(`c97_double`). -/
theorem c116_double {m : Machine} {h v : Nat} {N E : Type} {g : Graph DCoord AxisR AxisDR N E} {k : Contents DCoord AxisR N E}
    (hb : Built (dblShape m h v) (dblLat h v) g k) : StaysIn (dblLat h v) g := by
  refine (staysIn_iff (.double m h v) hb).2 fun c hc y hy => ?_
  obtain ⟨d, -, hd⟩ := List.mem_filterMap.1 hy
  obtain ⟨r1, r2, r3⟩ := dblNbr_iff.1 hd
  rw [dblLat_node] at hc ⊢
  unfold InDouble at hc ⊢
  unfold DStep at r1
  cases d <;> simp only [AxisDR.vec, AxisDR.west, Bool.false_eq_true, or_false, or_true] at r1 r3 <;> omega

/-- A flat-top offset map is left exactly if it has two columns and the row after the last would be an `upRow`. -/
theorem flat_stays {A N E : Type} [DecidableEq A] {even : Bool} {h v : Nat} {s : Shape Offset A AxisDQ} {L : Lat Offset A AxisDQ}
    {rep : Offset → Prop} {g : Graph Offset A AxisDQ N E} {c : Contents Offset A N E} (hs : Searchable s L rep) (hb : Built s L g c) (hv : 1 ≤ v)
    (hnode : ∀ x : Offset, L.Node x ↔ x.horizontal < h ∧ x.vertical < v) (hnbr : ∀ x d, L.nbr x d = qNbr even h v x d) :
    (∃ gs, g.Tarjan gs) ↔ h ≤ 1 ∨ upRow even v = false := by
  have hrow : upRow even v = !upRow even (v - 1) := by
    have := upRow_succ even (v - 1)
    rwa [show v - 1 + 1 = v by omega] at this
  rw [c116_exact hs hb, staysIn_iff hs hb]
  constructor
  · intro hin
    refine Classical.byContradiction fun hno => ?_
    obtain ⟨h1, h2⟩ := not_or.1 hno
    have h2 : upRow even (v - 1) = false := by simpa [hrow] using h2
    have hm : (⟨1, v⟩ : Offset) ∈ L.nbrs ⟨0, v - 1⟩ := by
      refine List.mem_filterMap.2 ⟨.NE, hs.base.dir.dirs_mem _, (hnbr _ _).trans (qNbr_iff.2 ?_)⟩
      simp only [h2, qStep]
      exact ⟨by omega, by omega, by omega, .inr trivial⟩
    have := (hnode _).1 (hin _ ((hnode _).2 ⟨by simp only; omega, by simp only; omega⟩) _ hm)
    simp only at this
    omega
  · intro hcase c hc y hy
    obtain ⟨d, -, hd⟩ := List.mem_filterMap.1 hy
    rw [hnbr] at hd
    rw [hnode] at hc ⊢
    obtain ⟨x, z⟩ := c
    have hq := qNbr_iff.1 hd
    simp only at hc
    by_cases hz : z = v - 1
    · subst hz
      cases hup : upRow even (v - 1) <;> cases d <;> simp [qStep, hup, hrow] at hq hcase ⊢ <;> omega
    · cases hup : upRow even z <;> cases d <;> simp [qStep, hup] at hq ⊢ <;> omega

/-- **C116.** On the flat-top offset maps it ends exactly if no column reaches past the top: there is one column only, or the row after the
last would not be an `upRow`. -/
theorem c116_flat {m : Machine} {k : Marker} {h v : Nat} (hv : 1 ≤ v) {N E : Type} :
    (∀ {g : Graph Offset AxisQ AxisDQ N E} {c}, Built (hexOffQ m k h v) (offLatQ k.isEven h v) g c →
      ((∃ gs, g.Tarjan gs) ↔ h ≤ 1 ∨ upRow k.isEven v = false)) ∧
    (∀ {g : Graph Offset AxisDQ AxisDQ N E} {c}, Built (hexOffQDirected m k h v) (offLatDQ k.isEven h v) g c →
      ((∃ gs, g.Tarjan gs) ↔ h ≤ 1 ∨ upRow k.isEven v = false)) :=
  ⟨fun hb => flat_stays (Single.hexOffQ m k h v).stored.searchable hb hv (fun _ => node_mk rfl) (fun _ _ => rfl),
    fun hb => flat_stays (Single.hexOffQDirected m k h v).stored.searchable hb hv (fun _ => node_mk rfl) (fun _ _ => rfl)⟩

/-- **C116.** On the looped flat-top offset maps it always ends. -/
theorem c116_flat_loop {m : Machine} {k : Marker} {h v : Nat} {N E : Type} {g : Graph Offset AxisQ AxisDQ N E} {c : Contents Offset AxisQ N E}
    (hb : Built (hexOffQLew m k h v) (offLatQLoop k.isEven h v) g c) : StaysIn (offLatQLoop k.isEven h v) g := by
  refine (staysIn_iff (Single.hexOffQLew m k h v).stored.searchable hb).2 fun c hc y hy => ?_
  obtain ⟨d, -, hd⟩ := List.mem_filterMap.1 hy
  rw [node_mk rfl]
  have := (qLewNbr_iff ((node_mk rfl).1 hc).1).1 hd
  exact ⟨this.1, this.2.1⟩

/-- A looped axial map is left exactly if it has a sheared row. -/
theorem axLew_stays {A D N E : Type} [DecidableEq A] [DecidableEq D] {even : Bool} {h v : Nat} {s : Shape Axial A D} {L : Lat Axial A D}
    {rep : Axial → Prop} {g : Graph Axial A D N E} {c : Contents Axial A N E} (hs : Searchable s L rep) (hb : Built s L g c) (hh : 1 ≤ h) (hv : 1 ≤ v)
    (hnode : ∀ x, L.Node x ↔ InAxial even h v x) (vec : D → Int × Int) (hnbr : ∀ x d, L.nbr x d = axLewNbr even h v x (vec d))
    (hvec : ∀ d, UnitVec (vec d)) (he : ∃ d, vec d = (1, 0)) :
    (∃ gs, g.Tarjan gs) ↔ v ≤ if even then 1 else 2 := by
  rw [c116_exact hs hb, staysIn_iff hs hb]
  have hmem : ∀ x y, y ∈ L.nbrs x ↔ ∃ d, axLewNbr even h v x (vec d) = some y := fun x y => by
    constructor
    · intro hy
      obtain ⟨d, -, hd⟩ := List.mem_filterMap.1 hy
      exact ⟨d, by rw [← hnbr]; exact hd⟩
    · rintro ⟨d, hd⟩
      exact List.mem_filterMap.2 ⟨d, hs.base.dir.dirs_mem _, by rw [hnbr]; exact hd⟩
  constructor
  · intro hin
    refine Classical.byContradiction fun hno => ?_
    have hsh : 1 ≤ shear even (v - 1 : Nat) := by unfold shear; cases even <;> simp_all <;> omega
    obtain ⟨d, hd⟩ := he
    have h1 : InAxial even h v ⟨(h : Int) - 1 - shear even (v - 1 : Nat), (v - 1 : Nat)⟩ := by unfold InAxial; simp only; omega
    have h2 := hin _ ((hnode _).2 h1) ⟨(h : Int) - shear even (v - 1 : Nat), (v - 1 : Nat)⟩ ((hmem _ _).2 ⟨d, by
      rw [hd]
      unfold axLewNbr displaced column
      simp only [Int.add_zero]
      rw [if_neg (by omega), if_neg (by omega), if_neg (by omega)]
      congr 2
      omega⟩)
    rw [hnode] at h2
    unfold InAxial at h2
    simp only at h2
    omega
  · intro hle x hx y hy
    obtain ⟨d, hd⟩ := (hmem x y).1 hy
    rw [hnode] at hx ⊢
    have hz : ∀ q : Int, 0 ≤ q → q < v → shear even q = 0 := fun q h1 h2 => by
      unfold shear
      cases even <;> simp only [Bool.false_eq_true, if_false, if_true] at hle ⊢ <;> omega
    have hcol := column_step hx (hvec d)
    unfold axLewNbr at hd
    simp only at hd
    split at hd
    · cases hd
    rename_i hrow
    have hq := hz (displaced x (vec d)).q (by omega) (by omega)
    unfold column at hd hcol
    rw [hq] at hd hcol
    unfold InAxial
    split at hd
    · cases hd; simp only; omega
    · split at hd <;> cases hd <;> first | omega | (simp only; omega)

/-- **C116.** On the looped axial maps it ends exactly if no row is sheared: at most one row, or two with the odd rows shoved. -/
theorem c116_axial {m : Machine} {t : CoordTy} {k : Marker} (hk : k.isFlatTop = false) {h v : Nat} (ht : Holds t k.isFlatTop h v)
    (hh : 1 ≤ h) (hv : 1 ≤ v) {N E : Type} :
    (∀ {g : Graph Axial AxisR AxisDR N E} {c}, Built (hexAxRLew m t k h v) (axLatRLoop k.isEven h v) g c →
      ((∃ gs, g.Tarjan gs) ↔ v ≤ if k.isEven then 1 else 2)) ∧
    (∀ {g : Graph Axial AxisQ AxisDQ N E} {c}, Built (hexAxQLew m t k h v) (axLatQLoop k.isEven h v) g c →
      ((∃ gs, g.Tarjan gs) ↔ v ≤ if k.isEven then 1 else 2)) ∧
    (∀ {g : Graph Axial AxisDR AxisDR N E} {c}, Built (hexAxRLewDirected m t k h v) (axLatDRLoop k.isEven h v) g c →
      ((∃ gs, g.Tarjan gs) ↔ v ≤ if k.isEven then 1 else 2)) ∧
    (∀ {g : Graph Axial AxisDQ AxisDQ N E} {c}, Built (hexAxQLewDirected m t k h v) (axLatDQLoop k.isEven h v) g c →
      ((∃ gs, g.Tarjan gs) ↔ v ≤ if k.isEven then 1 else 2)) := by
  have hR : ∀ d, UnitVec (axialStepR d) := fun d => by cases d <;> simp [axialStepR, UnitVec]
  have hQ : ∀ d, UnitVec (axialStepQ d) := fun d => by cases d <;> simp [axialStepQ, UnitVec]
  refine ⟨fun hb => ?_, fun hb => ?_, fun hb => ?_, fun hb => ?_⟩
  · exact axLew_stays (Single.hexAxRLew m t k hk h v ht).stored.searchable hb hh hv (fun x => (inAxial_iff.trans axIn_iff).symm) axialStepR
      (fun _ _ => rfl) hR ⟨.E, rfl⟩
  · exact axLew_stays (Single.hexAxQLew m t k hk h v ht).stored.searchable hb hh hv (fun x => (inAxial_iff.trans axIn_iff).symm) axialStepQ
      (fun _ _ => rfl) hQ ⟨.NE, rfl⟩
  · exact axLew_stays (Single.hexAxRLewDirected m t k hk h v ht).stored.searchable hb hh hv (fun x => (inAxial_iff.trans axIn_iff).symm) axialStepR
      (fun _ _ => rfl) hR ⟨.E, rfl⟩
  · exact axLew_stays (Single.hexAxQLewDirected m t k hk h v ht).stored.searchable hb hh hv (fun x => (inAxial_iff.trans axIn_iff).symm) axialStepQ
      (fun _ _ => rfl) hQ ⟨.NE, rfl⟩

/-- The square of 3 × 2 nodes: one group of all of them. -/
example : ∃ (g : Graph Offset SquareAxis DSquareAxis Nat Nat) (l : List Offset), Built (squareShape m64 3 2) (squareLat 3 2) g exK ∧
    g.Tarjan [l] ∧ (⟨2, 1⟩ : Offset) ∈ l ∧ (⟨0, 0⟩ : Offset) ∈ l ∧ RightSccs (squareLat 3 2) g [l] := by
  obtain ⟨g, hb⟩ := exSquare
  have hs := Lawful.square m64 3 2
  have h0 : (squareLat 3 2).Node ⟨0, 0⟩ := ⟨0, 0, by decide, by decide, rfl⟩
  obtain ⟨gs, h1, -, -, -, h2, -⟩ := c116_tarjan hs.searchable hb (c116_lawful hs hb)
  obtain ⟨l, rfl, -, h4⟩ := c116_single (.sound (.square m64 3 2)) hb h0 ((h1 gs).2 rfl)
  exact ⟨g, l, hb, (h1 _).2 rfl, (h4 _).2 ⟨2, 1, by decide, by decide, rfl⟩, (h4 _).2 h0, h2⟩

/-- Double coordinates, 3 × 3: there is a result and it is right, that of `kosaraju_scc` is not. -/
example : ∃ (g : Graph DCoord AxisR AxisDR Nat Nat) (gs gs' : List (List DCoord)),
    (∃ st, newWith (dblShape m64 3 3) (fun n _ => (n, n + 1)) (fun n _ _ => (n, n + 1)) 0 = .ok (g, st)) ∧
    g.Tarjan gs ∧ RightSccs (dblLat 3 3) g gs ∧ SinksFirst g gs ∧ Kosaraju g.rovable gs' ∧ ¬ RightSccs (dblLat 3 3) g gs' := by
  obtain ⟨g, h1, h2⟩ := c57_new_with (.double m64 3 3) (by decide) (fun (n : Nat) _ => (n, n + 1)) (fun (n : Nat) _ _ => (n, n + 1)) 0
  obtain ⟨gs, h3, -, -, -, h4, h5⟩ := c116_tarjan (.double m64 3 3) h2 (c116_double h2)
  obtain ⟨gs', h6, -⟩ := c97_groups_partial (.double m64 3 3) h2
  have hk := (h6 gs').2 rfl
  exact ⟨g, gs, gs', ⟨_, h1⟩, (h3 gs).2 rfl, h4, h5, hk, c97_double h2 (.inl ⟨by decide, by decide⟩) hk⟩

/-- The looped axial maps of two columns with the odd rows shoved: no run with three rows, one with two rows. -/
example : (∃ g : Graph Axial AxisR AxisDR Nat Nat,
      (∃ st, newWith (hexAxRLew m64 (isizeTy m64) oddR 2 3) (fun n _ => (n, n + 1)) (fun n _ _ => (n, n + 1)) 0 = .ok (g, st)) ∧ ¬ ∃ gs, g.Tarjan gs) ∧
    ∃ g : Graph Axial AxisR AxisDR Nat Nat,
      (∃ st, newWith (hexAxRLew m64 (isizeTy m64) oddR 2 2) (fun n _ => (n, n + 1)) (fun n _ _ => (n, n + 1)) 0 = .ok (g, st)) ∧ ∃ gs, g.Tarjan gs := by
  have ht : Holds (isizeTy m64) oddR.isFlatTop 2 3 := .isize (by decide) (by decide)
  have ht' : Holds (isizeTy m64) oddR.isFlatTop 2 2 := .isize (by decide) (by decide)
  obtain ⟨g, h1, h2⟩ := c57_new_with (Single.hexAxRLew m64 (isizeTy m64) oddR rfl 2 3 ht).storable (by decide) (fun (n : Nat) _ => (n, n + 1))
    (fun (n : Nat) _ _ => (n, n + 1)) 0
  obtain ⟨g', h1', h2'⟩ := c57_new_with (Single.hexAxRLew m64 (isizeTy m64) oddR rfl 2 2 ht').storable (by decide) (fun (n : Nat) _ => (n, n + 1))
    (fun (n : Nat) _ _ => (n, n + 1)) 0
  exact ⟨⟨g, ⟨_, h1⟩, fun h => absurd (((c116_axial rfl ht (by decide) (by decide)).1 h2).1 h) (by decide)⟩,
    ⟨g', ⟨_, h1'⟩, ((c116_axial rfl ht' (by decide) (by decide)).1 h2').2 (by decide)⟩⟩

/-- The flat-top offset maps of two columns and two rows: a run with one marker only, since with the other (1,2) is a neighbour of (0,1). -/
example : ∃ g g' : Graph Offset AxisQ AxisDQ Nat Nat,
      (∃ st, newWith (hexOffQ m64 oddQ 2 2) (fun n _ => (n, n + 1)) (fun n _ _ => (n, n + 1)) 0 = .ok (g, st)) ∧ (∃ gs, g.Tarjan gs) ∧
      (∃ st, newWith (hexOffQ m64 evenQ 2 2) (fun n _ => (n, n + 1)) (fun n _ _ => (n, n + 1)) 0 = .ok (g', st)) ∧ ¬ StaysIn (offLatQ evenQ.isEven 2 2) g' := by
  obtain ⟨g, h1, h2⟩ := c57_new_with (Single.hexOffQ m64 oddQ 2 2).storable (by decide) (fun (n : Nat) _ => (n, n + 1)) (fun (n : Nat) _ _ => (n, n + 1)) 0
  obtain ⟨g', h1', h2'⟩ := c57_new_with (Single.hexOffQ m64 evenQ 2 2).storable (by decide) (fun (n : Nat) _ => (n, n + 1)) (fun (n : Nat) _ _ => (n, n + 1)) 0
  refine ⟨g, g', ⟨_, h1⟩, ((c116_flat (by decide)).1 h2).2 (.inr (by decide)), ⟨_, h1'⟩, fun h => ?_⟩
  exact absurd (((c116_flat (by decide)).1 h2').1 ((c116_exact (Single.hexOffQ m64 evenQ 2 2).stored.searchable h2').2 h)) (by decide)

/-- With the loop there is a run. -/
example : ∃ g : Graph Offset AxisQ AxisDQ Nat Nat,
    (∃ st, newWith (hexOffQLew m64 evenQ 2 2) (fun n _ => (n, n + 1)) (fun n _ _ => (n, n + 1)) 0 = .ok (g, st)) ∧ ∃ l, g.Tarjan [l] ∧ (⟨1, 1⟩ : Offset) ∈ l := by
  have hs := Single.hexOffQLew m64 evenQ 2 2
  obtain ⟨g, h1, h2⟩ := c57_new_with hs.storable (by decide) (fun (n : Nat) _ => (n, n + 1)) (fun (n : Nat) _ _ => (n, n + 1)) 0
  obtain ⟨gs, hg⟩ := (c116_exact hs.stored.searchable h2).2 (c116_flat_loop h2)
  obtain ⟨l, rfl, -, h3⟩ := c116_single hs h2 (a := ⟨0, 0⟩) ⟨0, 0, by decide, by decide, rfl⟩ hg
  exact ⟨g, ⟨_, h1⟩, l, hg, (h3 _).2 ⟨1, 1, by decide, by decide, rfl⟩⟩
end LG
