import Verif.Lemmas.Count
/- Iterator states that can be reached, size hints there, and fusedness. -/
set_option linter.unusedVariables false
set_option linter.unusedSectionVars false
namespace LG

theorem Reaches.inv {σ α : Type} {next : σ → Res (Option α × σ)} {P : σ → Prop} {s s' : σ} (h : Reaches next s s')
    (h0 : P s) (hs : ∀ {s o s'}, P s → next s = .ok (o, s') → P s') : P s' := by
  induction h with
  | refl => exact h0
  | step _ h1 ih => exact hs ih h1

/-- `next` returning `None` leaves the iterator in a state where it returns `None` again. -/
def FusedAt {σ α : Type} (next : σ → Res (Option α × σ)) (s : σ) : Prop :=
  ∀ s', next s = .ok (none, s') → ∃ s'', next s' = .ok (none, s'')

section
variable {C A D N E σ α : Type} [DecidableEq C] [DecidableEq A] [DecidableEq D]
variable {g : Graph C A D N E} {s : Shape C A D} {L : Lat C A D} {rep : C → Prop} {k : Contents C A N E}

theorem nodeIndicesNext_le (hi : ImplBase s L rep) {i j : Nat} {o : Option C} (h : i ≤ L.width * L.height)
    (hn : nodeIndicesNext s i = .ok (o, j)) : j ≤ L.width * L.height := by
  by_cases hlt : i < L.width * L.height
  · rw [nodeIndicesNext_lt hi hlt] at hn
    simp only [Except.ok.injEq, Prod.mk.injEq] at hn
    omega
  · rw [nodeIndicesNext_ge hi hlt] at hn
    simp only [Except.ok.injEq, Prod.mk.injEq] at hn
    omega

theorem nodeRefsNext_le (hi : ImplBase g.s L rep) (hinv : Inv g L k) (ht : Total L k) {i j : Nat} {o : Option (C × N)}
    (h : i ≤ L.width * L.height) (hn : nodeRefsNext g i = .ok (o, j)) : j ≤ L.width * L.height := by
  by_cases hlt : i < L.width * L.height
  · obtain ⟨w, _, h2⟩ := nodeRefsNext_lt hi hinv ht hlt
    rw [h2] at hn
    simp only [Except.ok.injEq, Prod.mk.injEq] at hn
    omega
  · rw [nodeRefsNext_ge hi hlt] at hn
    simp only [Except.ok.injEq, Prod.mk.injEq] at hn
    omega

theorem neighborsNext_le (hi : ImplBase s L rep) {c : C} (hc : L.Node c) : ∀ (n j : Nat), j + n = L.dirs.length →
    ∀ {o : Option C} {j' : Nat}, neighborsNext s c j = .ok (o, j') → j' ≤ L.dirs.length
  | 0, j, h, o, j', hn => by
    rw [neighborsNext_ge hi (by omega)] at hn
    simp only [Except.ok.injEq, Prod.mk.injEq] at hn
    omega
  | n + 1, j, h, o, j', hn => by
    have hj : j < L.dirs.length := by omega
    cases ht : L.nbr c L.dirs[j] with
    | none =>
      rw [neighborsNext_none hi hc hj ht] at hn
      exact neighborsNext_le hi hc n (j + 1) (by omega) hn
    | some t =>
      rw [neighborsNext_some hi hc hj ht] at hn
      simp only [Except.ok.injEq, Prod.mk.injEq] at hn
      omega

theorem neighborsNext_fused (hi : ImplBase s L rep) {c : C} (hc : L.Node c) : ∀ (n j : Nat), j + n = L.dirs.length →
    ∀ {j' : Nat}, neighborsNext s c j = .ok (none, j') → j' = L.dirs.length
  | 0, j, h, j', hn => by
    rw [neighborsNext_ge hi (by omega)] at hn
    simp only [Except.ok.injEq, Prod.mk.injEq] at hn
    omega
  | n + 1, j, h, j', hn => by
    have hj : j < L.dirs.length := by omega
    cases ht : L.nbr c L.dirs[j] with
    | none =>
      rw [neighborsNext_none hi hc hj ht] at hn
      exact neighborsNext_fused hi hc n (j + 1) (by omega) hn
    | some t =>
      rw [neighborsNext_some hi hc hj ht] at hn
      simp at hn

/-- State of an edge iterator over the node `c = L.coord x y`. -/
structure EdgesAt (g : Graph C A D N E) (L : Lat C A D) (dt : Dt) (it : EdgesIt C) : Prop where
  node : ∃ x y, x < L.width ∧ y < L.height ∧ it.node = L.coord x y ∧ it.offset = ⟨x, y⟩
  marker : it.dt = dt
  le : it.state ≤ edgesBound g.s dt

theorem edgesNext_at (hi : ImplBase g.s L rep) (hd : DirLaws L) {dt : Dt} : ∀ (n : Nat) {it : EdgesIt C},
    EdgesAt g L dt it → it.state + n = edgesBound g.s dt →
    ∀ {o : Option (EdgeRef C D E)} {it' : EdgesIt C}, edgesNext g it = .ok (o, it') →
    EdgesAt g L dt it' ∧ it'.node = it.node ∧ (o = none → it'.state = edgesBound g.s dt)
  | 0, it, ha, h, o, it', hn => by
    have hdt := ha.marker
    rw [edgesNext_ge (by rw [hdt]; omega)] at hn
    simp only [Except.ok.injEq, Prod.mk.injEq] at hn
    obtain ⟨rfl, rfl⟩ := hn
    exact ⟨ha, rfl, fun _ => by omega⟩
  | n + 1, it, ha, h, o, it', hn => by
    have hb := edgesBound_le (g := g) hi hd dt
    have hdt := ha.marker
    have hj : it.state < L.dirs.length := by omega
    have hc : L.Node it.node := by obtain ⟨x, y, h1, h2, h3, _⟩ := ha.node; exact ⟨x, y, h1, h2, h3⟩
    have hnext : EdgesAt g L dt { it with state := it.state + 1 } := ⟨ha.node, ha.marker, by simp only; omega⟩
    cases ht : L.nbr it.node L.dirs[it.state] with
    | none =>
      rw [edgesNext_none hi hc (by rw [hdt]; omega) hj ht] at hn
      exact edgesNext_at hi hd n hnext (by simp only; omega) hn
    | some t =>
      rw [edgesNext, dif_pos (by rw [hdt]; omega)] at hn
      simp only [hi.axis.dirFromIndex _ hj, bind, Except.bind, hi.move hc, ht] at hn
      split at hn
      · cases hn
      · simp only [Except.ok.injEq, Prod.mk.injEq] at hn
        obtain ⟨rfl, rfl⟩ := hn
        exact ⟨hnext, rfl, by simp⟩

/-- What remains to come from an edge iterator. -/
theorem edgesAt_yields (hl : LatLaws L) (hi : ImplBase g.s L rep) (hinv : Inv g L k) (ht : Total L k) {dt : Dt}
    (hp : dt.plain g.s.axis.directed ∨ g.s.m.mode = .release) {it : EdgesIt C} (ha : EdgesAt g L dt it) :
    ∃ l, Yields (edgesNext g) it l ∧ l.length ≤ edgesBound g.s dt - it.state := by
  obtain ⟨⟨x, y, hx, hy, h1, h2⟩, hdt, hle⟩ := ha
  obtain ⟨node, offset, state, dt'⟩ := it
  simp only at h1 h2 hdt hle
  subst h1 h2 hdt
  have hlen : ∀ f : D → Option (EdgeRef C D E),
      (((L.dirs.take (edgesBound g.s dt')).drop state).filterMap f).length ≤ edgesBound g.s dt' - state := by
    intro f
    refine Nat.le_trans (List.length_filterMap_le _ _) ?_
    rw [List.length_drop, List.length_take]
    omega
  by_cases hpl : dt'.plain g.s.axis.directed
  · exact ⟨_, edges_yields_plain hl hi hinv ht hx hy hpl (n := edgesBound g.s dt' - state) (by omega), hlen _⟩
  · have hm := hp.resolve_left hpl
    simp only [Dt.plain, Decidable.not_not] at hpl
    obtain ⟨rfl, hdir⟩ := hpl
    rw [hi.axis.directed] at hdir
    refine ⟨_, edges_yields_of hi hl.dir hx hy (fun d t =>
      (k.edge (L.key t (L.opp d) (L.coord x y)).1 (L.key t (L.opp d) (L.coord x y)).2).map
        fun w => ⟨t, L.coord x y, w, d⟩) ?_ (edgesBound g.s (.dir .incoming) - state) state (by omega), hlen _⟩
    intro st d t _ hst hn
    obtain ⟨w, h1, h2⟩ := edgesMake_incoming hl hi hinv ht hdir hm hx hy hn hst
    exact ⟨_, by rw [h1]; rfl, h2⟩

/-- The same for the iterator over the axes of a node, on any shape. -/
theorem edgesAt_axis_yields (hd : DirLaws L) (hi : ImplBase g.s L rep) (hinv : Inv g L k) (ht : Total L k)
    {it : EdgesIt C} (ha : EdgesAt g L .axis it) :
    ∃ l, Yields (edgesNext g) it l ∧ l.length ≤ edgesBound g.s .axis - it.state := by
  obtain ⟨⟨x, y, hx, hy, h1, h2⟩, hdt, hle⟩ := ha
  obtain ⟨node, offset, state, dt'⟩ := it
  simp only at h1 h2 hdt hle
  subst h1 h2 hdt
  refine ⟨_, edges_yields_of hi hd hx hy (dt := .axis) (fun d t =>
    (k.edge (L.coord x y) (L.ax d)).map fun w => (⟨L.coord x y, t, w, d⟩ : EdgeRef C D E)) (by
      intro st d t hlt hst hn
      have hb : edgesBound g.s .axis = L.axes.length := by rw [← hi.axis.count]; rfl
      have hf := dirs_axis hd (by omega) hst
      have hk : L.key (L.coord x y) d t = (L.coord x y, L.ax d) := by unfold Lat.key; rw [if_pos hf]
      have hnode : L.Node (L.coord x y) := ⟨x, y, hx, hy, rfl⟩
      obtain ⟨w, hw⟩ := ht.edge_some (c := L.coord x y) (a := L.ax d) ⟨hnode, by rw [hf, hn]; rfl⟩
      exact ⟨_, by rw [hw]; rfl, edgesMake_of hd hi hinv hx hy (t := t) (by rw [hk]; exact hnode) hst (by simp [Dt.plain])
        (by rw [hk]; exact hw)⟩) (edgesBound g.s .axis - state) state (by omega), ?_⟩
  refine Nat.le_trans (List.length_filterMap_le _ _) ?_
  rw [List.length_drop, List.length_take]
  show _ ≤ edgesBound g.s .axis - state
  omega

/-- State of an `edge_references` iterator. -/
structure EdgeRefsAt (g : Graph C A D N E) (L : Lat C A D) (it : EdgeRefsIt C) : Prop where
  le : it.index ≤ L.width * L.height
  e : ∀ e, it.e = some e → EdgesAt g L .axis e

theorem edgesNewUnchecked_at (hi : ImplBase g.s L rep) {i : Nat} (h : i < L.width * L.height) :
    EdgesAt g L .axis (⟨L.at i, ⟨i / L.height, i % L.height⟩, 0, .axis⟩ : EdgesIt C) :=
  ⟨⟨_, _, div_lt_w h, mod_lt_h h, rfl, rfl⟩, rfl, Nat.zero_le _⟩

theorem edgeRefsNext_at (hl : DirLaws L) (hi : ImplBase g.s L rep) (hinv : Inv g L k) (ht : Total L k) :
    ∀ (n : Nat) {it : EdgeRefsIt C}, EdgeRefsAt g L it → it.index + n = L.width * L.height →
    ∀ {o : Option (EdgeRef C D E)} {it' : EdgeRefsIt C}, edgeRefsNext g it = .ok (o, it') →
    EdgeRefsAt g L it' ∧ (o = none → edgeRefsNext g it' = .ok (none, it'))
  | n, ⟨e, i⟩, ha, h, o, it', hn => by
    simp only at h
    -- polling the current node
    have poll : (∃ r e', edgeRefsPoll g e = .ok (some r, e') ∧ ∀ x, e' = some x → EdgesAt g L .axis x) ∨
        (∃ e', edgeRefsPoll g e = .ok (none, e') ∧ (∀ x, e' = some x → EdgesAt g L .axis x) ∧
          edgeRefsPoll g e' = .ok (none, e')) := by
      cases e with
      | none => exact .inr ⟨none, rfl, by simp, rfl⟩
      | some x =>
        have hx := ha.e x rfl
        obtain ⟨l, hy, _⟩ := edgesAt_axis_yields hl hi hinv ht hx
        have key : ∀ {o it'}, edgesNext g x = .ok (o, it') → _ := fun {o it'} h' =>
          edgesNext_at hi hl (dt := .axis) (edgesBound g.s .axis - x.state) hx (by have := hx.le; omega) (o := o) (it' := it') h'
        cases hy with
        | @done _ x' hd =>
          refine .inr ⟨some x', by simp only [edgeRefsPoll, hd, bind, Except.bind], ?_, ?_⟩
          · rintro y ⟨⟩; exact (key hd).1
          · have hge := edgesNext_ge (g := g) (it := x') (by rw [(key hd).1.marker, (key hd).2.2 rfl]; omega)
            simp only [edgeRefsPoll, hge, bind, Except.bind]
        | @step _ x' r l' hd _ =>
          refine .inl ⟨r, some x', by simp only [edgeRefsPoll, hd, bind, Except.bind], ?_⟩
          rintro y ⟨⟩; exact (key hd).1
    rcases poll with ⟨r, e', h1, h2⟩ | ⟨e', h1, h2, h3⟩
    · rw [edgeRefsNext_step hi h1] at hn
      simp only [Except.ok.injEq, Prod.mk.injEq] at hn
      obtain ⟨rfl, rfl⟩ := hn
      exact ⟨⟨ha.le, h2⟩, by simp⟩
    · by_cases hlt : i < L.width * L.height
      · rw [edgeRefsNext_skip hi h1 hlt] at hn
        match n, h with
        | 0, h => omega
        | n + 1, h =>
          refine edgeRefsNext_at hl hi hinv ht n ⟨by simp only; omega, ?_⟩ (by simp only; omega) hn
          rintro y ⟨⟩; exact edgesNewUnchecked_at hi hlt
      · rw [edgeRefsNext_end hi h1 hlt] at hn
        simp only [Except.ok.injEq, Prod.mk.injEq] at hn
        obtain ⟨rfl, rfl⟩ := hn
        exact ⟨⟨ha.le, h2⟩, fun _ => edgeRefsNext_end hi h3 hlt⟩

theorem nodeEdges_length_le (L : Lat C A D) (k : Contents C A N E) (c : C) : (nodeEdges L k c).length ≤ L.axes.length :=
  List.length_filterMap_le _ _

theorem flatMap_nodeEdges_length (L : Lat C A D) (k : Contents C A N E) : ∀ (l : List C),
    (l.flatMap (nodeEdges L k)).length ≤ l.length * L.axes.length
  | [] => by simp
  | c :: l => by
    have h1 := nodeEdges_length_le L k c
    have h2 := flatMap_nodeEdges_length L k l
    rw [List.flatMap_cons, List.length_append, List.length_cons, Nat.add_mul]
    omega

theorem axes_le_dirs (hd : DirLaws L) : L.axes.length ≤ L.dirs.length := by
  cases h : L.directed with
  | true => rw [hd.dirs_dir h, List.length_map]; omega
  | false => rw [hd.dirs_und h, List.length_append, List.length_map]; omega

/-- What remains to come from an `edge_references` iterator. -/
theorem edgeRefsAt_yields (hl : DirLaws L) (hi : ImplBase g.s L rep) (hinv : Inv g L k) (ht : Total L k)
    {it : EdgeRefsIt C} (ha : EdgeRefsAt g L it) :
    ∃ l, Yields (edgeRefsNext g) it l ∧ l.length ≤ (L.width * L.height - it.index) * L.axes.length +
      (match it.e with | none => 0 | some e => edgesBound g.s .axis - e.state) := by
  obtain ⟨e, i⟩ := it
  have hle := ha.le
  simp only at hle
  have rest : ∀ {e e' : Option (EdgesIt C)}, edgeRefsPoll g e = .ok (none, e') → _ := fun {e e'} hp =>
    edgeRefs_yields_from hl hi hinv ht (L.width * L.height - i) i (by omega) (e := e) (e' := e') hp
  have hlen := flatMap_nodeEdges_length L k ((List.range' i (L.width * L.height - i)).map L.at)
  rw [List.length_map, List.length_range'] at hlen
  cases e with
  | none => exact ⟨_, rest rfl, by simpa using hlen⟩
  | some x =>
    obtain ⟨l, hy, h2⟩ := edgesAt_axis_yields hl hi hinv ht (ha.e x rfl)
    refine ⟨_, edgeRefs_append hi rest hy, ?_⟩
    rw [List.length_append]
    simp only
    omega

end
end LG
