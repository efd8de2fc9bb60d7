import Verif.Props.LegacyHistory
import Verif.Lemmas.Stored
/- C93: `SquareGraph::new_raw` and the array accessors. C53: exactly which calls read out of bounds. -/
set_option linter.unusedSectionVars false
namespace LG.Sq
section
variable {N E σ α : Type}
variable {g : G N E} {k : Cfg} {s : Grid} {h v : Nat} {c : Contents NodeIx Axis N E}

/-- What the type `Array2` guarantees: as many elements as the sides say, and the product of the non-zero sides is at most
`isize::MAX`. -/
structure Arr.Whole (m : Machine) (a : Arr α) : Prop where
  len : a.data.length = a.rows * a.cols
  small : (if a.rows = 0 then 1 else a.rows) * (if a.cols = 0 then 1 else a.cols) < m.half

/-- The dimensions that belong together: `h × v` nodes, one edge fewer along an axis that is not looped. -/
structure Dims (k : Cfg) (h v : Nat) (nodes : Arr N) (ho ve : Arr E) : Prop where
  nodes : nodes.rows = h ∧ nodes.cols = v
  horizontal : (if k.loopH then ho.rows = h else ho.rows + 1 = h) ∧ ho.cols = v
  vertical : ve.rows = h ∧ (if k.loopV then ve.cols = v else ve.cols + 1 = v)

/-- The weights three arrays hold. -/
def rawContents (nodes : Arr N) (ho ve : Arr E) : Contents NodeIx Axis N E where
  node n := nodes.get n.horizontal n.vertical
  edge n a := match a with
    | .horizontal => ho.get n.horizontal n.vertical
    | .vertical => ve.get n.horizontal n.vertical

theorem checkGen_iff {nodes : Arr N} {ho ve : Arr E} :
    G.checkGen ⟨k, nodes, ho, ve⟩ = true ↔ Dims k nodes.rows nodes.cols nodes ho ve := by
  unfold G.checkGen
  simp only [Bool.and_eq_true, decide_eq_true_eq]
  constructor
  · rintro ⟨⟨⟨h1, h2⟩, h3⟩, h4⟩
    refine ⟨⟨rfl, rfl⟩, ⟨?_, h2.symm⟩, ⟨h3.symm, ?_⟩⟩
    · split <;> simp_all
    · split <;> simp_all
  · rintro ⟨-, ⟨h1, h2⟩, ⟨h3, h4⟩⟩
    refine ⟨⟨⟨?_, h2.symm⟩, h3.symm⟩, ?_⟩
    · split <;> simp_all
    · split <;> simp_all

/-- **C93.** `new_raw` keeps the arrays. In release it checks nothing; in debug it returns exactly if the dimensions belong together
and panics otherwise. -/
theorem c93_new_raw (nodes : Arr N) (ho ve : Arr E) :
    (k.m.mode = .release → G.newRaw k nodes ho ve = .ok ⟨k, nodes, ho, ve⟩) ∧
    (Dims k nodes.rows nodes.cols nodes ho ve → G.newRaw k nodes ho ve = .ok ⟨k, nodes, ho, ve⟩) ∧
    (k.m.mode = .debug → ¬ Dims k nodes.rows nodes.cols nodes ho ve → G.newRaw k nodes ho ve = .error .panic) := by
  refine ⟨?_, ?_, ?_⟩
  · intro hm
    unfold G.newRaw debugAssert
    rw [hm]
    simp [bind, Except.bind]
  · intro hd
    unfold G.newRaw
    simp only [debugAssert_true (checkGen_iff.2 hd), bind, Except.bind]
  · intro hm hd
    rw [← checkGen_iff, Bool.not_eq_true] at hd
    unfold G.newRaw debugAssert
    simp only [hd, hm, bind, Except.bind, Bool.false_eq_true, if_false]

/-- Arrays of a graph of 2 columns of 3, looped horizontally. -/
def exNodes : Arr Nat := ⟨2, 3, [0, 1, 2, 10, 11, 12]⟩
def exHo : Arr Nat := ⟨2, 3, [100, 101, 102, 110, 111, 112]⟩
def exVe : Arr Nat := ⟨2, 2, [200, 201, 210, 211]⟩

example : G.newRaw exCfg exNodes exHo exVe = .ok ⟨exCfg, exNodes, exHo, exVe⟩ ∧
    G.newRaw exCfg exNodes exHo exHo = .error .panic ∧
    G.newRaw exCfgR exNodes exHo exHo = .ok ⟨exCfgR, exNodes, exHo, exHo⟩ :=
  ⟨(c93_new_raw _ _ _).2.1 ⟨by decide, by decide, by decide⟩,
    (c93_new_raw _ _ _).2.2 rfl fun hd => absurd hd.vertical (by decide), (c93_new_raw _ _ _).1 rfl⟩

theorem Arr.Whole.is {m : Machine} {a : Arr α} (w : a.Whole m) : ArrIs a a.rows a.cols a.get := ⟨rfl, rfl, w.len, fun _ _ => rfl⟩

theorem ArrIs.ext {a b : Arr α} {r r' : Nat} {f f' : Nat → Nat → Option α} (ha : ArrIs a r r' f) (hb : ArrIs b r r' f')
    (he : ∀ i j, i < r → j < r' → f i j = f' i j) : a = b := by
  obtain ⟨ar, ac, ad⟩ := a
  obtain ⟨br, bc, bd⟩ := b
  have e1 : ar = r := ha.rows
  have e2 : ac = r' := ha.cols
  have e3 : br = r := hb.rows
  have e4 : bc = r' := hb.cols
  subst e1 e2 e3 e4
  have hl1 : ad.length = br * bc := ha.len
  have hl2 : bd.length = br * bc := hb.len
  congr
  apply List.ext_getElem?
  intro p
  by_cases hp : p < br * bc
  · have h1 := ha.get (p / bc) (p % bc)
    have h2 := hb.get (p / bc) (p % bc)
    rw [he _ _ (div_lt_w hp) (mod_lt_h hp), ← h2] at h1
    unfold Arr.get Arr.slot at h1
    simpa only [if_pos (And.intro (div_lt_w hp) (mod_lt_h hp)), Option.bind_some, idx_eta] using h1
  · rw [List.getElem?_eq_none (by omega), List.getElem?_eq_none (by omega)]

theorem Dims.sides {nodes : Arr N} {ho ve : Arr E} (hd : Dims k h v nodes ho ve) :
    ho.rows = (k.grid h v).mh ∧ ve.cols = (k.grid h v).mv := by
  have h1 := hd.horizontal.1
  have h2 := hd.vertical.2
  unfold Grid.mh Grid.mv Cfg.grid
  simp only
  constructor
  · split <;> simp_all <;> omega
  · split <;> simp_all <;> omega

/-- **C93.** The documented contract suffices: three arrays whose dimensions belong together make a graph that `new_with` also
makes, with the weights the arrays hold. (So everything proved of `Built` graphs holds of it.) -/
theorem c93_built [Nonempty E] {nodes : Arr N} {ho ve : Arr E} (hn : nodes.Whole k.m) (hh : ho.Whole k.m) (hv : ve.Whole k.m)
    (hd : Dims k h v nodes ho ve) (ph : 0 < h) (pv : 0 < v) :
    Built k h v ⟨k, nodes, ho, ve⟩ (rawContents nodes ho ve) := by
  have hsm : h * v < k.m.half := by
    have := hn.small
    rw [hd.nodes.1, hd.nodes.2, if_neg (by omega), if_neg (by omega)] at this
    exact this
  have hne : 0 < nodes.data.length := by rw [hn.len, hd.nodes.1, hd.nodes.2]; exact Nat.mul_pos ph pv
  let n0 : N := nodes.data[0]
  let e0 : E := Classical.choice inferInstance
  let fn : Nat → Nat → N := fun i j => (nodes.get i j).getD n0
  let fe : Nat → Nat → Axis → E := fun i j a => match a with
    | .horizontal => (ho.get i j).getD e0
    | .vertical => (ve.get i j).getD e0
  obtain ⟨g, hg, hs⟩ := newWith_ok k ph pv hsm (fun u i j => (fn i j, u)) (fun u i j a => (fe i j a, u)) ()
  have hw := c44_node_weight hg
  have he := c44_edge_weight hg
  have hb := Built.new hg pv
  have an := hn.is
  have ah := hh.is
  have av := hv.is
  rw [hd.nodes.1, hd.nodes.2] at an
  rw [hd.sides.1, hd.horizontal.2] at ah
  rw [hd.sides.2, hd.vertical.1] at av
  have e1 : g.nodes = nodes := by
    refine ArrIs.ext hs.nodes an ?_
    intro i j hi hj
    obtain ⟨w, hx⟩ := Option.isSome_iff_exists.1 (an.isSome.2 ⟨hi, hj⟩)
    have h1 := hw ⟨i, j⟩
    rw [if_pos ⟨hi, hj⟩] at h1
    rw [← hs.nodes.get]
    show g.nodeWeight ⟨i, j⟩ = _
    rw [h1]
    show some ((nodes.get i j).getD n0) = nodes.get i j
    rw [hx]; rfl
  have e2 : g.horizontal = ho := by
    refine ArrIs.ext hs.horizontal ah ?_
    intro i j hi hj
    obtain ⟨w, hx⟩ := Option.isSome_iff_exists.1 (ah.isSome.2 ⟨hi, hj⟩)
    have h1 := he ⟨⟨i, j⟩, .horizontal⟩
    rw [if_pos (Grid.hasEdge_h.2 ⟨hi, hj⟩)] at h1
    rw [← hs.horizontal.get]
    show g.edgeWeight ⟨⟨i, j⟩, .horizontal⟩ = _
    rw [h1]
    show some ((ho.get i j).getD e0) = ho.get i j
    rw [hx]; rfl
  have e3 : g.vertical = ve := by
    refine ArrIs.ext hs.vertical av ?_
    intro i j hi hj
    obtain ⟨w, hx⟩ := Option.isSome_iff_exists.1 (av.isSome.2 ⟨hi, hj⟩)
    have h1 := he ⟨⟨i, j⟩, .vertical⟩
    rw [if_pos (Grid.hasEdge_v.2 ⟨hi, hj⟩)] at h1
    rw [← hs.vertical.get]
    show g.edgeWeight ⟨⟨i, j⟩, .vertical⟩ = _
    rw [h1]
    show some ((ve.get i j).getD e0) = ve.get i j
    rw [hx]; rfl
  have hgk := hs.cfg
  have hg' : g = ⟨k, nodes, ho, ve⟩ := by
    cases g; simp_all
  rw [hg'] at hb
  have hq := weights_eq hb
  generalize (runCalls _ _ (callSeq (k.grid h v)) () emptyContents).1 = c at hb hq
  have : c = rawContents nodes ho ve := by
    obtain ⟨cn, ce⟩ := c
    unfold rawContents
    congr
    · funext n
      exact (hq n .horizontal).1.symm
    · funext n a
      refine (hq n a).2.symm.trans ?_
      cases a <;> rfl
  rw [← this]
  exact hb

example : Built exCfg 2 3 (⟨exCfg, exNodes, exHo, exVe⟩ : G Nat Nat) (rawContents exNodes exHo exVe) ∧
    (rawContents exNodes exHo exVe).edge ⟨1, 1⟩ .vertical = some 211 :=
  ⟨c93_built ⟨by decide, by decide⟩ ⟨by decide, by decide⟩ ⟨by decide, by decide⟩ ⟨by decide, by decide, by decide⟩ (by decide)
    (by decide), by decide⟩

theorem Built.whole (hb : Built k h v g c) : g.nodes.Whole k.m ∧ g.horizontal.Whole k.m ∧ g.vertical.Whole k.m := by
  have hs := hb.stores
  have hsm : h * v < k.m.half := hs.small
  have p1 : 0 < h := hs.pos_h
  have p2 : 0 < v := hs.pos_v
  have h1 : (k.grid h v).mh ≤ h := (k.grid h v).mh_le
  have h2 : (k.grid h v).mv ≤ v := (k.grid h v).mv_le
  refine ⟨⟨?_, ?_⟩, ⟨?_, ?_⟩, ⟨?_, ?_⟩⟩
  · rw [hs.nodes.len, hs.nodes.rows, hs.nodes.cols]
  · rw [hs.nodes.rows, hs.nodes.cols]
    exact nz_le p1 (Nat.le_refl v) p2 hsm
  · rw [hs.horizontal.len, hs.horizontal.rows, hs.horizontal.cols]
  · rw [hs.horizontal.rows, hs.horizontal.cols]
    exact nz_le' p2 h1 p1 hsm
  · rw [hs.vertical.len, hs.vertical.rows, hs.vertical.cols]
  · rw [hs.vertical.rows, hs.vertical.cols]
    exact nz_le p1 h2 p2 hsm

theorem Built.dims (hb : Built k h v g c) : Dims k h v g.nodes g.horizontal g.vertical := by
  have hs := hb.stores
  have p1 : 0 < h := hs.pos_h
  have p2 : 0 < v := hs.pos_v
  refine ⟨⟨hs.nodes.rows, hs.nodes.cols⟩, ⟨?_, hs.horizontal.cols⟩, ⟨hs.vertical.rows, ?_⟩⟩
  · rw [hs.horizontal.rows]
    unfold Grid.mh Cfg.grid
    simp only
    split <;> omega
  · rw [hs.vertical.cols]
    unfold Grid.mv Cfg.grid
    simp only
    split <;> omega

/-- **C93.** Exactly which triples of arrays are graphs a program can have: those whose dimensions belong together, with at least
one node. `nodes()`, `horizontal()` and `vertical()` show the weights at `[horizontal][vertical]`. -/
theorem c93_exact [Nonempty E] : Built k h v g c ↔ g.k = k ∧ 0 < h ∧ 0 < v ∧ Dims k h v g.nodes g.horizontal g.vertical ∧
    g.nodes.Whole k.m ∧ g.horizontal.Whole k.m ∧ g.vertical.Whole k.m ∧
    (∀ i j, g.nodes.get i j = c.node ⟨i, j⟩) ∧ (∀ i j, g.horizontal.get i j = c.edge ⟨i, j⟩ .horizontal) ∧
    (∀ i j, g.vertical.get i j = c.edge ⟨i, j⟩ .vertical) := by
  constructor
  · intro hb
    have hs := hb.stores
    obtain ⟨w1, w2, w3⟩ := hb.whole
    exact ⟨hs.cfg, hs.pos_h, hs.pos_v, hb.dims, w1, w2, w3, hs.nodes.get, hs.horizontal.get, hs.vertical.get⟩
  · rintro ⟨e, p1, p2, hd, w1, w2, w3, g1, g2, g3⟩
    have hb := c93_built w1 w2 w3 hd p1 p2
    obtain ⟨gk, gn, gh, gv⟩ := g
    obtain rfl : gk = k := e
    have : rawContents gn gh gv = c := by
      obtain ⟨cn, ce⟩ := c
      unfold rawContents
      congr
      · funext n
        exact g1 _ _
      · funext n a
        cases a
        · exact g2 _ _
        · exact g3 _ _
    rw [← this]
    exact hb

/-- **C93.** Replacing a whole array through `nodes_mut`, `horizontal_mut` or `vertical_mut` by one of the same sides replaces those
weights and nothing else. (Other sides: `c53_nodes_mut_ub`, `c93_edges`.) -/
theorem c93_replace [Nonempty E] (hb : Built k h v g c) :
    (∀ a : Arr N, a.Whole k.m → a.rows = h → a.cols = v →
      Built k h v { g with nodes := a } { c with node := fun n => a.get n.horizontal n.vertical }) ∧
    (∀ a : Arr E, a.Whole k.m → a.rows = g.horizontal.rows → a.cols = g.horizontal.cols →
      Built k h v { g with horizontal := a }
        { c with edge := fun n x => if x = .horizontal then a.get n.horizontal n.vertical else c.edge n x }) ∧
    (∀ a : Arr E, a.Whole k.m → a.rows = g.vertical.rows → a.cols = g.vertical.cols →
      Built k h v { g with vertical := a }
        { c with edge := fun n x => if x = .vertical then a.get n.horizontal n.vertical else c.edge n x }) := by
  obtain ⟨e, p1, p2, hd, w1, w2, w3, g1, g2, g3⟩ := c93_exact.1 hb
  refine ⟨?_, ?_, ?_⟩
  · intro a w hr hc
    exact c93_exact.2 ⟨e, p1, p2, ⟨⟨hr, hc⟩, hd.horizontal, hd.vertical⟩, w, w2, w3, fun _ _ => rfl, g2, g3⟩
  · intro a w hr hc
    refine c93_exact.2 ⟨e, p1, p2, ⟨hd.nodes, ?_, hd.vertical⟩, w1, w, w3, g1, fun _ _ => rfl, g3⟩
    show (if k.loopH then a.rows = h else a.rows + 1 = h) ∧ a.cols = v
    rw [hr, hc]
    exact hd.horizontal
  · intro a w hr hc
    refine c93_exact.2 ⟨e, p1, p2, ⟨hd.nodes, hd.horizontal, ?_⟩, w1, w2, w, g1, g2, fun _ _ => rfl⟩
    show a.rows = h ∧ (if k.loopV then a.cols = v else a.cols + 1 = v)
    rw [hr, hc]
    exact hd.vertical

example : Built exCfg 2 3 (⟨exCfg, exNodes, exHo, ⟨2, 2, [9, 8, 7, 6]⟩⟩ : G Nat Nat)
    { rawContents exNodes exHo exVe with edge := fun n x => if x = .vertical then
        (⟨2, 2, [9, 8, 7, 6]⟩ : Arr Nat).get n.horizontal n.vertical else (rawContents exNodes exHo exVe).edge n x } :=
  (c93_replace (c93_built (k := exCfg) (nodes := exNodes) (ho := exHo) (ve := exVe) ⟨by decide, by decide⟩ ⟨by decide, by decide⟩
    ⟨by decide, by decide⟩ ⟨by decide, by decide, by decide⟩ (by decide) (by decide))).2.2 ⟨2, 2, [9, 8, 7, 6]⟩
    ⟨by decide, by decide⟩ rfl rfl

/-! ### Arrays of any sides -/

/-- What an access out of bounds is: caught in debug builds, undefined behaviour in release builds. -/
def oob (m : Machine) : Fault := if m.mode = .debug then .panic else .ub

theorem oob_eq (m : Machine) : (unreachableDebugChecked m : Res α) = .error (oob m) := by
  unfold unreachableDebugChecked oob
  cases m.mode <;> rfl

/-- The edge reference for going from `n` in direction `d`, or the fault. -/
def refAny (g : G N E) (s : Grid) (n : NodeIx) (d : Dir) : Res (Option (Ref E)) :=
  match s.step n d with
  | none => .ok none
  | some t => match g.edgeWeight (Grid.key n t d) with
    | some w => .ok (some ⟨Grid.key n t d, w, d.isFwd, g.k.sizeInfo s.h s.v⟩)
    | none => .error (oob g.k.m)

theorem refAny_none {n : NodeIx} {d : Dir} (h : s.step n d = none) : refAny g s n d = .ok none := by
  unfold refAny
  rw [h]

theorem refAny_h {n t : NodeIx} {d : Dir} (hd : d = .backward .horizontal ∨ d = .foward .horizontal) (h : s.step n d = some t) :
    refAny g s n d = (g.horizontal.uget g.k.m (Grid.key n t d).node.horizontal (Grid.key n t d).node.vertical).bind
      fun w => .ok (some ⟨Grid.key n t d, w, d.isFwd, g.k.sizeInfo s.h s.v⟩) := by
  unfold refAny Arr.uget
  rw [h]
  have : g.edgeWeight (Grid.key n t d)
      = g.horizontal.get (Grid.key n t d).node.horizontal (Grid.key n t d).node.vertical := by
    rcases hd with rfl | rfl <;> rfl
  simp only [this, oob_eq]
  cases g.horizontal.get (Grid.key n t d).node.horizontal (Grid.key n t d).node.vertical <;> rfl

theorem refAny_v {n t : NodeIx} {d : Dir} (hd : d = .backward .vertical ∨ d = .foward .vertical) (h : s.step n d = some t) :
    refAny g s n d = (g.vertical.uget g.k.m (Grid.key n t d).node.horizontal (Grid.key n t d).node.vertical).bind
      fun w => .ok (some ⟨Grid.key n t d, w, d.isFwd, g.k.sizeInfo s.h s.v⟩) := by
  unfold refAny Arr.uget
  rw [h]
  have : g.edgeWeight (Grid.key n t d)
      = g.vertical.get (Grid.key n t d).node.horizontal (Grid.key n t d).node.vertical := by
    rcases hd with rfl | rfl <;> rfl
  simp only [this, oob_eq]
  cases g.vertical.get (Grid.key n t d).node.horizontal (Grid.key n t d).node.vertical <;> rfl

theorem armAny (eh : g.nodes.rows = s.h) (ev : g.nodes.cols = s.v) (z : Sizes g.k s) {n : NodeIx} (hn : s.Node n) {st : Nat} {d : Dir}
    (hd : Grid.dirs[st]? = some d) : EdgesOf.arm g ⟨n, st⟩ = refAny g s n d := by
  have h1 := hn.1
  have h2 := hn.2
  have f1 := z.fit_h
  have f2 := z.fit_v
  have p1 := z.pos_h
  have p2 := z.pos_v
  replace eh : g.horizontalNodeCount = s.h := eh
  replace ev : g.verticalNodeCount = s.v := ev
  unfold Grid.dirs at hd
  match st, hd with
  | 0, hd =>
    simp only [List.getElem?_cons_zero, Option.some.injEq] at hd
    subst hd
    unfold EdgesOf.arm
    simp only [eh, ev]
    have hst := step_left hn
    by_cases h : n.horizontal = 0
    · rw [if_pos h]
      rw [if_neg (by omega)] at hst
      rw [← z.loopH]
      by_cases hl : s.loopH
      · rw [if_pos hl] at hst
        rw [refAny_h (.inl rfl) hst]
        simp only [hl, Bool.not_true, Bool.false_eq_true, if_false, usub_ok (m := g.k.m) (show 1 ≤ s.h by omega), bind,
          Except.bind]
        rw [new_of_lt (by omega)]
        rfl
      · rw [if_neg hl] at hst
        rw [refAny_none hst]
        simp [hl]
    · rw [if_neg h]
      rw [if_pos h] at hst
      rw [refAny_h (.inl rfl) hst]
      simp only [left_ok z hn h, bind, Except.bind]
      rfl
  | 1, hd =>
    simp only [List.getElem?_cons_zero, List.getElem?_cons_succ, Option.some.injEq] at hd
    subst hd
    unfold EdgesOf.arm
    simp only [eh, ev, debugAssert_true (decide_eq_true h1), bind, Except.bind]
    have hst := step_right hn
    rw [← z.loopH]
    by_cases hl : s.loopH
    · obtain ⟨t, ht⟩ : ∃ t, s.step n (.foward .horizontal) = some t := by
        rw [hst, if_pos hl]; split <;> exact ⟨_, rfl⟩
      rw [refAny_h (.inr rfl) ht]
      simp only [hl, Bool.not_true, Bool.false_eq_true, if_false]
      rfl
    · simp only [hl, Bool.not_false, if_true, uadd1 z (.inl h1)]
      by_cases h : n.horizontal + 1 = s.h
      · rw [if_pos h]
        rw [if_neg (by omega), if_neg hl] at hst
        rw [refAny_none hst]
      · rw [if_neg h]
        rw [if_pos (by omega)] at hst
        rw [refAny_h (.inr rfl) hst]
        rfl
  | 2, hd =>
    simp only [List.getElem?_cons_zero, List.getElem?_cons_succ, Option.some.injEq] at hd
    subst hd
    unfold EdgesOf.arm
    simp only [eh, ev]
    have hst := step_down hn
    by_cases h : n.vertical = 0
    · rw [if_pos h]
      rw [if_neg (by omega)] at hst
      rw [← z.loopV]
      by_cases hl : s.loopV
      · rw [if_pos hl] at hst
        rw [refAny_v (.inl rfl) hst]
        simp only [hl, Bool.not_true, Bool.false_eq_true, if_false, usub_ok (m := g.k.m) (show 1 ≤ s.v by omega), bind,
          Except.bind]
        rw [new_of_lt (by omega)]
        rfl
      · rw [if_neg hl] at hst
        rw [refAny_none hst]
        simp [hl]
    · rw [if_neg h]
      rw [if_pos h] at hst
      rw [refAny_v (.inl rfl) hst]
      simp only [down_ok z hn h, bind, Except.bind]
      rfl
  | 3, hd =>
    simp only [List.getElem?_cons_zero, List.getElem?_cons_succ, Option.some.injEq] at hd
    subst hd
    unfold EdgesOf.arm
    simp only [eh, ev, debugAssert_true (decide_eq_true h2), bind, Except.bind]
    have hst := step_up hn
    rw [← z.loopV]
    by_cases hl : s.loopV
    · obtain ⟨t, ht⟩ : ∃ t, s.step n (.foward .vertical) = some t := by
        rw [hst, if_pos hl]; split <;> exact ⟨_, rfl⟩
      rw [refAny_v (.inr rfl) ht]
      simp only [hl, Bool.not_true, Bool.false_eq_true, if_false]
      rfl
    · simp only [hl, Bool.not_false, if_true, uadd1 z (.inr h2)]
      by_cases h : n.vertical + 1 = s.v
      · rw [if_pos h]
        rw [if_neg (by omega), if_neg hl] at hst
        rw [refAny_none hst]
      · rw [if_neg h]
        rw [if_pos (by omega)] at hst
        rw [refAny_v (.inr rfl) hst]
        rfl
  | st + 4, hd => simp at hd

theorem edgesAny (eh : g.nodes.rows = s.h) (ev : g.nodes.cols = s.v) (z : Sizes g.k s) {n : NodeIx} (hn : s.Node n) :
    ∀ (r st : Nat), st + r = 4 →
    ((∀ d ∈ Grid.dirs.drop st, ∀ t, s.step n d = some t → (g.edgeWeight (Grid.key n t d)).isSome) →
      ∃ l, Yields (EdgesOf.next g) ⟨n, st⟩ l ∧
        l.map (fun x => (x.id, some x.weight)) = (Grid.dirs.drop st).filterMap fun d =>
          (s.step n d).map fun t => (Grid.key n t d, g.edgeWeight (Grid.key n t d))) ∧
    ((∃ d ∈ Grid.dirs.drop st, ∃ t, s.step n d = some t ∧ g.edgeWeight (Grid.key n t d) = none) →
      Fails (EdgesOf.next g) ⟨n, st⟩ (oob g.k.m))
  | 0, st, h => by
    have : Grid.dirs.drop st = [] := List.drop_eq_nil_of_le (by simp [Grid.dirs]; omega)
    rw [this]
    exact ⟨fun _ => ⟨[], .done (edgesOfNext_ge (by show ¬ st < 4; omega)), rfl⟩, fun ⟨d, hd, _⟩ => nomatch hd⟩
  | r + 1, st, h => by
    obtain ⟨ih1, ih2⟩ := edgesAny eh ev z hn r (st + 1) (by omega)
    obtain ⟨d, h1, h2⟩ := dirs_drop (show st < 4 by omega)
    have ha := armAny eh ev z hn h1
    have h4 : st < 4 := by omega
    rw [h2]
    have skip : refAny g s n d = .ok none → EdgesOf.next g ⟨n, st⟩ = EdgesOf.next g ⟨n, st + 1⟩ := by
      intro e
      conv => lhs; unfold EdgesOf.next
      rw [dif_pos h4]
      simp only [ha, e, bind, Except.bind]
    have take : ∀ x, refAny g s n d = .ok (some x) → EdgesOf.next g ⟨n, st⟩ = .ok (some x, ⟨n, st + 1⟩) := by
      intro x e
      unfold EdgesOf.next
      rw [dif_pos h4]
      simp only [ha, e, bind, Except.bind]
    have bad : ∀ f, refAny g s n d = .error f → EdgesOf.next g ⟨n, st⟩ = .error f := by
      intro f e
      unfold EdgesOf.next
      rw [dif_pos h4]
      simp only [ha, e, bind, Except.bind]
    constructor
    · intro hall
      obtain ⟨l, hl, hm⟩ := ih1 fun d' hd' => hall d' (List.mem_cons_of_mem _ hd')
      rw [List.filterMap_cons]
      cases hs : s.step n d with
      | none => exact ⟨l, hl.congr_head (skip (refAny_none hs)), hm⟩
      | some t =>
        obtain ⟨w, hw⟩ := Option.isSome_iff_exists.1 (hall d List.mem_cons_self t hs)
        refine ⟨_ :: l, .step (take ⟨Grid.key n t d, w, d.isFwd, g.k.sizeInfo s.h s.v⟩ ?_) hl, ?_⟩
        · unfold refAny
          simp only [hs, hw]
        · simp only [Option.map_some, List.map_cons, hm, hw]
    · rintro ⟨d', hd', t, ht, hw⟩
      cases hs : s.step n d with
      | none =>
        refine .congr_head (skip (refAny_none hs)) (ih2 ⟨d', ?_, t, ht, hw⟩)
        rcases List.mem_cons.1 hd' with rfl | hd'
        · rw [hs] at ht; cases ht
        · exact hd'
      | some t' =>
        cases hw' : g.edgeWeight (Grid.key n t' d) with
        | none =>
          refine .now (bad _ ?_)
          unfold refAny
          simp only [hs, hw']
        | some w =>
          refine .later (take ⟨Grid.key n t' d, w, d.isFwd, g.k.sizeInfo s.h s.v⟩ ?_) (ih2 ⟨d', ?_, t, ht, hw⟩)
          · unfold refAny
            simp only [hs, hw']
          · rcases List.mem_cons.1 hd' with rfl | hd'
            · rw [hs] at ht; cases ht
              rw [hw'] at hw; cases hw
            · exact hd'

/-- **C93.** A graph made of any arrays whatever, and any node of it: draining `edges(n)` gives the links of `n` in order, each with
what `edge_weight` answers for it, exactly if `edge_weight` has an answer for each of them; otherwise some call of `next` panics in
debug and reads out of bounds in release. -/
theorem c93_edges (eh : g.nodes.rows = s.h) (ev : g.nodes.cols = s.v) (z : Sizes g.k s) {n : NodeIx} (hn : s.Node n) :
    ((∃ l, Yields (EdgesOf.next g) (g.edges n) l) ↔
      ∀ d ∈ Grid.dirs, ∀ t, s.step n d = some t → (g.edgeWeight (Grid.key n t d)).isSome) ∧
    (∀ l, Yields (EdgesOf.next g) (g.edges n) l → l.map (fun x => (x.id, some x.weight)) = Grid.dirs.filterMap fun d =>
      (s.step n d).map fun t => (Grid.key n t d, g.edgeWeight (Grid.key n t d))) ∧
    ((∃ d ∈ Grid.dirs, ∃ t, s.step n d = some t ∧ g.edgeWeight (Grid.key n t d) = none) →
      Fails (EdgesOf.next g) (g.edges n) (oob g.k.m)) := by
  obtain ⟨h1, h2⟩ := edgesAny eh ev z hn 4 0 rfl
  have key : (∃ l, Yields (EdgesOf.next g) (g.edges n) l) →
      ∀ d ∈ Grid.dirs, ∀ t, s.step n d = some t → (g.edgeWeight (Grid.key n t d)).isSome := by
    intro hl d hd t ht
    cases hw : g.edgeWeight (Grid.key n t d) with
    | some w => rfl
    | none => exact ((h2 ⟨d, hd, t, ht, hw⟩).not_yields hl).elim
  refine ⟨⟨key, fun hall => (h1 hall).imp fun _ h => h.1⟩, ?_, h2⟩
  intro l hl
  obtain ⟨l', hl', hm⟩ := h1 (key ⟨l, hl⟩)
  cases hl.unique hl'
  exact hm

/-- A vertical array one row short: `new_raw` takes it in release, the edges of `(0, 0)` are all there, those of `(0, 2)` are not. -/
example : (∃ l, Yields (EdgesOf.next (⟨exCfgR, exNodes, exHo, ⟨2, 1, [7, 8]⟩⟩ : G Nat Nat)) ⟨⟨0, 0⟩, 0⟩ l) ∧
    Fails (EdgesOf.next (⟨exCfgR, exNodes, exHo, ⟨2, 1, [7, 8]⟩⟩ : G Nat Nat)) ⟨⟨0, 2⟩, 0⟩ .ub := by
  have z : Sizes exCfgR (exCfgR.grid 2 3) := ⟨by decide, by decide, by decide, by decide, by decide, rfl, rfl⟩
  refine ⟨(c93_edges (g := ⟨exCfgR, exNodes, exHo, ⟨2, 1, [7, 8]⟩⟩) (s := exCfgR.grid 2 3) rfl rfl z (n := ⟨0, 0⟩) (by decide)).1.2 ?_,
    (c93_edges (g := ⟨exCfgR, exNodes, exHo, ⟨2, 1, [7, 8]⟩⟩) (s := exCfgR.grid 2 3) rfl rfl z (n := ⟨0, 2⟩) (by decide)).2.2
      ⟨.backward .vertical, by decide, ⟨0, 1⟩, by decide, by decide⟩⟩
  have hst : ∀ d ∈ Grid.dirs, (exCfgR.grid 2 3).step ⟨0, 0⟩ d =
      [some ⟨1, 0⟩, some ⟨1, 0⟩, none, some ⟨0, 1⟩][Grid.dirs.findIdx (· = d)]?.join := by decide
  intro d hd t ht
  rw [hst d hd] at ht
  simp only [Grid.dirs, List.mem_cons, List.not_mem_nil, or_false] at hd
  rcases hd with rfl | rfl | rfl | rfl <;> cases ht <;> decide

/-- **C53.** `get_edge_reference` on any graph whatever: it asks `get_edge_id`, and faults (panic in debug, read out of bounds in
release) exactly if that names an edge for which `edge_weight` has no answer. -/
theorem c53_get_edge_reference_exact (g : G N E) (n : NodeIx) (d : Dir) : g.getEdgeReference n d =
    match g.getEdgeId n d with
    | .error f => .error f
    | .ok none => .ok none
    | .ok (some (e, fo)) => match g.edgeWeight e with
      | some w => .ok (some ⟨e, w, fo, g.k.sizeInfo g.horizontalNodeCount g.verticalNodeCount⟩)
      | none => .error (oob g.k.m) := by
  have hax : ∀ e fo, g.getEdgeId n d = .ok (some (e, fo)) → (e.axis = .horizontal ↔ d.isHorizontal = true) := by
    intro e fo he
    unfold G.getEdgeId at he
    rcases d with a | a <;> cases a <;> simp only [bind, Except.bind] at he <;> grind [Dir.isHorizontal, Axis.isHorizontal]
  unfold G.getEdgeReference
  cases he : g.getEdgeId n d with
  | error f => rfl
  | ok o =>
    match o, he with
    | none, _ => rfl
    | some (e, fo), he =>
      have h1 := hax e fo he
      simp only [bind, Except.bind]
      unfold G.edgeWeight Arr.uget
      rw [oob_eq]
      rcases hea : e.axis with _ | _
      · rw [hea] at h1
        simp only [if_pos (h1.1 rfl)]
        cases g.horizontal.get e.node.horizontal e.node.vertical <;> rfl
      · rw [hea] at h1
        simp only [if_neg (fun hh => by cases h1.2 hh : ¬ d.isHorizontal = true)]
        cases g.vertical.get e.node.horizontal e.node.vertical <;> rfl

theorem assert_false (m : Machine) : debugAssert m false = if m.mode = .debug then .error (oob m) else .ok () := by
  unfold debugAssert oob
  cases m.mode <;> rfl

theorem uadd_release {m : Machine} (hm : ¬ m.mode = .debug) {a b : Nat} (ha : a < 2 * m.half) (hb : b ≤ a) (h0 : 0 < b) :
    ∃ x, uadd m a 1 = .ok x ∧ x ≠ b := by
  have : m.mode = .release := by cases h : m.mode with | debug => exact absurd h hm | release => rfl
  unfold uadd overflow
  rw [this]
  split
  · exact ⟨_, rfl, by omega⟩
  · exact ⟨_, rfl, by omega⟩

/-- A coordinate off the graph: the iteration of `edges` faults. -/
theorem edges_off (hb : Built k h v g c) {n : NodeIx} (hx : n.horizontal < k.ix) (hy : n.vertical < k.ix)
    (hn : ¬ (k.grid h v).Node n) : Fails (EdgesOf.next g) (g.edges n) (oob k.m) := by
  have hs := hb.stores
  have p1 : 0 < h := hs.pos_h
  have p2 : 0 < v := hs.pos_v
  have q1 := k.ix_le
  have eh : g.horizontalNodeCount = h := hs.nodes.rows
  have ev : g.verticalNodeCount = v := hs.nodes.cols
  have ek := hs.cfg
  have mh : (k.grid h v).mh ≤ h := by unfold Grid.mh Cfg.grid; simp only; split <;> omega
  have mv : (k.grid h v).mv ≤ v := by unfold Grid.mv Cfg.grid; simp only; split <;> omega
  have oh : ∀ i j, (h ≤ i ∨ v ≤ j) → g.horizontal.uget k.m i j = .error (oob k.m) := by
    intro i j hij
    rw [hs.horizontal.uget_out k.m (by show ¬ (_ ∧ j < v); omega), oob_eq]
  have ov : ∀ i j, (h ≤ i ∨ v ≤ j) → g.vertical.uget k.m i j = .error (oob k.m) := by
    intro i j hij
    rw [hs.vertical.uget_out k.m (by show ¬ (i < h ∧ _); omega), oob_eq]
  -- one state of the iterator, by what its arm does
  have stp : ∀ st, st < 4 → EdgesOf.arm g ⟨n, st⟩ = .error (oob k.m) → Fails (EdgesOf.next g) ⟨n, st⟩ (oob k.m) := by
    intro st h4 e
    refine .now ?_
    unfold EdgesOf.next
    rw [dif_pos h4]
    simp only [e, bind, Except.bind]
  have go : ∀ st, st < 4 → (EdgesOf.arm g ⟨n, st⟩ = .error (oob k.m) ∨ ∃ o, EdgesOf.arm g ⟨n, st⟩ = .ok o) →
      Fails (EdgesOf.next g) ⟨n, st + 1⟩ (oob k.m) → Fails (EdgesOf.next g) ⟨n, st⟩ (oob k.m) := by
    intro st h4 e hf
    rcases e with e | ⟨o, e⟩
    · exact stp st h4 e
    · cases o with
      | none =>
        refine .congr_head ?_ hf
        conv => lhs; unfold EdgesOf.next
        rw [dif_pos h4]
        simp only [e, bind, Except.bind]
      | some x =>
        refine .later (a := x) (s' := ⟨n, st + 1⟩) ?_ hf
        unfold EdgesOf.next
        rw [dif_pos h4]
        simp only [e, bind, Except.bind]
  have ug : ∀ (a : Arr E) i j, a.uget k.m i j = .error (oob k.m) ∨ ∃ w, a.uget k.m i j = .ok w := by
    intro a i j
    unfold Arr.uget
    rw [oob_eq]
    cases a.get i j with
    | none => exact .inl rfl
    | some w => exact .inr ⟨w, rfl⟩
  have a0 : EdgesOf.arm g ⟨n, 0⟩ = .error (oob k.m) ∨ ∃ o, EdgesOf.arm g ⟨n, 0⟩ = .ok o := by
    unfold EdgesOf.arm
    simp only [eh, ev, ek, bind, Except.bind]
    by_cases h0 : n.horizontal = 0
    · rw [if_pos h0]
      split
      · exact .inr ⟨_, rfl⟩
      · simp only [usub_ok (m := k.m) (show 1 ≤ h by omega)]
        rcases ug g.horizontal (k.new (h - 1)) n.vertical with e | ⟨w, e⟩
        · simp only [e]; exact .inl trivial
        · simp only [e]; exact .inr ⟨_, rfl⟩
    · rw [if_neg h0]
      simp only [NodeIx.left, usub_ok (m := k.m) (show 1 ≤ n.horizontal by omega), bind, Except.bind]
      rcases ug g.horizontal (k.new (n.horizontal - 1)) n.vertical with e | ⟨w, e⟩
      · simp only [e]; exact .inl trivial
      · simp only [e]; exact .inr ⟨_, rfl⟩
  refine go 0 (by omega) a0 ?_
  by_cases hh : n.horizontal < h
  · have hv : v ≤ n.vertical := by
      apply Decidable.byContradiction
      intro hc
      exact hn ⟨hh, by show n.vertical < v; omega⟩
    have hsm : h * v < k.m.half := hs.small
    have : h ≤ h * v := Nat.le_mul_of_pos_right h p2
    refine go 1 (by omega) ?_ (go 2 (by omega) ?_ (stp 3 (by omega) ?_))
    · unfold EdgesOf.arm
      simp only [eh, ek, debugAssert_true (decide_eq_true hh), bind, Except.bind, uadd_ok (m := k.m) (a := n.horizontal) (b := 1) (by omega), oh n.horizontal n.vertical (.inr hv)]
      split
      · split
        · exact .inr ⟨_, rfl⟩
        · exact .inl rfl
      · exact .inl rfl
    · unfold EdgesOf.arm
      simp only [eh, ev, ek, bind, Except.bind]
      rw [if_neg (by omega)]
      simp only [NodeIx.down, usub_ok (m := k.m) (show 1 ≤ n.vertical by omega), bind, Except.bind]
      rcases ug g.vertical n.horizontal (k.new (n.vertical - 1)) with e | ⟨w, e⟩
      · simp only [e]; exact .inl trivial
      · simp only [e]; exact .inr ⟨_, rfl⟩
    · unfold EdgesOf.arm
      simp only [eh, ev, ek, bind, Except.bind, decide_eq_false (show ¬ n.vertical < v by omega), assert_false]
      by_cases hm : k.m.mode = .debug
      · rw [if_pos hm]
      · rw [if_neg hm]
        obtain ⟨x, e1, e2⟩ := uadd_release hm (a := n.vertical) (b := v) (by omega) hv p2
        simp only [e1, if_neg e2, ov n.horizontal n.vertical (.inr hv)]
        split <;> rfl
  · refine stp 1 (by omega) ?_
    unfold EdgesOf.arm
    simp only [eh, ev, ek, bind, Except.bind, decide_eq_false hh, assert_false]
    by_cases hm : k.m.mode = .debug
    · rw [if_pos hm]
    · rw [if_neg hm]
      obtain ⟨x, e1, e2⟩ := uadd_release hm (a := n.horizontal) (b := h) (by omega) (by omega) p1
      simp only [e1, if_neg e2, oh n.horizontal n.vertical (.inl (by omega))]
      split <;> rfl

/-- **C53.** `edges` of any index the index type can hold: it can be drained exactly if the index is that of a node. Otherwise some
call of `next` panics in debug and reads out of bounds in release, whatever the looping and however far off the index is. -/
theorem c53_edges_exact (hb : Built k h v g c) (hf : k.Fits h v) {n : NodeIx} (hx : n.horizontal < k.ix) (hy : n.vertical < k.ix) :
    ((∃ l, Yields (EdgesOf.next g) (g.edges n) l) ↔ (k.grid h v).Node n) ∧
    (¬ (k.grid h v).Node n → Fails (EdgesOf.next g) (g.edges n) (if k.m.mode = .debug then .panic else .ub)) := by
  refine ⟨⟨?_, ?_⟩, fun hn => edges_off hb hx hy hn⟩
  · intro hl
    apply Classical.byContradiction
    intro hn
    exact (edges_off hb hx hy hn).not_yields hl
  · intro hn
    exact ⟨_, edgesOf_yields hb.stores (hb.sizes hf) hn 4 0 rfl⟩

/-- **C53.** Which reads of `get_edge_reference` are out of bounds, on a constructed graph and any index the index type can hold: it
faults exactly if the edge that `get_edge_id` names is not an edge. -/
theorem c53_get_edge_reference_iff (hb : Built k h v g c) (n : NodeIx) (d : Dir) {o : Option (EdgeIx × Bool)}
    (hi : g.getEdgeId n d = .ok o) :
    (g.getEdgeReference n d = .error (if k.m.mode = .debug then .panic else .ub) ↔
      ∃ e fo, o = some (e, fo) ∧ ¬ (k.grid h v).HasEdge e.node e.axis) ∧
    ((∃ r, g.getEdgeReference n d = .ok r) ↔ ∀ e fo, o = some (e, fo) → (k.grid h v).HasEdge e.node e.axis) := by
  have hs := hb.stores
  have ek := hs.cfg
  have hw : ∀ e : EdgeIx, (g.edgeWeight e).isSome ↔ (k.grid h v).HasEdge e.node e.axis := fun e => by
    have := (weights_eq hb e.node e.axis).2
    rw [show g.edgeWeight e = c.edge e.node e.axis from this]
    exact hs.edge_isSome
  rw [c53_get_edge_reference_exact, hi, ek]
  match o with
  | none => simp
  | some (e, fo) =>
    have := hw e
    cases hg : g.edgeWeight e with
    | none =>
      simp only [hg]
      rw [hg] at this
      have hne : ¬ (k.grid h v).HasEdge e.node e.axis := fun hh => by simpa using this.2 hh
      refine ⟨⟨fun _ => ⟨e, fo, rfl, hne⟩, fun _ => rfl⟩, ⟨?_, ?_⟩⟩
      · rintro ⟨r, hr⟩; cases hr
      · intro hh; exact (hne (hh e fo rfl)).elim
    | some w =>
      simp only [hg]
      rw [hg] at this
      have he := this.1 rfl
      refine ⟨⟨fun hh => (nomatch hh), ?_⟩, ⟨?_, fun _ => ⟨_, rfl⟩⟩⟩
      · rintro ⟨e', fo', h1, h2⟩
        cases h1
        exact (h2 he).elim
      · intro _ e' fo' h1
        cases h1
        exact he

example : ∃ (g : G Nat Nat) (c : Contents NodeIx Axis Nat Nat), Built exCfgR 3 2 g c ∧
    (∃ l, Yields (EdgesOf.next g) (g.edges ⟨2, 1⟩) l) ∧ Fails (EdgesOf.next g) (g.edges ⟨200, 1⟩) .ub ∧
    Fails (EdgesOf.next g) (g.edges ⟨0, 255⟩) .ub ∧ g.getEdgeReference ⟨1, 5⟩ .right = .error .ub := by
  obtain ⟨g, c, hb, -⟩ := exGraph exCfgR (by decide)
  have hf : exCfgR.Fits 3 2 := ⟨by decide, by decide⟩
  refine ⟨g, c, hb, (c53_edges_exact hb hf (n := ⟨2, 1⟩) (by decide) (by decide)).1.2 (by decide),
    (c53_edges_exact hb hf (n := ⟨200, 1⟩) (by decide) (by decide)).2 (by decide),
    (c53_edges_exact hb hf (n := ⟨0, 255⟩) (by decide) (by decide)).2 (by decide),
    (c53_get_edge_reference_iff hb ⟨1, 5⟩ .right (o := some (⟨⟨1, 5⟩, .horizontal⟩, true)) ?_).1.2 ⟨_, _, rfl, by decide⟩⟩
  have hs := hb.stores
  have eh : g.horizontalNodeCount = 3 := hs.nodes.rows
  simp only [G.getEdgeId, Dir.right, hs.cfg, eh, uadd_ok (m := exCfgR.m) (a := 1) (b := 1) (by decide), bind, Except.bind]
  rfl

/-- What a reachable graph stores, and what `get_edge_reference` gives on it, read off the arrays. -/
example : ∃ (g : G Nat Nat) (c : Contents NodeIx Axis Nat Nat), Built exCfg 3 2 g c ∧
    (∀ i j, g.nodes.get i j = c.node ⟨i, j⟩) ∧ g.horizontal.Whole m64 ∧
    (∀ e fo, g.getEdgeId ⟨0, 1⟩ .left = .ok (some (e, fo)) → g.edgeWeight e = none → g.getEdgeReference ⟨0, 1⟩ .left = .error (oob g.k.m)) := by
  obtain ⟨g, c, hb, _⟩ := exGraph exCfg (by decide)
  obtain ⟨-, -, -, -, -, h2, -, h3, -, -⟩ := c93_exact.1 hb
  refine ⟨g, c, hb, h3, h2, fun e fo h1 h2 => ?_⟩
  rw [c53_get_edge_reference_exact, h1]; simp only [h2]

end
end LG.Sq
