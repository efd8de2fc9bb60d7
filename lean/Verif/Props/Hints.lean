import Verif.Props.Edges
import Verif.Lemmas.Stored
/- C18, C20, C21: size hints, exhausted iterators, iterators of missing nodes. -/
set_option linter.unusedSectionVars false
namespace LG
section
variable {C A D N E σ α : Type} [DecidableEq C] [DecidableEq A] [DecidableEq D]
variable {g : Graph C A D N E} {s : Shape C A D} {L : Lat C A D} {rep : C → Prop} {k : Contents C A N E}

/-- At state `it` the size hint is computed without fault and brackets what is still to come: the iterator yields some `l`
with `lower ≤ |l| ≤ upper`. -/
def HintOk (next : σ → Res (Option α × σ)) (hint : σ → Res (Nat × Option Nat)) (it : σ) : Prop :=
  ∃ l lo hi, Yields next it l ∧ hint it = .ok (lo, some hi) ∧ lo ≤ l.length ∧ l.length ≤ hi

/-- After `None` the iterator returns `None` on every further call. -/
def Exhausts (next : σ → Res (Option α × σ)) (it : σ) : Prop :=
  ∀ s s', next it = .ok (none, s) → Reaches next s s' → ∃ s'', next s' = .ok (none, s'')

/-- Fusedness at every reachable state gives that `None` is final. -/
theorem exhausts_of {next : σ → Res (Option α × σ)} {it0 : σ} (h : ∀ it, Reaches next it0 it → FusedAt next it) {it : σ}
    (hit : Reaches next it0 it) : Exhausts next it := by
  intro s s' h1 h2
  have hs : Reaches next it0 s := hit.step h1
  obtain ⟨s1, hn⟩ := h it hit s h1
  suffices ∀ x, Reaches next s x → Reaches next it0 x ∧ ∃ y, next x = .ok (none, y) from (this s' h2).2
  intro x hx
  induction hx with
  | refl => exact ⟨hs, s1, hn⟩
  | step hr h3 ih =>
    obtain ⟨h4, y, h5⟩ := ih
    rw [h5] at h3
    simp only [Except.ok.injEq, Prod.mk.injEq] at h3
    obtain ⟨rfl, rfl⟩ := h3
    exact ⟨h4.step h5, h _ h4 _ h5⟩

/-- **C18**, `node_identifiers`: the hint is exact. -/
theorem c18_node_identifiers (hs : Storable s L rep) (hc : Constructible s) {i : Nat} (hr : Reaches (nodeIndicesNext s) 0 i) :
    (∃ l, Yields (nodeIndicesNext s) i l ∧ nodeIndicesSizeHint s i = .ok (l.length, some l.length)) ∧
    Exhausts (nodeIndicesNext s) i := by
  have hi := (hs.impl hc)
  have hle : ∀ {i}, Reaches (nodeIndicesNext s) 0 i → i ≤ L.width * L.height := fun hr =>
    hr.inv (P := fun i => i ≤ L.width * L.height) (Nat.zero_le _) fun h hn => nodeIndicesNext_le hi h hn
  refine ⟨⟨_, nodeIndices_yields hi (L.width * L.height - i) i (by have := hle hr; omega), ?_⟩, exhausts_of ?_ hr⟩
  · have := hle hr
    simp only [nodeIndicesSizeHint, hi.nodeCount, bind, Except.bind, usub, this, if_true, List.length_map,
      List.length_range']
  · intro j hj s' h
    by_cases hlt : j < L.width * L.height
    · rw [nodeIndicesNext_lt hi hlt] at h; simp at h
    · rw [nodeIndicesNext_ge hi hlt] at h
      simp only [Except.ok.injEq, Prod.mk.injEq, true_and] at h
      subst h
      exact ⟨_, nodeIndicesNext_ge hi hlt⟩

/-- **C18**, `node_references`: no upper bound is promised (see C21); `None` is final. -/
theorem c18_node_references (hs : Storable s L rep) (hb : Built s L g k) {i : Nat} (hr : Reaches (nodeRefsNext g) 0 i) :
    (∃ l, Yields (nodeRefsNext g) i l ∧ nodeRefsSizeHint g i = .ok (0, none)) ∧ Exhausts (nodeRefsNext g) i := by
  have hg := hs.good hb
  have hle : i ≤ L.width * L.height :=
    hr.inv (P := fun i => i ≤ L.width * L.height) (Nat.zero_le _) fun h hn => nodeRefsNext_le hg.impl hg.inv hg.total h hn
  refine ⟨⟨_, nodeRefs_yields hg.impl hg.inv hg.total (L.width * L.height - i) i (by omega), rfl⟩, exhausts_of ?_ hr⟩
  intro j hj s' h
  by_cases hlt : j < L.width * L.height
  · obtain ⟨w, _, h2⟩ := nodeRefsNext_lt hg.impl hg.inv hg.total hlt
    rw [h2] at h; simp at h
  · rw [nodeRefsNext_ge hg.impl hlt] at h
    simp only [Except.ok.injEq, Prod.mk.injEq, true_and] at h
    subst h
    exact ⟨_, nodeRefsNext_ge hg.impl hlt⟩

/-- **C18**, `neighbors`. -/
theorem c18_neighbors (hs : Storable s L rep) (hc : Constructible s) {c : C} (hn : L.Node c) {i : Nat}
    (hr : Reaches (neighborsNext s c) 0 i) :
    HintOk (neighborsNext s c) (neighborsSizeHint s) i ∧ Exhausts (neighborsNext s c) i := by
  have hi := (hs.impl hc)
  have hle : ∀ {i}, Reaches (neighborsNext s c) 0 i → i ≤ L.dirs.length := fun hr =>
    hr.inv (P := fun i => i ≤ L.dirs.length) (Nat.zero_le _) fun {j _ _} h hn' =>
      neighborsNext_le hi hn (L.dirs.length - j) j (by omega) hn'
  refine ⟨⟨_, 0, L.dirs.length - i, neighbors_yields hi hn (L.dirs.length - i) i (by have := hle hr; omega), ?_,
    Nat.zero_le _, ?_⟩, exhausts_of ?_ hr⟩
  · have := hle hr
    simp only [neighborsSizeHint, hi.axis.undirectedCount, usub, this, if_true, bind, Except.bind]
  · exact Nat.le_trans (List.length_filterMap_le _ _) (by simp)
  · intro j hj s' h
    have h1 := hle hj
    have := neighborsNext_fused hi hn (L.dirs.length - j) j (by omega) h
    subst this
    exact ⟨_, neighborsNext_ge hi (by omega)⟩

/-- **C18**, one edge iterator of a node. -/
theorem c18_edges_of (hs : Lawful s L rep) (hb : Built s L g k) {dt : Dt}
    (hp : dt.plain g.s.axis.directed ∨ g.s.m.mode = .release) {c : C} (hn : L.Node c) {it0 it : EdgesIt C}
    (h0 : edgesNewD g c dt = .ok it0) (hr : Reaches (edgesNext g) it0 it) :
    HintOk (edgesNext g) (edgesSizeHint g) it ∧ Exhausts (edgesNext g) it := by
  have hg := hb.good hs
  have h00 : EdgesAt g L dt it0 := by
    obtain ⟨x, y, hx, hy, rfl⟩ := hn
    rw [edgesNewD_eq hg.impl hx hy] at h0
    cases h0
    exact ⟨⟨x, y, hx, hy, rfl, rfl⟩, rfl, Nat.zero_le _⟩
  have hat : ∀ {it}, Reaches (edgesNext g) it0 it → EdgesAt g L dt it := fun hr =>
    hr.inv h00 fun {j _ _} ha hn' =>
      (edgesNext_at hg.impl hg.laws.dir (edgesBound g.s dt - j.state) ha (by have := ha.le; omega) hn').1
  obtain ⟨l, h1, h2⟩ := edgesAt_yields hg.laws hg.impl hg.inv hg.total hp (hat hr)
  refine ⟨⟨l, 0, edgesBound g.s dt - it.state, h1, ?_, Nat.zero_le _, h2⟩, exhausts_of ?_ hr⟩
  · have := (hat hr).le
    simp only [edgesSizeHint, (hat hr).marker, usub, this, if_true, bind, Except.bind]
  · intro j hj s' h
    have ha := hat hj
    obtain ⟨ha', _, h3⟩ := edgesNext_at hg.impl hg.laws.dir (edgesBound g.s dt - j.state) ha (by have := ha.le; omega) h
    refine ⟨_, edgesNext_ge ?_⟩
    rw [ha'.marker, h3 rfl]
    omega

/-- **C18**, `edges`. -/
theorem c18_edges (hs : Lawful s L rep) (hb : Built s L g k) {c : C} (hn : L.Node c) {it0 it : EdgesIt C}
    (h0 : g.edgesOf c = .ok it0) (hr : Reaches (edgesNext g) it0 it) :
    HintOk (edgesNext g) (edgesSizeHint g) it ∧ Exhausts (edgesNext g) it :=
  c18_edges_of hs hb (dt := .axisDir) (.inl (by simp [Dt.plain])) hn h0 hr

/-- **C18**, `edges_directed`; an `Incoming` iterator of a directed graph only in release builds, because of C12. -/
theorem c18_edges_directed (hs : Lawful s L rep) (hb : Built s L g k) {d : PDir}
    (hp : (d = .incoming → g.isDirected = false) ∨ g.s.m.mode = .release) {c : C} (hn : L.Node c) {it0 it : EdgesIt C}
    (h0 : g.edgesDirected c d = .ok it0) (hr : Reaches (edgesNext g) it0 it) :
    HintOk (edgesNext g) (edgesSizeHint g) it ∧ Exhausts (edgesNext g) it := by
  refine c18_edges_of hs hb (dt := .dir d) (hp.imp_left fun h => ?_) hn h0 hr
  cases d with
  | outgoing => simp [Dt.plain]
  | incoming =>
    have := h rfl
    rw [Graph.isDirected] at this
    simp [Dt.plain, this]

theorem edgeRefsLoop_index {nc : Nat} : ∀ (n : Nat) {it it' : EdgeRefsIt C} {o : Option (EdgeRef C D E)},
    nc - it.index = n → edgeRefsLoop g nc it = .ok (o, it') → (it.e.isSome → 1 ≤ it.index) →
    (it'.e.isSome → 1 ≤ it'.index) := by
  intro n
  induction n using Nat.strongRecOn with
  | ind n ih =>
    intro it it' o hn h h0
    have poll : ∀ {r e'}, edgeRefsPoll g it.e = .ok (r, e') → e'.isSome = it.e.isSome := by
      intro r e' hp
      cases he : it.e with
      | none => rw [he] at hp; simp only [edgeRefsPoll, Except.ok.injEq, Prod.mk.injEq] at hp; rw [← hp.2]
      | some x =>
        rw [he] at hp
        simp only [edgeRefsPoll, bind, Except.bind] at hp
        cases hx : edgesNext g x with
        | error f => rw [hx] at hp; cases hp
        | ok p => rw [hx] at hp; simp only [Except.ok.injEq, Prod.mk.injEq] at hp; rw [← hp.2]; rfl
    rw [edgeRefsLoop] at h
    cases hp : edgeRefsPoll g it.e with
    | error f => rw [hp] at h; cases h
    | ok p =>
      obtain ⟨r, e'⟩ := p
      rw [hp] at h
      simp only [bind, Except.bind] at h
      cases r with
      | some r =>
        simp only [Except.ok.injEq, Prod.mk.injEq] at h
        obtain ⟨_, rfl⟩ := h
        simp only [poll hp]
        exact h0
      | none =>
        simp only at h
        by_cases hlt : it.index < nc
        · rw [dif_pos hlt] at h
          cases hx : g.s.indexToCoordinate it.index with
          | error f => rw [hx] at h; cases h
          | ok x =>
            rw [hx] at h
            simp only at h
            cases hy : edgesNewUnchecked g x with
            | error f => rw [hy] at h; cases h
            | ok y =>
              rw [hy] at h
              simp only at h
              exact ih (nc - (it.index + 1)) (by omega) rfl h (fun _ => by simp)
        · rw [dif_neg hlt] at h
          simp only [Except.ok.injEq, Prod.mk.injEq] at h
          obtain ⟨_, rfl⟩ := h
          simp only [poll hp]
          exact h0

theorem c18_edge_references_state (hs : Storable s L rep) (hb : Built s L g k) {it : EdgeRefsIt C}
    (hr : Reaches (edgeRefsNext g) edgeRefsInit it) : EdgeRefsAt g L it ∧ (it.e.isSome → 1 ≤ it.index) := by
  have hg := hs.good hb
  refine hr.inv (P := fun it => EdgeRefsAt g L it ∧ (it.e.isSome → 1 ≤ it.index)) ⟨⟨Nat.zero_le _, by simp [edgeRefsInit]⟩,
    by simp [edgeRefsInit]⟩ fun {j _ _} ha hn => ⟨?_, ?_⟩
  · exact (edgeRefsNext_at hs.base.dir hg.impl hg.inv hg.total (L.width * L.height - j.index) ha.1
      (by have := ha.1.le; omega) hn).1
  · unfold edgeRefsNext at hn
    rw [hg.impl.nodeCount] at hn
    exact edgeRefsLoop_index _ rfl hn ha.2

/-- **C18**, `edge_references`, when `node_count * UNDIRECTED_COUNT` fits in `usize`. Missing from the full claim: sizes where
that product overflows, for which the claim is false (`c18_edge_references_overflow`). -/
theorem c18_edge_references_partial (hs : Storable s L rep) (hb : Built s L g k)
    (hfit : s.horizontal * s.vertical * s.axis.undirectedCount < 2 * s.m.half) {it : EdgeRefsIt C}
    (hr : Reaches (edgeRefsNext g) edgeRefsInit it) : HintOk (edgeRefsNext g) (edgeRefsSizeHint g) it := by
  have hg := hs.good hb
  obtain ⟨ha, hidx⟩ := c18_edge_references_state hs hb hr
  obtain ⟨l, h1, h2⟩ := edgeRefsAt_yields hs.base.dir hg.impl hg.inv hg.total ha
  rw [← hg.shape, hg.impl.width, hg.impl.height, hg.impl.axis.undirectedCount] at hfit
  have hle := ha.le
  have hb' : edgesBound g.s .axis = L.axes.length := by rw [← hg.impl.axis.count]; rfl
  have hax := axes_le_dirs hs.base.dir
  have hmul : (L.width * L.height - it.index) * L.dirs.length ≤ L.width * L.height * L.dirs.length :=
    Nat.mul_le_mul_right _ (by omega)
  have hmul' : (L.width * L.height - it.index) * L.axes.length ≤ (L.width * L.height - it.index) * L.dirs.length :=
    Nat.mul_le_mul_left _ hax
  cases he : it.e with
  | none =>
    rw [he] at h2
    refine ⟨l, 0, (L.width * L.height - it.index) * L.dirs.length + 0, h1, ?_, Nat.zero_le _, by simp only at h2; omega⟩
    simp only [edgeRefsSizeHint, Graph.nodeBound, hg.impl.nodeCount, bind, Except.bind, usub, hle, if_true,
      hg.impl.axis.undirectedCount, umul, he, uadd]
    rw [if_pos (by omega)]
    simp only
    rw [if_pos (by omega)]
  | some e =>
    have hea := ha.e e he
    have hel := hea.le
    rw [he] at h2
    simp only at h2
    have h1i : 1 ≤ it.index := hidx (by rw [he]; rfl)
    have hstep : (L.width * L.height - it.index) * L.dirs.length + L.dirs.length ≤ L.width * L.height * L.dirs.length := by
      have : (L.width * L.height - it.index + 1) * L.dirs.length ≤ L.width * L.height * L.dirs.length :=
        Nat.mul_le_mul_right _ (by omega)
      rw [Nat.add_mul, Nat.one_mul] at this
      exact this
    refine ⟨l, 0, (L.width * L.height - it.index) * L.dirs.length + (edgesBound g.s .axis - e.state), h1, ?_,
      Nat.zero_le _, by omega⟩
    simp only [edgeRefsSizeHint, Graph.nodeBound, hg.impl.nodeCount, bind, Except.bind, usub, hle, if_true,
      hg.impl.axis.undirectedCount, umul, he, uadd, edgesSizeHint, hea.marker, hel, Option.getD_some]
    rw [if_pos (by omega)]
    simp only
    rw [if_pos (by omega)]

/-- **C18**, `edge_references`: `None` is final. -/
theorem c18_edge_references_fused (hs : Storable s L rep) (hb : Built s L g k) {it : EdgeRefsIt C}
    (hr : Reaches (edgeRefsNext g) edgeRefsInit it) :
    (∃ l, Yields (edgeRefsNext g) it l) ∧ Exhausts (edgeRefsNext g) it := by
  have hg := hs.good hb
  refine ⟨?_, exhausts_of ?_ hr⟩
  · obtain ⟨l, h1, _⟩ := edgeRefsAt_yields hs.base.dir hg.impl hg.inv hg.total (c18_edge_references_state hs hb hr).1
    exact ⟨l, h1⟩
  · intro j hj s' h
    have ha := (c18_edge_references_state hs hb hj).1
    exact ⟨_, (edgeRefsNext_at hs.base.dir hg.impl hg.inv hg.total (L.width * L.height - j.index) ha
      (by have := ha.le; omega) h).2 rfl⟩

/-- **C18** fails for `edge_references` of huge graphs (possible with zero-sized weights): when
`node_count * UNDIRECTED_COUNT` overflows, the first `size_hint` panics in debug builds and is the wrapped product in
release builds. -/
theorem c18_edge_references_overflow (hs : Storable s L rep) (hb : Built s L g k)
    (hbig : 2 * s.m.half ≤ s.horizontal * s.vertical * s.axis.undirectedCount) :
    edgeRefsSizeHint g edgeRefsInit = (match s.m.mode with
      | .debug => .error .panic
      | .release => .ok (0, some (s.horizontal * s.vertical * s.axis.undirectedCount % (2 * s.m.half)))) := by
  have hg := hs.good hb
  have hh := s.m.half_ge
  have h0 : s.nodeCount = .ok (s.horizontal * s.vertical) := by
    rw [← hg.shape, hg.impl.nodeCount, ← hg.impl.width, ← hg.impl.height]
  simp only [edgeRefsSizeHint, Graph.nodeBound, h0, bind, Except.bind, usub, edgeRefsInit, Nat.zero_le, if_true,
    Nat.sub_zero, umul, hg.shape]
  rw [if_neg (by omega)]
  unfold overflow
  cases s.m.mode with
  | debug => rfl
  | release =>
    simp only [uadd, Nat.add_zero]
    rw [if_pos (Nat.mod_lt _ (by omega))]

example : ∃ g : Graph Offset SquareAxis DSquareAxis Nat Nat, Built (squareShape m64 3 2) (squareLat 3 2) g exK ∧
    HintOk (edgeRefsNext g) (edgeRefsSizeHint g) edgeRefsInit ∧
    edgeRefsSizeHint g edgeRefsInit = .ok (0, some 24) ∧ (allEdges (squareLat 3 2) exK).length = 7 := by
  obtain ⟨g, hb⟩ := exSquare
  refine ⟨g, hb, c18_edge_references_partial (.sound (.square m64 3 2)) hb (by decide) (.refl _), ?_, by decide⟩
  have := (hb.good (.square m64 3 2)).shape
  simp only [edgeRefsSizeHint, Graph.nodeBound, this]
  rfl

/-! ### C20 -/

/-- **C20** is false of the code: `edges(c)` and `edges_directed(c, d)` with `c` outside the graph never return an iterator;
they panic in debug builds and are undefined behaviour in release builds, for every shape, size and such `c`. -/
theorem c20_off_graph_faults (hs : Storable s L rep) (hb : Built s L g k) {c : C} (hr : rep c) (hn : ¬ L.Node c) (d : PDir) :
    g.edgesOf c = .error (match s.m.mode with | .debug => .panic | .release => .ub) ∧
    g.edgesDirected c d = .error (match s.m.mode with | .debug => .panic | .release => .ub) := by
  have hg := hs.good hb
  have h := hg.impl.toOffset_none hr hn
  rw [hg.shape] at h
  constructor <;>
  · simp only [Graph.edgesOf, Graph.edgesDirected, edgesNewD, h, bind, Except.bind, unreachableDebugChecked, hg.shape]
    cases s.m.mode <;> rfl

/-- **C20**, what is left: no edge is ever yielded for a coordinate outside the graph (no iterator is returned at all).
Missing: that an (empty) iterator is returned. -/
theorem c20_no_items_partial (hs : Storable s L rep) (hb : Built s L g k) {c : C} (hr : rep c) (hn : ¬ L.Node c) (d : PDir) :
    ¬ ∃ it r l, (g.edgesOf c = .ok it ∨ g.edgesDirected c d = .ok it) ∧ Yields (edgesNext g) it (r :: l) := by
  rintro ⟨it, r, l, h | h, _⟩
  · rw [(c20_off_graph_faults hs hb hr hn d).1] at h; cases h
  · rw [(c20_off_graph_faults hs hb hr hn d).2] at h; cases h

example : ∃ g : Graph Offset SquareAxis DSquareAxis Nat Nat, Built (squareShape m64 3 2) (squareLat 3 2) g exK ∧
    g.edgesOf ⟨3, 0⟩ = .error .panic := by
  obtain ⟨g, hb⟩ := exSquare
  refine ⟨g, hb, (c20_off_graph_faults (.sound (.square m64 3 2)) hb (c := ⟨3, 0⟩) trivial ?_ .outgoing).1⟩
  rw [← Lat.mem_nodes]; decide

/-! ### C21 -/

/-- **C21** is false of the code: `node_references().len()` panics in every state of every graph. -/
theorem c21_len_panics (g : Graph C A D N E) (i : Nat) : exactLen (nodeRefsSizeHint g i) = .error .panic := rfl

/-- **C21**, what is left: the number of items still to come is `node_count - index`, as `len()` should say. Missing: `len()`
itself. -/
theorem c21_remaining_partial (hs : Storable s L rep) (hb : Built s L g k) {i : Nat} (hr : Reaches (nodeRefsNext g) 0 i) :
    ∃ l, Yields (nodeRefsNext g) i l ∧ l.length = s.horizontal * s.vertical - i := by
  have hg := hs.good hb
  have hle : i ≤ L.width * L.height :=
    hr.inv (P := fun i => i ≤ L.width * L.height) (Nat.zero_le _) fun h hn => nodeRefsNext_le hg.impl hg.inv hg.total h hn
  refine ⟨_, nodeRefs_yields hg.impl hg.inv hg.total (L.width * L.height - i) i (by omega), ?_⟩
  rw [← hg.shape, hg.impl.width, hg.impl.height]
  have : ∀ l : List Nat, (∀ j ∈ l, j < L.width * L.height) →
      ((l.map L.at).filterMap fun c => (k.node c).map fun w => (c, w)).length = l.length := by
    intro l hl
    induction l with
    | nil => rfl
    | cons j l ih =>
      obtain ⟨w, hw⟩ := hg.total.node_some (Lat.at_node (hl j (by simp)))
      rw [List.map_cons, List.filterMap_cons, hw]
      simp only [Option.map_some, List.length_cons]
      rw [ih fun j hj => hl j (by simp [hj])]
  rw [this, List.length_range']
  intro j hj
  rw [List.mem_range'_1] at hj
  omega

example : ∃ g : Graph Offset SquareAxis DSquareAxis Nat Nat, Built (squareShape m64 3 2) (squareLat 3 2) g exK ∧
    ∃ l, Yields (nodeRefsNext g) 0 l ∧ l.length = 6 := by
  obtain ⟨g, hb⟩ := exSquare
  exact ⟨g, hb, c21_remaining_partial (.sound (.square m64 3 2)) hb (.refl _)⟩

/-! Instances of the remaining theorems, on the 3 × 2 square grid, some steps into the iteration. -/

example : ∃ l, Yields (nodeIndicesNext (squareShape m64 3 2)) 2 l ∧ nodeIndicesSizeHint (squareShape m64 3 2) 2 = .ok (l.length, some l.length) :=
  (c18_node_identifiers (.sound (.square m64 3 2)) (by decide) (.step (.step (.refl 0) rfl) rfl)).1
example : HintOk (neighborsNext (squareShape m64 3 2) ⟨1, 0⟩) (neighborsSizeHint (squareShape m64 3 2)) 2 := by
  have h1 : neighborsNext (squareShape m64 3 2) ⟨1, 0⟩ 0 = .ok (some ⟨2, 0⟩, 1) := by rw [neighborsNext]; rfl
  have h2 : neighborsNext (squareShape m64 3 2) ⟨1, 0⟩ 1 = .ok (some ⟨1, 1⟩, 2) := by rw [neighborsNext]; rfl
  exact (c18_neighbors (.sound (.square m64 3 2)) (by decide) ⟨1, 0, by decide, by decide, rfl⟩ (.step (.step (.refl 0) h1) h2)).1
example : ∃ g : Graph Offset SquareAxis DSquareAxis Nat Nat, Built (squareShape m64 3 2) (squareLat 3 2) g exK ∧
    Exhausts (nodeRefsNext g) 0 ∧ EdgeRefsAt g (squareLat 3 2) edgeRefsInit ∧ Exhausts (edgeRefsNext g) edgeRefsInit ∧
    exactLen (nodeRefsSizeHint g 3) = .error .panic := by
  obtain ⟨g, hb⟩ := exSquare
  have hs := Storable.sound (Sound.square m64 3 2)
  exact ⟨g, hb, (c18_node_references hs hb (.refl 0)).2, (c18_edge_references_state hs hb (.refl _)).1,
    (c18_edge_references_fused hs hb (.refl _)).2, c21_len_panics g 3⟩
example : ∃ g : Graph Offset SquareAxis DSquareAxis Nat Nat, Built (squareShape m64 3 2) (squareLat 3 2) g exK ∧
    (∃ it0 it1 r, g.edgesOf ⟨1, 0⟩ = .ok it0 ∧ edgesNext g it0 = .ok (some r, it1) ∧ HintOk (edgesNext g) (edgesSizeHint g) it1) ∧
    ∃ it, g.edgesDirected ⟨1, 0⟩ .incoming = .ok it ∧ HintOk (edgesNext g) (edgesSizeHint g) it := by
  obtain ⟨g, hb⟩ := exSquare
  have hs := Lawful.square m64 3 2
  have hn : (squareLat 3 2).Node ⟨1, 0⟩ := ⟨1, 0, by decide, by decide, rfl⟩
  have hg := hb.good hs
  have hu : g.isDirected = false := by rw [Graph.isDirected, hg.shape]; rfl
  obtain ⟨it0, h1, h2⟩ := c10_edges hs hb hn
  obtain ⟨it, h3, h4⟩ := c12_incoming_partial hs hb hn (.inl hu)
  refine ⟨g, hb, ?_, it, h3, (c18_edges_directed hs hb (.inl fun _ => hu) hn h3 (.refl _)).1⟩
  cases (h2 : Yields (edgesNext g) it0 [⟨⟨1, 0⟩, ⟨2, 0⟩, 1010, .X⟩, ⟨⟨1, 0⟩, ⟨1, 1⟩, 2010, .Y⟩, ⟨⟨1, 0⟩, ⟨0, 0⟩, 1000, .RX⟩]) with
  | step h5 _ => exact ⟨it0, _, _, h1, h5, (c18_edges hs hb hn h1 (.step (.refl _) h5)).1⟩
/-- The same through the common lemma, for incoming edges of a directed graph in a release build. -/
example : ∃ g : Graph Offset DSquareAxis DSquareAxis Nat Nat, Built (squareShapeDirected m64r 3 2) (squareLatDirected 3 2) g exKD ∧
    ∃ it, edgesNewD g ⟨1, 0⟩ (.dir .incoming) = .ok it ∧ HintOk (edgesNext g) (edgesSizeHint g) it := by
  obtain ⟨g, hb⟩ := exSquareD m64r rfl
  have hs := Lawful.squareDirected m64r 3 2
  have hn : (squareLatDirected 3 2).Node ⟨1, 0⟩ := ⟨1, 0, by decide, by decide, rfl⟩
  have hm : g.s.m.mode = .release := by rw [(hb.good hs).shape]; rfl
  obtain ⟨it, h3, -⟩ := c12_incoming_partial hs hb hn (.inr hm)
  exact ⟨g, hb, it, h3, (c18_edges_of hs hb (.inr hm) hn h3 (.refl _)).1⟩
/-- On a 16-bit machine a graph of 181 × 181 nodes has more than 2 ^ 16 directions. -/
example : ∃ g : Graph Offset SquareAxis DSquareAxis Unit Unit, edgeRefsSizeHint g edgeRefsInit = .error .panic := by
  obtain ⟨g, hb⟩ := (Lawful.square m16 181 181).exists_built (by decide) (fun (u : Unit) _ => ((), u)) (fun u _ _ => ((), u)) ()
  exact ⟨g, c18_edge_references_overflow (.sound (.square m16 181 181)) hb (by decide)⟩
example : ∃ g : Graph Offset SquareAxis DSquareAxis Nat Nat, Built (squareShape m64 3 2) (squareLat 3 2) g exK ∧
    ¬ ∃ it r l, (g.edgesOf ⟨3, 0⟩ = .ok it ∨ g.edgesDirected ⟨3, 0⟩ .incoming = .ok it) ∧ Yields (edgesNext g) it (r :: l) := by
  obtain ⟨g, hb⟩ := exSquare
  exact ⟨g, hb, c20_no_items_partial (.sound (.square m64 3 2)) hb trivial (by rw [← Lat.mem_nodes]; decide) .incoming⟩

end
end LG
