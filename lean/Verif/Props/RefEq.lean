import Verif.Props.Edges
import Verif.Props.Ex
/- C96: equality of edge references. -/
set_option linter.unusedSectionVars false
namespace LG
section
variable {C A D N E : Type} [DecidableEq C] [DecidableEq A] [DecidableEq D]
variable {g g' : Graph C A D N E} {s : Shape C A D} {L : Lat C A D} {rep : C → Prop} {k k' : Contents C A N E}

/-- **C96.** References from `edges(a)` of one graph and `edges(a')` of a graph of the same shape (or the same graph at another
time) are equal exactly if the nodes, the directions and the weights are equal. -/
theorem c96_edges (hs : Lawful s L rep) (hb : Built s L g k) (hb' : Built s L g' k') (weq : E → E → Bool) {a a' : C}
    (ha : L.Node a) (ha' : L.Node a') :
    ∃ it l it' l', g.edgesOf a = .ok it ∧ Yields (edgesNext g) it l ∧ g'.edgesOf a' = .ok it' ∧ Yields (edgesNext g') it' l' ∧
      ∀ r ∈ l, ∀ r' ∈ l', (r.eq weq r' = true ↔ a = a' ∧ r.direction = r'.direction ∧ weq r.weight r'.weight = true) := by
  have hd := (hb.good hs).laws.dir
  obtain ⟨it, h1, h2⟩ := c10_edges hs hb ha
  obtain ⟨it', h1', h2'⟩ := c10_edges hs hb' ha'
  refine ⟨it, _, it', _, h1, h2, h1', h2', fun r hr r' hr' => ?_⟩
  obtain ⟨e1, e2, _⟩ := (mem_outEdges hd).1 hr
  obtain ⟨e1', e2', _⟩ := (mem_outEdges hd).1 hr'
  simp only [EdgeRef.eq, Bool.and_eq_true, decide_eq_true_eq, e1, e1']
  constructor
  · rintro ⟨⟨⟨h1, _⟩, h3⟩, h4⟩; exact ⟨h1, h4, h3⟩
  · rintro ⟨rfl, h4, h3⟩
    rw [h4, e2'] at e2
    exact ⟨⟨⟨rfl, (Option.some.inj e2).symm⟩, h3⟩, h4⟩

/-- **C96.** No two references `edges(a)` yields are equal, even if they lead to the same node. -/
theorem c96_distinct (hs : Lawful s L rep) (hb : Built s L g k) (weq : E → E → Bool) {a : C} (ha : L.Node a) :
    ∃ it l, g.edgesOf a = .ok it ∧ Yields (edgesNext g) it l ∧ l.Pairwise fun r r' => r.eq weq r' = false := by
  obtain ⟨it, h1, h2⟩ := c10_edges hs hb ha
  refine ⟨it, _, h1, h2, ?_⟩
  have hn : ((outEdges L k a).map EdgeRef.direction).Nodup := by
    rw [(c10_targets hs hb ha).2]
    exact List.Nodup.sublist List.filter_sublist (hb.good hs).laws.dir.dirs_nodup
  rw [List.Nodup, List.pairwise_map] at hn
  refine hn.imp fun hne => ?_
  simp [EdgeRef.eq, hne]

/-- **C96.** The two ends of an undirected edge see it by references that are not equal, though they stand for one edge: from
both the weight is that of one key. -/
theorem c96_two_views (hs : Lawful s L rep) (hb : Built s L g k) (weq : E → E → Bool) (hu : g.isDirected = false) {a : C}
    (ha : L.Node a) {it : EdgesIt C} {l : List (EdgeRef C D E)} (hit : g.edgesOf a = .ok it) (hl : Yields (edgesNext g) it l)
    {r : EdgeRef C D E} (hr : r ∈ l) :
    ∃ it' l' r', g.edgesOf r.target = .ok it' ∧ Yields (edgesNext g) it' l' ∧ r' ∈ l' ∧
      r'.source = r.target ∧ r'.target = r.source ∧ L.key r'.source r'.direction r'.target = L.key r.source r.direction r.target ∧
      r'.weight = r.weight ∧ r.eq weq r' = false := by
  have hg := hb.good hs
  obtain ⟨it0, h1, h2⟩ := c10_edges hs hb ha
  rw [hit] at h1
  cases h1
  rw [hl.unique h2] at hr
  obtain ⟨h3, h4⟩ := c11_undirected_weight hs hb hu ha hr
  obtain ⟨it', h5, h6⟩ := c10_edges hs hb h3
  obtain ⟨e1, _, _⟩ := (mem_outEdges hg.laws.dir).1 hr
  have hd : L.directed = false := by rw [← hg.impl.axis.directed]; exact hu
  refine ⟨it', _, _, h5, h6, h4, rfl, e1.symm, ?_, rfl, ?_⟩
  · rw [e1]; exact key_symm hg.laws.dir hd _ _ _
  · have hne : r.direction ≠ L.opp r.direction := hg.laws.dir.opp_ne _ |>.symm
    simp [EdgeRef.eq, hne]

/-- **C96.** Each reference of `edge_references()` is among those `edges` yields for its source; with a weight that equals itself
the two are equal. -/
theorem c96_edge_references (hs : Lawful s L rep) (hb : Built s L g k) (weq : E → E → Bool) :
    ∃ all, Yields (edgeRefsNext g) edgeRefsInit all ∧ ∀ r ∈ all, ∃ it l, g.edgesOf r.source = .ok it ∧
      Yields (edgesNext g) it l ∧ ∃ r' ∈ l, r.eq weq r' = weq r.weight r.weight := by
  have hd := (hb.good hs).laws.dir
  refine ⟨_, c13_edge_references hs hb, fun r hr => ?_⟩
  obtain ⟨h1, h2, h3, h4⟩ := (mem_allEdges hd).1 hr
  obtain ⟨it, h5, h6⟩ := c10_edges hs hb h1
  refine ⟨it, _, h5, h6, r, (mem_outEdges hd).2 ⟨rfl, h3, ?_⟩, by simp [EdgeRef.eq]⟩
  unfold Lat.key
  simp [h2, h4]

example : ∃ (g : Graph Offset SquareAxis DSquareAxis Nat Nat) (k : Contents Offset SquareAxis Nat Nat)
    (it : EdgesIt Offset) (l : List (EdgeRef Offset DSquareAxis Nat)), Built (squareShape m64 3 2) (squareLat 3 2) g k ∧
    g.edgesOf ⟨1, 1⟩ = .ok it ∧ Yields (edgesNext g) it l ∧ l.Pairwise fun r r' => r.eq (· == ·) r' = false := by
  obtain ⟨g, hb⟩ := exSquare
  obtain ⟨it, l, h⟩ := c96_distinct (Lawful.square m64 3 2) hb (· == ·) (a := ⟨1, 1⟩) ⟨1, 1, by decide, by decide, rfl⟩
  exact ⟨g, _, it, l, hb, h⟩
example : (⟨⟨1, 0⟩, ⟨2, 0⟩, 5, .X⟩ : EdgeRef Offset DSquareAxis Nat).eq (· == ·) ⟨⟨1, 0⟩, ⟨2, 0⟩, 5, .X⟩ = true ∧
    (⟨⟨1, 0⟩, ⟨2, 0⟩, 5, .X⟩ : EdgeRef Offset DSquareAxis Nat).eq (· == ·) ⟨⟨2, 0⟩, ⟨1, 0⟩, 5, .RX⟩ = false := by decide

example : ∃ (g : Graph Offset SquareAxis DSquareAxis Nat Nat) (all : List (EdgeRef Offset DSquareAxis Nat)),
    Yields (edgeRefsNext g) edgeRefsInit all ∧ ∀ r ∈ all, ∃ it l, g.edgesOf r.source = .ok it ∧
      Yields (edgesNext g) it l ∧ ∃ r' ∈ l, r.eq (· == ·) r' = (r.weight == r.weight) := by
  obtain ⟨g, hb⟩ := exSquare
  obtain ⟨all, h⟩ := c96_edge_references (Lawful.square m64 3 2) hb (· == ·)
  exact ⟨g, all, h⟩

end
end LG
