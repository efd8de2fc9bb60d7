import Verif.Props.LegacyEdges
import Verif.Model.Defaults
/- C96: equality of the edge references of the deprecated `SquareGraph`. -/
set_option linter.unusedSectionVars false
namespace LG.Sq
section
variable {N E : Type}
variable {g g' : G N E} {k : Cfg} {s : Grid} {h v : Nat} {c c' : Contents NodeIx Axis N E}

theorem refOf_mem {n : NodeIx} {d : Dir} {r : Ref E} (hr : refOf k s c n d = some r) :
    ∃ t w, s.step n d = some t ∧ r = ⟨Grid.key n t d, w, d.isFwd, k.sizeInfo s.h s.v⟩ := by
  unfold refOf at hr
  cases hst : s.step n d with
  | none => rw [hst] at hr; cases hr
  | some t =>
    rw [hst, Option.bind_some, Option.map_eq_some_iff] at hr
    obtain ⟨w, _, rfl⟩ := hr
    exact ⟨t, w, rfl, rfl⟩

/-- Two references are equal exactly if node, direction and weight are. -/
theorem refOf_eq (weq : E → E → Bool) {n n' : NodeIx} (hn : s.Node n) (hn' : s.Node n') {d d' : Dir} {r r' : Ref E}
    (hr : refOf k s c n d = some r) (hr' : refOf k s c' n' d' = some r') :
    r.eq weq r' = true ↔ n = n' ∧ d = d' ∧ weq r.weight r'.weight = true := by
  obtain ⟨t, w, h1, rfl⟩ := refOf_mem hr
  obtain ⟨t', w', h1', rfl⟩ := refOf_mem hr'
  simp only [Ref.eq, Bool.and_eq_true, decide_eq_true_eq, beq_iff_eq, and_true]
  constructor
  · rintro ⟨⟨hk, hw⟩, hf⟩
    rcases d with a | a <;> rcases d' with a' | a' <;> simp only [Dir.isFwd, reduceCtorEq] at hf
    · simp only [Grid.key, EdgeIx.mk.injEq] at hk
      exact ⟨hk.1, by rw [hk.2], hw⟩
    · simp only [Grid.key, EdgeIx.mk.injEq] at hk
      obtain ⟨rfl, rfl⟩ := hk
      have e1 := Grid.step_opp hn h1
      rw [Grid.step_opp hn' h1'] at e1
      exact ⟨(Option.some.inj e1).symm, rfl, hw⟩
  · rintro ⟨rfl, rfl, hw⟩
    rw [h1] at h1'
    cases h1'
    exact ⟨⟨rfl, hw⟩, rfl⟩

theorem filterMap_at {α β : Type} {f : α → Option β} : ∀ {l : List α} {i : Nat} {b : β}, (l.filterMap f)[i]? = some b →
    ∃ a, (l.filter fun a => (f a).isSome)[i]? = some a ∧ f a = some b
  | [], i, b, h => by simp at h
  | a :: l, i, b, h => by
    rw [List.filterMap_cons] at h
    cases hf : f a with
    | none =>
      rw [hf] at h
      obtain ⟨a', h1, h2⟩ := filterMap_at h
      exact ⟨a', by rw [List.filter_cons_of_neg (by simp [hf])]; exact h1, h2⟩
    | some b' =>
      rw [hf] at h
      rw [List.filter_cons_of_pos (by simp [hf])]
      cases i with
      | zero =>
        simp only [List.getElem?_cons_zero, Option.some.injEq] at h
        subst h
        exact ⟨a, rfl, hf⟩
      | succ i =>
        obtain ⟨a', h1, h2⟩ := filterMap_at h
        exact ⟨a', h1, h2⟩

theorem refOf_isSome (hs : Stores g k s c) {n : NodeIx} (hn : s.Node n) (d : Dir) :
    (refOf k s c n d).isSome = (s.step n d).isSome := by
  cases hst : s.step n d with
  | none => rw [refOf_none hst]; rfl
  | some t =>
    obtain ⟨w, _, hr⟩ := refOf_some hs hn hst
    rw [hr]; rfl

/-- **C96.** References from `edges(n)` of one graph and `edges(n')` of a graph of the same sides (or the same graph at another
time) are equal exactly if they are from the same place of the sequence of the same node and carry equal weights. -/
theorem c96_edges (hb : Built k h v g c) (hb' : Built k h v g' c') (hf : k.Fits h v) (weq : E → E → Bool) {n n' : NodeIx}
    (hn : (k.grid h v).Node n) (hn' : (k.grid h v).Node n') :
    ∃ l l', Yields (EdgesOf.next g) (g.edges n) l ∧ Yields (EdgesOf.next g') (g'.edges n') l' ∧
      ∀ (i j : Nat) (r r' : Ref E), l[i]? = some r → l'[j]? = some r' →
        (r.eq weq r' = true ↔ n = n' ∧ i = j ∧ weq r.weight r'.weight = true) := by
  refine ⟨_, _, edgesOf_yields hb.stores (hb.sizes hf) hn 4 0 rfl, edgesOf_yields hb'.stores (hb'.sizes hf) hn' 4 0 rfl, ?_⟩
  intro i j r r' hr hr'
  obtain ⟨d, h1, h2⟩ := filterMap_at hr
  obtain ⟨d', h1', h2'⟩ := filterMap_at hr'
  rw [refOf_eq weq hn hn' h2 h2']
  simp only [refOf_isSome hb.stores hn, refOf_isSome hb'.stores hn'] at h1 h1'
  constructor
  · rintro ⟨rfl, rfl, hw⟩
    refine ⟨rfl, ?_, hw⟩
    have hnd : ((Grid.dirs.drop 0).filter fun a => ((k.grid h v).step n a).isSome).Nodup :=
      List.Nodup.sublist List.filter_sublist (by decide)
    obtain ⟨hi, ei⟩ := List.getElem?_eq_some_iff.1 h1
    obtain ⟨hj, ej⟩ := List.getElem?_eq_some_iff.1 h1'
    rw [List.Nodup, List.pairwise_iff_getElem] at hnd
    rcases Nat.lt_trichotomy i j with hij | hij | hij
    · exact absurd (ei.trans ej.symm) (hnd i j hi hj hij)
    · exact hij
    · exact absurd (ej.trans ei.symm) (hnd j i hj hi hij)
  · rintro ⟨rfl, rfl, hw⟩
    rw [h1] at h1'
    exact ⟨rfl, Option.some.inj h1', hw⟩

theorem view_ends {r : Ref E} {w : View E} (hv : r.view k = .ok w) : r.source k = .ok w.source ∧ r.target k = .ok w.target := by
  unfold Ref.view at hv
  cases h1 : r.source k with
  | error e => rw [h1] at hv; cases hv
  | ok a =>
    cases h2 : r.target k with
    | error e => rw [h1, h2] at hv; cases hv
    | ok b => rw [h1, h2] at hv; cases hv; exact ⟨rfl, rfl⟩

/-- **C96.** The two ends of an edge see it by references with the same `id()` and weight, one backwards and one forwards, which
are not equal. -/
theorem c96_two_views (hb : Built k h v g c) (hf : k.Fits h v) (weq : E → E → Bool) {n : NodeIx} (hn : (k.grid h v).Node n)
    {l : List (Ref E)} (hl : Yields (EdgesOf.next g) (g.edges n) l) {r : Ref E} (hr : r ∈ l) :
    ∃ t l' r', r.target k = .ok t ∧ Yields (EdgesOf.next g) (g.edges t) l' ∧ r' ∈ l' ∧ r'.target k = .ok n ∧ r'.id = r.id ∧
      r'.weight = r.weight ∧ r.eq weq r' = false := by
  rw [hl.unique (edgesOf_yields hb.stores (hb.sizes hf) hn 4 0 rfl)] at hr
  obtain ⟨d, _, hd⟩ := List.mem_filterMap.1 hr
  cases hst : (k.grid h v).step n d with
  | none => rw [refOf_none hst] at hd; cases hd
  | some t =>
    obtain ⟨w, hw, e⟩ := refOf_some hb.stores hn hst
    rw [hd] at e
    cases e
    have ht := Grid.step_node hn hst
    have hback := Grid.step_opp hn hst
    obtain ⟨w', hw', e'⟩ := refOf_some hb.stores ht hback
    have hk : Grid.key t n d.opp = Grid.key n t d := by cases d <;> rfl
    rw [hk, hw] at hw'
    cases hw'
    have v1 := view_eq (hb.sizes hf) hn hst w
    have v2 := view_eq (hb.sizes hf) ht hback w
    refine ⟨t, _, _, ?_, edgesOf_yields hb.stores (hb.sizes hf) ht 4 0 rfl,
      List.mem_filterMap.2 ⟨d.opp, by cases d with | _ a => cases a <;> decide, e'⟩, ?_, hk, rfl, ?_⟩
    · exact (view_ends v1).2
    · exact (view_ends v2).2
    · cases d <;> simp [Ref.eq, Dir.isFwd, Dir.opp]

theorem nodes_sorted (s : Grid) : s.nodes.Pairwise fun a b => a.cmp b = .lt := by
  have hr : ∀ n, (List.range n).Pairwise (· < ·) := fun n => List.pairwise_lt_range
  unfold Grid.nodes
  rw [List.pairwise_flatMap]
  constructor
  · intro i _
    rw [List.pairwise_map]
    refine (hr s.v).imp fun h => ?_
    simp only [NodeIx.cmp, lexCmp, Std.compare_self]
    exact Nat.compare_eq_lt.2 h
  · refine (hr s.h).imp fun h x hx y hy => ?_
    obtain ⟨_, _, rfl⟩ := List.mem_map.1 hx
    obtain ⟨_, _, rfl⟩ := List.mem_map.1 hy
    simp only [NodeIx.cmp, lexCmp, Nat.compare_eq_lt.2 h]

/-- **C96.** `edge_references()` is strictly increasing in the derived order of the references, whatever the order of the
weights. -/
theorem c96_sorted (hb : Built k h v g c) (hf : k.Fits h v) (wcmp : E → E → Ordering) (scmp : SizeInfo → SizeInfo → Ordering) :
    ∃ l, Yields (edgeRefsNext g) (edgeRefsInit g) l ∧ l.Pairwise fun r r' => r.cmp wcmp scmp r' = .lt := by
  have hs := hb.stores
  have z := hb.sizes hf
  have e1 : g.horizontalNodeCount = (k.grid h v).h := hs.nodes.rows
  have e2 : g.verticalNodeCount = (k.grid h v).v := hs.nodes.cols
  refine ⟨(k.grid h v).nodes.flatMap (ownRefs k (k.grid h v) c), ?_, ?_⟩
  · unfold edgeRefsInit
    rw [e1, e2, Grid.nodes_eq, List.range_eq_range']
    exact edgeRefs_yields hs z _ 0 _ (Pos.new z) (by omega)
  · have hid : ∀ {n : NodeIx} {a : Axis} {r : Ref E}, ownRef k (k.grid h v) c n a = some r → r.id = ⟨n, a⟩ := by
      intro n a r hr
      unfold ownRef at hr
      obtain ⟨w, _, rfl⟩ := Option.map_eq_some_iff.1 hr
      rfl
    have hlt : ∀ {r r' : Ref E}, r.id.cmp r'.id = .lt → r.cmp wcmp scmp r' = .lt := by
      intro r r' h
      simp only [Ref.cmp, h, lexCmp]
    rw [List.pairwise_flatMap]
    constructor
    · intro n _
      unfold ownRefs
      rw [List.pairwise_filterMap]
      simp only [List.pairwise_cons, List.mem_cons, List.mem_nil_iff, or_false, forall_eq, List.Pairwise.nil, and_true,
        false_implies, implies_true]
      intro r hr r' hr'
      apply hlt
      rw [hid hr, hid hr']
      simp only [EdgeIx.cmp, NodeIx.cmp, Std.compare_self, lexCmp]
      rfl
    · refine (nodes_sorted _).imp fun hlt' r hr r' hr' => ?_
      obtain ⟨_, _, hr⟩ := List.mem_filterMap.1 hr
      obtain ⟨_, _, hr'⟩ := List.mem_filterMap.1 hr'
      apply hlt
      rw [hid hr, hid hr']
      simp only [EdgeIx.cmp, hlt', lexCmp]

example : ∃ (g : G Nat Nat) (c : Contents NodeIx Axis Nat Nat), Built exCfg 3 2 g c ∧
    ∃ l l', Yields (EdgesOf.next g) (g.edges ⟨0, 1⟩) l ∧ Yields (EdgesOf.next g) (g.edges ⟨0, 1⟩) l' ∧
      ∀ (i j : Nat) (r r' : Ref Nat), l[i]? = some r → l'[j]? = some r' →
        (r.eq (· == ·) r' = true ↔ (⟨0, 1⟩ : NodeIx) = ⟨0, 1⟩ ∧ i = j ∧ (r.weight == r'.weight) = true) := by
  obtain ⟨g, c, hb, -⟩ := exGraph exCfg (by decide)
  exact ⟨g, c, hb, c96_edges hb hb ⟨by decide, by decide⟩ (· == ·) (by decide) (by decide)⟩
example : (⟨⟨⟨0, 0⟩, .horizontal⟩, 5, true, ⟨none, none⟩⟩ : Ref Nat).eq (· == ·) ⟨⟨⟨0, 0⟩, .horizontal⟩, 5, true, ⟨none, none⟩⟩ = true ∧
    (⟨⟨⟨0, 0⟩, .horizontal⟩, 5, true, ⟨none, none⟩⟩ : Ref Nat).eq (· == ·) ⟨⟨⟨0, 0⟩, .horizontal⟩, 5, false, ⟨none, none⟩⟩ = false := by
  decide

example : ∃ (g : G Nat Nat) (c : Contents NodeIx Axis Nat Nat), Built exCfg 3 2 g c ∧
    (∀ l r, Yields (EdgesOf.next g) (g.edges ⟨0, 1⟩) l → r ∈ l → ∃ t l' r', r.target exCfg = .ok t ∧
      Yields (EdgesOf.next g) (g.edges t) l' ∧ r' ∈ l' ∧ r'.id = r.id ∧ r.eq (· == ·) r' = false) ∧
    ∃ l, Yields (edgeRefsNext g) (edgeRefsInit g) l ∧ l.Pairwise fun r r' => r.cmp compare (fun _ _ => .eq) r' = .lt := by
  obtain ⟨g, c, hb, -⟩ := exGraph exCfg (by decide)
  have hf : exCfg.Fits 3 2 := ⟨by decide, by decide⟩
  refine ⟨g, c, hb, fun l r hl hr => ?_, c96_sorted hb hf _ _⟩
  obtain ⟨t, l', r', h1, h2, h3, -, h4, -, h5⟩ := c96_two_views hb hf (· == ·) (n := ⟨0, 1⟩) (by decide) hl hr
  exact ⟨t, l', r', h1, h2, h3, h4, h5⟩

end
end LG.Sq
