import Verif.Props.Ex
/- C01, C02, C03: construction. -/
set_option linter.unusedSectionVars false
namespace LG
section
variable {C A D N E σ : Type} [DecidableEq C] [DecidableEq A] [DecidableEq D]
variable {g : Graph C A D N E} {s : Shape C A D} {L : Lat C A D} {rep : C → Prop} {k : Contents C A N E}

/-- **C01.** `new_with` on any sound shape of a size ndarray accepts returns a graph, and the closures' state afterwards is
the state after making exactly the calls `callSeq L`, in that order (so no call is made twice, missed or reordered, whatever
the closures do). -/
theorem c01_new_with (hs : Lawful s L rep) (hc : Constructible s) (n : σ → C → N × σ) (e : σ → C → A → E × σ) (st : σ) :
    ∃ g : Graph C A D N E, newWith s n e st = .ok (g, (runCalls n e (callSeq L) st emptyContents).2) := by
  obtain ⟨g, h, _⟩ := newWith_ok hs hc n e st
  exact ⟨g, h⟩

/-- **C01.** The calls themselves, as seen by closures that log them: node by node in index order, each node once, after it
the axes (in order) whose forward cell exists. -/
theorem c01_call_log (hs : Lawful s L rep) (hc : Constructible s) (n : C → N) (e : C → A → E) :
    ∃ g : Graph C A D N E, newWith s (fun log c => (n c, log ++ [Call.node c]))
      (fun log c a => (e c a, log ++ [Call.edge c a])) [] = .ok (g, callSeq L) := by
  obtain ⟨g, h, _⟩ := newWith_ok hs hc (fun log c => (n c, log ++ [Call.node c]))
    (fun log c a => (e c a, log ++ [Call.edge c a])) []
  refine ⟨g, ?_⟩
  rw [h]
  have key : ∀ (l : List (Call C A)) (st : List (Call C A)) (k : Contents C A N E),
      (runCalls (fun log c => (n c, log ++ [Call.node c])) (fun log c a => (e c a, log ++ [Call.edge c a])) l st k).2
        = st ++ l := by
    intro l
    induction l with
    | nil => intro st k; simp [runCalls]
    | cons x l ih => intro st k; cases x <;> simp [runCalls, ih]
  rw [key, List.nil_append]

/-- **C01.** No call occurs twice. -/
theorem c01_calls_once (hs : Lawful s L rep) : (callSeq L).Nodup := callSeq_nodup hs.laws

/-- **C01.** The node closure is called exactly for the nodes, the edge closure exactly for the edges. -/
theorem c01_calls_exact (hs : Lawful s L rep) (c : C) (a : A) :
    (Call.node c ∈ callSeq L ↔ L.Node c) ∧ (Call.edge c a ∈ callSeq L ↔ L.HasEdge c a) :=
  ⟨mem_callSeq_node, mem_callSeq_edge hs.laws.dir⟩

/-- **C01.** Sizes ndarray rejects make `new_with` panic (before any closure call), never anything worse. -/
theorem c01_rejects (hc : ¬ Constructible s) (n : σ → C → N × σ) (e : σ → C → A → E × σ) (st : σ) :
    newWith s n e st = .error .panic := newWith_panic hc n e st

example : ∃ g : Graph Offset SquareAxis DSquareAxis Nat Nat,
    newWith (squareShape m64 3 2) (fun log c => (c.vertical, log ++ [Call.node c]))
      (fun log c a => (a.toIndex, log ++ [Call.edge c a])) [] =
    .ok (g, [.node ⟨0, 0⟩, .edge ⟨0, 0⟩ .X, .edge ⟨0, 0⟩ .Y, .node ⟨0, 1⟩, .edge ⟨0, 1⟩ .X,
      .node ⟨1, 0⟩, .edge ⟨1, 0⟩ .X, .edge ⟨1, 0⟩ .Y, .node ⟨1, 1⟩, .edge ⟨1, 1⟩ .X,
      .node ⟨2, 0⟩, .edge ⟨2, 0⟩ .Y, .node ⟨2, 1⟩]) :=
  c01_call_log (.square m64 3 2) (by decide) (fun c => c.vertical) (fun _ a => a.toIndex)
example : newWith (squareShape m16 200 200) exN exE () = .error .panic := c01_rejects (by decide) exN exE ()

theorem runCalls_pure (n : C → N) (e : C → A → E) : ∀ (l : List (Call C A)) (k : Contents C A N E),
    (∀ c, (runCalls (fun u c => (n c, u)) (fun u c a => (e c a, u)) l () k).1.node c =
      if Call.node c ∈ l then some (n c) else k.node c) ∧
    (∀ c a, (runCalls (fun u c => (n c, u)) (fun u c a => (e c a, u)) l () k).1.edge c a =
      if Call.edge c a ∈ l then some (e c a) else k.edge c a)
  | [], k => by simp [runCalls]
  | .node c' :: l, k => by
    have ih := runCalls_pure n e l
      { k with node := fun c => if c = c' then some (n c') else k.node c }
    constructor
    · intro c
      rw [runCalls, ih.1]
      by_cases h : c = c' <;> simp [h]
    · intro c a
      rw [runCalls, ih.2]
      simp
  | .edge c' a' :: l, k => by
    have ih := runCalls_pure n e l
      { k with edge := fun c a => if c = c' ∧ a = a' then some (e c' a') else k.edge c a }
    constructor
    · intro c
      rw [runCalls, ih.1]
      simp
    · intro c a
      rw [runCalls, ih.2]
      by_cases h : c = c' ∧ a = a' <;> simp [h]

/-- **C02.** After `new_with(s, n, e)`, `node_weight` is `Some(n(c))` on the nodes and `None` on every other coordinate. -/
theorem c02_node_weight (hs : Lawful s L rep) {n : C → N} {e : C → A → E}
    (hb : newWith s (fun u c => (n c, u)) (fun u c a => (e c a, u)) () = .ok (g, ())) (c : C) :
    (L.Node c → g.nodeWeight c = .ok (some (n c))) ∧ (¬ L.Node c → rep c → g.nodeWeight c = .ok none) := by
  have hg := (Built.new (L := L) hb).good hs
  have h1 := (runCalls_pure n e (callSeq L) emptyContents).1 c
  have hm := mem_callSeq_node (L := L) (c := c)
  constructor
  · intro hc
    rw [nodeWeight_eq hg.impl hg.inv hg.total (.inl hc), h1, if_pos (hm.2 hc)]
  · intro hc hr
    rw [nodeWeight_eq hg.impl hg.inv hg.total (.inr hr), h1, if_neg (mt hm.1 hc)]
    rfl

/-- **C03.** After `new_with(s, n, e)`, `edge_weight((c, a))` is `Some(e(c, a))` when `c` is a node and the forward cell
exists, `None` in every other case. -/
theorem c03_edge_weight (hs : Lawful s L rep) {n : C → N} {e : C → A → E}
    (hb : newWith s (fun u c => (n c, u)) (fun u c a => (e c a, u)) () = .ok (g, ())) (c : C) (a : A) :
    (L.HasEdge c a → g.edgeWeight c a = .ok (some (e c a))) ∧
    (¬ L.HasEdge c a → L.Node c ∨ rep c → g.edgeWeight c a = .ok none) := by
  have hg := (Built.new (L := L) hb).good hs
  have h1 := (runCalls_pure n e (callSeq L) emptyContents).2 c a
  have hm := mem_callSeq_edge hs.laws.dir (c := c) (a := a)
  constructor
  · intro hc
    rw [edgeWeight_eq hg.impl hg.inv hg.total (.inl hc.1), h1, if_pos (hm.2 hc)]
  · intro hc hr
    rw [edgeWeight_eq hg.impl hg.inv hg.total hr, h1, if_neg (mt hm.1 hc)]
    rfl

/-- Closures that depend on the call history: the weights are the values of the respective calls. -/
theorem c02_c03_stateful (hs : Lawful s L rep) {n : σ → C → N × σ} {e : σ → C → A → E × σ} {st st' : σ}
    (hb : newWith s n e st = .ok (g, st')) (c : C) (a : A) (hc : L.Node c ∨ rep c) :
    g.nodeWeight c = .ok ((runCalls n e (callSeq L) st emptyContents).1.node c) ∧
    g.edgeWeight c a = .ok ((runCalls n e (callSeq L) st emptyContents).1.edge c a) := by
  have hg := (Built.new (L := L) hb).good hs
  exact ⟨nodeWeight_eq hg.impl hg.inv hg.total hc, edgeWeight_eq hg.impl hg.inv hg.total hc⟩

example : ∃ g, newWith (squareShape m64 3 2) (fun u c => (10 * c.horizontal, u)) (fun u c _ => (c.vertical, u)) () =
      .ok (g, ()) ∧ g.nodeWeight ⟨2, 1⟩ = .ok (some 20) ∧ g.nodeWeight ⟨3, 1⟩ = .ok none ∧
      g.edgeWeight ⟨1, 1⟩ .X = .ok (some 1) ∧ g.edgeWeight ⟨2, 1⟩ .X = .ok none := by
  obtain ⟨g, h⟩ := c01_new_with (Lawful.square m64 3 2) (by decide) (fun u c => (10 * c.horizontal, u))
    (fun u c _ => (c.vertical, u)) ()
  refine ⟨g, h, (c02_node_weight (.square m64 3 2) h _).1 ⟨2, 1, by decide, by decide, rfl⟩,
    (c02_node_weight (.square m64 3 2) h _).2 ?_ trivial,
    (c03_edge_weight (.square m64 3 2) h _ _).1 ⟨⟨1, 1, by decide, by decide, rfl⟩, by decide⟩,
    (c03_edge_weight (.square m64 3 2) h _ _).2 ?_ (.inr trivial)⟩
  · rintro ⟨x, y, hx, _, h⟩; cases h; exact absurd hx (by decide)
  · rintro ⟨_, h⟩; exact absurd h (by decide)

/-- Instances of the theorems above: the calls for the 3 × 2 square grid; closures that number their calls. -/
example : (callSeq (squareLat 3 2)).Nodup := c01_calls_once (.square m64 3 2)
example : Call.edge ⟨1, 1⟩ .X ∈ callSeq (squareLat 3 2) ∧ Call.edge ⟨2, 1⟩ .X ∉ callSeq (squareLat 3 2) :=
  ⟨(c01_calls_exact (.square m64 3 2) _ _).2.2 ⟨⟨1, 1, by decide, by decide, rfl⟩, by decide⟩,
    fun h => absurd ((c01_calls_exact (.square m64 3 2) _ _).2.1 h).2 (by decide)⟩
example : ∃ g, newWith (squareShape m64 3 2) (fun st _ => (st, st + 1)) (fun st _ _ => (100 + st, st + 1)) 0 = .ok (g, 13) ∧
    g.nodeWeight ⟨1, 0⟩ = .ok (some 5) ∧ g.edgeWeight ⟨1, 0⟩ .Y = .ok (some 107) := by
  obtain ⟨g, h⟩ := c01_new_with (Lawful.square m64 3 2) (by decide) (fun (st : Nat) _ => (st, st + 1)) (fun st _ _ => (100 + st, st + 1)) 0
  have := c02_c03_stateful (.square m64 3 2) h ⟨1, 0⟩ .Y (.inl ⟨1, 0, by decide, by decide, rfl⟩)
  exact ⟨g, h, this⟩

end
end LG
