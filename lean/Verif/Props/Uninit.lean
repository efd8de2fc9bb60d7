import Verif.Model.Uninit
import Verif.Props.Build
/- C55: the `new_uninit` workflow. -/
set_option linter.unusedSectionVars false
namespace LG
section
variable {C A D N E : Type} [DecidableEq C] [DecidableEq A] [DecidableEq D]
variable {g g' : Graph C A D N E} {s : Shape C A D} {L : Lat C A D} {rep : C → Prop} {k k' : Contents C A N E}

/-- The value the last write to node `c` stored, if there was one. -/
def initNodeVal (c : C) : List (InitOp C A N E) → Option N
  | [] => none
  | .node c' x :: ops => (initNodeVal c ops).or (if c' = c then some x else none)
  | .edge _ _ _ :: ops => initNodeVal c ops

/-- The value the last write to edge `(c, a)` stored, if there was one. -/
def initEdgeVal (c : C) (a : A) : List (InitOp C A N E) → Option E
  | [] => none
  | .node _ _ :: ops => initEdgeVal c a ops
  | .edge c' a' x :: ops => (initEdgeVal c a ops).or (if c' = c ∧ a' = a then some x else none)

/-- The writes the claim is about: to any coordinate (see C28 for `rep`), in the graph or not. -/
def InitOk (L : Lat C A D) (rep : C → Prop) : InitOp C A N E → Prop
  | .node c _ => L.Node c ∨ rep c
  | .edge c _ _ => L.Node c ∨ rep c

/-- Arrays that hold the same contents are the same arrays. -/
theorem ArrInv.eq {α : Type} {a a' : Arr2 α} {f f' : C → Option α} (h : ArrInv L a f) (h' : ArrInv L a' f')
    (he : ∀ c, L.Node c → f c = f' c) : a = a' := by
  have h1 : a.data = a'.data := by
    apply List.ext_getElem?
    intro i
    by_cases hi : i < L.width * L.height
    · have h2 := h.slot (div_lt_w hi) (mod_lt_h hi)
      have h3 := h'.slot (div_lt_w hi) (mod_lt_h hi)
      rw [idx_eta] at h2 h3
      rw [h2, h3, he _ ⟨_, _, div_lt_w hi, mod_lt_h hi, rfl⟩]
    · rw [List.getElem?_eq_none (by rw [h.len]; omega), List.getElem?_eq_none (by rw [h'.len]; omega)]
  cases a
  cases a'
  simp only [Arr2.mk.injEq]
  exact ⟨h.rows.trans h'.rows.symm, h.cols.trans h'.cols.symm, h1⟩

theorem EdgesInv.eq {f f' : C → A → Option E} (he : ∀ c a, L.Node c → f c a = f' c a) :
    ∀ {es es' : List (Arr2 E)} {as : List A}, EdgesInv L f es as → EdgesInv L f' es' as → es = es'
  | [], [], [], _, _ => rfl
  | _ :: _, _ :: _, _ :: _, h, h' => by
    rw [h.1.eq h'.1 fun c hc => he c _ hc, EdgesInv.eq he h.2 h'.2]
  | [], _, _ :: _, h, _ => h.elim
  | _, [], _ :: _, _, h' => h'.elim
  | _ :: _, _, [], h, _ => h.elim
  | _, _ :: _, [], _, h' => h'.elim

/-- Graphs that hold the same contents are the same graphs. -/
theorem Inv.eq (h : Inv g L k) (h' : Inv g' L k') (hs : g.s = g'.s) (hn : ∀ c, L.Node c → k.node c = k'.node c)
    (he : ∀ c a, L.Node c → k.edge c a = k'.edge c a) : g = g' := by
  have h1 := h.nodes.eq h'.nodes hn
  have h2 := EdgesInv.eq he h.edges h'.edges
  cases g
  cases g'
  simp only [Graph.mk.injEq]
  exact ⟨h1, h2, hs⟩

theorem ArrInv.usetUninit {α : Type} (hl : LatBase L) {a : Arr2 α} {f : C → Option α} (h : ArrInv L a f) {x y : Nat}
    (m : Machine) (hx : x < L.width) (hy : y < L.height) (w : α) :
    ∃ a', a.usetUninit m x y w = .ok a' ∧ ArrInv L a' (fun c => if c = L.coord x y then some w else f c) := by
  unfold Arr2.usetUninit
  rw [h.slot_eq hx hy]
  exact ⟨_, rfl, h.writeSlot hl hx hy w⟩

open Classical in
theorem initNode_spec (hl : LatBase L) (hi : ImplBase g.s L rep) (hinv : Inv g L k) {c : C} (hc : L.Node c ∨ rep c) (x : N) :
    ∃ g', g.initNode c x = .ok g' ∧ g'.s = g.s ∧
      Inv g' L { k with node := fun c' => if c' = c ∧ L.Node c then some x else k.node c' } := by
  unfold Graph.initNode
  rcases hi.toOffset_cases hc with ⟨i, j, hx, hy, rfl, h⟩ | ⟨hn, h⟩
  · obtain ⟨a', h1, h2⟩ := hinv.nodes.usetUninit hl g.s.m hx hy x
    simp only [h, bind, Except.bind, h1]
    refine ⟨_, rfl, rfl, ?_, hinv.edges⟩
    have : L.Node (L.coord i j) := ⟨i, j, hx, hy, rfl⟩
    simpa only [this, and_true] using h2
  · simp only [h, bind, Except.bind]
    refine ⟨_, rfl, rfl, ?_, hinv.edges⟩
    simpa only [hn, and_false, if_false] using hinv.nodes

open Classical in
theorem initEdge_spec (hl : LatBase L) (hi : ImplBase g.s L rep) (hinv : Inv g L k) {c : C} (hc : L.Node c ∨ rep c) (a : A)
    (x : E) : ∃ g', g.initEdge c a x = .ok g' ∧ g'.s = g.s ∧
      Inv g' L { k with edge := fun c' a' => if (c' = c ∧ a' = a) ∧ L.HasEdge c a then some x else k.edge c' a' } := by
  unfold Graph.initEdge
  rcases hi.toOffset_cases hc with ⟨i, j, hx, hy, rfl, h⟩ | ⟨hn, h⟩
  · have hnode : L.Node (L.coord i j) := ⟨i, j, hx, hy, rfl⟩
    simp only [h, bind, Except.bind, hi.axis.foward, hi.move hnode]
    cases hb : L.nbr (L.coord i j) (L.fwd a) with
    | none =>
      have hne : ¬ L.HasEdge (L.coord i j) a := by simp [Lat.HasEdge, hb]
      refine ⟨_, rfl, rfl, hinv.nodes, ?_⟩
      simpa only [hne, and_false, if_false] using hinv.edges
    | some t =>
      have hne : L.HasEdge (L.coord i j) a := ⟨hnode, by simp [hb]⟩
      obtain ⟨arr, h1, h2⟩ := hi.axis.getEdgeArr hinv a rfl
      obtain ⟨a', h3, h4⟩ := h2.usetUninit hl g.s.m hx hy x
      simp only [h1, h3]
      refine ⟨_, rfl, rfl, hinv.nodes, ?_⟩
      refine hinv.edges.set hl.dir.axes_nodup (hi.axis.toIndex a) (h4.congr fun c' _ => ?_) ?_
      · simp only [hne, and_true]
      · intro c' b hb'
        simp [hb']
  · simp only [h, bind, Except.bind]
    have hne : ¬ L.HasEdge c a := fun h => hn h.1
    refine ⟨_, rfl, rfl, hinv.nodes, ?_⟩
    simpa only [hne, and_false, if_false] using hinv.edges

open Classical in
theorem runInit_spec (hl : LatBase L) : ∀ {ops : List (InitOp C A N E)} {g : Graph C A D N E} {k : Contents C A N E},
    ImplBase g.s L rep → Inv g L k → (∀ op ∈ ops, InitOk L rep op) →
    ∃ g' k', runInit g ops = .ok g' ∧ g'.s = g.s ∧ Inv g' L k' ∧
      (∀ c, L.Node c → k'.node c = (initNodeVal c ops).or (k.node c)) ∧
      (∀ c a, L.HasEdge c a → k'.edge c a = (initEdgeVal c a ops).or (k.edge c a)) ∧
      (∀ c a, ¬ L.HasEdge c a → k'.edge c a = k.edge c a)
  | [], g, k, _, hinv, _ => ⟨g, k, rfl, rfl, hinv, by simp [initNodeVal], by simp [initEdgeVal], fun _ _ _ => rfl⟩
  | .node c x :: ops, g, k, hi, hinv, hok => by
    obtain ⟨g1, h1, h2, h3⟩ := initNode_spec hl hi hinv (hok (.node c x) (by simp)) x
    obtain ⟨g', k', h4, h5, h6, h7, h8, h9⟩ := runInit_spec hl (h2 ▸ hi) h3 fun op h => hok op (List.mem_cons_of_mem _ h)
    refine ⟨g', k', ?_, h5.trans h2, h6, fun c' hc' => ?_, fun c' a hc' => ?_, fun c' a hc' => ?_⟩
    · simp only [runInit, h1, bind, Except.bind, h4]
    · rw [h7 c' hc', initNodeVal]
      by_cases he : c = c'
      · subst he; simp [hc']
      · simp [he, Ne.symm he]
    · rw [h8 c' a hc', initEdgeVal]
    · rw [h9 c' a hc']
  | .edge c a x :: ops, g, k, hi, hinv, hok => by
    obtain ⟨g1, h1, h2, h3⟩ := initEdge_spec hl hi hinv (hok (.edge c a x) (by simp)) a x
    obtain ⟨g', k', h4, h5, h6, h7, h8, h9⟩ := runInit_spec hl (h2 ▸ hi) h3 fun op h => hok op (List.mem_cons_of_mem _ h)
    refine ⟨g', k', ?_, h5.trans h2, h6, fun c' hc' => ?_, fun c' a' hc' => ?_, fun c' a' hc' => ?_⟩
    · simp only [runInit, h1, bind, Except.bind, h4]
    · rw [h7 c' hc', initNodeVal]
    · rw [h8 c' a' hc', initEdgeVal]
      by_cases he : c = c' ∧ a = a'
      · obtain ⟨rfl, rfl⟩ := he; simp [hc']
      · have he' : ¬ (c' = c ∧ a' = a) := fun h => he ⟨h.1.symm, h.2.symm⟩
        simp only [he, he', if_false, false_and, Option.or_none]
    · rw [h9 c' a' hc']
      simp only
      rw [if_neg]
      rintro ⟨⟨rfl, rfl⟩, h⟩
      exact hc' h

/-- **C55.** Start from `new_uninit`, write in any order, any number of times, also to coordinates outside the graph. No write
faults. If the last write to every node `c` stored `n(c)` and the last write to every edge stored `e(c, a)`, then after
`assume_init` the graph is equal to the one `new_with(s, n, e)` builds. -/
theorem c55_new_uninit (hs : Lawful s L rep) (hc : Constructible s) {ops : List (InitOp C A N E)}
    (hok : ∀ op ∈ ops, InitOk L rep op) :
    ∃ g0 g1 : Graph C A D N E, newUninit s = .ok g0 ∧ runInit g0 ops = .ok g1 ∧
      ∀ (n : C → N) (e : C → A → E), (∀ c, L.Node c → initNodeVal c ops = some (n c)) →
        (∀ c a, L.HasEdge c a → initEdgeVal c a ops = some (e c a)) →
        newWith s (fun u c => (n c, u)) (fun u c a => (e c a, u)) () = .ok (g1.assumeInit, ()) := by
  have hi := hs.impl hc
  obtain ⟨g0, h1, rfl, h3⟩ := newUninit_spec (N := N) (E := E) hi.width hi.height hi.axis.count hc
  obtain ⟨g1, k1, h4, h5, h6, h7, h8, h9⟩ := runInit_spec hs.laws.toLatBase hi.toImplBase h3 hok
  refine ⟨g0, g1, h1, h4, fun n e hn he => ?_⟩
  obtain ⟨g2, h10, h11, h12⟩ := newWith_ok hs hc (fun u c => (n c, u)) (fun u c a => (e c a, u)) ()
  have hp := runCalls_pure n e (callSeq L) emptyContents
  rw [h10]
  have : g1 = g2 := by
    refine h6.eq h12 (h5.trans h11.symm) (fun c hc => ?_) (fun c a hc => ?_)
    · rw [h7 c hc, hn c hc, hp.1, if_pos (mem_callSeq_node.2 hc)]
      rfl
    · rw [hp.2]
      by_cases hh : L.HasEdge c a
      · rw [h8 c a hh, he c a hh, if_pos ((mem_callSeq_edge hs.laws.dir).2 hh)]
        rfl
      · rw [h9 c a hh, if_neg (mt (mem_callSeq_edge hs.laws.dir).1 hh)]
  rw [this]
  rfl

/-- **C55.** The condition is needed: reading a node that was never written is undefined behaviour. -/
theorem c55_unwritten_node (hs : Lawful s L rep) (hc : Constructible s) {ops : List (InitOp C A N E)}
    (hok : ∀ op ∈ ops, InitOk L rep op) {c : C} (hn : L.Node c) (hl : initNodeVal c ops = none) :
    ∃ g0 g1 : Graph C A D N E, newUninit s = .ok g0 ∧ runInit g0 ops = .ok g1 ∧
      g1.assumeInit.nodeWeight c = .error .ub := by
  have hi := hs.impl hc
  obtain ⟨g0, h1, rfl, h3⟩ := newUninit_spec (N := N) (E := E) hi.width hi.height hi.axis.count hc
  obtain ⟨g1, k1, h4, h5, h6, h7, -, -⟩ := runInit_spec hs.laws.toLatBase hi.toImplBase h3 hok
  refine ⟨g0, g1, h1, h4, ?_⟩
  have h8 := h7 c hn
  obtain ⟨x, y, hx, hy, rfl⟩ := hn
  simp only [Graph.assumeInit, Graph.nodeWeight, h5, hi.toOffset_coord hx hy, bind, Except.bind, Arr2.uget,
    h6.nodes.slot_eq hx hy, Arr2.read, h6.nodes.slot hx hy, h8, hl, emptyContents, Option.or_none]

/-- The same for an edge. -/
theorem c55_unwritten_edge (hs : Lawful s L rep) (hc : Constructible s) {ops : List (InitOp C A N E)}
    (hok : ∀ op ∈ ops, InitOk L rep op) {c : C} {a : A} (hn : L.HasEdge c a) (hl : initEdgeVal c a ops = none) :
    ∃ g0 g1 : Graph C A D N E, newUninit s = .ok g0 ∧ runInit g0 ops = .ok g1 ∧
      g1.assumeInit.edgeWeight c a = .error .ub := by
  have hi := hs.impl hc
  obtain ⟨g0, h1, rfl, h3⟩ := newUninit_spec (N := N) (E := E) hi.width hi.height hi.axis.count hc
  obtain ⟨g1, k1, h4, h5, h6, -, h7, -⟩ := runInit_spec hs.laws.toLatBase hi.toImplBase h3 hok
  refine ⟨g0, g1, h1, h4, ?_⟩
  have h8 := h7 c a hn
  obtain ⟨⟨x, y, hx, hy, rfl⟩, ht⟩ := hn
  have hnode : L.Node (L.coord x y) := ⟨x, y, hx, hy, rfl⟩
  obtain ⟨t, ht⟩ := Option.isSome_iff_exists.1 ht
  obtain ⟨arr, h9, h10⟩ := (h5 ▸ hi.axis : AxisImpl g1.s.axis L).getEdgeArr h6 a rfl
  rw [h5] at h9
  simp only [Graph.assumeInit, Graph.edgeWeight, h5, hi.toOffset_coord hx hy, bind, Except.bind, hi.axis.foward,
    hi.move hnode, ht, h9, Arr2.uget, h10.slot_eq hx hy, Arr2.read, h10.slot hx hy, h8, hl, emptyContents, Option.or_none]

/-- The documented use: cell by cell in any order. Here a 2 × 1 square graph, the later cell first. -/
example : ∃ g0 g1 : Graph Offset SquareAxis DSquareAxis Nat Nat, newUninit (squareShape m64 2 1) = .ok g0 ∧
    runInit g0 [.node ⟨1, 0⟩ 7, .edge ⟨0, 0⟩ .X 3, .node ⟨0, 0⟩ 0, .edge ⟨1, 0⟩ .X 9, .node ⟨0, 0⟩ 5, .node ⟨2, 0⟩ 8] = .ok g1 ∧
    newWith (squareShape m64 2 1) (fun u c => (if c = ⟨0, 0⟩ then 5 else 7, u)) (fun u _ _ => (3, u)) () = .ok (g1, ()) :=
  ⟨_, _, rfl, rfl, rfl⟩

/-- The 2 × 1 square graph of the example above through the general statement, and the same program without one write. -/
example : ∃ g0 g1 : Graph Offset SquareAxis DSquareAxis Nat Nat, newUninit (squareShape m64 2 1) = .ok g0 ∧
    runInit g0 [.node ⟨1, 0⟩ 7, .edge ⟨0, 0⟩ .X 3, .node ⟨0, 0⟩ 5] = .ok g1 ∧
    newWith (squareShape m64 2 1) (fun u c => (if c = ⟨0, 0⟩ then 5 else 7, u)) (fun u _ _ => (3, u)) () = .ok (g1.assumeInit, ()) := by
  obtain ⟨g0, g1, h0, h1, h2⟩ := c55_new_uninit (N := Nat) (E := Nat) (.square m64 2 1) (by decide)
    (ops := [.node ⟨1, 0⟩ 7, .edge ⟨0, 0⟩ .X 3, .node ⟨0, 0⟩ 5]) (fun op _ => by cases op <;> exact .inr trivial)
  refine ⟨g0, g1, h0, h1, h2 _ _ (fun c hc => ?_) fun c a hc => ?_⟩
  · rw [← Lat.mem_nodes] at hc
    revert c; decide
  · have h0 : c ∈ (squareLat 2 1).nodes := Lat.mem_nodes.2 hc.1
    have h1 := hc.2
    clear hc
    cases a <;> revert c <;> decide
example : ∃ g0 g1 : Graph Offset SquareAxis DSquareAxis Nat Nat, newUninit (squareShape m64 2 1) = .ok g0 ∧
    runInit g0 [.node ⟨1, 0⟩ 7, .edge ⟨0, 0⟩ .X 3] = .ok g1 ∧ g1.assumeInit.nodeWeight ⟨0, 0⟩ = .error .ub :=
  c55_unwritten_node (.square m64 2 1) (by decide) (fun op _ => by cases op <;> exact .inr trivial)
    ⟨0, 0, by decide, by decide, rfl⟩ rfl
example : ∃ g0 g1 : Graph Offset SquareAxis DSquareAxis Nat Nat, newUninit (squareShape m64 2 1) = .ok g0 ∧
    runInit g0 [.node ⟨1, 0⟩ 7, .edge ⟨1, 0⟩ .X 3] = .ok g1 ∧ g1.assumeInit.edgeWeight ⟨0, 0⟩ .X = .error .ub :=
  c55_unwritten_edge (.square m64 2 1) (by decide) (fun op _ => by cases op <;> exact .inr trivial)
    ⟨⟨0, 0, by decide, by decide, rfl⟩, rfl⟩ rfl

end
end LG
