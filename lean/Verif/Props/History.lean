import Verif.Props.Edges
import Verif.Lemmas.Stored
/- C16, C17: histories of operations. -/
set_option linter.unusedSectionVars false
namespace LG
section
variable {C A D N E σ : Type} [DecidableEq C] [DecidableEq A] [DecidableEq D]
variable {g : Graph C A D N E} {s : Shape C A D} {L : Lat C A D} {rep : C → Prop} {k : Contents C A N E}

/-! ### C16 -/

/-- A call on a graph. Writes go through the reference returned by `node_weight_mut` / `edge_weight_mut`. -/
inductive Op (C A N E : Type) where
  | readNode (c : C)
  | readEdge (c : C) (a : A)
  | writeNode (c : C) (f : N → N)
  | writeEdge (c : C) (a : A) (f : E → E)
  | edges (c : C)
  | edgeReferences
  | nodeReferences

/-- What a call returns. -/
inductive Out (C D N E : Type) where
  | node (w : Option N)
  | edge (w : Option E)
  | wrote (present : Bool)
  | edges (l : List (EdgeRef C D E))
  | nodes (l : List (C × N))

/-- One call on the code's side: `g` before, `g'` after. There is no rule for a call that faults. -/
inductive Exec {C A D N E : Type} [DecidableEq C] [DecidableEq A] [DecidableEq D] :
    Graph C A D N E → Op C A N E → Out C D N E → Graph C A D N E → Prop where
  | readNode {g : Graph C A D N E} {c w} : g.nodeWeight c = .ok w → Exec g (.readNode c) (.node w) g
  | readEdge {g c a w} : g.edgeWeight c a = .ok w → Exec g (.readEdge c a) (.edge w) g
  | writeNode {g g' c f} : g.modifyNode c f = .ok (some g') → Exec g (.writeNode c f) (.wrote true) g'
  | writeNodeNone {g c f} : g.modifyNode c f = .ok none → Exec g (.writeNode c f) (.wrote false) g
  | writeEdge {g g' c a f} : g.modifyEdge c a f = .ok (some g') → Exec g (.writeEdge c a f) (.wrote true) g'
  | writeEdgeNone {g c a f} : g.modifyEdge c a f = .ok none → Exec g (.writeEdge c a f) (.wrote false) g
  | edges {g c it l} : g.edgesOf c = .ok it → Yields (edgesNext g) it l → Exec g (.edges c) (.edges l) g
  | edgeReferences {g l} : Yields (edgeRefsNext g) edgeRefsInit l → Exec g .edgeReferences (.edges l) g
  | nodeReferences {g l} : Yields (nodeRefsNext g) 0 l → Exec g .nodeReferences (.nodes l) g

/-- A sequence of calls. -/
inductive ExecAll {C A D N E : Type} [DecidableEq C] [DecidableEq A] [DecidableEq D] :
    Graph C A D N E → List (Op C A N E) → List (Out C D N E) → Graph C A D N E → Prop where
  | nil {g : Graph C A D N E} : ExecAll g [] [] g
  | cons {g g' g'' : Graph C A D N E} {op ops o os} : Exec g op o g' → ExecAll g' ops os g'' → ExecAll g (op :: ops) (o :: os) g''

/-- One call on the specification's side: plain map lookups and updates. -/
def specStep (L : Lat C A D) (k : Contents C A N E) : Op C A N E → Out C D N E × Contents C A N E
  | .readNode c => (.node (k.node c), k)
  | .readEdge c a => (.edge (k.edge c a), k)
  | .writeNode c f => (.wrote (k.node c).isSome, k.mapNode c f)
  | .writeEdge c a f => (.wrote (k.edge c a).isSome, k.mapEdge c a f)
  | .edges c => (.edges (outEdges L k c), k)
  | .edgeReferences => (.edges (allEdges L k), k)
  | .nodeReferences => (.nodes (allNodes L k), k)

/-- A sequence of calls on the specification's side. -/
def specRun (L : Lat C A D) : Contents C A N E → List (Op C A N E) → List (Out C D N E) × Contents C A N E
  | k, [] => ([], k)
  | k, op :: ops =>
    let (o, k') := specStep L k op
    let (os, k'') := specRun L k' ops
    (o :: os, k'')

/-- The arguments the claim is about: any coordinate for reads and writes (see C28 for `rep`), a node for `edges`. -/
def OpOk (L : Lat C A D) (rep : C → Prop) : Op C A N E → Prop
  | .readNode c => L.Node c ∨ rep c
  | .readEdge c _ => L.Node c ∨ rep c
  | .writeNode c _ => L.Node c ∨ rep c
  | .writeEdge c _ _ => L.Node c ∨ rep c
  | .edges c => L.Node c
  | .edgeReferences => True
  | .nodeReferences => True

theorem mapNode_absent {c : C} {f : N → N} (h : k.node c = none) : k.mapNode c f = k := by
  cases k with
  | mk node edge =>
    simp only at h
    simp only [Contents.mapNode, Contents.mk.injEq, and_true]
    funext c'
    split
    · rename_i he; rw [he, h]; rfl
    · rfl

theorem mapEdge_absent {c : C} {a : A} {f : E → E} (h : k.edge c a = none) : k.mapEdge c a f = k := by
  cases k with
  | mk node edge =>
    simp only at h
    simp only [Contents.mapEdge, Contents.mk.injEq, true_and]
    funext c' a'
    split
    · rename_i he; rw [he.1, he.2, h]; rfl
    · rfl

/-- One call: it happens without fault, returns what the maps say, and leads to a graph described by the updated maps. -/
theorem step_stored (hs : Storable s L rep) (hb : Built s L g k) {op : Op C A N E} (hop : OpOk L rep op)
    (hre : ∀ c, op = .edges c → L.Readable c) :
    ∃ g', Exec g op (specStep L k op).1 g' ∧ Built s L g' (specStep L k op).2 := by
  have hg := hs.good hb
  have hl := hs.base
  cases op with
  | readNode c => exact ⟨g, .readNode (nodeWeight_eq hg.impl hg.inv hg.total hop), hb⟩
  | readEdge c a => exact ⟨g, .readEdge (edgeWeight_eq hg.impl hg.inv hg.total hop), hb⟩
  | writeNode c f =>
    rcases modifyNode_eq hl hg.impl hg.inv hg.total hop f with ⟨g', h1, _, _, h4⟩ | ⟨h1, h2⟩
    · refine ⟨g', ?_, .node hb h4 rfl h1⟩
      have := (hg.total.node c).2 h4
      simp only [specStep, this]
      exact .writeNode h1
    · have hn := hg.total.node_none h2
      refine ⟨g, ?_, ?_⟩
      · simp only [specStep, hn]; exact .writeNodeNone h1
      · simp only [specStep, mapNode_absent hn]; exact hb
  | writeEdge c a f =>
    rcases modifyEdge_eq hl hg.impl hg.inv hg.total (a := a) hop f with ⟨g', h1, _, _, h4⟩ | ⟨h1, h2⟩
    · refine ⟨g', ?_, .edge hb h4.1 rfl h1⟩
      have := (hg.total.edge c a).2 h4
      simp only [specStep, this]
      exact .writeEdge h1
    · have hn := hg.total.edge_none h2
      refine ⟨g, ?_, ?_⟩
      · simp only [specStep, hn]; exact .writeEdgeNone h1
      · simp only [specStep, mapEdge_absent hn]; exact hb
  | edges c =>
    obtain ⟨it, h1, h2⟩ := hg.edges_yields hl hop (hre c rfl)
    exact ⟨g, .edges h1 h2, hb⟩
  | edgeReferences => exact ⟨g, .edgeReferences (edgeRefs_yields hl.dir hg.impl hg.inv hg.total), hb⟩
  | nodeReferences =>
    have h := nodeRefs_yields hg.impl hg.inv hg.total (L.width * L.height) 0 (by omega)
    rw [← List.range_eq_range', ← L.nodes_eq] at h
    exact ⟨g, .nodeReferences h, hb⟩

/-- On a sound shape every edge seen from a node was announced. -/
theorem Lawful.readable (hs : Lawful s L rep) {c : C} (hn : L.Node c) : L.Readable c := fun _ _ h => key_hasEdge hs.laws hn h

theorem c16_step (hs : Lawful s L rep) (hb : Built s L g k) {op : Op C A N E} (hop : OpOk L rep op) :
    ∃ g', Exec g op (specStep L k op).1 g' ∧ Built s L g' (specStep L k op).2 :=
  step_stored hs.storable hb hop fun c h => by subst h; exact hs.readable hop

/-- A call has only one result. -/
theorem Exec.unique {op : Op C A N E} {o o' : Out C D N E} {g' g'' : Graph C A D N E} (h : Exec g op o g')
    (h' : Exec g op o' g'') : o = o' ∧ g' = g'' := by
  cases h <;> cases h'
  case readNode.readNode h1 _ h2 => rw [h1] at h2; cases h2; exact ⟨rfl, rfl⟩
  case readEdge.readEdge h1 _ h2 => rw [h1] at h2; cases h2; exact ⟨rfl, rfl⟩
  case writeNode.writeNode h1 h2 => rw [h1] at h2; cases h2; exact ⟨rfl, rfl⟩
  case writeNode.writeNodeNone h1 h2 => rw [h1] at h2; cases h2
  case writeNodeNone.writeNode h1 h2 => rw [h1] at h2; cases h2
  case writeNodeNone.writeNodeNone => exact ⟨rfl, rfl⟩
  case writeEdge.writeEdge h1 h2 => rw [h1] at h2; cases h2; exact ⟨rfl, rfl⟩
  case writeEdge.writeEdgeNone h1 h2 => rw [h1] at h2; cases h2
  case writeEdgeNone.writeEdge h1 h2 => rw [h1] at h2; cases h2
  case writeEdgeNone.writeEdgeNone => exact ⟨rfl, rfl⟩
  case edges.edges h1 h2 _ _ h4 h3 => rw [h1] at h3; cases h3; rw [h2.unique h4]; exact ⟨rfl, rfl⟩
  case edgeReferences.edgeReferences h1 _ h2 => rw [h1.unique h2]; exact ⟨rfl, rfl⟩
  case nodeReferences.nodeReferences h1 _ h2 => rw [h1.unique h2]; exact ⟨rfl, rfl⟩

/-- **C16.** Any sequence of reads, writes and iterations on any reachable graph runs without fault, and every call returns
what a plain map from nodes and edges to weights would return after the same writes. -/
theorem c16_refines_map (hs : Lawful s L rep) : ∀ {ops : List (Op C A N E)} {g : Graph C A D N E} {k : Contents C A N E},
    Built s L g k → (∀ op ∈ ops, OpOk L rep op) →
    ∃ g', ExecAll g ops (specRun L k ops).1 g' ∧ Built s L g' (specRun L k ops).2
  | [], g, k, hb, _ => ⟨g, .nil, hb⟩
  | op :: ops, g, k, hb, hok => by
    obtain ⟨g', h1, h2⟩ := c16_step hs hb (hok op (by simp))
    obtain ⟨g'', h3, h4⟩ := c16_refines_map hs h2 (fun op h => hok op (List.mem_cons_of_mem _ h))
    exact ⟨g'', .cons h1 h3, h4⟩

/-- **C16.** Conversely, whatever a sequence of calls returned is what the map returns. -/
theorem c16_only_map (hs : Lawful s L rep) {ops : List (Op C A N E)} {g g' : Graph C A D N E}
    {k : Contents C A N E} {outs : List (Out C D N E)} (hb : Built s L g k) (hok : ∀ op ∈ ops, OpOk L rep op)
    (hx : ExecAll g ops outs g') : outs = (specRun L k ops).1 ∧ Built s L g' (specRun L k ops).2 := by
  induction hx generalizing k with
  | nil => exact ⟨rfl, hb⟩
  | cons h1 _ ih =>
    obtain ⟨g1, h2, h3⟩ := c16_step hs hb (hok _ List.mem_cons_self)
    obtain ⟨rfl, rfl⟩ := h1.unique h2
    obtain ⟨h4, h5⟩ := ih h3 (fun op h => hok op (List.mem_cons_of_mem _ h))
    exact ⟨by rw [h4]; rfl, h5⟩

/-- **C57**, histories: the same on the shapes with wrong moves, for programs that do not ask for the `edges` of a node with an
unannounced edge (C58). -/
theorem c57_refines_map (hs : Storable s L rep) : ∀ {ops : List (Op C A N E)} {g : Graph C A D N E} {k : Contents C A N E},
    Built s L g k → (∀ op ∈ ops, OpOk L rep op ∧ ∀ c, op = .edges c → L.Readable c) →
    ∃ g', ExecAll g ops (specRun L k ops).1 g' ∧ Built s L g' (specRun L k ops).2 ∧
      ∀ {outs g''}, ExecAll g ops outs g'' → outs = (specRun L k ops).1 ∧ g'' = g'
  | [], g, k, hb, _ => ⟨g, .nil, hb, fun h => by cases h; exact ⟨rfl, rfl⟩⟩
  | op :: ops, g, k, hb, hok => by
    obtain ⟨g', h1, h2⟩ := step_stored hs hb (hok op (by simp)).1 (hok op (by simp)).2
    obtain ⟨g'', h3, h4, h5⟩ := c57_refines_map hs h2 (fun op h => hok op (List.mem_cons_of_mem _ h))
    refine ⟨g'', .cons h1 h3, h4, fun h => ?_⟩
    cases h with
    | cons h6 h7 =>
      obtain ⟨rfl, rfl⟩ := h6.unique h1
      obtain ⟨rfl, rfl⟩ := h5 h7
      exact ⟨rfl, rfl⟩

/-- Last value written to node `c` by a list of writes, `w` if there is none. -/
def lastNode (c : C) : List (C × N) → N → N
  | [], w => w
  | (c', x) :: ws, w => lastNode c ws (if c' = c then x else w)

/-- Last value written to edge `(c, a)`. -/
def lastEdge (c : C) (a : A) : List ((C × A) × E) → E → E
  | [], w => w
  | (e, x) :: ws, w => lastEdge c a ws (if e = (c, a) then x else w)

/-- **C16.** "The last value written": after any sequence of node writes, a node reads as the last value written to it, or
its value before. -/
theorem c16_last_node_write : ∀ (ws : List (C × N)) (k : Contents C A N E) (c : C) (w : N), k.node c = some w →
    (specRun L k (ws.map fun p => .writeNode p.1 fun _ => p.2)).2.node c = some (lastNode c ws w)
  | [], k, c, w, h => h
  | (c', x) :: ws, k, c, w, h => by
    simp only [List.map_cons, specRun, specStep, lastNode]
    apply c16_last_node_write
    by_cases he : c' = c
    · subst he; simp [Contents.mapNode, h]
    · simp [Contents.mapNode, he, Ne.symm he, h]

/-- **C16.** The same for edges. -/
theorem c16_last_edge_write : ∀ (ws : List ((C × A) × E)) (k : Contents C A N E) (c : C) (a : A) (w : E),
    k.edge c a = some w →
    (specRun L k (ws.map fun p => .writeEdge p.1.1 p.1.2 fun _ => p.2)).2.edge c a = some (lastEdge c a ws w)
  | [], k, c, a, w, h => h
  | ((c', a'), x) :: ws, k, c, a, w, h => by
    simp only [List.map_cons, specRun, specStep, lastEdge]
    apply c16_last_edge_write
    by_cases he : c' = c ∧ a' = a
    · obtain ⟨rfl, rfl⟩ := he; simp [Contents.mapEdge, h]
    · have h' : ¬ (c = c' ∧ a = a') := fun ⟨p, q⟩ => he ⟨p.symm, q.symm⟩
      simp [Contents.mapEdge, he, h', h]

/-- Node writes leave edges alone and conversely. -/
theorem c16_independent (c c' : C) (a a' : A) (f : N → N) (fe : E → E) :
    (k.mapNode c f).edge c' a' = k.edge c' a' ∧ (k.mapEdge c a fe).node c' = k.node c' ∧
    (c' ≠ c → (k.mapNode c f).node c' = k.node c') ∧
    ((c', a') ≠ (c, a) → (k.mapEdge c a fe).edge c' a' = k.edge c' a') := by
  refine ⟨rfl, rfl, fun h => by simp [Contents.mapNode, h], fun h => ?_⟩
  simp only [Contents.mapEdge]
  rw [if_neg]
  rintro ⟨rfl, rfl⟩
  exact h rfl

example : ∃ g g' : Graph Offset SquareAxis DSquareAxis Nat Nat, Built (squareShape m64 3 2) (squareLat 3 2) g exK ∧
    ExecAll g [.writeEdge ⟨0, 0⟩ .X fun _ => 7, .writeNode ⟨9, 9⟩ fun _ => 1, .writeNode ⟨1, 0⟩ (· + 5),
        .readNode ⟨1, 0⟩, .edges ⟨1, 0⟩, .readEdge ⟨1, 0⟩ .X]
      [.wrote true, .wrote false, .wrote true, .node (some 15),
        .edges [⟨⟨1, 0⟩, ⟨2, 0⟩, 1010, .X⟩, ⟨⟨1, 0⟩, ⟨1, 1⟩, 2010, .Y⟩, ⟨⟨1, 0⟩, ⟨0, 0⟩, 7, .RX⟩], .edge (some 1010)]
      g' := by
  obtain ⟨g, hb⟩ := exSquare
  obtain ⟨g', h, _⟩ := c16_refines_map (.square m64 3 2) hb
    (ops := [.writeEdge ⟨0, 0⟩ .X fun _ => 7, .writeNode ⟨9, 9⟩ fun _ => 1, .writeNode ⟨1, 0⟩ (· + 5),
        .readNode ⟨1, 0⟩, .edges ⟨1, 0⟩, .readEdge ⟨1, 0⟩ .X]) (by
      simp only [List.mem_cons, List.mem_nil_iff, or_false]
      rintro op (rfl | rfl | rfl | rfl | rfl | rfl) <;>
        first | exact Or.inr trivial | exact ⟨1, 0, by decide, by decide, rfl⟩)
  exact ⟨g, g', hb, h⟩

/-! ### C17 -/

/-- A call on a visit map. -/
inductive VOp (C : Type) where
  | visit (c : C)
  | unvisit (c : C)
  | isVisited (c : C)
  | reset

/-- The same call on a set of nodes (petgraph's `VisitMap` contract: `visit` returns whether the node was new, `unvisit`
whether it was there). `reset_map` returns nothing; `true` stands for that. -/
def vspec (L : Lat C A D) (S : C → Bool) : VOp C → Bool × (C → Bool)
  | .visit c => if c ∈ L.nodes then (!S c, fun c' => if c' = c then true else S c') else (false, S)
  | .unvisit c => (S c, fun c' => if c' = c then false else S c')
  | .isVisited c => (S c, S)
  | .reset => (true, fun _ => false)

/-- A sequence of calls on a set. -/
def vspecRun (L : Lat C A D) : (C → Bool) → List (VOp C) → List Bool × (C → Bool)
  | S, [] => ([], S)
  | S, op :: ops =>
    let (o, S') := vspec L S op
    let (os, S'') := vspecRun L S' ops
    (o :: os, S'')

/-- The call on the code's side. -/
def vexec (vm : VisMap C A D) : VOp C → Res (Bool × VisMap C A D)
  | .visit c => vm.visit c
  | .unvisit c => vm.unvisit c
  | .isVisited c => do .ok (← vm.isVisited c, vm)
  | .reset => .ok (true, vm.reset)

/-- A sequence of calls on the code's side. -/
def vexecRun : VisMap C A D → List (VOp C) → Res (List Bool × VisMap C A D)
  | vm, [] => .ok ([], vm)
  | vm, op :: ops => do
    let (o, vm') ← vexec vm op
    let (os, vm'') ← vexecRun vm' ops
    .ok (o :: os, vm'')

/-- Representation invariant of the visit map: the bit of each cell says whether the cell is in `S`. -/
structure VisInv (s : Shape C A D) (L : Lat C A D) (vm : VisMap C A D) (S : C → Bool) : Prop where
  shape : vm.s = s
  cols : vm.v.length = L.width
  col : ∀ (x : Nat) (h : x < vm.v.length), (vm.v[x]).length = L.height
  bit : ∀ (x y : Nat) (h : x < vm.v.length) (h' : y < (vm.v[x]).length), vm.v[x][y] = S (L.coord x y)
  only : ∀ c, S c = true → L.Node c

theorem VisInv.newBase (hi : ImplBase s L rep) : VisInv s L (VisMap.new s) (fun _ => false) where
  shape := rfl
  cols := by simp [VisMap.new, hi.width]
  col := by simp [VisMap.new, hi.height]
  bit := by simp [VisMap.new]
  only := by simp

theorem VisInv.new (hs : Lawful s L rep) : VisInv s L (VisMap.new s) (fun _ => false) where
  shape := rfl
  cols := by simp [VisMap.new, hs.dims]
  col := by simp [VisMap.new, hs.dims]
  bit := by simp [VisMap.new]
  only := by simp

theorem VisInv.column {vm : VisMap C A D} {S : C → Bool} (hv : VisInv s L vm S) {x y : Nat} (hx : x < L.width)
    (hy : y < L.height) : ∃ col, vm.column x = .ok col ∧ vm.v[x]? = some col ∧ col.length = L.height ∧
      col[y]? = some (S (L.coord x y)) := by
  have hx' : x < vm.v.length := by rw [hv.cols]; exact hx
  have hy' : y < (vm.v[x]).length := by rw [hv.col]; exact hy
  refine ⟨vm.v[x], ?_, List.getElem?_eq_getElem hx', hv.col x hx', ?_⟩
  · simp [VisMap.column, List.getElem?_eq_getElem hx']
  · rw [List.getElem?_eq_getElem hy', hv.bit x y hx' hy']

theorem VisInv.set (hl : LatBase L) {vm : VisMap C A D} {S : C → Bool} (hv : VisInv s L vm S) {x y : Nat}
    (hx : x < L.width) (hy : y < L.height) (b : Bool) {col : List Bool} (hcol : vm.v[x]? = some col) :
    VisInv s L { vm with v := vm.v.set x (col.set y b) } (fun c => if c = L.coord x y then b else S c) := by
  have hx' : x < vm.v.length := by rw [hv.cols]; exact hx
  have hce : col = vm.v[x] := by rw [List.getElem?_eq_getElem hx'] at hcol; exact (Option.some.inj hcol).symm
  subst hce
  refine ⟨hv.shape, by simp [hv.cols], ?_, ?_, ?_⟩
  · intro x' h'
    simp only [List.length_set] at h'
    simp only [List.getElem_set]
    split
    · rw [List.length_set]; exact hv.col _ _
    · exact hv.col _ _
  · intro x' y' h1 h2
    simp only [List.length_set] at h1
    have hx1 : x' < L.width := by rw [← hv.cols]; exact h1
    have hlen : ((vm.v.set x (vm.v[x].set y b))[x']'(by rw [List.length_set]; exact h1)).length = L.height := by
      simp only [List.getElem_set]
      split
      · rw [List.length_set]; exact hv.col _ _
      · exact hv.col _ _
    have hy1 : y' < L.height := by rw [← hlen]; exact h2
    by_cases hxe : x = x'
    · subst hxe
      simp only [List.getElem_set_self]
      by_cases hye : y = y'
      · subst hye; simp
      · rw [List.getElem_set_ne hye, hv.bit]
        rw [if_neg]
        intro he
        exact hye (hl.coord_inj hx1 hy1 hx hy he).2.symm
    · simp only [List.getElem_set_ne hxe]
      rw [hv.bit, if_neg]
      intro he
      exact hxe (hl.coord_inj hx1 hy1 hx hy he).1.symm
  · intro c
    split
    · rename_i h; intro _; exact ⟨x, y, hx, hy, h⟩
    · exact hv.only c

/-- Coordinates the calls may be given. -/
def VOpOk (L : Lat C A D) (rep : C → Prop) : VOp C → Prop
  | .visit c => L.Node c ∨ rep c
  | .unvisit c => L.Node c ∨ rep c
  | .isVisited c => L.Node c ∨ rep c
  | .reset => True

theorem VisInv.reset {vm : VisMap C A D} {S : C → Bool} (hv : VisInv s L vm S) :
    VisInv s L vm.reset (fun _ => false) where
  shape := hv.shape
  cols := by simp [VisMap.reset, hv.cols]
  col := by
    intro x h
    simp only [VisMap.reset, List.length_map] at h
    simp [VisMap.reset, hv.col]
  bit := by intro x y h h'; simp [VisMap.reset]
  only := by simp

/-- One call: right new state; right answer, except that `unvisit` answers whether `c` is a node at all. -/
theorem vexec_base (hi : ImplBase s L rep) (hl : LatBase L) {vm : VisMap C A D} {S : C → Bool} (hv : VisInv s L vm S)
    {op : VOp C} (hop : VOpOk L rep op) :
    ∃ o vm', vexec vm op = .ok (o, vm') ∧ VisInv s L vm' (vspec L S op).2 ∧
      (match op with | .unvisit c => o = decide (c ∈ L.nodes) | _ => o = (vspec L S op).1) := by
  have cases : ∀ {c : C}, L.Node c ∨ rep c → _ := fun {c} h => hi.toOffset_cases (c := c) h
  cases op with
  | visit c =>
    rcases cases hop with ⟨x, y, hx, hy, rfl, h⟩ | ⟨hn, h⟩
    · obtain ⟨col, h1, h2, h3, h4⟩ := hv.column hx hy
      have hm : L.coord x y ∈ L.nodes := Lat.mem_nodes.2 ⟨x, y, hx, hy, rfl⟩
      simp only [vspec, hm, if_true]
      refine ⟨_, _, ?_, hv.set hl hx hy true h2, rfl⟩
      simp only [vexec, VisMap.visit, hv.shape, h, bind, Except.bind, h1, h4]
    · have hm : ¬ c ∈ L.nodes := fun hm => hn (Lat.mem_nodes.1 hm)
      simp only [vspec, hm, if_false]
      refine ⟨_, _, ?_, hv, rfl⟩
      simp only [vexec, VisMap.visit, hv.shape, h, bind, Except.bind]
  | unvisit c =>
    rcases cases hop with ⟨x, y, hx, hy, rfl, h⟩ | ⟨hn, h⟩
    · obtain ⟨col, h1, h2, h3, h4⟩ := hv.column hx hy
      have hm : L.coord x y ∈ L.nodes := Lat.mem_nodes.2 ⟨x, y, hx, hy, rfl⟩
      refine ⟨true, _, ?_, hv.set hl hx hy false h2, by simp [hm]⟩
      simp only [vexec, VisMap.unvisit, hv.shape, h, bind, Except.bind, h1, h4]
    · have hm : ¬ c ∈ L.nodes := fun hm => hn (Lat.mem_nodes.1 hm)
      refine ⟨false, vm, ?_, ?_, by simp [hm]⟩
      · simp only [vexec, VisMap.unvisit, hv.shape, h, bind, Except.bind]
      · have : (vspec L S (.unvisit c)).2 = S := by
          funext c'
          simp only [vspec]
          split
          · rename_i he
            subst he
            cases hS : S c' with
            | false => rfl
            | true => exact absurd (hv.only _ hS) hn
          · rfl
        rw [this]; exact hv
  | isVisited c =>
    refine ⟨S c, vm, ?_, hv, rfl⟩
    rcases cases hop with ⟨x, y, hx, hy, rfl, h⟩ | ⟨hn, h⟩
    · obtain ⟨col, h1, h2, h3, h4⟩ := hv.column hx hy
      simp only [vexec, VisMap.isVisited, hv.shape, h, bind, Except.bind, h1, h4, Option.getD_some]
    · have : S c = false := by
        cases hS : S c with
        | false => rfl
        | true => exact absurd (hv.only _ hS) hn
      simp only [vexec, VisMap.isVisited, hv.shape, h, bind, Except.bind, this]
  | reset => exact ⟨true, vm.reset, rfl, hv.reset, rfl⟩

theorem vexec_eq (hs : Lawful s L rep) (hc : Constructible s) {vm : VisMap C A D} {S : C → Bool} (hv : VisInv s L vm S)
    {op : VOp C} (hop : VOpOk L rep op) :
    ∃ o vm', vexec vm op = .ok (o, vm') ∧ VisInv s L vm' (vspec L S op).2 ∧
      (match op with | .unvisit c => o = decide (c ∈ L.nodes) | _ => o = (vspec L S op).1) :=
  vexec_base (hs.impl hc).toImplBase hs.laws hv hop

theorem vexecRun_base (hi : ImplBase s L rep) (hl : LatBase L) : ∀ (ops : List (VOp C)) {vm : VisMap C A D}
    {S : C → Bool}, VisInv s L vm S → (∀ op ∈ ops, VOpOk L rep op) →
    ∃ outs vm', vexecRun vm ops = .ok (outs, vm') ∧ outs.length = ops.length ∧
      VisInv s L vm' (vspecRun L S ops).2 ∧
      ∀ (i : Nat) (op : VOp C), ops[i]? = some op →
        match op with
        | .unvisit c => outs[i]? = some (decide (c ∈ L.nodes))
        | _ => outs[i]? = (vspecRun L S ops).1[i]?
  | [], vm, S, hv, _ => ⟨[], vm, rfl, rfl, hv, by simp⟩
  | op :: ops, vm, S, hv, hok => by
    obtain ⟨o, vm1, h1, h2, h3⟩ := vexec_base hi hl hv (hok op (by simp))
    obtain ⟨outs, vm2, h4, h5, h6, h7⟩ := vexecRun_base hi hl ops h2 (fun op h => hok op (List.mem_cons_of_mem _ h))
    refine ⟨o :: outs, vm2, ?_, by simp [h5], h6, ?_⟩
    · simp only [vexecRun, h1, bind, Except.bind, h4]
    · intro i op' hix
      cases i with
      | zero =>
        simp only [List.getElem?_cons_zero, Option.some.injEq] at hix
        subst hix
        cases op <;> simp_all [vspecRun]
      | succ i =>
        simp only [List.getElem?_cons_succ] at hix
        have := h7 i op' hix
        cases op' <;> simpa [vspecRun] using this

/-- **C17.** For any sequence of calls on a fresh visit map no call faults, and every `visit` and `is_visited` answers exactly
as a set of nodes would (after the same visits, unvisits and resets). What is missing from the full claim: the answers of
`unvisit`, which are wrong, see `c17_unvisit_wrong`. -/
theorem c17_visit_map_partial (hs : Storable s L rep) (hc : Constructible s) (ops : List (VOp C))
    (hok : ∀ op ∈ ops, VOpOk L rep op) :
    ∃ outs vm', vexecRun (VisMap.new s) ops = .ok (outs, vm') ∧ outs.length = ops.length ∧
      ∀ (i : Nat) (op : VOp C), ops[i]? = some op → (∀ c, op ≠ .unvisit c) → outs[i]? = (vspecRun L (fun _ => false) ops).1[i]? := by
  obtain ⟨outs, vm', h1, h2, _, h4⟩ := vexecRun_base (hs.impl hc) hs.base ops (.newBase (hs.impl hc)) hok
  refine ⟨outs, vm', h1, h2, fun i op hi hne => ?_⟩
  have := h4 i op hi
  cases op with
  | unvisit c => exact absurd rfl (hne c)
  | _ => exact this

/-- **C17.** In whatever state, `unvisit` answers `true` for every node and `false` for every other coordinate. -/
theorem c17_unvisit_answer (hs : Storable s L rep) (hc : Constructible s) (ops : List (VOp C))
    (hok : ∀ op ∈ ops, VOpOk L rep op) :
    ∃ outs vm', vexecRun (VisMap.new s) ops = .ok (outs, vm') ∧
      ∀ (i : Nat) (c : C), ops[i]? = some (.unvisit c) → outs[i]? = some (decide (c ∈ L.nodes)) := by
  obtain ⟨outs, vm', h1, _, _, h4⟩ := vexecRun_base (hs.impl hc) hs.base ops (.newBase (hs.impl hc)) hok
  exact ⟨outs, vm', h1, fun i c hi => h4 i _ hi⟩

/-- **C17** fails for `unvisit`: on every graph, unvisiting any node of a fresh map answers `true` though the node was never
visited. -/
theorem c17_unvisit_wrong (hs : Storable s L rep) (hc : Constructible s) {c : C} (hn : L.Node c) :
    (∃ vm', (VisMap.new s).isVisited c = .ok false ∧ (VisMap.new s).unvisit c = .ok (true, vm')) ∧
    (vspec L (fun _ => false) (.unvisit c)).1 = false := by
  refine ⟨?_, rfl⟩
  obtain ⟨o, vm', h1, _, h3⟩ := vexec_base (hs.impl hc) hs.base (.newBase (hs.impl hc)) (op := .unvisit c) (.inl hn)
  obtain ⟨o', vm'', h4, _, h6⟩ := vexec_base (hs.impl hc) hs.base (.newBase (hs.impl hc)) (op := .isVisited c) (.inl hn)
  refine ⟨vm', ?_, ?_⟩
  · simp only [vexec, bind, Except.bind] at h4
    cases h : (VisMap.new s).isVisited c with
    | error e => rw [h] at h4; cases h4
    | ok b =>
      rw [h] at h4
      simp only [Except.ok.injEq, Prod.mk.injEq] at h4
      rw [h4.1, h6]
      rfl
  · rw [show (VisMap.new s).unvisit c = vexec (VisMap.new s) (.unvisit c) from rfl, h1, h3]
    simp [Lat.mem_nodes, hn]

example : vexecRun (VisMap.new (squareShape m64 3 2))
      [.visit ⟨1, 0⟩, .visit ⟨1, 0⟩, .isVisited ⟨1, 0⟩, .isVisited ⟨1, 1⟩, .visit ⟨7, 0⟩, .unvisit ⟨1, 0⟩, .isVisited ⟨1, 0⟩,
        .unvisit ⟨1, 0⟩] =
    .ok ([true, false, true, false, false, true, false, true], VisMap.new (squareShape m64 3 2)) := rfl
example : (vspecRun (squareLat 3 2) (fun _ => false)
      [.visit ⟨1, 0⟩, .visit ⟨1, 0⟩, .isVisited ⟨1, 0⟩, .isVisited ⟨1, 1⟩, .visit ⟨7, 0⟩, .unvisit ⟨1, 0⟩, .isVisited ⟨1, 0⟩,
        .unvisit ⟨1, 0⟩]).1 = [true, false, true, false, false, true, false, false] := by decide

/-! Instances of the remaining theorems, on the 3 × 2 square grid. -/

example : ∃ g g' : Graph Offset SquareAxis DSquareAxis Nat Nat, Built (squareShape m64 3 2) (squareLat 3 2) g exK ∧
    Exec g (.writeEdge ⟨1, 0⟩ .X fun _ => 7) (.wrote true) g' ∧ ∀ {outs g''}, ExecAll g' [.readEdge ⟨1, 0⟩ .X, .readNode ⟨5, 5⟩] outs g'' →
      outs = [.edge (some 7), .node none] := by
  obtain ⟨g, hb⟩ := exSquare
  obtain ⟨g', h1, h2⟩ := c16_step (.square m64 3 2) hb (op := .writeEdge ⟨1, 0⟩ .X fun _ => 7) (.inr trivial)
  exact ⟨g, g', hb, h1, fun hx => (c16_only_map (.square m64 3 2) h2 (by
    intro op h; simp at h; rcases h with rfl | rfl <;> exact .inr trivial) hx).1⟩
example : ∃ g g' : Graph Offset SquareAxis DSquareAxis Nat Nat, ExecAll g [.writeNode ⟨1, 0⟩ (· + 5), .readNode ⟨1, 0⟩, .edges ⟨0, 1⟩]
    [.wrote true, .node (some 15), .edges [⟨⟨0, 1⟩, ⟨1, 1⟩, 1001, .X⟩, ⟨⟨0, 1⟩, ⟨0, 0⟩, 2000, .RY⟩]] g' := by
  obtain ⟨g, hb⟩ := exSquare
  obtain ⟨g', h, -⟩ := c57_refines_map (.sound (.square m64 3 2)) hb (ops := [.writeNode ⟨1, 0⟩ (· + 5), .readNode ⟨1, 0⟩, .edges ⟨0, 1⟩]) (by
    intro op h; simp at h
    rcases h with rfl | rfl | rfl
    · exact ⟨.inr trivial, fun c h => nomatch h⟩
    · exact ⟨.inr trivial, fun c h => nomatch h⟩
    · exact ⟨⟨0, 1, by decide, by decide, rfl⟩, fun c h => by cases h; exact (Lawful.square m64 3 2).readable ⟨0, 1, by decide, by decide, rfl⟩⟩)
  exact ⟨g, g', h⟩
example : (specRun (squareLat 3 2) exK ([(⟨1, 0⟩, 7), (⟨0, 0⟩, 8), (⟨1, 0⟩, 9)].map fun p => .writeNode p.1 fun _ => p.2)).2.node ⟨1, 0⟩ = some 9 :=
  c16_last_node_write [(⟨1, 0⟩, 7), (⟨0, 0⟩, 8), (⟨1, 0⟩, 9)] exK ⟨1, 0⟩ 10 (by decide)
example : (specRun (squareLat 3 2) exK ([((⟨1, 0⟩, .X), 7), ((⟨1, 0⟩, .Y), 8)].map fun p => .writeEdge p.1.1 p.1.2 fun _ => p.2)).2.edge ⟨1, 0⟩ .X = some 7 :=
  c16_last_edge_write [((⟨1, 0⟩, .X), 7), ((⟨1, 0⟩, .Y), 8)] exK ⟨1, 0⟩ .X 1010 (by decide)
example : (exK.mapEdge ⟨1, 0⟩ .X (· + 1)).edge ⟨1, 0⟩ .Y = some 2010 :=
  (c16_independent (k := exK) ⟨1, 0⟩ ⟨1, 0⟩ .X .Y id (· + 1)).2.2.2 (by decide)

example : ∃ outs vm', vexecRun (VisMap.new (squareShape m64 3 2)) [.visit ⟨1, 0⟩, .unvisit ⟨1, 1⟩, .visit ⟨1, 0⟩] = .ok (outs, vm') ∧ outs[2]? = some false := by
  obtain ⟨outs, vm', h1, -, h2⟩ := c17_visit_map_partial (.sound (.square m64 3 2)) (by decide) [.visit ⟨1, 0⟩, .unvisit ⟨1, 1⟩, .visit ⟨1, 0⟩] (by
    intro op h; simp at h; rcases h with rfl | rfl | rfl <;> exact .inr trivial)
  exact ⟨outs, vm', h1, h2 2 (.visit ⟨1, 0⟩) rfl (fun c h => nomatch h)⟩
/-- `unvisit` of a node not visited: true instead of false. -/
example : ∃ outs vm', vexecRun (VisMap.new (squareShape m64 3 2)) [.visit ⟨1, 0⟩, .unvisit ⟨1, 1⟩] = .ok (outs, vm') ∧ outs[1]? = some true := by
  obtain ⟨outs, vm', h1, h2⟩ := c17_unvisit_answer (.sound (.square m64 3 2)) (by decide) [.visit ⟨1, 0⟩, .unvisit ⟨1, 1⟩] (by
    intro op h; simp at h; rcases h with rfl | rfl <;> exact .inr trivial)
  exact ⟨outs, vm', h1, h2 1 ⟨1, 1⟩ rfl⟩
example : ∃ vm', (VisMap.new (squareShape m64 3 2)).isVisited ⟨1, 1⟩ = .ok false ∧ (VisMap.new (squareShape m64 3 2)).unvisit ⟨1, 1⟩ = .ok (true, vm') :=
  (c17_unvisit_wrong (.sound (.square m64 3 2)) (by decide) ⟨1, 1, by decide, by decide, rfl⟩).1

end
end LG
