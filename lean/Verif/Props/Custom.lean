import Verif.Props.LoopSearch
import Verif.Props.EdgeCount
import Verif.Props.Build
/-
C75: shapes written by users of the crate ("If you want to create your own lattice based graph, use this to implement your own
lattice", lattice_abstract/shapes.rs:3). The theorems of the other files are stated for every `Lawful` shape; here is one the
crate does not have, and what is left to prove for such shapes: searches, and everything together.
-/
set_option linter.unusedSectionVars false
namespace LG

/-! ### An example shape: the torus

Not code of the repository: an implementation of the traits `Axis` (shapes.rs:212-251) and `Shape` (shapes.rs:10-128) as a user
might write it, with the crate's own `Direction<T>` (shapes.rs:303-342) for the directions. -/

/-- The axis type of the example. -/
inductive TorusAxis where | Across | Along
deriving DecidableEq, Repr

/-- `to_index`. -/
def TorusAxis.toIndex : TorusAxis → Nat
  | .Across => 0 | .Along => 1

/-- `from_index`. -/
def TorusAxis.fromIndex : Nat → Option TorusAxis
  | 0 => some .Across | 1 => some .Along | _ => none

/-- `from_direction`. -/
def TorusAxis.fromDirection : Direction TorusAxis → TorusAxis
  | .foward a => a | .backward a => a

/-- The part of the `Axis` impl that `Direction<T>` builds on; the direction indices are put in below. -/
def torusAxisBase (m : Machine) : Axis TorusAxis (Direction TorusAxis) where
  count := 2
  directed := false
  undirectedCount := defaultUndirectedCount false 2
  toIndex := TorusAxis.toIndex
  fromIndex := TorusAxis.fromIndex
  fromIndexUnchecked := defaultFromIndexUnchecked m TorusAxis.fromIndex
  foward := fun a => .ok (.foward a)
  backward := fun a => .ok (.backward a)
  fromDirection := fun d => .ok (TorusAxis.fromDirection d)
  isForwardDirection := fun _ => .error .panic
  dirToIndex := fun _ => 0
  dirFromIndex := fun _ => none
  dirFromIndexUnchecked := fun _ => .error .panic

/-- `impl Axis for TorusAxis` with `type Direction = Direction<TorusAxis>`; whatever has a default in the trait is the default. -/
def torusAxis (m : Machine) : Axis TorusAxis (Direction TorusAxis) :=
  { torusAxisBase m with
    isForwardDirection := defaultIsForwardDirection false (Direction.dirToIndex (torusAxisBase m))
      (fun d => .ok (TorusAxis.fromDirection d)) TorusAxis.toIndex
    dirToIndex := Direction.dirToIndex (torusAxisBase m)
    dirFromIndex := fun i => (Direction.dirFromIndex (torusAxisBase m) i).toOption.join
    dirFromIndexUnchecked := Direction.dirFromIndexUnchecked (torusAxisBase m) }

/-- One step on a circle of `n`. -/
def stepUp (m : Machine) (n x : Nat) : Res Nat := do
  let x' ← uadd m x 1
  .ok (if x' = n then 0 else x')

/-- One step back on a circle of `n`. -/
def stepDown (m : Machine) (n x : Nat) : Res Nat :=
  if x = 0 then usub m n 1 else .ok (x - 1)

/-- `move_coord`: never fails. -/
def torusMove (m : Machine) (h v : Nat) (c : Offset) : Direction TorusAxis → Res (Option Offset)
  | .foward .Across => do .ok (some ⟨← stepUp m h c.horizontal, c.vertical⟩)
  | .foward .Along => do .ok (some ⟨c.horizontal, ← stepUp m v c.vertical⟩)
  | .backward .Across => do .ok (some ⟨← stepDown m h c.horizontal, c.vertical⟩)
  | .backward .Along => do .ok (some ⟨c.horizontal, ← stepDown m v c.vertical⟩)

/-- `impl Shape for Torus`. Everything with a default in the trait is the default. -/
def torusShape (m : Machine) (h v : Nat) : Shape Offset TorusAxis (Direction TorusAxis) where
  m := m
  axis := torusAxis m
  horizontal := h
  vertical := v
  toOffset := fun c => .ok (if c.horizontal < h ∧ c.vertical < v then some c else none)
  toOffsetUnchecked := defaultToOffsetUnchecked m fun c => .ok (if c.horizontal < h ∧ c.vertical < v then some c else none)
  offsetToCoordinate := fun o => .ok o
  horizontalEdgeSize := fun _ => .ok h
  verticalEdgeSize := fun _ => .ok v
  moveCoord := torusMove m h v
  moveCoordUnchecked := defaultMoveCoordUnchecked m (torusMove m h v)
  isNeighbor := defaultIsNeighbor (torusAxis m) (torusMove m h v)

/-- The torus as a lattice: positions modulo width and height. -/
def torusLat (h v : Nat) : Lat Offset TorusAxis (Direction TorusAxis) where
  width := h
  height := v
  coord := fun x y => ⟨x, y⟩
  nbr := fun c d => match d with
    | .foward .Across => some ⟨(c.horizontal + 1) % h, c.vertical⟩
    | .foward .Along => some ⟨c.horizontal, (c.vertical + 1) % v⟩
    | .backward .Across => some ⟨(c.horizontal + (h - 1)) % h, c.vertical⟩
    | .backward .Along => some ⟨c.horizontal, (c.vertical + (v - 1)) % v⟩
  axes := [.Across, .Along]
  dirs := [.foward .Across, .foward .Along, .backward .Across, .backward .Along]
  opp := fun | .foward a => .backward a | .backward a => .foward a
  fwd := .foward
  ax := TorusAxis.fromDirection
  directed := false

theorem up_mod {n x : Nat} (hx : x < n) : (x + 1) % n = if x + 1 = n then 0 else x + 1 := by
  split
  · next h => rw [h, Nat.mod_self]
  · exact Nat.mod_eq_of_lt (by omega)

theorem down_mod {n x : Nat} (hx : x < n) : (x + (n - 1)) % n = if x = 0 then n - 1 else x - 1 := by
  split
  · next h => subst h; rw [Nat.zero_add]; exact Nat.mod_eq_of_lt (by omega)
  · rw [show x + (n - 1) = (x - 1) + n by omega, Nat.add_mod_right]
    exact Nat.mod_eq_of_lt (by omega)

theorem stepUp_eq {m : Machine} {n x : Nat} (hx : x < n) (hn : n < m.half) : stepUp m n x = .ok ((x + 1) % n) := by
  simp only [stepUp, uadd_ok (show x + 1 < 2 * m.half by omega), bind, Except.bind, up_mod hx]

theorem stepDown_eq {m : Machine} {n x : Nat} (hx : x < n) : stepDown m n x = .ok ((x + (n - 1)) % n) := by
  rw [down_mod hx]
  unfold stepDown
  split
  · rw [usub_ok (by omega)]
  · rfl

theorem torusLat_dirLaws (h v : Nat) : DirLaws (torusLat h v) where
  axes_nodup := by simp [torusLat]
  axes_mem := by intro a; cases a <;> simp [torusLat]
  dirs_nodup := by simp [torusLat]
  dirs_mem := by intro d; rcases d with a | a <;> cases a <;> simp [torusLat]
  opp_opp := by intro d; cases d <;> rfl
  opp_ne := by intro d; cases d <;> simp [torusLat]
  ax_fwd := by intro a; rfl
  fwd_ax := by intro d; cases d <;> simp [torusLat, TorusAxis.fromDirection]
  dirs_und := fun _ => rfl
  dirs_dir := by intro h; cases h

theorem torusLat_laws (h v : Nat) : LatLaws (torusLat h v) where
  dir := torusLat_dirLaws h v
  coord_inj := by intro x y x' y' _ _ _ _ he; simpa [torusLat] using he
  nbr_node := by
    rintro c d t ⟨x, y, hx, hy, rfl⟩ ht
    simp only [torusLat] at hx hy
    have h1 : ∀ n, n % h < h := fun n => Nat.mod_lt _ (by omega)
    have h2 : ∀ n, n % v < v := fun n => Nat.mod_lt _ (by omega)
    rcases d with a | a <;> cases a <;> cases ht
    · exact ⟨_, _, h1 _, hy, rfl⟩
    · exact ⟨_, _, hx, h2 _, rfl⟩
    · exact ⟨_, _, h1 _, hy, rfl⟩
    · exact ⟨_, _, hx, h2 _, rfl⟩
  nbr_opp := by
    rintro c d t ⟨x, y, hx, hy, rfl⟩ ht
    simp only [torusLat] at hx hy
    have up : ∀ {n x : Nat}, x < n → ((x + 1) % n + (n - 1)) % n = x := fun {n x} hx => by
      rw [down_mod (Nat.mod_lt _ (by omega)), up_mod hx]
      split <;> split <;> omega
    have down : ∀ {n x : Nat}, x < n → ((x + (n - 1)) % n + 1) % n = x := fun {n x} hx => by
      rw [up_mod (Nat.mod_lt _ (by omega)), down_mod hx]
      split <;> split <;> omega
    rcases d with a | a <;> cases a <;> cases ht <;> simp only [torusLat, up hx, up hy, down hx, down hy]

theorem torusAxis_impl (m : Machine) (h v : Nat) : AxisImpl (torusAxis m) (torusLat h v) where
  count := rfl
  directed := rfl
  undirectedCount := rfl
  fromIndex := by
    intro i hi
    match i, hi with
    | 0, _ => rfl
    | 1, _ => rfl
    | n + 2, hi => exact absurd hi (by simp [torusLat])
  toIndex := by intro a; cases a <;> rfl
  dirFromIndex := by
    intro i hi
    match i, hi with
    | 0, _ => rfl
    | 1, _ => rfl
    | 2, _ => rfl
    | 3, _ => rfl
    | n + 4, hi => exact absurd hi (by simp [torusLat])
  dirToIndex := by intro d; rcases d with a | a <;> cases a <;> rfl
  foward := by intro a; rfl
  backward := by intro a; rfl
  fromDirection := by intro d; rfl
  isForward := by intro d; rcases d with a | a <;> cases a <;> rfl
  count_le := by simp [torusLat]

/-- **C75.** The example of a user's shape obeys the laws, for every size. -/
theorem c75_torus (m : Machine) (h v : Nat) : Lawful (torusShape m h v) (torusLat h v) (fun _ => True) where
  laws := torusLat_laws h v
  dims := ⟨rfl, rfl, rfl⟩
  impl := by
    intro i j hc
    cases Subsingleton.elim i instDecidableEqOffset
    cases Subsingleton.elim j instDecidableEqDirection
    have hh := hc.bounds.2.1
    have hv := hc.bounds.2.2
    refine ⟨⟨torusAxis_impl m h v, rfl, rfl, hc.bounds.1, hh, hv, ?_, ?_, ?_, ?_, ?_⟩, ?_, rfl⟩
    · intro x y hx hy
      exact congrArg Except.ok (if_pos ⟨hx, hy⟩)
    · intro c _ hn
      exact congrArg Except.ok (if_neg fun hcv => hn ⟨_, _, hcv.1, hcv.2, rfl⟩)
    · intro x y hx hy
      simp only [torusShape, defaultToOffsetUnchecked, bind, Except.bind]
      rw [if_pos ⟨hx, hy⟩]
      rfl
    · intros; rfl
    · rintro c ⟨x, y, hx, hy, rfl⟩ d
      simp only [torusLat] at hx hy
      simp only [torusShape] at hh hv
      rcases d with a | a <;> cases a <;>
        simp only [torusShape, torusMove, torusLat, stepUp_eq hx hh, stepUp_eq hy hv, stepDown_eq hx, stepDown_eq hy, bind, Except.bind]
    · intro c o hco
      simp only [torusShape] at hco
      split at hco
      · next hcv => cases hco; exact ⟨hcv.1, hcv.2, rfl⟩
      · cases hco

/-! ### Guarantees for every lawful shape -/

section
variable {C A D N E σ : Type} [DecidableEq C] [DecidableEq A] [DecidableEq D]
variable {g : Graph C A D N E} {s : Shape C A D} {L : Lat C A D} {rep : C → Prop} {k : Contents C A N E}
variable {cost : EdgeRef C D E → Nat}

/-- **C75.** Everything together: on any lawful shape of a size ndarray accepts, whatever the closures, `new_with` returns a graph,
and any program of reads, writes and iterations on it returns what plain maps filled by the closures would, without fault; the
neighbours are those of the lattice, and so are the nodes and their numbers. -/
theorem c75_program (hs : Lawful s L rep) (hc : Constructible s) (n : C → N) (e : C → A → E) (ops : List (Op C A N E))
    (hok : ∀ op ∈ ops, OpOk L rep op) :
    ∃ (g g' : Graph C A D N E) (k : Contents C A N E),
      newWith s (fun u c => (n c, u)) (fun u c a => (e c a, u)) () = .ok (g, ()) ∧
      (∀ c, L.Node c → k.node c = some (n c)) ∧ (∀ c, ¬ L.Node c → k.node c = none) ∧
      (∀ c a, L.HasEdge c a → k.edge c a = some (e c a)) ∧ (∀ c a, ¬ L.HasEdge c a → k.edge c a = none) ∧
      ExecAll g ops (specRun L k ops).1 g' ∧
      (∀ c, L.Node c → Yields (neighborsNext g'.s c) 0 (L.nbrs c)) ∧ Yields (nodeIndicesNext g'.s) 0 L.nodes ∧
      ∀ i, (hi : i < L.nodes.length) → g'.toIndex L.nodes[i] = .ok i ∧ g'.fromIndex i = .ok L.nodes[i] := by
  obtain ⟨g, hg⟩ := c01_new_with hs hc (fun (u : Unit) c => (n c, u)) (fun u c a => (e c a, u)) ()
  have hb := Built.new (L := L) hg
  obtain ⟨g', h1, h2⟩ := c16_refines_map hs hb hok
  have hp := runCalls_pure n e (callSeq L) emptyContents
  refine ⟨g, g', _, hg, ?_, ?_, ?_, ?_, h1, fun c hc => c07_neighbors hs h2 hc, c05_node_identifiers hs h2, fun i hi => ?_⟩
  · intro c hc; rw [hp.1 c, if_pos (mem_callSeq_node.2 hc)]
  · intro c hc; rw [hp.1 c, if_neg (mt mem_callSeq_node.1 hc)]; rfl
  · intro c a hc; rw [hp.2 c a, if_pos ((mem_callSeq_edge hs.laws.dir).2 hc)]
  · intro c a hc; rw [hp.2 c a, if_neg (mt (mem_callSeq_edge hs.laws.dir).1 hc)]; rfl
  · have hl : i < L.width * L.height := by simpa [Lat.nodes_eq] using hi
    obtain ⟨c, h3, -, h4⟩ := c04_from_index hs h2 hl
    have he : L.nodes[i] = c := by
      have := (h2.good hs).impl.indexToCoordinate hl
      rw [Graph.fromIndex, this] at h3
      cases h3
      simp [Lat.nodes_eq]
    rw [he]
    exact ⟨h4, h3⟩

/-- **C75**, the same for closures with state: they are called once per node and edge in the order of `callSeq`, and the maps hold
what the calls returned. -/
theorem c75_program_state {σ : Type} (hs : Lawful s L rep) (hc : Constructible s) (n : σ → C → N × σ) (e : σ → C → A → E × σ) (st : σ)
    (ops : List (Op C A N E)) (hok : ∀ op ∈ ops, OpOk L rep op) :
    ∃ g g' : Graph C A D N E, newWith s n e st = .ok (g, (runCalls n e (callSeq L) st emptyContents).2) ∧
      ExecAll g ops (specRun L (runCalls n e (callSeq L) st emptyContents).1 ops).1 g' := by
  obtain ⟨g, hg⟩ := c01_new_with hs hc n e st
  obtain ⟨g', h1, _⟩ := c16_refines_map hs (Built.new (L := L) hg) hok
  exact ⟨g, g', hg, h1⟩

theorem inWalk_walk (hs : Lawful s L rep) (hb : Built s L g k) {a b : C} {n : Nat} (ha : L.Node a) :
    InWalk g.s a n b ↔ Walk g.s a n b := by
  constructor
  · intro h
    induction h with
    | nil => exact .nil
    | step _ hl hc _ ih => exact .step ih hl hc
  · intro h
    induction h with
    | nil => exact .nil
    | @step n b c l hw hl hc ih =>
      have hcn : L.Node c := ((Walk.step hw hl hc).path hs hb ha).node hs.laws ha
      obtain ⟨x, y, hx, hy, rfl⟩ := hcn
      have hg := hb.good hs
      exact .step ih hl hc ⟨⟨x, y⟩, hg.impl.toOffset_coord hx hy⟩

/-- **C75**, breadth-first search. On any lawful shape it ends without fault, having returned every node that can be walked to
exactly once, the start first, in the order of the distance. -/
theorem c75_bfs (hs : Lawful s L rep) (hb : Built s L g k) {a : C} (ha : L.Node a) :
    ∃ b l, bfsNew g a = .ok b ∧ (∀ l', BfsRun g b l' ↔ l' = l) ∧ l.Nodup ∧ (∀ c, c ∈ l ↔ ∃ n, Walk g.s a n c) ∧ l.head? = some a ∧
      l.Pairwise fun x y => ∃ n m, ShortestWalk g.s a x n ∧ ShortestWalk g.s a y m ∧ n ≤ m := by
  have h := c68_bfs hs.searchable hb ha
  simp only [inWalk_walk hs hb ha] at h
  exact h

/-- **C75**, depth-first search. -/
theorem c75_dfs (hs : Lawful s L rep) (hb : Built s L g k) {a : C} (ha : L.Node a) :
    ∃ l, (∀ l', DfsRun g (dfsNew g a) l' ↔ l' = l) ∧ l.Nodup ∧ (∀ c, c ∈ l ↔ ∃ n, Walk g.s a n c) ∧ l.head? = some a := by
  have h := c68_dfs hs.searchable hb ha
  simp only [inWalk_walk hs hb ha] at h
  exact h

/-- **C75**, Dijkstra. Any run, whatever entries of least score it has popped so far, can be completed, no run is longer than
`9 · nodes + 1` turns, and a completed one has given the nodes that can be walked to, and only those, the least cost of a walk. -/
theorem c75_dijkstra (hs : Lawful s L rep) (hb : Built s L g k) {a : C} (ha : L.Node a) (cost : EdgeRef C D E → Nat) {j : Nat}
    {st : Dij C A D} (h : DijSteps g cost (dijNew g a) j st) :
    j ≤ 9 * (L.width * L.height) + 1 ∧
    (∃ j' st', DijSteps g cost (dijNew g a) j' st' ∧ j ≤ j' ∧ st'.heap = []) ∧
    (st.heap = [] → ∀ c, (∀ n, st.scores c = some n ↔ CostWalk g cost a c n ∧ ∀ n', CostWalk g cost a c n' → n ≤ n') ∧
      ((∃ n, Walk g.s a n c) ↔ ∃ n, st.scores c = some n)) := by
  refine ⟨c65_terminates hs hb ha cost h, c65_completes hs hb ha cost h, fun he c => ?_⟩
  have h := c69_result_partial hs.searchable hb ha cost h he c
  simp only [inWalk_walk hs hb ha] at h
  exact h

end

theorem torusLat_steps (h v : Nat) : Steps (torusLat h v) where
  right := by
    intro x y hx hy
    simp only [torusLat] at hx hy
    exact ⟨.foward .Across, by simp only [torusLat, Nat.mod_eq_of_lt hx]⟩
  up := by
    intro x y hx hy
    simp only [torusLat] at hx hy
    exact ⟨.foward .Along, by simp only [torusLat, Nat.mod_eq_of_lt hy]⟩

/-- **C75**, applied to the torus. One can walk from any node to any node, every node has four neighbours (counted with
repetition), and there are two edges per node. -/
theorem c75_torus_graph {N E : Type} {m : Machine} {h v : Nat} {g : Graph Offset TorusAxis (Direction TorusAxis) N E}
    {k : Contents Offset TorusAxis N E} (hb : Built (torusShape m h v) (torusLat h v) g k) :
    (∀ a b, (torusLat h v).Node a → (torusLat h v).Node b → ∃ n, Walk g.s a n b) ∧
    (∀ a : Offset, a.horizontal < h → a.vertical < v → Yields (neighborsNext g.s a) 0
      [⟨(a.horizontal + 1) % h, a.vertical⟩, ⟨a.horizontal, (a.vertical + 1) % v⟩,
       ⟨(a.horizontal + (h - 1)) % h, a.vertical⟩, ⟨a.horizontal, (a.vertical + (v - 1)) % v⟩]) ∧
    HasEdges g (torusLat h v) (2 * (h * v)) := by
  have hs := c75_torus m h v
  refine ⟨?_, ?_, ?_⟩
  · rintro a b ha ⟨x', y', hx', hy', rfl⟩
    obtain ⟨x, y, hx, hy, rfl⟩ := id ha
    have hst := torusLat_steps h v
    have h0 : (torusLat h v).Node ((torusLat h v).coord 0 0) := ⟨0, 0, by omega, by omega, rfl⟩
    exact ⟨_, (((hst.origin hx hy).symm hs.laws h0).trans (hst.origin hx' hy')).walk hs hb ha⟩
  · intro a hx hy
    exact c07_neighbors hs hb ⟨_, _, hx, hy, rfl⟩
  · refine hasEdges_of hs hb ?_
    have hc : ∀ a, (torusLat h v).cnt (.foward a) = h * v := fun a => by
      unfold Lat.cnt
      rw [List.countP_eq_length.2 (fun c _ => by cases a <;> rfl)]
      simp [Lat.nodes_eq, torusLat]
    show ([TorusAxis.Across, TorusAxis.Along].map fun a => (torusLat h v).cnt (.foward a)).sum = _
    simp only [List.map_cons, List.map_nil, List.sum_cons, List.sum_nil, hc]
    omega

/-- Example: the 5 × 4 torus can be built; (0,0) is next to (4,0) and (0,3), `edge_references` yields 40 items, breadth-first
search from (0,0) returns all nodes, and Dijkstra can be run to its end. -/
example : ∃ g : Graph Offset TorusAxis (Direction TorusAxis) Nat Nat,
    newWith (torusShape m64 5 4) (fun u c => (c.horizontal, u)) (fun u c _ => (c.vertical, u)) () = .ok (g, ()) ∧
    Yields (neighborsNext g.s ⟨0, 0⟩) 0 [⟨1, 0⟩, ⟨0, 1⟩, ⟨4, 0⟩, ⟨0, 3⟩] ∧
    (∃ l, Yields (edgeRefsNext g) edgeRefsInit l ∧ l.length = 40) ∧
    (∃ b l, bfsNew g ⟨0, 0⟩ = .ok b ∧ BfsRun g b l ∧ (⟨2, 2⟩ : Offset) ∈ l) ∧
    ∃ j st, DijSteps g EdgeRef.weight (dijNew g ⟨0, 0⟩) j st ∧ st.heap = [] := by
  have hs := c75_torus m64 5 4
  obtain ⟨g, hg⟩ := c01_new_with hs (by decide) (fun (u : Unit) c => (c.horizontal, u)) (fun u c _ => (c.vertical, u)) ()
  have hb := Built.new (L := torusLat 5 4) hg
  obtain ⟨h1, h2, h3⟩ := c75_torus_graph hb
  have h0 : (torusLat 5 4).Node ⟨0, 0⟩ := ⟨0, 0, by decide, by decide, rfl⟩
  obtain ⟨b, l, h4, h5, -, h6, -⟩ := c75_bfs hs hb h0
  obtain ⟨-, ⟨j, st, h7, -, h8⟩, -⟩ := c75_dijkstra hs hb h0 EdgeRef.weight .nil
  exact ⟨g, hg, h2 ⟨0, 0⟩ (by decide) (by decide), h3.1, ⟨b, l, h4, (h5 l).2 rfl, (h6 _).2 (h1 _ _ h0 ⟨2, 2, by decide, by decide, rfl⟩)⟩,
    j, st, h7, h8⟩

/-- Closures that number their calls: the second node of a 2 × 1 torus has its calls after the three of the first. -/
example : ∃ g g' : Graph Offset TorusAxis (Direction TorusAxis) Nat Nat,
    newWith (torusShape m64 2 1) (fun st _ => (st, st + 1)) (fun st _ _ => (st, st + 1)) 0 = .ok (g, 6) ∧
    ExecAll g [.writeNode ⟨1, 0⟩ (· + 10), .readNode ⟨1, 0⟩, .readNode ⟨0, 0⟩] [.wrote true, .node (some 13), .node (some 0)] g' :=
  c75_program_state (c75_torus m64 2 1) (by decide) (fun (st : Nat) (_ : Offset) => (st, st + 1)) (fun st _ _ => (st, st + 1)) 0
    [.writeNode ⟨1, 0⟩ (· + 10), .readNode ⟨1, 0⟩, .readNode ⟨0, 0⟩] (by intro op h; simp at h; rcases h with rfl | rfl | rfl <;> exact .inr trivial)

example : ∃ (g g' : Graph Offset TorusAxis (Direction TorusAxis) Nat Nat),
    newWith (torusShape m64 3 2) (fun u c => (c.horizontal, u)) (fun u c _ => (c.vertical, u)) () = .ok (g, ()) ∧
    Yields (neighborsNext g'.s ⟨0, 0⟩) 0 ((torusLat 3 2).nbrs ⟨0, 0⟩) ∧ Yields (nodeIndicesNext g'.s) 0 (torusLat 3 2).nodes := by
  obtain ⟨g, g', k, h1, -, -, -, -, -, h2, h3, -⟩ := c75_program (c75_torus m64 3 2) (by decide) (fun c => c.horizontal)
    (fun c _ => c.vertical) [.writeNode ⟨1, 0⟩ (· + 10), .readNode ⟨1, 0⟩]
    (by intro op h; simp at h; rcases h with rfl | rfl <;> exact .inr trivial)
  exact ⟨g, g', h1, h2 _ ⟨0, 0, by decide, by decide, rfl⟩, h3⟩
example : ∃ (g : Graph Offset TorusAxis (Direction TorusAxis) Nat Nat) (l : List Offset), DfsRun g (dfsNew g ⟨0, 0⟩) l ∧ l.Nodup ∧
    l.head? = some ⟨0, 0⟩ := by
  obtain ⟨g, hb⟩ := (c75_torus m64 5 4).exists_built (N := Nat) (E := Nat) (by decide) (fun (u : Unit) _ => (0, u)) (fun u _ _ => (0, u)) ()
  obtain ⟨l, h1, h2, -, h3⟩ := c75_dfs (c75_torus m64 5 4) hb (a := ⟨0, 0⟩) ⟨0, 0, by decide, by decide, rfl⟩
  exact ⟨g, l, (h1 l).2 rfl, h2, h3⟩

end LG
