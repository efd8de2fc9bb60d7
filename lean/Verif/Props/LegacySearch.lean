import Verif.Model.LegacySearch
import Verif.Props.LegacyEdges
import Verif.Props.LegacyDist
import Verif.Props.Dijkstra
/- C73: breadth-first search, depth-first search and shortest paths on the deprecated `SquareGraph`. -/
set_option linter.unusedSectionVars false
namespace LG.Sq
section
variable {N E : Type}
variable {g : G N E} {k : Cfg} {s : Grid} {h v : Nat} {c : Contents NodeIx Axis N E}

/-! ### The grid as a lattice, to reuse the loop invariants -/

/-- The grid. -/
def Grid.lat (s : Grid) : Lat NodeIx Axis Dir where
  width := s.h
  height := s.v
  coord := NodeIx.mk
  nbr := s.step
  axes := [.horizontal, .vertical]
  dirs := Grid.dirs
  opp := Dir.opp
  fwd := .foward
  ax := fun | .foward a => a | .backward a => a
  directed := false

theorem lat_node {n : NodeIx} : s.lat.Node n ↔ s.Node n := by
  constructor
  · rintro ⟨x, y, hx, hy, rfl⟩; exact ⟨hx, hy⟩
  · intro h; exact ⟨_, _, h.1, h.2, rfl⟩

theorem lat_nbr_node {n t : NodeIx} {d : Dir} (hn : s.Node n) (h : s.lat.nbr n d = some t) : s.Node t := Grid.step_node hn h

theorem dirs_all (d : Dir) : d ∈ Grid.dirs := by rcases d with (_ | _) | (_ | _) <;> decide

theorem Walk.path (hb : Built k h v g c) (hf : k.Fits h v) {n : Nat} {a b : NodeIx} (ha : (k.grid h v).Node a)
    (hw : Walk g a n b) : Path (k.grid h v).lat a n b := by
  induction hw with
  | nil => exact .nil
  | step hw hy hm ih =>
    rw [hb.stores.cfg] at hy
    rw [Yields.unique hy (c46_neighbors hb hf (hw.node hb hf ha))] at hm
    obtain ⟨d, -, hd⟩ := List.mem_filterMap.1 hm
    exact .step ih hd

theorem path_node {n : Nat} {a b : NodeIx} (ha : s.Node a) (hp : Path s.lat a n b) : s.Node b := by
  induction hp with
  | nil => exact ha
  | step _ hd ih => exact lat_nbr_node ih hd

theorem path_walk (hb : Built k h v g c) (hf : k.Fits h v) {n : Nat} {a b : NodeIx} (ha : (k.grid h v).Node a)
    (hp : Path (k.grid h v).lat a n b) : Walk g a n b := by
  induction hp with
  | nil => exact .nil
  | step hp hd ih => exact .step ih (nbrs_at hb hf (path_node ha hp)) (List.mem_filterMap.2 ⟨_, dirs_all _, hd⟩)

theorem path_exists {a b : NodeIx} (ha : s.Node a) (hb : s.Node b) : ∃ n, Path s.lat a n b := by
  have : ∀ (d : Nat) (x : NodeIx) (n : Nat), s.Node x → Path s.lat a n x → taxi x b = d → ∃ n, Path s.lat a n b := by
    intro d
    induction d with
    | zero => intro x n _ hp h0; rw [(c50_metric x b b).1.1 h0] at hp; exact ⟨n, hp⟩
    | succ d ih =>
      intro x n hx hp hd
      obtain ⟨dir, y, -, h2, h3⟩ := step_toward hx hb (by omega)
      exact ih y (n + 1) (Grid.step_node hx h2) (.step hp h2) (by omega)
  exact this _ a 0 ha .nil rfl

theorem hopDist {a : NodeIx} (ha : s.Node a) : ∃ δ, HopDist s.lat s.Node a δ := by
  have hall : ∀ x, ∃ d, s.Node x → Path s.lat a d x ∧ ∀ n, Path s.lat a n x → d ≤ n := fun x => by
    by_cases hx : s.Node x
    · obtain ⟨n, hn⟩ := path_exists ha hx
      obtain ⟨d, h⟩ := least_exists (p := fun n => Path s.lat a n x) n hn
      exact ⟨d, fun _ => h⟩
    · exact ⟨0, fun h => absurd h hx⟩
  refine ⟨fun x => Classical.choose (hall x), ?_, ?_, ?_, ?_, ?_⟩
  · intro x hx h0
    have := (Classical.choose_spec (hall x) hx).1
    rw [h0] at this
    cases this
    rfl
  · intro x y hx hy
    obtain ⟨d, -, hd⟩ := List.mem_filterMap.1 hy
    exact (Classical.choose_spec (hall y) (lat_nbr_node hx hd)).2 _ (.step (Classical.choose_spec (hall x) hx).1 hd)
  · intro y n hy h1
    have hp := (Classical.choose_spec (hall y) hy).1
    rw [h1] at hp
    cases hp with
    | @step _ x _ d hp hd =>
      have hx := path_node ha hp
      refine ⟨x, hx, ?_, List.mem_filterMap.2 ⟨d, dirs_all d, hd⟩⟩
      have e1 := (Classical.choose_spec (hall x) hx).2 _ hp
      have e2 := (Classical.choose_spec (hall y) hy).2 _ (.step (Classical.choose_spec (hall x) hx).1 hd)
      rw [h1] at e2
      omega
  · exact Nat.le_zero.1 ((Classical.choose_spec (hall a) ha).2 _ .nil)
  · intro x hx
    exact Classical.choose_spec (hall x) hx

/-! ### The visit map during a search -/

theorem visit_eq {vm : Vis} {S : NodeIx → Bool} (hv : VisIs vm s S) {n : NodeIx} (hn : s.Node n) :
    ∃ vm', vm.visit n = .ok (!S n, vm') ∧ VisIs vm' s (fun x => if x = n then true else S x) := by
  obtain ⟨col, h1, h2⟩ := hv.at hn
  exact ⟨_, by simp only [Vis.visit, h1, h2], hv.set h1 true⟩

theorem isVisited_eq {vm : Vis} {S : NodeIx → Bool} (hv : VisIs vm s S) {n : NodeIx} (hn : s.Node n) :
    vm.isVisited n = .ok (S n) := by
  obtain ⟨col, h1, h2⟩ := hv.at hn
  simp only [Vis.isVisited, h1, h2]
  rfl

theorem visitMap_is (hb : Built k h v g c) : VisIs g.visitMap (k.grid h v) (fun _ => false) := by
  have e1 : g.horizontalNodeCount = (k.grid h v).h := hb.stores.nodes.rows
  have e2 : g.verticalNodeCount = (k.grid h v).v := hb.stores.nodes.cols
  unfold G.visitMap
  rw [e1, e2]
  exact .new _

/-- **C51.** The map that `visit_map()` of a graph hands out is the one these theorems are about: it has the graph's sizes, so it
starts empty and answers like a set of the graph's nodes. -/
theorem c51_graph_map (hb : Built k h v g c) (os : List VisOp) (ho : ∀ o ∈ os, o.On (k.grid h v)) :
    g.visitMap = Vis.new h v ∧
    (∃ bs vm, runVis g.visitMap os = .ok (bs, vm) ∧
      ∀ n, (k.grid h v).Node n → vm.isVisited n = .ok ((specVis (fun _ => false) os).2 n)) ∧
    (NoIdle (fun _ => false) os → ∃ vm, runVis g.visitMap os = .ok ((specVis (fun _ => false) os).1, vm)) := by
  have e1 : g.horizontalNodeCount = h := hb.stores.nodes.rows
  have e2 : g.verticalNodeCount = v := hb.stores.nodes.cols
  have e : g.visitMap = Vis.new h v := by unfold G.visitMap; rw [e1, e2]
  refine ⟨e, ?_, fun hi => ?_⟩
  · rw [e]; exact c51_contents (k.grid h v) os ho
  · obtain ⟨vm, h1, -⟩ := c51_visit_map_partial (k.grid h v) os ho hi
    rw [e]; exact ⟨vm, h1⟩

theorem discover_eq : ∀ (l : List NodeIx) {vm : Vis} {S : NodeIx → Bool}, VisIs vm s S → (∀ x ∈ l, s.Node x) →
    ∃ new vm' S', discover vm l = .ok (new, vm') ∧ VisIs vm' s S' ∧ new.Nodup ∧
      (∀ x, x ∈ new ↔ x ∈ l ∧ S x = false) ∧ (∀ x, S' x = true ↔ S x = true ∨ x ∈ l)
  | [], vm, S, hv, _ => ⟨[], vm, S, rfl, hv, List.nodup_nil, by simp, by simp⟩
  | x :: l, vm, S, hv, hl => by
    obtain ⟨vm1, h1, h2⟩ := visit_eq hv (hl x (by simp))
    obtain ⟨new, vm2, S', h3, h4, h5, h6, h7⟩ := discover_eq l h2 (fun x h => hl x (List.mem_cons_of_mem _ h))
    refine ⟨if !S x then x :: new else new, vm2, S', ?_, h4, ?_, ?_, ?_⟩
    · simp only [discover, h1, h3, bind, Except.bind]
    · cases hS : S x with
      | true => simpa using h5
      | false =>
        simp only [Bool.not_false, if_true, List.nodup_cons, h5, and_true]
        intro hm
        have := ((h6 x).1 hm).2
        simp at this
    · intro y
      by_cases he : y = x
      · subst he
        cases hS : S y with
        | true => simp [h6]
        | false => simp
      · cases hS : S x with
        | true => simp [h6, he]
        | false => simp [h6, he]
    · intro y
      rw [h7]
      by_cases he : y = x
      · simp [he]
      · simp [he]

theorem pushUnvisited_eq {vm : Vis} {S : NodeIx → Bool} (hv : VisIs vm s S) : ∀ (l st : List NodeIx), (∀ x ∈ l, s.Node x) →
    ∃ st', pushUnvisited vm l st = .ok st' ∧ ∀ x, x ∈ st' ↔ x ∈ st ∨ x ∈ l ∧ S x = false
  | [], st, _ => ⟨st, rfl, by simp⟩
  | x :: l, st, hl => by
    have h1 := isVisited_eq hv (hl x (by simp))
    cases hS : S x with
    | true =>
      obtain ⟨st', h2, h3⟩ := pushUnvisited_eq hv l st (fun x h => hl x (List.mem_cons_of_mem _ h))
      refine ⟨st', by simp only [pushUnvisited, h1, hS, bind, Except.bind, if_true, h2], fun y => ?_⟩
      rw [h3]
      by_cases he : y = x
      · subst he; simp [hS]
      · simp [he]
    | false =>
      obtain ⟨st', h2, h3⟩ := pushUnvisited_eq hv l (x :: st) (fun x h => hl x (List.mem_cons_of_mem _ h))
      refine ⟨st', by simp only [pushUnvisited, h1, hS, bind, Except.bind, Bool.false_eq_true, if_false, h2], fun y => ?_⟩
      rw [h3]
      by_cases he : y = x
      · subst he; simp [hS]
      · simp [he]

/-! ### Breadth-first search -/

theorem nbrs_node {x y : NodeIx} (hx : s.Node x) (hy : y ∈ s.nbrs x) : s.Node y := (c46_neighbors_nodes s hx hy).1

theorem bfs_run (hb : Built k h v g c) (hf : k.Fits h v) {a : NodeIx} {δ : NodeIx → Nat}
    (hδ : HopDist (k.grid h v).lat (k.grid h v).Node a δ) :
    ∀ (n : Nat) (O Q : List NodeIx) (vm : Vis) (S : NodeIx → Bool), VisIs vm (k.grid h v) S →
      BfsInv (k.grid h v).lat (k.grid h v).Node a δ O Q S → (k.grid h v).nodes.length ≤ O.length + n →
      ∃ l, BfsRun g ⟨Q, vm⟩ l ∧ (O ++ l).Nodup ∧ (∀ x, x ∈ O ++ l ↔ (k.grid h v).Node x) ∧
        (O ++ l).Pairwise (fun x y => δ x ≤ δ y) := by
  have stop : ∀ {O : List NodeIx} {vm : Vis} {S : NodeIx → Bool}, BfsInv (k.grid h v).lat (k.grid h v).Node a δ O [] S →
      ∃ l, BfsRun g ⟨[], vm⟩ l ∧ (O ++ l).Nodup ∧ (∀ x, x ∈ O ++ l ↔ (k.grid h v).Node x) ∧
        (O ++ l).Pairwise (fun x y => δ x ≤ δ y) := fun {O vm S} hv => by
    refine ⟨[], .done, hv.nodup, fun x => ⟨hv.node x, fun hx => ?_⟩, hv.sorted⟩
    rw [List.append_nil]
    exact hv.all hδ _ x hx rfl
  intro n
  induction n with
  | zero =>
    intro O Q vm S hvm hv hlen
    have hsub : (O ++ Q).length ≤ (k.grid h v).nodes.length :=
      hv.nodup.length_le_of_subset fun x hx => mem_cells.2 (hv.node x hx)
    rw [List.length_append] at hsub
    have hQ : Q = [] := List.length_eq_zero_iff.1 (by omega)
    subst hQ
    exact stop hv
  | succ n ih =>
    intro O Q vm S hvm hv hlen
    cases Q with
    | nil => exact stop hv
    | cons x q =>
      have hx := hv.node x (by simp)
      obtain ⟨new, vm', S', h1, h2, h3, h4, h5⟩ := discover_eq ((k.grid h v).nbrs x) hvm fun y => nbrs_node hx
      have hv' := hv.step lat_nbr_node hδ h3 h4 h5
      obtain ⟨l, h6, h7, h8, h9⟩ := ih (O ++ [x]) (q ++ new) vm' S' h2 hv' (by
        simp only [List.length_append, List.length_singleton]; omega)
      refine ⟨x :: l, .next (nbrs_at hb hf hx) h1 h6, ?_, ?_, ?_⟩
      · simpa using h7
      · simpa using h8
      · simpa using h9

theorem BfsRun.unique {b : BfsSt} {l l' : List NodeIx} (h : BfsRun g b l) (h' : BfsRun g b l') : l = l' := by
  induction h generalizing l' with
  | done => cases h'; rfl
  | next h1 h2 _ ih =>
    cases h' with
    | next h1' h2' h3' =>
      have := h1.unique h1'
      subst this
      rw [h2] at h2'
      cases h2'
      rw [ih h3']

/-- **C73**, breadth first. On a graph of the deprecated kind, looped or not, whose sides fit its index type, a breadth-first search
from any node runs without fault to its end, returns every node exactly once, the start first, and in the order of the distance
from the start. -/
theorem c73_bfs (hb : Built k h v g c) (hf : k.Fits h v) {a : NodeIx} (ha : (k.grid h v).Node a) :
    ∃ b l, bfsNew g a = .ok b ∧ (∀ l', BfsRun g b l' ↔ l' = l) ∧ l.Nodup ∧ (∀ x, x ∈ l ↔ (k.grid h v).Node x) ∧
      l.head? = some a ∧ l.Pairwise fun x y => ∃ n m, (Walk g a n x ∧ ∀ n', Walk g a n' x → n ≤ n') ∧
        (Walk g a m y ∧ ∀ m', Walk g a m' y → m ≤ m') ∧ n ≤ m := by
  obtain ⟨δ, hδ⟩ := hopDist ha
  obtain ⟨vm, h1, h2⟩ := visit_eq (visitMap_is hb) ha
  have hinv : BfsInv (k.grid h v).lat (k.grid h v).Node a δ [] [a] (fun x => if x = a then true else false) := by
    refine ⟨by simp, by simp, ?_, by simp, by simp, ?_, by simp⟩
    · intro x hx; simp at hx; rw [hx]; exact ha
    · intro x q h y hy; simp at h; rw [h.2] at hy; simp at hy
  obtain ⟨l, h3, h4, h5, h6⟩ := bfs_run hb hf hδ (k.grid h v).nodes.length [] [a] vm _ h2 hinv (by simp)
  refine ⟨⟨[a], vm⟩, l, ?_, fun l' => ⟨fun h => h.unique h3, fun h => h ▸ h3⟩, by simpa using h4, by simpa using h5, ?_, ?_⟩
  · simp only [bfsNew, h1, bind, Except.bind]
  · cases h3; rfl
  · simp only [List.nil_append] at h5 h6
    have hw : ∀ x, (k.grid h v).Node x → Walk g a (δ x) x ∧ ∀ n, Walk g a n x → δ x ≤ n := fun x hx =>
      ⟨path_walk hb hf ha (hδ.short hx).1, fun n h => (hδ.short hx).2 n (h.path hb hf ha)⟩
    refine List.Pairwise.imp_of_mem ?_ h6
    intro x y hx hy hxy
    exact ⟨_, _, hw x ((h5 x).1 hx), hw y ((h5 y).1 hy), hxy⟩

/-! ### Depth-first search -/

/-- After returning `O`, with stack `st` and visited set `S`. -/
structure DfsInv (s : Grid) (a : NodeIx) (O st : List NodeIx) (S : NodeIx → Bool) : Prop where
  nodup : O.Nodup
  vis : ∀ x, S x = true ↔ x ∈ O
  node : ∀ x, x ∈ O ∨ x ∈ st → s.Node x
  closed : ∀ x ∈ O, ∀ y ∈ s.nbrs x, y ∈ O ∨ y ∈ st
  start : a ∈ O ∨ a ∈ st

theorem DfsInv.all {a : NodeIx} {O : List NodeIx} {S : NodeIx → Bool} (hv : DfsInv s a O [] S) (ha : s.Node a) :
    ∀ x, s.Node x → x ∈ O := by
  have hst := hv.start
  have hcl := hv.closed
  simp only [List.not_mem_nil, or_false] at hst hcl
  intro x hx
  obtain ⟨n, hp⟩ := path_exists ha hx
  clear hx
  induction hp with
  | nil => exact hst
  | step _ hd ih => exact hcl _ ih _ (List.mem_filterMap.2 ⟨_, dirs_all _, hd⟩)

theorem dfs_run (hb : Built k h v g c) (hf : k.Fits h v) {a : NodeIx} (ha : (k.grid h v).Node a) :
    ∀ (n : Nat) (st O : List NodeIx) (vm : Vis) (S : NodeIx → Bool), VisIs vm (k.grid h v) S → DfsInv (k.grid h v) a O st S →
      (k.grid h v).nodes.length < O.length + n →
      ∃ l, DfsRun g ⟨st, vm⟩ l ∧ (O ++ l).Nodup ∧ ∀ x, x ∈ O ++ l ↔ (k.grid h v).Node x := by
  intro n
  induction n with
  | zero =>
    intro st O vm S _ hv hlen
    have := hv.nodup.length_le_of_subset fun x hx => mem_cells.2 (hv.node x (.inl hx))
    have : O.length ≤ (k.grid h v).nodes.length := this
    omega
  | succ n ih =>
    intro st
    induction st with
    | nil =>
      intro O vm S hvm hv hlen
      refine ⟨[], .done, by simpa using hv.nodup, fun x => ⟨fun hx => hv.node x (.inl (by simpa using hx)), fun hx => ?_⟩⟩
      rw [List.append_nil]
      exact hv.all ha x hx
    | cons x st ihst =>
      intro O vm S hvm hv hlen
      have hx := hv.node x (.inr (by simp))
      obtain ⟨vm', h1, h2⟩ := visit_eq hvm hx
      cases hS : S x with
      | true =>
        have hxO := (hv.vis x).1 hS
        have hS' : (fun y => if y = x then true else S y) = S := by
          funext y
          by_cases he : y = x <;> simp [he, hS]
        rw [hS'] at h2
        rw [hS] at h1
        have hv' : DfsInv (k.grid h v) a O st S := by
          refine ⟨hv.nodup, hv.vis, fun y hy => hv.node y (hy.imp id (List.mem_cons_of_mem _)), fun u hu y hy => ?_, ?_⟩
          · rcases hv.closed u hu y hy with h | h
            · exact .inl h
            · rcases List.mem_cons.1 h with rfl | h
              · exact .inl hxO
              · exact .inr h
          · rcases hv.start with h | h
            · exact .inl h
            · rcases List.mem_cons.1 h with rfl | h
              · exact .inl hxO
              · exact .inr h
        obtain ⟨l, h3, h4⟩ := ihst O vm' S h2 hv' hlen
        exact ⟨l, .skip h1 h3, h4⟩
      | false =>
        rw [hS] at h1
        have hxO : x ∉ O := fun h => by rw [(hv.vis x).2 h] at hS; cases hS
        obtain ⟨st', h3, h4⟩ := pushUnvisited_eq h2 ((k.grid h v).nbrs x) st fun y => nbrs_node hx
        have hv' : DfsInv (k.grid h v) a (O ++ [x]) st' (fun y => if y = x then true else S y) := by
          refine ⟨?_, ?_, ?_, ?_, ?_⟩
          · rw [List.nodup_append]
            refine ⟨hv.nodup, by simp, ?_⟩
            rintro u hu y hy rfl
            rw [List.mem_singleton] at hy
            exact hxO (hy ▸ hu)
          · intro y
            by_cases he : y = x
            · simp [he]
            · simp [he, hv.vis]
          · intro y hy
            rcases hy with h | h
            · rcases List.mem_append.1 h with h | h
              · exact hv.node y (.inl h)
              · rw [List.mem_singleton] at h; rw [h]; exact hx
            · rcases (h4 y).1 h with h | h
              · exact hv.node y (.inr (List.mem_cons_of_mem _ h))
              · exact nbrs_node hx h.1
          · intro u hu y hy
            rcases List.mem_append.1 hu with h | h
            · rcases hv.closed u h y hy with h | h
              · exact .inl (List.mem_append_left _ h)
              · rcases List.mem_cons.1 h with rfl | h
                · exact .inl (by simp)
                · exact .inr ((h4 y).2 (.inl h))
            · rw [List.mem_singleton] at h
              subst h
              by_cases hyu : y = u
              · exact .inl (by simp [hyu])
              · cases hSy : S y with
                | true => exact .inl (List.mem_append_left _ ((hv.vis y).1 hSy))
                | false => exact .inr ((h4 y).2 (.inr ⟨hy, by simp [hyu, hSy]⟩))
          · rcases hv.start with h | h
            · exact .inl (List.mem_append_left _ h)
            · rcases List.mem_cons.1 h with rfl | h
              · exact .inl (by simp)
              · exact .inr ((h4 a).2 (.inl h))
        obtain ⟨l, h5, h6, h7⟩ := ih st' (O ++ [x]) vm' _ h2 hv' (by
          simp only [List.length_append, List.length_singleton]; omega)
        exact ⟨x :: l, .next h1 (nbrs_at hb hf hx) h3 h5, by simpa using h6, by simpa using h7⟩

theorem DfsRun.unique {b : DfsSt} {l l' : List NodeIx} (h : DfsRun g b l) (h' : DfsRun g b l') : l = l' := by
  induction h generalizing l' with
  | done => cases h'; rfl
  | skip h1 _ ih =>
    cases h' with
    | skip h1' h2' => rw [h1] at h1'; cases h1'; exact ih h2'
    | next h1' => rw [h1] at h1'; cases h1'
  | next h1 h2 h3 _ ih =>
    cases h' with
    | skip h1' => rw [h1] at h1'; cases h1'
    | next h1' h2' h3' h4' =>
      have := h2.unique h2'
      subst this
      rw [h1] at h1'
      cases h1'
      rw [h3] at h3'
      cases h3'
      rw [ih h4']

/-- **C73**, depth first: every node exactly once, the start first. -/
theorem c73_dfs (hb : Built k h v g c) (hf : k.Fits h v) {a : NodeIx} (ha : (k.grid h v).Node a) :
    ∃ l, (∀ l', DfsRun g (dfsNew g a) l' ↔ l' = l) ∧ l.Nodup ∧ (∀ x, x ∈ l ↔ (k.grid h v).Node x) ∧ l.head? = some a := by
  have hinv : DfsInv (k.grid h v) a [] [a] (fun _ => false) := by
    refine ⟨by simp, by simp, ?_, by simp, by simp⟩
    intro x hx; simp at hx; rw [hx]; exact ha
  obtain ⟨l, h3, h4, h5⟩ := dfs_run hb hf ha ((k.grid h v).nodes.length + 1) [a] [] g.visitMap _ (visitMap_is hb) hinv (by simp)
  refine ⟨l, fun l' => ⟨fun h => h.unique h3, fun h => h ▸ h3⟩, by simpa using h4, by simpa using h5, ?_⟩
  cases h3 with
  | skip h1 _ =>
    obtain ⟨vm', h1', -⟩ := visit_eq (visitMap_is hb) ha
    rw [h1] at h1'
    cases h1'
  | next => rfl

/-! ### Shortest paths -/

variable {cost : Ref E → Nat}

/-- `r` is one of the references `edges(x)` yields, and leads to `t`. -/
def EdgeTo (g : G N E) (x : NodeIx) (r : Ref E) (t : NodeIx) : Prop :=
  ∃ l, Yields (EdgesOf.next g) (g.edges x) l ∧ r ∈ l ∧ r.target g.k = .ok t

/-- Walks along edges, with their total cost. -/
inductive CostWalk (g : G N E) (cost : Ref E → Nat) (a : NodeIx) : NodeIx → Nat → Prop where
  | nil : CostWalk g cost a a 0
  | step {b t : NodeIx} {n : Nat} {r : Ref E} : CostWalk g cost a b n → EdgeTo g b r t → CostWalk g cost a t (n + cost r)

/-- The references `edges(x)` yields. -/
def outRefs (k : Cfg) (s : Grid) (c : Contents NodeIx Axis N E) (x : NodeIx) : List (Ref E) := Grid.dirs.filterMap (refOf k s c x)

theorem outRefs_yields (hb : Built k h v g c) (hf : k.Fits h v) {x : NodeIx} (hx : (k.grid h v).Node x) :
    Yields (EdgesOf.next g) (g.edges x) (outRefs k (k.grid h v) c x) := edgesOf_yields hb.stores (hb.sizes hf) hx 4 0 rfl

/-- The target of a reference. -/
def tg (k : Cfg) (r : Ref E) : NodeIx :=
  match r.target k with
  | .ok t => t
  | .error _ => r.id.node

theorem outRefs_target (hb : Built k h v g c) (hf : k.Fits h v) {x : NodeIx} (hx : (k.grid h v).Node x) {r : Ref E}
    (hr : r ∈ outRefs k (k.grid h v) c x) : r.target k = .ok (tg k r) ∧ ∃ d, (k.grid h v).step x d = some (tg k r) := by
  obtain ⟨d, -, hd⟩ := List.mem_filterMap.1 hr
  cases hst : (k.grid h v).step x d with
  | none => rw [refOf_none hst] at hd; cases hd
  | some t =>
    obtain ⟨w, -, h2⟩ := refOf_some hb.stores hx hst
    rw [h2] at hd
    cases hd
    have := view_eq (hb.sizes hf) hx hst w
    unfold Ref.view at this
    simp only [bind, Except.bind] at this
    split at this
    · cases this
    · split at this
      · cases this
      · rename_i h3
        cases this
        have e : tg k ⟨Grid.key x t d, w, d.isFwd, k.sizeInfo (k.grid h v).h (k.grid h v).v⟩ = t := by
          unfold tg; rw [h3]
        rw [e]
        exact ⟨h3, d, hst⟩

theorem edgeTo_iff (hb : Built k h v g c) (hf : k.Fits h v) {x : NodeIx} (hx : (k.grid h v).Node x) {r : Ref E} {t : NodeIx} :
    EdgeTo g x r t ↔ r ∈ outRefs k (k.grid h v) c x ∧ tg k r = t := by
  unfold EdgeTo
  rw [hb.stores.cfg]
  constructor
  · rintro ⟨l, h1, h2, h3⟩
    rw [Yields.unique h1 (outRefs_yields hb hf hx)] at h2
    rw [(outRefs_target hb hf hx h2).1] at h3
    cases h3
    exact ⟨h2, rfl⟩
  · rintro ⟨h1, rfl⟩
    exact ⟨_, outRefs_yields hb hf hx, h1, (outRefs_target hb hf hx h1).1⟩

theorem tg_node (hb : Built k h v g c) (hf : k.Fits h v) {x : NodeIx} (hx : (k.grid h v).Node x) {r : Ref E}
    (hr : r ∈ outRefs k (k.grid h v) c x) : (k.grid h v).Node (tg k r) := by
  obtain ⟨-, d, hd⟩ := outRefs_target hb hf hx hr
  exact Grid.step_node hx hd

theorem CostWalk.node (hb : Built k h v g c) (hf : k.Fits h v) {a b : NodeIx} {n : Nat} (ha : (k.grid h v).Node a)
    (hw : CostWalk g cost a b n) : (k.grid h v).Node b := by
  induction hw with
  | nil => exact ha
  | step _ he ih =>
    obtain ⟨h1, rfl⟩ := (edgeTo_iff hb hf ih).1 he
    exact tg_node hb hf ih h1

theorem costWalk_exists (hb : Built k h v g c) (hf : k.Fits h v) {a b : NodeIx} (ha : (k.grid h v).Node a)
    (hn : (k.grid h v).Node b) : ∃ n, CostWalk g cost a b n := by
  obtain ⟨j, hp⟩ := path_exists ha hn
  clear hn
  induction hp with
  | nil => exact ⟨0, .nil⟩
  | @step j x t d hp hd ih =>
    obtain ⟨n, hn⟩ := ih
    have hx := path_node ha hp
    have hd' : (k.grid h v).step x d = some t := hd
    obtain ⟨w, -, h2⟩ := refOf_some hb.stores hx hd'
    have hm : (⟨Grid.key x t d, w, d.isFwd, k.sizeInfo (k.grid h v).h (k.grid h v).v⟩ : Ref E) ∈ outRefs k (k.grid h v) c x :=
      List.mem_filterMap.2 ⟨d, dirs_all d, h2⟩
    refine ⟨_, .step hn ((edgeTo_iff hb hf hx).2 ⟨hm, ?_⟩)⟩
    have h3 := (outRefs_target hb hf hx hm).1
    have := view_eq (hb.sizes hf) hx hd' w
    unfold Ref.view at this
    rw [h3] at this
    simp only [bind, Except.bind] at this
    split at this
    · cases this
    · injection this with this
      exact congrArg View.target this

/-- What the loop over the edges does to scores and heap, `S` being the visited nodes. -/
structure Relaxed (k : Cfg) (cost : Ref E → Nat) (n : Nat) (S : NodeIx → Bool) (l : List (Ref E)) (st st1 : Dij) : Prop where
  visited : st1.visited = st.visited
  length : st1.heap.length ≤ st.heap.length + l.length
  le : ∀ x j, st.scores x = some j → ∃ i, st1.scores x = some i ∧ i ≤ j
  same : ∀ x, S x = true → st1.scores x = st.scores x
  new : ∀ r ∈ l, S (tg k r) = false → ∃ i, st1.scores (tg k r) = some i ∧ i ≤ n + cost r
  why : ∀ x i, st1.scores x = some i → st.scores x = some i ∨ ∃ r ∈ l, tg k r = x ∧ i = n + cost r
  heap : ∀ x i, st1.scores x = some i → st.scores x = some i ∨ (i, x) ∈ st1.heap
  keep : ∀ e ∈ st.heap, e ∈ st1.heap
  from_ : ∀ e ∈ st1.heap, e ∈ st.heap ∨ ∃ r ∈ l, S (tg k r) = false ∧ e = (n + cost r, tg k r)

theorem relax_eq {S : NodeIx → Bool} {n : Nat} : ∀ (l : List (Ref E)) {st : Dij}, VisIs st.visited s S →
    (∀ r ∈ l, r.target k = .ok (tg k r) ∧ s.Node (tg k r)) →
    ∃ st1, relax k cost n l st = .ok st1 ∧ Relaxed k cost n S l st st1
  | [], st, hv, _ => ⟨st, rfl, rfl, by simp, fun x j h => ⟨j, h, Nat.le_refl _⟩, fun _ _ => rfl, by simp,
      fun x i h => .inl h, fun x i h => .inl h, fun e h => h, fun e h => .inl h⟩
  | r :: l, st, hv, hl => by
    have hl' : ∀ r ∈ l, r.target k = .ok (tg k r) ∧ s.Node (tg k r) := fun r h => hl r (List.mem_cons_of_mem _ h)
    have h0 := (hl r (by simp)).1
    have h1 := isVisited_eq hv (hl r (by simp)).2
    have keep : (S (tg k r) = true ∨ ∃ i, st.scores (tg k r) = some i ∧ i ≤ n + cost r) →
        relax k cost n (r :: l) st = relax k cost n l st →
        ∃ st1, relax k cost n (r :: l) st = .ok st1 ∧ Relaxed k cost n S (r :: l) st st1 := by
      intro hr heq
      obtain ⟨st1, e1, e⟩ := relax_eq l hv hl'
      refine ⟨st1, by rw [heq, e1], e.visited, ?_, e.le, e.same, ?_, ?_, e.heap, e.keep, ?_⟩
      · have := e.length
        simp only [List.length_cons]; omega
      · intro r' hr' hS
        rcases List.mem_cons.1 hr' with rfl | hr'
        · rcases hr with h | ⟨i, h, hi⟩
          · rw [h] at hS; cases hS
          · obtain ⟨i', h', hi'⟩ := e.le _ _ h
            exact ⟨i', h', by omega⟩
        · exact e.new r' hr' hS
      · intro x i h
        exact (e.why x i h).imp id fun ⟨r', h1, h2⟩ => ⟨r', List.mem_cons_of_mem _ h1, h2⟩
      · intro x h
        exact (e.from_ x h).imp id fun ⟨r', h1, h2⟩ => ⟨r', List.mem_cons_of_mem _ h1, h2⟩
    have better : S (tg k r) = false → (∀ j, st.scores (tg k r) = some j → n + cost r ≤ j) →
        relax k cost n (r :: l) st = relax k cost n l (st.improve (tg k r) (n + cost r)) →
        ∃ st1, relax k cost n (r :: l) st = .ok st1 ∧ Relaxed k cost n S (r :: l) st st1 := by
      intro hS hold heq
      obtain ⟨st1, e1, e⟩ := relax_eq (st := st.improve (tg k r) (n + cost r)) l hv hl'
      have hsc : ∀ x, x ≠ tg k r → (st.improve (tg k r) (n + cost r)).scores x = st.scores x := fun x hx => by
        simp [Dij.improve, hx]
      have hsr : (st.improve (tg k r) (n + cost r)).scores (tg k r) = some (n + cost r) := by simp [Dij.improve]
      refine ⟨st1, by rw [heq, e1], e.visited, ?_, ?_, ?_, ?_, ?_, ?_, ?_, ?_⟩
      · have := e.length
        simp only [Dij.improve, List.length_cons] at this ⊢; omega
      · intro x j hj
        by_cases hx : x = tg k r
        · subst hx
          obtain ⟨i, h1, h2⟩ := e.le _ _ hsr
          exact ⟨i, h1, Nat.le_trans h2 (hold j hj)⟩
        · exact e.le x j (by rw [hsc x hx, hj])
      · intro x hx
        have hne : x ≠ tg k r := fun h => by rw [h, hS] at hx; cases hx
        rw [e.same x hx, hsc x hne]
      · intro r' hr' hS'
        rcases List.mem_cons.1 hr' with rfl | hr'
        · exact e.le _ _ hsr
        · exact e.new r' hr' hS'
      · intro x i h
        rcases e.why x i h with h | ⟨r', h1, h2⟩
        · by_cases hx : x = tg k r
          · subst hx
            rw [hsr] at h
            exact .inr ⟨r, by simp, rfl, (Option.some.inj h).symm⟩
          · exact .inl (by rw [← hsc x hx, h])
        · exact .inr ⟨r', List.mem_cons_of_mem _ h1, h2⟩
      · intro x i h
        rcases e.heap x i h with h | h
        · by_cases hx : x = tg k r
          · subst hx
            rw [hsr] at h
            cases h
            exact .inr (e.keep _ (by simp [Dij.improve]))
          · exact .inl (by rw [← hsc x hx, h])
        · exact .inr h
      · intro x hx
        exact e.keep x (by simp [Dij.improve, hx])
      · intro x hx
        rcases e.from_ x hx with h | ⟨r', h1, h2⟩
        · rcases List.mem_cons.1 h with h | h
          · exact .inr ⟨r, by simp, hS, h⟩
          · exact .inl h
        · exact .inr ⟨r', List.mem_cons_of_mem _ h1, h2⟩
    cases hS : S (tg k r) with
    | true =>
      exact keep (.inl hS) (by simp only [relax, h0, h1, hS, bind, Except.bind, if_true])
    | false =>
      cases hsc : st.scores (tg k r) with
      | none =>
        refine better hS (by simp [hsc]) ?_
        simp only [relax, h0, h1, hS, bind, Except.bind, Bool.false_eq_true, if_false, hsc]
      | some old =>
        by_cases hlt : n + cost r < old
        · refine better hS (fun j hj => by rw [hsc] at hj; cases hj; omega) ?_
          simp only [relax, h0, h1, hS, bind, Except.bind, Bool.false_eq_true, if_false, hsc, hlt, if_true]
        · refine keep (.inr ⟨old, hsc, by omega⟩) ?_
          simp only [relax, h0, h1, hS, bind, Except.bind, Bool.false_eq_true, if_false, hsc, hlt]

/-- The loop invariant. -/
structure DijInv (s : Grid) (g : G N E) (cost : Ref E → Nat) (a : NodeIx) (st : Dij) (S : NodeIx → Bool) : Prop where
  vis : VisIs st.visited s S
  start : ∃ i, st.scores a = some i ∧ i ≤ 0
  upper : ∀ x n, st.scores x = some n → CostWalk g cost a x n
  exact : ∀ x, S x = true → ∃ n, st.scores x = some n ∧ ∀ j, CostWalk g cost a x j → n ≤ j
  edge : ∀ u r t n, S u = true → EdgeTo g u r t → st.scores u = some n → ∃ i, st.scores t = some i ∧ i ≤ n + cost r
  front : ∀ x n, S x = false → st.scores x = some n → (n, x) ∈ st.heap
  entry : ∀ n x, (n, x) ∈ st.heap → ∃ i, st.scores x = some i ∧ i ≤ n

/-- Any walk ends at a settled node, or costs at least as much as some unsettled node's score. -/
theorem DijInv.frontier {a : NodeIx} {st : Dij} {S : NodeIx → Bool} (hv : DijInv s g cost a st S) {x : NodeIx} {j : Nat}
    (hw : CostWalk g cost a x j) :
    (S x = true ∧ ∃ n, st.scores x = some n ∧ n ≤ j) ∨ ∃ y i, S y = false ∧ st.scores y = some i ∧ i ≤ j := by
  have settle : ∀ x j, (∃ i, st.scores x = some i ∧ i ≤ j) →
      (S x = true ∧ ∃ n, st.scores x = some n ∧ n ≤ j) ∨ ∃ y i, S y = false ∧ st.scores y = some i ∧ i ≤ j := by
    rintro x j ⟨i, h1, h2⟩
    cases hS : S x with
    | true => exact .inl ⟨rfl, i, h1, h2⟩
    | false => exact .inr ⟨x, i, hS, h1, h2⟩
  induction hw with
  | nil => exact settle _ _ hv.start
  | @step b t n r _ he ih =>
    rcases ih with ⟨hS, i, h1, h2⟩ | ⟨y, i, h1, h2, h3⟩
    · obtain ⟨i', h3, h4⟩ := hv.edge b r t i hS he h1
      exact settle _ _ ⟨i', h3, by omega⟩
    · exact .inr ⟨y, i, h1, h2, by omega⟩

theorem DijInv.new (hb : Built k h v g c) {a : NodeIx} : DijInv (k.grid h v) g cost a (dijNew g a) (fun _ => false) := by
  refine ⟨visitMap_is hb, ⟨0, by simp [dijNew], Nat.le_refl _⟩, ?_, by simp, by simp, ?_, ?_⟩
  · intro x n h
    simp only [dijNew] at h
    split at h
    · rename_i hx; subst hx; cases h; exact .nil
    · cases h
  · intro x n _ h
    simp only [dijNew] at h ⊢
    split at h
    · rename_i hx; subst hx; cases h; simp
    · cases h
  · intro n x h
    simp [dijNew] at h ⊢
    exact ⟨0, ⟨h.2, rfl⟩, by omega⟩

/-- Popping an unsettled node: its score is the least cost of a walk to it. -/
theorem DijInv.pop {a : NodeIx} {st : Dij} {S : NodeIx → Bool} (hv : DijInv s g cost a st S) {n : Nat} {x : NodeIx}
    {rest : List (Nat × NodeIx)} (hp : Pop st.heap (n, x) rest) (hS : S x = false) :
    st.scores x = some n ∧ ∀ j, CostWalk g cost a x j → n ≤ j := by
  obtain ⟨i, h1, h2⟩ := hv.entry n x (hp.mem.2 (.inl rfl))
  have h3 := hp.2 _ (hv.front x i hS h1)
  have : i = n := by simp only at h3; omega
  subst this
  refine ⟨h1, fun j hj => ?_⟩
  rcases hv.frontier hj with ⟨h, -⟩ | ⟨y, l, h4, h5, h6⟩
  · rw [hS] at h; cases h
  · have := hp.2 _ (hv.front y l h4 h5)
    simp only at this
    omega

/-- Number of nodes not yet visited. -/
def unvisited (s : Grid) (S : NodeIx → Bool) : Nat := (s.nodes.filter fun x => !S x).length

/-- One turn: it can be made for every choice of a least entry, keeps the invariant, and uses up some of the potential. -/
theorem DijInv.turn (hb : Built k h v g c) (hf : k.Fits h v) {a : NodeIx} (ha : (k.grid h v).Node a) {st : Dij}
    {S : NodeIx → Bool} (hv : DijInv (k.grid h v) g cost a st S) {e : Nat × NodeIx} {rest : List (Nat × NodeIx)}
    (hp : Pop st.heap e rest) :
    ∃ st' S', DijStep g cost st e rest st' ∧ DijInv (k.grid h v) g cost a st' S' ∧
      5 * unvisited (k.grid h v) S' + st'.heap.length + 1 ≤ 5 * unvisited (k.grid h v) S + st.heap.length := by
  obtain ⟨n, x⟩ := e
  have hx : (k.grid h v).Node x := by
    obtain ⟨i, h1, -⟩ := hv.entry n x (hp.mem.2 (.inl rfl))
    exact (hv.upper x i h1).node hb hf ha
  have hvis := isVisited_eq hv.vis hx
  cases hS : S x with
  | true =>
    rw [hS] at hvis
    refine ⟨{ st with heap := rest }, S, .skip hp hvis, ?_, ?_⟩
    · refine ⟨hv.vis, hv.start, hv.upper, hv.exact, hv.edge, fun y j hSy hj => ?_,
        fun j y hm => hv.entry j y (hp.mem.2 (.inr hm))⟩
      rcases hp.mem.1 (hv.front y j hSy hj) with h | h
      · cases h; rw [hS] at hSy; cases hSy
      · exact h
    · have := hp.length
      simp only
      omega
  | false =>
    rw [hS] at hvis
    obtain ⟨hscore, hleast⟩ := hv.pop hp hS
    have hl := outRefs_yields hb hf hx
    obtain ⟨st1, e1, e⟩ := relax_eq (k := k) (cost := cost) (n := n) (st := { st with heap := rest })
      (outRefs k (k.grid h v) c x) hv.vis fun r hr => ⟨(outRefs_target hb hf hx hr).1, tg_node hb hf hx hr⟩
    have e3 := e.length
    have e9 := e.keep
    simp only at e3 e9
    obtain ⟨vm, h1, h2⟩ := visit_eq (e.visited ▸ hv.vis) hx
    have hwalk : CostWalk g cost a x n := hv.upper _ _ hscore
    have hupper : ∀ y j, st1.scores y = some j → CostWalk g cost a y j := fun y j hj => by
      rcases e.why y j hj with h | ⟨r, h1, h3, h4⟩
      · exact hv.upper y j h
      · rw [h4]; exact .step hwalk ((edgeTo_iff hb hf hx).2 ⟨h1, h3⟩)
    have hcs : st1.scores x = some n := by
      obtain ⟨i, h3, h4⟩ := e.le x n hscore
      have := hleast i (hupper x i h3)
      rw [h3]
      congr 1
      omega
    refine ⟨{ st1 with visited := vm }, _, .next hp hvis hl (by rw [hb.stores.cfg]; exact e1) h1,
      ⟨h2, ?_, hupper, ?_, ?_, ?_, ?_⟩, ?_⟩
    · obtain ⟨i, h3, h4⟩ := hv.start
      obtain ⟨i', h5, h6⟩ := e.le a i h3
      exact ⟨i', h5, by omega⟩
    · intro y hSy
      by_cases he : y = x
      · subst he; exact ⟨n, hcs, hleast⟩
      · simp only [he, if_false] at hSy
        obtain ⟨i, h3, h4⟩ := hv.exact y hSy
        exact ⟨i, by rw [← h3]; exact e.same y hSy, h4⟩
    · intro u r t j hSu hr hj
      simp only at hj ⊢
      by_cases he : u = x
      · subst he
        rw [hcs] at hj
        cases hj
        obtain ⟨hr1, rfl⟩ := (edgeTo_iff hb hf hx).1 hr
        cases hSr : S (tg k r) with
        | true =>
          obtain ⟨i, h3, h4⟩ := hv.exact _ hSr
          exact ⟨i, (e.same _ hSr).trans h3, h4 _ (.step hwalk hr)⟩
        | false => exact e.new r hr1 hSr
      · simp only [he, if_false] at hSu
        rw [e.same u hSu] at hj
        obtain ⟨i, h3, h4⟩ := hv.edge u r t j hSu hr hj
        obtain ⟨i', h5, h6⟩ := e.le _ _ h3
        exact ⟨i', h5, by omega⟩
    · intro y j hSy hj
      simp only at hj ⊢
      by_cases he : y = x
      · simp [he] at hSy
      · simp only [he, if_false] at hSy
        rcases e.heap y j hj with h | h
        · rcases hp.mem.1 (hv.front y j hSy h) with h | h
          · cases h; exact absurd rfl he
          · exact e9 _ h
        · exact h
    · intro j y hm
      simp only at hm ⊢
      rcases e.from_ _ hm with h | ⟨r, h3, h4, h5⟩
      · obtain ⟨i, h6, h7⟩ := hv.entry j y (hp.mem.2 (.inr h))
        obtain ⟨i', h8, h9⟩ := e.le _ _ h6
        exact ⟨i', h8, by omega⟩
      · cases h5
        exact e.new r h3 h4
    · have hlt : unvisited (k.grid h v) (fun y => if y = x then true else S y) < unvisited (k.grid h v) S :=
        filter_visit_lt hS (mem_cells.2 hx)
      have hlen : (outRefs k (k.grid h v) c x).length ≤ 4 := List.length_filterMap_le ..
      have := hp.length
      simp only at e3 ⊢
      omega

theorem DijStep.pop {st st' : Dij} {e : Nat × NodeIx} {rest : List (Nat × NodeIx)} (h : DijStep g cost st e rest st') :
    Pop st.heap e rest := by
  cases h with
  | skip h => exact h
  | next h => exact h

theorem DijStep.det {st st' st'' : Dij} {e : Nat × NodeIx} {rest : List (Nat × NodeIx)} (h : DijStep g cost st e rest st')
    (h' : DijStep g cost st e rest st'') : st' = st'' := by
  cases h with
  | skip _ h1 =>
    cases h' with
    | skip => rfl
    | next _ h1' => rw [h1] at h1'; cases h1'
  | next _ h1 h3 h4 h5 =>
    cases h' with
    | skip _ h1' => rw [h1] at h1'; cases h1'
    | next _ h1' h3' h4' h5' =>
      have := h3.unique h3'; subst this
      rw [h4] at h4'; cases h4'
      rw [h5] at h5'; cases h5'
      rfl

theorem DijSteps.inv (hb : Built k h v g c) (hf : k.Fits h v) {a : NodeIx} (ha : (k.grid h v).Node a) {st : Dij} {j : Nat}
    (hr : DijSteps g cost (dijNew g a) j st) :
    ∃ S, DijInv (k.grid h v) g cost a st S ∧
      j + 5 * unvisited (k.grid h v) S + st.heap.length ≤ 5 * (k.grid h v).nodes.length + 1 := by
  generalize hst : dijNew g a = st0 at hr
  induction hr with
  | nil =>
    subst hst
    refine ⟨_, DijInv.new hb, ?_⟩
    have : unvisited (k.grid h v) (fun _ => false) ≤ (k.grid h v).nodes.length := List.length_filter_le ..
    simp only [dijNew, List.length_singleton]
    omega
  | step _ h2 ih =>
    obtain ⟨S, h3, h4⟩ := ih
    obtain ⟨st', S', h5, h6, h7⟩ := h3.turn hb hf ha h2.pop
    rw [h5.det h2] at h6 h7
    exact ⟨S', h6, by omega⟩

/-- **C73**, shortest paths. Whatever entries of least score have been popped, any of least score can be popped next, the turn
does not fault, and there are at most `5 · nodes + 1` turns. -/
theorem c73_progress (hb : Built k h v g c) (hf : k.Fits h v) {a : NodeIx} (ha : (k.grid h v).Node a) (cost : Ref E → Nat)
    {j : Nat} {st : Dij} (hr : DijSteps g cost (dijNew g a) j st) :
    (∀ {e rest}, Pop st.heap e rest → ∃ st', DijStep g cost st e rest st') ∧ j ≤ 5 * (h * v) + 1 := by
  obtain ⟨S, h1, h2⟩ := hr.inv hb hf ha
  refine ⟨fun hp => ?_, ?_⟩
  · obtain ⟨st', _, h3, -⟩ := h1.turn hb hf ha hp
    exact ⟨st', h3⟩
  · have : (k.grid h v).nodes.length = h * v := (c45_nodes_exact (k.grid h v)).2.2
    rw [this] at h2
    omega

/-- **C73**, result. When the heap is empty, every node has a score, and it is the least cost of a walk along the edges. Other
indices have none. -/
theorem c73_dijkstra (hb : Built k h v g c) (hf : k.Fits h v) {a : NodeIx} (ha : (k.grid h v).Node a) (cost : Ref E → Nat)
    {j : Nat} {st : Dij} (hr : DijSteps g cost (dijNew g a) j st) (hempty : st.heap = []) (x : NodeIx) :
    (∀ n, st.scores x = some n ↔ CostWalk g cost a x n ∧ ∀ n', CostWalk g cost a x n' → n ≤ n') ∧
    ((k.grid h v).Node x ↔ ∃ n, st.scores x = some n) := by
  obtain ⟨S, h1, -⟩ := hr.inv hb hf ha
  have settled : ∀ {x n}, CostWalk g cost a x n → ∃ i, st.scores x = some i ∧ ∀ n', CostWalk g cost a x n' → i ≤ n' :=
    fun {x n} hw => by
      rcases h1.frontier hw with ⟨hS, _⟩ | ⟨y, i, h2, h3, _⟩
      · exact h1.exact x hS
      · have := h1.front y i h2 h3
        rw [hempty] at this
        cases this
  refine ⟨fun n => ⟨fun hn => ?_, fun ⟨hw, hle⟩ => ?_⟩, fun hx => ?_, fun ⟨n, hn⟩ => (h1.upper x n hn).node hb hf ha⟩
  · have hw := h1.upper x n hn
    obtain ⟨i, h2, h3⟩ := settled hw
    rw [hn] at h2
    cases h2
    exact ⟨hw, h3⟩
  · obtain ⟨i, h2, h3⟩ := settled hw
    have e1 := h3 n hw
    have e2 := hle i (h1.upper x i h2)
    rw [h2]
    congr 1
    omega
  · obtain ⟨n, hw⟩ := costWalk_exists hb hf ha hx
    obtain ⟨i, h2, _⟩ := settled hw
    exact ⟨i, h2⟩

/-- **C73.** So every run can be completed (in particular there is one), and ends with the least costs. -/
theorem c73_completes (hb : Built k h v g c) (hf : k.Fits h v) {a : NodeIx} (ha : (k.grid h v).Node a) (cost : Ref E → Nat)
    {j : Nat} {st : Dij} (hr : DijSteps g cost (dijNew g a) j st) :
    ∃ j' st', DijSteps g cost (dijNew g a) j' st' ∧ j ≤ j' ∧ st'.heap = [] := by
  have : ∀ n j st, DijSteps g cost (dijNew g a) j st → 5 * (h * v) + 2 ≤ j + n →
      ∃ j' st', DijSteps g cost (dijNew g a) j' st' ∧ j ≤ j' ∧ st'.heap = [] := by
    intro n
    induction n with
    | zero =>
      intro j st hr hn
      have := (c73_progress hb hf ha cost hr).2
      omega
    | succ n ih =>
      intro j st hr hn
      by_cases he : st.heap = []
      · exact ⟨j, st, hr, Nat.le_refl _, he⟩
      · obtain ⟨e, rest, hp⟩ := pop_exists st.heap he
        obtain ⟨st', h1⟩ := (c73_progress hb hf ha cost hr).1 hp
        obtain ⟨j', st'', h2, h3, h4⟩ := ih (j + 1) st' (.step hr h1) (by omega)
        exact ⟨j', st'', h2, by omega, h4⟩
  exact this _ j st hr (Nat.le_add_left _ _)

end

/-- Example: on the 3 × 2 graph looped horizontally, both searches from (0,1) return all six nodes, and a complete run of
Dijkstra's algorithm gives (2,1) the score 121, the weight of the edge closing the row. -/
example : ∃ (g : G Nat Nat) (c : Contents NodeIx Axis Nat Nat), Built exCfg 3 2 g c ∧
    (∃ b l, bfsNew g ⟨0, 1⟩ = .ok b ∧ BfsRun g b l ∧ l.Nodup ∧ (⟨2, 0⟩ : NodeIx) ∈ l) ∧
    (∃ l, DfsRun g (dfsNew g ⟨0, 1⟩) l ∧ (⟨2, 0⟩ : NodeIx) ∈ l) ∧
    ∃ j st, DijSteps g Ref.weight (dijNew g ⟨0, 1⟩) j st ∧ st.heap = [] ∧ st.scores ⟨2, 1⟩ = some 121 := by
  obtain ⟨g, c, hb, hc⟩ := exGraph exCfg (by decide)
  have hf : exCfg.Fits 3 2 := ⟨by decide, by decide⟩
  have ha : (exCfg.grid 3 2).Node ⟨0, 1⟩ := by decide
  obtain ⟨b, l, e1, e2, e3, e4, _⟩ := c73_bfs hb hf ha
  obtain ⟨l', f1, f2, f3, _⟩ := c73_dfs hb hf ha
  refine ⟨g, c, hb, ⟨b, l, e1, (e2 l).2 rfl, e3, (e4 _).2 (by decide)⟩, ⟨l', (f1 l').2 rfl, (f3 _).2 (by decide)⟩, ?_⟩
  obtain ⟨j, st, h1, -, h2⟩ := c73_completes hb hf ha Ref.weight .nil
  refine ⟨j, st, h1, h2, ((c73_dijkstra hb hf ha Ref.weight h1 h2 ⟨2, 1⟩).1 121).2 ⟨?_, ?_⟩⟩
  · exact .step (r := ⟨⟨⟨2, 1⟩, .horizontal⟩, 121, false, exCfg.sizeInfo 3 2⟩) .nil
      ((edgeTo_iff hb hf ha).2 ⟨by rw [hc]; decide, by decide⟩)
  · intro n hw
    -- another way to (2,1) crosses two edges of weight at least 100, or the same edge
    have key : ∀ x n, CostWalk g Ref.weight ⟨0, 1⟩ x n → x = ⟨0, 1⟩ ∨ 121 ≤ n ∨ (x = ⟨1, 1⟩ ∧ 101 ≤ n) := by
      intro x n hw
      induction hw with
      | nil => exact .inl rfl
      | @step b t n r hw he ih =>
        have hn := hw.node hb hf ha
        have hm := (edgeTo_iff hb hf hn).1 he
        have hall : ∀ x ∈ (exCfg.grid 3 2).nodes, ∀ r ∈ outRefs exCfg (exCfg.grid 3 2) c x,
            100 ≤ r.weight ∧ (x = ⟨0, 1⟩ → 121 ≤ r.weight ∨ (tg exCfg r = ⟨1, 1⟩ ∧ 101 ≤ r.weight)) := by rw [hc]; decide
        obtain ⟨h3, h4⟩ := hall b (mem_cells.2 hn) r hm.1
        rw [hm.2] at h4
        rcases ih with rfl | ih | ⟨_, ih⟩
        · rcases h4 rfl with h | ⟨h, h'⟩
          · exact .inr (.inl (by omega))
          · exact .inr (.inr ⟨h, by omega⟩)
        · exact .inr (.inl (by omega))
        · exact .inr (.inl (by omega))
    rcases key _ _ hw with h | h | ⟨h, _⟩
    · cases h
    · exact h
    · cases h

example : ∃ (g : G Nat Nat) (c : Contents NodeIx Axis Nat Nat), Built exCfg 3 2 g c ∧
    ∀ j st, DijSteps g Ref.weight (dijNew g ⟨0, 1⟩) j st → j ≤ 31 := by
  obtain ⟨g, c, hb, _⟩ := exGraph exCfg (by decide)
  exact ⟨g, c, hb, fun j st hr => (c73_progress hb ⟨by decide, by decide⟩ (by decide) _ hr).2⟩


/-- Example: the map of the 3 × 2 graph has room for ⟨2, 1⟩. -/
example : ∃ (g : G Nat Nat), g.visitMap = Vis.new 3 2 ∧ ∃ vm, runVis g.visitMap [.visit ⟨2, 1⟩, .isVisited ⟨2, 1⟩] = .ok ([true, true], vm) := by
  obtain ⟨g, c, hb, _⟩ := exGraph exCfg (by decide)
  obtain ⟨h1, -, h2⟩ := c51_graph_map hb [.visit ⟨2, 1⟩, .isVisited ⟨2, 1⟩] (by
    intro o ho
    simp only [List.mem_cons, List.not_mem_nil, or_false] at ho
    rcases ho with rfl | rfl <;> exact ⟨by decide, by decide⟩)
  exact ⟨g, h1, h2 (by simp [NoIdle, VisOp.Idle])⟩
end LG.Sq
