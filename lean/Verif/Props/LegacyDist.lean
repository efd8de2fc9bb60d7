import Verif.Props.LegacyEdges
import Verif.Lemmas.HexAxial
/- C50, C51: `NodeIndex::distance` and the visit map of `SquareGraph`. -/
set_option linter.unusedSectionVars false
namespace LG.Sq
section
variable {N E σ α β : Type}
variable {g : G N E} {k : Cfg} {s : Grid} {h v : Nat} {c : Contents NodeIx Axis N E}

/-! ### C50 -/

/-- Sum of the horizontal and the vertical difference. -/
def taxi (a b : NodeIx) : Nat :=
  ((a.horizontal : Int) - b.horizontal).natAbs + ((a.vertical : Int) - b.vertical).natAbs

/-- `b` is reached from `a` by `n` steps, each to an item `neighbors` yields. -/
inductive Walk (g : G N E) (a : NodeIx) : Nat → NodeIx → Prop where
  | nil : Walk g a 0 a
  | step {n : Nat} {b c : NodeIx} {l : List NodeIx} :
    Walk g a n b → Yields (Nbrs.next g.k) (g.neighbors b) l → c ∈ l → Walk g a (n + 1) c

/-- **C50.** `distance` does not overflow for indices up to `isize::MAX`, and is the sum of the coordinate differences. -/
theorem c50_formula (k : Cfg) {a b : NodeIx} (h1 : a.horizontal < k.m.half) (h2 : a.vertical < k.m.half)
    (h3 : b.horizontal < k.m.half) (h4 : b.vertical < k.m.half) :
    a.distance k b.horizontal b.vertical = .ok (taxi a b) := by
  have hm := k.m.half_ge
  unfold NodeIx.distance taxi
  rw [asIsize_small h1, asIsize_small h2, asIsize_small h3, asIsize_small h4,
    isub_ok (by unfold InI; omega), isub_ok (by unfold InI; omega)]
  simp only [bind, Except.bind]
  exact uadd_ok (by omega)

/-- **C50.** It is a metric. -/
theorem c50_metric (a b c : NodeIx) : (taxi a b = 0 ↔ a = b) ∧ taxi a b = taxi b a ∧ taxi a c ≤ taxi a b + taxi b c := by
  obtain ⟨a1, a2⟩ := a
  obtain ⟨b1, b2⟩ := b
  obtain ⟨c1, c2⟩ := c
  simp only [taxi, NodeIx.mk.injEq]
  omega

theorem Sizes.coord (z : Sizes k s) {n : NodeIx} (hn : s.Node n) : n.horizontal < k.m.half ∧ n.vertical < k.m.half := by
  have := z.h_lt; have := z.v_lt; have h1 := hn.1; have h2 := hn.2
  omega

/-- **C50.** On the nodes of any graph. -/
theorem c50_nodes (hb : Built k h v g c) (hf : k.Fits h v) {a b : NodeIx} (ha : (k.grid h v).Node a)
    (hb' : (k.grid h v).Node b) : a.distance k b.horizontal b.vertical = .ok (taxi a b) := by
  have z := hb.sizes hf
  exact c50_formula k (z.coord ha).1 (z.coord ha).2 (z.coord hb').1 (z.coord hb').2

theorem step_flat (hl : s.loopH = false) (hv : s.loopV = false) {n t : NodeIx} (hn : s.Node n) {d : Dir}
    (ht : s.step n d = some t) : taxi n t = 1 := by
  rcases d with (_ | _) | (_ | _)
  · rw [step_right hn, hl] at ht
    split at ht
    · cases ht; simp [taxi]; omega
    · simp at ht
  · rw [step_up hn, hv] at ht
    split at ht
    · cases ht; simp [taxi]; omega
    · simp at ht
  · rw [step_left hn, hl] at ht
    split at ht
    · cases ht; simp [taxi]; omega
    · simp at ht
  · rw [step_down hn, hv] at ht
    split at ht
    · cases ht; simp [taxi]; omega
    · simp at ht

theorem step_toward {a t : NodeIx} (ha : s.Node a) (ht : s.Node t) (hd : taxi a t ≠ 0) :
    ∃ d c, d ∈ Grid.dirs ∧ s.step a d = some c ∧ taxi c t + 1 = taxi a t := by
  have h1 := ht.1
  have h2 := ht.2
  unfold taxi at *
  by_cases e1 : a.horizontal < t.horizontal
  · refine ⟨.foward .horizontal, ⟨a.horizontal + 1, a.vertical⟩, by decide, ?_, by simp only; omega⟩
    rw [step_right ha, if_pos (by omega)]
  by_cases e2 : t.horizontal < a.horizontal
  · refine ⟨.backward .horizontal, ⟨a.horizontal - 1, a.vertical⟩, by decide, ?_, by simp only; omega⟩
    rw [step_left ha, if_pos (by omega)]
  by_cases e3 : a.vertical < t.vertical
  · refine ⟨.foward .vertical, ⟨a.horizontal, a.vertical + 1⟩, by decide, ?_, by simp only; omega⟩
    rw [step_up ha, if_pos (by omega)]
  · refine ⟨.backward .vertical, ⟨a.horizontal, a.vertical - 1⟩, by decide, ?_, by simp only; omega⟩
    rw [step_down ha, if_pos (by omega)]

/-- **C50.** Along an edge of a graph without loops, the distance to any fixed node changes by exactly one. -/
theorem c50_edge (hl : s.loopH = false) (hv : s.loopV = false) {n t x : NodeIx} (hn : s.Node n) (ht : t ∈ s.nbrs n) :
    taxi t x = taxi n x + 1 ∨ taxi n x = taxi t x + 1 := by
  obtain ⟨d, _, hd⟩ := List.mem_filterMap.1 ht
  have h1 := step_flat hl hv hn hd
  unfold taxi at *
  omega

theorem nbrs_at (hb : Built k h v g c) (hf : k.Fits h v) {n : NodeIx} (hn : (k.grid h v).Node n) :
    Yields (Nbrs.next g.k) (g.neighbors n) ((k.grid h v).nbrs n) := by
  rw [hb.stores.cfg]; exact c46_neighbors hb hf hn

theorem Walk.node (hb : Built k h v g c) (hf : k.Fits h v) {n : Nat} {a b : NodeIx} (ha : (k.grid h v).Node a)
    (hw : Walk g a n b) : (k.grid h v).Node b := by
  induction hw with
  | nil => exact ha
  | step _ hy hm ih =>
    have hy' := c46_neighbors hb hf ih
    rw [hb.stores.cfg] at hy
    rw [Yields.unique hy hy'] at hm
    exact (c46_neighbors_nodes _ ih hm).1

theorem Walk.reach (hb : Built k h v g c) (hf : k.Fits h v) {a t : NodeIx} (ht : (k.grid h v).Node t) :
    ∀ (d n : Nat) (b : NodeIx), (k.grid h v).Node b → Walk g a n b → taxi b t = d → Walk g a (n + d) t
  | 0, n, b, _, hw, hd => by
    rw [← ((c50_metric b t t).1.1 hd)]; exact hw
  | d + 1, n, b, hn, hw, hd => by
    obtain ⟨dir, x, h1, h2, h3⟩ := step_toward hn ht (by omega)
    have hy := nbrs_at hb hf hn
    have hw' : Walk g a (n + 1) x := .step hw hy (List.mem_filterMap.2 ⟨dir, h1, h2⟩)
    rw [show n + (d + 1) = n + 1 + d by omega]
    exact Walk.reach hb hf ht d (n + 1) x (Grid.step_node hn h2) hw' (by omega)

/-- **C50.** On a graph without loops `distance` is the length of a shortest walk: there is a walk of that length, and none is
shorter. -/
theorem c50_shortest (hb : Built k h v g c) (hf : k.Fits h v) (hl : k.loopH = false) (hv : k.loopV = false) {a b : NodeIx}
    (ha : (k.grid h v).Node a) (hb' : (k.grid h v).Node b) :
    ∃ d, a.distance k b.horizontal b.vertical = .ok d ∧ Walk g a d b ∧ ∀ n, Walk g a n b → d ≤ n := by
  refine ⟨_, c50_nodes hb hf ha hb', ?_, ?_⟩
  · have := Walk.reach hb hf hb' (taxi a b) 0 a ha .nil rfl
    rwa [Nat.zero_add] at this
  · intro n hw
    have key : taxi a b ≤ n := by
      clear hb'
      induction hw with
      | nil => simp [taxi]
      | @step n b x l hw hy hm ih =>
        have hnb := Walk.node hb hf ha hw
        rw [hb.stores.cfg] at hy
        rw [Yields.unique hy (c46_neighbors hb hf hnb)] at hm
        have h1 := (c50_metric a b x).2.2
        obtain ⟨d, _, hd⟩ := List.mem_filterMap.1 hm
        have := step_flat hl hv hnb hd
        omega
    exact key

/-- On any graph, looped or not, `distance` is at least the length of a shortest walk: there is a walk that long. -/
theorem c50_walk (hb : Built k h v g c) (hf : k.Fits h v) {a b : NodeIx} (ha : (k.grid h v).Node a)
    (hb' : (k.grid h v).Node b) : ∃ d, a.distance k b.horizontal b.vertical = .ok d ∧ Walk g a d b := by
  refine ⟨_, c50_nodes hb hf ha hb', ?_⟩
  have := Walk.reach hb hf hb' (taxi a b) 0 a ha .nil rfl
  rwa [Nat.zero_add] at this

/-- **C50** really needs the absence of loops: around a horizontal loop of at least three cells the two ends of a row are one step
apart while `distance` says `h - 1`. -/
theorem c50_looped_wrong (hb : Built k h v g c) (hf : k.Fits h v) (hl : k.loopH = true) (h3 : 3 ≤ h) {j : Nat} (hj : j < v) :
    Walk g ⟨0, j⟩ 1 ⟨h - 1, j⟩ ∧ (NodeIx.distance k ⟨0, j⟩ (h - 1) j) = .ok (h - 1) ∧ 1 < h - 1 := by
  have hn : (k.grid h v).Node ⟨0, j⟩ := ⟨by show 0 < h; omega, hj⟩
  have hn' : (k.grid h v).Node ⟨h - 1, j⟩ := ⟨by show h - 1 < h; omega, hj⟩
  have hy := nbrs_at hb hf hn
  refine ⟨.step .nil hy (List.mem_filterMap.2 ⟨.backward .horizontal, by decide, ?_⟩), ?_, by omega⟩
  · rw [step_left hn, if_neg (by simp), if_pos (show (k.grid h v).loopH = true from hl)]
    rfl
  · rw [c50_nodes hb hf hn hn']
    simp only [taxi]
    congr 1
    omega

example : ∃ (g : G Nat Nat) (c : Contents NodeIx Axis Nat Nat), Built exPlainR 3 2 g c ∧
    NodeIx.distance exPlainR ⟨0, 1⟩ 2 0 = .ok 3 ∧ Walk g ⟨0, 1⟩ 3 ⟨2, 0⟩ ∧ ¬ Walk g ⟨0, 1⟩ 2 ⟨2, 0⟩ := by
  obtain ⟨g, c, hb, _⟩ := exGraph exPlainR (by decide)
  have hf : exPlainR.Fits 3 2 := ⟨by decide, by decide⟩
  obtain ⟨d, h1, h2, h3⟩ := c50_shortest hb hf rfl rfl (a := ⟨0, 1⟩) (b := ⟨2, 0⟩) (by decide) (by decide)
  have h4 := c50_nodes hb hf (a := ⟨0, 1⟩) (b := ⟨2, 0⟩) (by decide) (by decide)
  rw [h1] at h4
  cases h4
  exact ⟨g, c, hb, h1, h2, fun h => absurd (h3 _ h) (by decide)⟩

/-! ### C51 -/

/-- An operation on a visit map. -/
inductive VisOp where
  | visit (n : NodeIx)
  | unvisit (n : NodeIx)
  | isVisited (n : NodeIx)
  | reset

/-- The node it is about. -/
def VisOp.On (s : Grid) : VisOp → Prop
  | .visit n | .unvisit n | .isVisited n => s.Node n
  | .reset => True

/-- The code. -/
def VisOp.run (vm : Vis) : VisOp → Res (Bool × Vis)
  | .visit n => vm.visit n
  | .unvisit n => vm.unvisit n
  | .isVisited n => (vm.isVisited n).map fun b => (b, vm)
  | .reset => .ok (false, vm.reset)

/-- A set of nodes: `visit` and `unvisit` return whether they changed it. -/
def VisOp.spec (S : NodeIx → Bool) : VisOp → Bool × (NodeIx → Bool)
  | .visit n => (!S n, fun x => if x = n then true else S x)
  | .unvisit n => (S n, fun x => if x = n then false else S x)
  | .isVisited n => (S n, S)
  | .reset => (false, fun _ => false)

/-- `unvisit` of a node that is not in the set. -/
def VisOp.Idle (S : NodeIx → Bool) : VisOp → Prop
  | .unvisit n => S n = false
  | _ => False

/-- Running a list of operations: the answers and the final state. -/
def runVis (vm : Vis) : List VisOp → Res (List Bool × Vis)
  | [] => .ok ([], vm)
  | o :: os => do
    let (b, vm) ← o.run vm
    let (bs, vm) ← runVis vm os
    .ok (b :: bs, vm)

/-- The same on sets. -/
def specVis (S : NodeIx → Bool) : List VisOp → List Bool × (NodeIx → Bool)
  | [] => ([], S)
  | o :: os =>
    let r := o.spec S
    let rs := specVis r.2 os
    (r.1 :: rs.1, rs.2)

/-- No operation of the list is an idle `unvisit`. -/
def NoIdle (S : NodeIx → Bool) : List VisOp → Prop
  | [] => True
  | o :: os => ¬ o.Idle S ∧ NoIdle (o.spec S).2 os

/-- The map represents the set. -/
structure VisIs (vm : Vis) (s : Grid) (S : NodeIx → Bool) : Prop where
  rows : vm.length = s.h
  cols : ∀ {i : Nat} {col : List Bool}, vm[i]? = some col → col.length = s.v
  get : ∀ {i j : Nat} {col : List Bool} {b : Bool}, vm[i]? = some col → col[j]? = some b → b = S ⟨i, j⟩

theorem VisIs.new (s : Grid) : VisIs (Vis.new s.h s.v) s (fun _ => false) := by
  unfold Vis.new
  refine ⟨List.length_replicate, ?_, ?_⟩
  · intro i col hi
    rw [List.getElem?_replicate] at hi
    split at hi
    · cases hi; exact List.length_replicate
    · cases hi
  · intro i j col b hi hj
    rw [List.getElem?_replicate] at hi
    split at hi
    · cases hi
      rw [List.getElem?_replicate] at hj
      split at hj
      · cases hj; rfl
      · cases hj
    · cases hi

theorem VisIs.at {vm : Vis} {S : NodeIx → Bool} (hv : VisIs vm s S) {n : NodeIx} (hn : s.Node n) :
    ∃ col, vm[n.horizontal]? = some col ∧ col[n.vertical]? = some (S n) := by
  have h1 : n.horizontal < vm.length := by rw [hv.rows]; exact hn.1
  have h2 := hv.cols (List.getElem?_eq_getElem h1)
  have h3 : n.vertical < vm[n.horizontal].length := by rw [h2]; exact hn.2
  refine ⟨_, List.getElem?_eq_getElem h1, ?_⟩
  rw [List.getElem?_eq_getElem h3, hv.get (List.getElem?_eq_getElem h1) (List.getElem?_eq_getElem h3)]

theorem VisIs.set {vm : Vis} {S : NodeIx → Bool} (hv : VisIs vm s S) {n : NodeIx} {col : List Bool}
    (hc : vm[n.horizontal]? = some col) (b : Bool) :
    VisIs (vm.set n.horizontal (col.set n.vertical b)) s (fun x => if x = n then b else S x) := by
  refine ⟨by rw [List.length_set]; exact hv.rows, ?_, ?_⟩
  · intro i col' hi
    rw [List.getElem?_set] at hi
    split at hi
    · split at hi
      · cases hi
        rw [List.length_set]; exact hv.cols hc
      · cases hi
    · exact hv.cols hi
  · intro i j col' b' hi hj
    rw [List.getElem?_set] at hi
    split at hi
    · rename_i he
      subst he
      split at hi
      · cases hi
        rw [List.getElem?_set] at hj
        split at hj
        · rename_i he
          subst he
          split at hj
          · cases hj; rw [if_pos rfl]
          · cases hj
        · rename_i hne
          rw [if_neg (by intro h; exact hne (congrArg NodeIx.vertical h).symm)]
          exact hv.get hc hj
      · cases hi
    · rename_i hne
      rw [if_neg (by intro h; exact hne (congrArg NodeIx.horizontal h).symm)]
      exact hv.get hi hj

theorem VisIs.reset {vm : Vis} {S : NodeIx → Bool} (hv : VisIs vm s S) : VisIs vm.reset s (fun _ => false) := by
  unfold Vis.reset
  refine ⟨by rw [List.length_map]; exact hv.rows, ?_, ?_⟩
  · intro i col hi
    rw [List.getElem?_map] at hi
    cases hc : vm[i]? with
    | none => rw [hc] at hi; cases hi
    | some c => rw [hc] at hi; cases hi; rw [List.length_replicate]; exact hv.cols hc
  · intro i j col b hi hj
    rw [List.getElem?_map] at hi
    cases hc : vm[i]? with
    | none => rw [hc] at hi; cases hi
    | some c =>
      rw [hc] at hi; cases hi
      rw [List.getElem?_replicate] at hj
      split at hj
      · cases hj; rfl
      · cases hj

/-- One operation. -/
theorem visOp_run {vm : Vis} {S : NodeIx → Bool} (hv : VisIs vm s S) {o : VisOp} (ho : o.On s) :
    ∃ b vm', o.run vm = .ok (b, vm') ∧ VisIs vm' s (o.spec S).2 ∧ (¬ o.Idle S → b = (o.spec S).1) ∧ (o.Idle S → b = true) := by
  cases o with
  | visit n =>
    obtain ⟨col, h1, h2⟩ := hv.at ho
    exact ⟨!S n, _, by simp only [VisOp.run, Vis.visit, h1, h2], hv.set h1 true, fun _ => rfl, fun h => h.elim⟩
  | unvisit n =>
    obtain ⟨col, h1, h2⟩ := hv.at ho
    refine ⟨true, _, by simp only [VisOp.run, Vis.unvisit, h1, h2], hv.set h1 false, ?_, fun _ => rfl⟩
    intro h
    simp only [VisOp.Idle, Bool.not_eq_false] at h
    exact h.symm
  | isVisited n =>
    obtain ⟨col, h1, h2⟩ := hv.at ho
    refine ⟨S n, vm, ?_, hv, fun _ => rfl, fun h => h.elim⟩
    simp only [VisOp.run, Vis.isVisited, h1, h2]
    rfl
  | reset => exact ⟨_, _, rfl, hv.reset, fun _ => rfl, fun h => h.elim⟩

/-- **C51.** A visit map answers like a set, for every sequence of operations on nodes of the graph. Missing: the answer of
`unvisit` on a node that is not in the set. -/
theorem c51_visit_map_partial (s : Grid) (os : List VisOp) (ho : ∀ o ∈ os, o.On s) (hi : NoIdle (fun _ => false) os) :
    ∃ vm, runVis (Vis.new s.h s.v) os = .ok ((specVis (fun _ => false) os).1, vm) ∧
      ∀ n, s.Node n → vm.isVisited n = .ok ((specVis (fun _ => false) os).2 n) := by
  have key : ∀ (os : List VisOp) (vm : Vis) (S : NodeIx → Bool), VisIs vm s S → (∀ o ∈ os, o.On s) → NoIdle S os →
      ∃ vm', runVis vm os = .ok ((specVis S os).1, vm') ∧ VisIs vm' s (specVis S os).2 := by
    intro os
    induction os with
    | nil => intro vm S hv _ _; exact ⟨vm, rfl, hv⟩
    | cons o os ih =>
      intro vm S hv ho hi
      obtain ⟨b, vm', h1, h2, h3, _⟩ := visOp_run hv (ho o (by simp))
      obtain ⟨vm'', h4, h5⟩ := ih vm' _ h2 (fun o h => ho o (List.mem_cons_of_mem _ h)) hi.2
      refine ⟨vm'', ?_, h5⟩
      simp only [runVis, h1, h4, bind, Except.bind, specVis]
      rw [h3 hi.1]
  obtain ⟨vm, h1, h2⟩ := key os _ _ (VisIs.new s) ho hi
  refine ⟨vm, h1, fun n hn => ?_⟩
  obtain ⟨col, h3, h4⟩ := h2.at hn
  simp only [Vis.isVisited, h3, h4]
  rfl

/-- **C51.** The set itself (what `is_visited` says) is right after every sequence, idle `unvisit`s included. -/
theorem c51_contents (s : Grid) (os : List VisOp) (ho : ∀ o ∈ os, o.On s) :
    ∃ bs vm, runVis (Vis.new s.h s.v) os = .ok (bs, vm) ∧
      ∀ n, s.Node n → vm.isVisited n = .ok ((specVis (fun _ => false) os).2 n) := by
  have key : ∀ (os : List VisOp) (vm : Vis) (S : NodeIx → Bool), VisIs vm s S → (∀ o ∈ os, o.On s) →
      ∃ bs vm', runVis vm os = .ok (bs, vm') ∧ VisIs vm' s (specVis S os).2 := by
    intro os
    induction os with
    | nil => intro vm S hv _; exact ⟨_, vm, rfl, hv⟩
    | cons o os ih =>
      intro vm S hv ho
      obtain ⟨b, vm', h1, h2, _, _⟩ := visOp_run hv (ho o (by simp))
      obtain ⟨bs, vm'', h4, h5⟩ := ih vm' _ h2 (fun o h => ho o (List.mem_cons_of_mem _ h))
      refine ⟨b :: bs, vm'', ?_, h5⟩
      simp only [runVis, h1, h4, bind, Except.bind]
  obtain ⟨bs, vm, h1, h2⟩ := key os _ _ (VisIs.new s) ho
  refine ⟨bs, vm, h1, fun n hn => ?_⟩
  obtain ⟨col, h3, h4⟩ := h2.at hn
  simp only [Vis.isVisited, h3, h4]
  rfl

/-- **C51 fails** for `unvisit`: after any sequence of operations, on any node not in the set, it returns `true` although it
changes nothing. -/
theorem c51_unvisit_wrong (s : Grid) (os : List VisOp) (ho : ∀ o ∈ os, o.On s) {n : NodeIx} (hn : s.Node n)
    (hi : (specVis (fun _ => false) os).2 n = false) {bs : List Bool} {vm : Vis}
    (hr : runVis (Vis.new s.h s.v) os = .ok (bs, vm)) :
    vm.isVisited n = .ok false ∧ ∃ vm', vm.unvisit n = .ok (true, vm') := by
  obtain ⟨bs', vm', h1, h2⟩ := c51_contents s os ho
  rw [hr] at h1
  cases h1
  have h3 := h2 n hn
  rw [hi] at h3
  refine ⟨h3, ?_⟩
  have key : ∀ (os : List VisOp) (vm : Vis) (S : NodeIx → Bool), VisIs vm s S → (∀ o ∈ os, o.On s) →
      ∀ {bs vm'}, runVis vm os = .ok (bs, vm') → ∃ S', VisIs vm' s S' := by
    intro os
    induction os with
    | nil => intro vm S hv _ bs vm' h; cases h; exact ⟨S, hv⟩
    | cons o os ih =>
      intro vm S hv ho bs vm' h
      obtain ⟨b, vm1, h1, h2, _, _⟩ := visOp_run hv (ho o (by simp))
      simp only [runVis, h1, bind, Except.bind] at h
      cases hr : runVis vm1 os with
      | error f => rw [hr] at h; cases h
      | ok p =>
        rw [hr] at h; cases h
        exact ih vm1 _ h2 (fun o h => ho o (List.mem_cons_of_mem _ h)) hr
  obtain ⟨S', hv⟩ := key os _ _ (VisIs.new s) ho hr
  obtain ⟨col, h4, h5⟩ := hv.at hn
  exact ⟨vm.set n.horizontal (col.set n.vertical false), by simp only [Vis.unvisit, h4, h5]⟩

/-- A sequence of operations on nodes, from any map. -/
theorem runVis_is : ∀ (os : List VisOp) {vm : Vis} {S : NodeIx → Bool}, VisIs vm s S → (∀ o ∈ os, o.On s) →
    ∃ bs vm', runVis vm os = .ok (bs, vm') ∧ VisIs vm' s (specVis S os).2
  | [], vm, S, hv, _ => ⟨[], vm, rfl, hv⟩
  | o :: os, vm, S, hv, ho => by
    obtain ⟨b, vm', h1, h2, _, _⟩ := visOp_run hv (ho o (by simp))
    obtain ⟨bs, vm'', h4, h5⟩ := runVis_is os h2 (fun o h => ho o (List.mem_cons_of_mem _ h))
    exact ⟨b :: bs, vm'', by simp only [runVis, h1, h4, bind, Except.bind], h5⟩

/-- **C51.** An index that is not a node, after any sequence of operations: `visit` and `unvisit` panic, `is_visited` panics
past the last column and is `false` past the last row. -/
theorem c51_off_graph (s : Grid) (os : List VisOp) (ho : ∀ o ∈ os, o.On s) {n : NodeIx} (hn : ¬ s.Node n) :
    ∃ bs vm, runVis (Vis.new s.h s.v) os = .ok (bs, vm) ∧ vm.visit n = .error .panic ∧ vm.unvisit n = .error .panic ∧
      vm.isVisited n = if n.horizontal < s.h then .ok false else .error .panic := by
  obtain ⟨bs, vm, h1, h2⟩ := runVis_is os (VisIs.new s) ho
  refine ⟨bs, vm, h1, ?_⟩
  by_cases hh : n.horizontal < s.h
  · have hx : n.horizontal < vm.length := by rw [h2.rows]; exact hh
    have hc := List.getElem?_eq_getElem hx
    have hl := h2.cols hc
    have hv : ¬ n.vertical < s.v := fun h => hn ⟨hh, h⟩
    have hr : vm[n.horizontal][n.vertical]? = none := List.getElem?_eq_none (by omega)
    simp only [Vis.visit, Vis.unvisit, Vis.isVisited, hc, hr, if_pos hh, Option.getD_none, and_self]
  · have hc : vm[n.horizontal]? = none := List.getElem?_eq_none (by rw [h2.rows]; omega)
    simp only [Vis.visit, Vis.unvisit, Vis.isVisited, hc, if_neg hh, and_self]

example : ∃ bs vm, runVis (Vis.new 3 2) [.visit ⟨2, 1⟩] = .ok (bs, vm) ∧ vm.visit ⟨2, 2⟩ = .error .panic ∧
    vm.unvisit ⟨2, 2⟩ = .error .panic ∧ vm.isVisited ⟨2, 2⟩ = .ok false :=
  c51_off_graph ⟨3, 2, false, true⟩ [.visit ⟨2, 1⟩] (by simp [VisOp.On, Grid.Node]) (n := ⟨2, 2⟩) (by simp [Grid.Node])

/-! ### C95, for `SquareGraph` -/

theorem VisIs.col {vm : Vis} {S : NodeIx → Bool} (hv : VisIs vm s S) {x : Nat} (hx : x < s.h) :
    vm[x]? = some ((List.range s.v).map fun y => S ⟨x, y⟩) := by
  have hx' : x < vm.length := by rw [hv.rows]; exact hx
  have hc := List.getElem?_eq_getElem hx'
  rw [hc]
  congr 1
  apply List.ext_getElem
  · rw [hv.cols hc, List.length_map, List.length_range]
  · intro y h1 h2
    rw [hv.get hc (List.getElem?_eq_getElem h1), List.getElem_map, List.getElem_range]

/-- **C95.** Two visit maps, of graphs of any two sizes and after any two sequences of operations, compare equal exactly when
they have the same number of columns, the columns (if there are any) have the same length, and the same nodes are in the sets
that the operations describe. -/
theorem c95_visit_map_eq (s s' : Grid) (os os' : List VisOp) (ho : ∀ o ∈ os, o.On s) (ho' : ∀ o ∈ os', o.On s') :
    ∃ bs vm bs' vm', runVis (Vis.new s.h s.v) os = .ok (bs, vm) ∧ runVis (Vis.new s'.h s'.v) os' = .ok (bs', vm') ∧
      (vm.eq vm' = true ↔ s.h = s'.h ∧ (s.h = 0 ∨ s.v = s'.v) ∧
        ∀ n, s.Node n → (specVis (fun _ => false) os).2 n = (specVis (fun _ => false) os').2 n) := by
  obtain ⟨bs, vm, h1, h2⟩ := runVis_is os (VisIs.new s) ho
  obtain ⟨bs', vm', h1', h2'⟩ := runVis_is os' (VisIs.new s') ho'
  refine ⟨bs, vm, bs', vm', h1, h1', ?_⟩
  rw [Vis.eq, beq_iff_eq]
  constructor
  · intro he
    have hh : s.h = s'.h := by rw [← h2.rows, ← h2'.rows, he]
    refine ⟨hh, ?_, ?_⟩
    · by_cases h0 : s.h = 0
      · exact .inl h0
      · have ha := h2.col (x := 0) (by omega)
        rw [he, h2'.col (by omega)] at ha
        have := congrArg List.length (Option.some.inj ha)
        simp only [List.length_map, List.length_range] at this
        exact .inr this.symm
    · rintro ⟨x, y⟩ ⟨hx, hy⟩
      have hx : x < s.h := hx
      have ha := h2.col hx
      rw [he, h2'.col (hh ▸ hx)] at ha
      have hb := congrArg (fun l : List Bool => l[y]?) (Option.some.inj ha)
      simp only at hy
      simp only [List.getElem?_map, List.getElem?_range hy, Option.map_some] at hb
      cases hr : (List.range s'.v)[y]? with
      | none => rw [hr] at hb; cases hb
      | some z =>
        have : z = y := by
          rw [List.getElem?_eq_some_iff] at hr
          obtain ⟨_, hz⟩ := hr
          rw [List.getElem_range] at hz
          exact hz.symm
        rw [hr, this] at hb
        exact (Option.some.inj hb).symm
  · rintro ⟨hh, hv, hn⟩
    apply List.ext_getElem?
    intro x
    by_cases hx : x < s.h
    · have hv : s.v = s'.v := by omega
      rw [h2.col hx, h2'.col (by omega), hv]
      congr 1
      apply List.map_congr_left
      intro y hy
      exact hn ⟨x, y⟩ ⟨hx, by rw [hv]; exact List.mem_range.mp hy⟩
    · rw [List.getElem?_eq_none (by rw [h2.rows]; omega), List.getElem?_eq_none (by rw [h2'.rows]; omega)]

example : ∃ bs vm bs' vm', runVis (Vis.new 3 2) [.visit ⟨2, 1⟩, .visit ⟨0, 0⟩, .unvisit ⟨0, 0⟩] = .ok (bs, vm) ∧
    runVis (Vis.new 3 2) [.visit ⟨2, 1⟩, .visit ⟨2, 1⟩] = .ok (bs', vm') ∧ vm.eq vm' = true ∧
    vm.eq (Vis.new 3 2) = false ∧ (Vis.new 3 2).eq (Vis.new 3 3) = false ∧ (Vis.new 0 2).eq (Vis.new 0 3) = true :=
  ⟨_, _, _, _, rfl, rfl, rfl, rfl, rfl, rfl⟩

example : ∃ vm, runVis (Vis.new 3 2) [.visit ⟨2, 1⟩, .visit ⟨2, 1⟩, .unvisit ⟨2, 1⟩, .isVisited ⟨2, 1⟩, .visit ⟨0, 0⟩, .reset,
    .isVisited ⟨0, 0⟩] = .ok ([true, false, true, false, true, false, false], vm) := by
  obtain ⟨vm, h, _⟩ := c51_visit_map_partial ⟨3, 2, false, true⟩ [.visit ⟨2, 1⟩, .visit ⟨2, 1⟩, .unvisit ⟨2, 1⟩,
    .isVisited ⟨2, 1⟩, .visit ⟨0, 0⟩, .reset, .isVisited ⟨0, 0⟩] (by simp [VisOp.On, Grid.Node])
    (by simp [NoIdle, VisOp.Idle, VisOp.spec])
  exact ⟨vm, h⟩

/-! ### Further instances -/
example : NodeIx.distance exCfg ⟨7, 250⟩ 30 2 = .ok 271 :=
  c50_formula exCfg (a := ⟨7, 250⟩) (b := ⟨30, 2⟩) (by decide) (by decide) (by decide) (by decide)
example : taxi ⟨0, 1⟩ ⟨2, 0⟩ ≤ taxi ⟨0, 1⟩ ⟨5, 5⟩ + taxi ⟨5, 5⟩ ⟨2, 0⟩ := (c50_metric _ _ _).2.2
example : taxi ⟨1, 1⟩ ⟨2, 0⟩ = taxi ⟨0, 1⟩ ⟨2, 0⟩ + 1 ∨ taxi ⟨0, 1⟩ ⟨2, 0⟩ = taxi ⟨1, 1⟩ ⟨2, 0⟩ + 1 :=
  c50_edge (s := exPlainR.grid 3 2) rfl rfl (by decide) (by decide)
example : ∃ (g : G Nat Nat) (c : Contents NodeIx Axis Nat Nat), Built exCfg 3 2 g c ∧
    (∃ d, NodeIx.distance exCfg ⟨0, 1⟩ 2 0 = .ok d ∧ Walk g ⟨0, 1⟩ d ⟨2, 0⟩) ∧
    Walk g ⟨0, 1⟩ 1 ⟨2, 1⟩ ∧ NodeIx.distance exCfg ⟨0, 1⟩ 2 1 = .ok 2 := by
  obtain ⟨g, c, hb, _⟩ := exGraph exCfg (by decide)
  have hf : exCfg.Fits 3 2 := ⟨by decide, by decide⟩
  obtain ⟨h1, h2, -⟩ := c50_looped_wrong hb hf rfl (by decide) (j := 1) (by decide)
  exact ⟨g, c, hb, c50_walk hb hf (a := ⟨0, 1⟩) (b := ⟨2, 0⟩) (by decide) (by decide), h1, h2⟩
example : ∃ bs vm, runVis (Vis.new 3 2) [.visit ⟨2, 1⟩, .unvisit ⟨2, 1⟩, .visit ⟨0, 1⟩] = .ok (bs, vm) ∧
    vm.isVisited ⟨0, 1⟩ = .ok true ∧ vm.isVisited ⟨2, 1⟩ = .ok false ∧ ∃ vm', vm.unvisit ⟨2, 1⟩ = .ok (true, vm') := by
  have ho : ∀ o ∈ [VisOp.visit ⟨2, 1⟩, .unvisit ⟨2, 1⟩, .visit ⟨0, 1⟩], o.On ⟨3, 2, false, true⟩ := by simp [VisOp.On, Grid.Node]
  obtain ⟨bs, vm, h1, h2⟩ := c51_contents ⟨3, 2, false, true⟩ _ ho
  obtain ⟨h3, h4⟩ := c51_unvisit_wrong ⟨3, 2, false, true⟩ _ ho (n := ⟨2, 1⟩) (by decide) rfl h1
  exact ⟨bs, vm, h1, h2 ⟨0, 1⟩ (by decide), h3, h4⟩

end
end LG.Sq
