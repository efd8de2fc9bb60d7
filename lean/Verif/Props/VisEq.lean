import Verif.Props.History
import Verif.Props.Ex
/- C95: equality of visit maps. -/
set_option linter.unusedSectionVars false
namespace LG
section
variable {C A D : Type} [DecidableEq C] [DecidableEq A] [DecidableEq D]
variable {s : Shape C A D} {L : Lat C A D} {rep : C → Prop}

theorem VisInv.get {vm : VisMap C A D} {S : C → Bool} (hv : VisInv s L vm S) {x : Nat} (hx : x < L.width) :
    vm.v[x]? = some ((List.range L.height).map fun y => S (L.coord x y)) := by
  have hx' : x < vm.v.length := by rw [hv.cols]; exact hx
  rw [List.getElem?_eq_getElem hx']
  congr 1
  apply List.ext_getElem
  · rw [hv.col x hx', List.length_map, List.length_range]
  · intro y h1 h2
    rw [hv.bit x y hx' h1, List.getElem_map, List.getElem_range]

/-- The bits of two maps agree exactly when the sets they stand for agree on the nodes. -/
theorem VisInv.bits_eq {vm vm' : VisMap C A D} {S S' : C → Bool} (hv : VisInv s L vm S) (hv' : VisInv s L vm' S') :
    vm.v = vm'.v ↔ ∀ c, L.Node c → S c = S' c := by
  constructor
  · rintro he c ⟨x, y, hx, hy, rfl⟩
    have h1 := hv.get hx
    rw [he, hv'.get hx] at h1
    have h2 := congrArg (fun l : List Bool => l[y]?) (Option.some.inj h1)
    simp only [List.getElem?_map, List.getElem?_range hy, Option.map_some, Option.some.injEq] at h2
    exact h2.symm
  · intro h
    apply List.ext_getElem?
    intro x
    by_cases hx : x < L.width
    · rw [hv.get hx, hv'.get hx]
      congr 1
      apply List.map_congr_left
      intro y hy
      exact h _ ⟨x, y, hx, List.mem_range.mp hy, rfl⟩
    · rw [List.getElem?_eq_none (by rw [hv.cols]; omega), List.getElem?_eq_none (by rw [hv'.cols]; omega)]

/-- **C95.** Two visit maps of a graph, after any two sequences of calls, compare equal exactly when the sets of nodes that
the calls describe are the same. -/
theorem c95_visit_map_eq (hs : Storable s L rep) (hc : Constructible s) {seq : Shape C A D → Shape C A D → Bool}
    (hq : seq s s = true) (ops ops' : List (VOp C)) (hok : ∀ op ∈ ops, VOpOk L rep op) (hok' : ∀ op ∈ ops', VOpOk L rep op) :
    ∃ outs vm outs' vm', vexecRun (VisMap.new s) ops = .ok (outs, vm) ∧ vexecRun (VisMap.new s) ops' = .ok (outs', vm') ∧
      (vm.eq seq vm' = true ↔
        ∀ c, L.Node c → (vspecRun L (fun _ => false) ops).2 c = (vspecRun L (fun _ => false) ops').2 c) := by
  obtain ⟨outs, vm, h1, _, h3, _⟩ := vexecRun_base (hs.impl hc) hs.base ops (.newBase (hs.impl hc)) hok
  obtain ⟨outs', vm', h1', _, h3', _⟩ := vexecRun_base (hs.impl hc) hs.base ops' (.newBase (hs.impl hc)) hok'
  refine ⟨outs, vm, outs', vm', h1, h1', ?_⟩
  rw [← h3.bits_eq h3', VisMap.eq, h3.shape, h3'.shape, hq, Bool.and_true, beq_iff_eq]

/-- **C95.** So a map with which nothing is visited any more compares equal to a fresh one, however it was used. -/
theorem c95_emptied (hs : Storable s L rep) (hc : Constructible s) {seq : Shape C A D → Shape C A D → Bool}
    (hq : seq s s = true) (ops : List (VOp C)) (hok : ∀ op ∈ ops, VOpOk L rep op) :
    ∃ outs vm, vexecRun (VisMap.new s) ops = .ok (outs, vm) ∧
      (vm.eq seq (VisMap.new s) = true ↔ ∀ c, L.Node c → vm.isVisited c = .ok false) := by
  obtain ⟨outs, vm, h1, _, h3, _⟩ := vexecRun_base (hs.impl hc) hs.base ops (.newBase (hs.impl hc)) hok
  refine ⟨outs, vm, h1, ?_⟩
  have h0 : VisInv s L (VisMap.new s) (fun _ => false) := .newBase (hs.impl hc)
  have hb := h3.bits_eq h0
  rw [VisMap.eq, h3.shape, show (VisMap.new s).s = s from rfl, hq, Bool.and_true, beq_iff_eq, hb]
  have hi : ∀ c, L.Node c → vm.isVisited c = .ok ((vspecRun L (fun _ => false) ops).2 c) := by
    intro c hn
    obtain ⟨o, vm', h4, _, h6⟩ := vexec_base (hs.impl hc) hs.base h3 (op := .isVisited c) (.inl hn)
    simp only [vexec, bind, Except.bind] at h4
    cases h : vm.isVisited c with
    | error e => rw [h] at h4; cases h4
    | ok b =>
      rw [h] at h4
      simp only [Except.ok.injEq, Prod.mk.injEq] at h4
      rw [h4.1, h6]
      rfl
  constructor
  · intro h c hn; rw [hi c hn, h c hn]
  · intro h c hn
    have := h c hn
    rw [hi c hn] at this
    exact Except.ok.inj this

/-- Visiting in another order, twice, or with a detour gives an equal map; one node more does not. -/
example : ∃ outs vm outs' vm', vexecRun (VisMap.new (squareShape m64 3 2)) [.visit ⟨1, 0⟩, .visit ⟨2, 1⟩] = .ok (outs, vm) ∧
    vexecRun (VisMap.new (squareShape m64 3 2)) [.visit ⟨2, 1⟩, .visit ⟨0, 0⟩, .visit ⟨1, 0⟩, .unvisit ⟨0, 0⟩,
      .visit ⟨2, 1⟩, .visit ⟨9, 9⟩] = .ok (outs', vm') ∧ vm.eq (fun _ _ => true) vm' = true ∧
    vm.eq (fun _ _ => true) (VisMap.new (squareShape m64 3 2)) = false := ⟨_, _, _, _, rfl, rfl, rfl, rfl⟩
example : ∃ outs vm outs' vm', vexecRun (VisMap.new (squareShape m64 3 2)) [.visit ⟨1, 0⟩] = .ok (outs, vm) ∧
    vexecRun (VisMap.new (squareShape m64 3 2)) [.visit ⟨1, 1⟩] = .ok (outs', vm') ∧
      (vm.eq (fun _ _ => true) vm' = true ↔ ∀ c, (squareLat 3 2).Node c →
        (vspecRun (squareLat 3 2) (fun _ => false) [.visit ⟨1, 0⟩]).2 c =
          (vspecRun (squareLat 3 2) (fun _ => false) [.visit ⟨1, 1⟩]).2 c) :=
  c95_visit_map_eq (Lawful.square m64 3 2).storable (by decide) rfl _ _ (by simp [VOpOk]) (by simp [VOpOk])

example : ∃ outs vm, vexecRun (VisMap.new (squareShape m64 3 2)) [.visit ⟨1, 0⟩, .unvisit ⟨1, 0⟩] = .ok (outs, vm) ∧
    (vm.eq (fun _ _ => true) (VisMap.new (squareShape m64 3 2)) = true ↔ ∀ c, (squareLat 3 2).Node c → vm.isVisited c = .ok false) :=
  c95_emptied (Lawful.square m64 3 2).storable (by decide) rfl _ (by simp [VOpOk])

end
end LG
