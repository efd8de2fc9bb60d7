import Verif.Model.Format
import Verif.Props.ZeroSized
import Verif.Props.Custom
/- C100: the derived `Debug` of `LatticeGraph`. -/
set_option linter.unusedSectionVars false
namespace LG
section
variable {C A D N E σ α : Type} [DecidableEq C] [DecidableEq A] [DecidableEq D]
variable {g : Graph C A D N E} {s : Shape C A D} {L : Lat C A D} {rep : C → Prop} {k : Contents C A N E}

/-- The cell in column `x`, row `y` of a `w × h` map is written: all cells with `{:#?}` or if there are less than 500, otherwise the
five first and the five last of every side longer than eleven. -/
def Shown (alt : Bool) (w h x y : Nat) : Prop :=
  alt = true ∨ w * h < 500 ∨ (w ≤ 11 ∨ x < 5 ∨ w ≤ x + 5) ∧ (h ≤ 11 ∨ y < 5 ∨ h ≤ y + 5)

instance (alt : Bool) (w h x y : Nat) : Decidable (Shown alt w h x y) := by unfold Shown; exact inferInstance

/-- The cells written, column by column. -/
def shownNodes (L : Lat C A D) (alt : Bool) : List C :=
  (List.range L.width).flatMap fun x => ((List.range L.height).filter fun y => decide (Shown alt L.width L.height x y)).map (L.coord x)

theorem mem_shownNodes {alt : Bool} {c : C} : c ∈ shownNodes L alt ↔
    ∃ x y, x < L.width ∧ y < L.height ∧ Shown alt L.width L.height x y ∧ c = L.coord x y := by
  simp only [shownNodes, List.mem_flatMap, List.mem_range, List.mem_map, List.mem_filter, decide_eq_true_eq]
  constructor
  · rintro ⟨x, hx, y, ⟨hy, h⟩, rfl⟩
    exact ⟨x, y, hx, hy, h, rfl⟩
  · rintro ⟨x, y, hx, hy, h, rfl⟩
    exact ⟨x, hx, y, ⟨hy, h⟩, rfl⟩

/-- Along one side. -/
def ShownSide (alt : Bool) (nelem len i : Nat) : Prop := alt = true ∨ nelem < 500 ∨ len ≤ 11 ∨ i < 5 ∨ len ≤ i + 5

instance (alt : Bool) (n l i : Nat) : Decidable (ShownSide alt n l i) := by unfold ShownSide; exact inferInstance

theorem shownAlong_eq (alt : Bool) (nelem len : Nat) :
    shownAlong (axisLimit alt nelem) len = (List.range len).filter fun i => decide (ShownSide alt nelem len i) := by
  have all : (∀ i, i < len → ShownSide alt nelem len i) → List.range len =
      (List.range len).filter fun i => decide (ShownSide alt nelem len i) := fun h => by
    rw [List.filter_eq_self.2]
    intro i hi
    exact decide_eq_true (h i (List.mem_range.1 hi))
  unfold axisLimit
  by_cases h1 : (alt || decide (nelem < 500)) = true
  · rw [if_pos h1]
    refine all fun i _ => ?_
    rw [Bool.or_eq_true, decide_eq_true_eq] at h1
    exact h1.elim .inl fun h => .inr (.inl h)
  · rw [if_neg h1]
    unfold shownAlong
    simp only
    split
    · exact all fun i _ => .inr (.inr (.inl (by assumption)))
    · rename_i h2
      obtain ⟨d, rfl⟩ : ∃ d, len = 5 + (d + 5) := ⟨len - 10, by omega⟩
      have h3 : ¬ (alt = true ∨ nelem < 500) := by
        rw [Bool.or_eq_true, decide_eq_true_eq] at h1
        exact h1
      have e1 : (List.range 5).filter (fun i => decide (ShownSide alt nelem (5 + (d + 5)) i)) = List.range 5 :=
        List.filter_eq_self.2 fun i hi => decide_eq_true (by have := List.mem_range.1 hi; unfold ShownSide; omega)
      have e2 : (List.range' 5 d).filter (fun i => decide (ShownSide alt nelem (5 + (d + 5)) i)) = [] :=
        List.filter_eq_nil_iff.2 fun i hi => by
          have := List.mem_range'_1.1 hi
          rw [decide_eq_true_eq]
          rintro (h | h | h)
          · exact h3 (.inl h)
          · exact h3 (.inr h)
          · omega
      have e3 : (List.range' (5 + d) 5).filter (fun i => decide (ShownSide alt nelem (5 + (d + 5)) i)) = List.range' (5 + d) 5 :=
        List.filter_eq_self.2 fun i hi => decide_eq_true (by have := List.mem_range'_1.1 hi; unfold ShownSide; omega)
      have e4 : List.range (5 + (d + 5)) = List.range 5 ++ (List.range' 5 d ++ List.range' (5 + d) 5) := by
        simp only [List.range_eq_range', ← List.range'_append_1, Nat.zero_add]
      rw [e4, List.filter_append, List.filter_append, e1, e2, e3, List.nil_append]
      rw [show 5 + (d + 5) - 11 / 2 = 5 + d by omega]

theorem flatMap_filter {β : Type} (p : α → Bool) (f : α → List β) : ∀ l : List α,
    (l.filter p).flatMap f = l.flatMap fun x => if p x then f x else []
  | [] => rfl
  | x :: l => by
    rw [List.filter_cons, List.flatMap_cons]
    split <;> simp [flatMap_filter p f l, *]

theorem shownNodes_eq (alt : Bool) : shownNodes L alt =
    (shownAlong (axisLimit alt (L.width * L.height)) L.width).flatMap fun x =>
      (shownAlong (axisLimit alt (L.width * L.height)) L.height).map (L.coord x) := by
  rw [shownAlong_eq, shownAlong_eq, flatMap_filter]
  unfold shownNodes
  congr 1
  funext x
  by_cases hx : ShownSide alt (L.width * L.height) L.width x
  · simp only [decide_eq_true hx, if_true]
    congr 2
    funext y
    rw [decide_eq_decide]
    unfold ShownSide at hx ⊢
    unfold Shown
    constructor
    · rintro (h | h | h)
      · exact .inl h
      · exact .inr (.inl h)
      · exact .inr (.inr h.2)
    · rintro (h | h | h)
      · exact .inl h
      · exact .inr (.inl h)
      · rcases hx with h' | h' | h'
        · exact .inl h'
        · exact .inr (.inl h')
        · exact .inr (.inr ⟨h', h⟩)
  · simp only [decide_eq_false hx, Bool.false_eq_true, if_false]
    rw [List.filter_eq_nil_iff.2, List.map_nil]
    intro y _
    rw [decide_eq_true_eq]
    intro h
    apply hx
    unfold Shown at h
    unfold ShownSide
    rcases h with h | h | h
    · exact .inl h
    · exact .inr (.inl h)
    · exact .inr (.inr h.1)

open Classical in
theorem debugRow_eq {a : Arr2 α} {f : C → Option α} (h : ArrInv L a f) {i : Nat} (hi : i < L.width) : ∀ js : List Nat,
    (∀ j ∈ js, j < L.height) → debugRow a i js =
      if none ∈ (js.map (L.coord i)).map f then .error .ub else .ok ((js.map (L.coord i)).filterMap f)
  | [], _ => rfl
  | j :: js, hj => by
    have h1 := h.slot hi (hj j List.mem_cons_self)
    have h2 := debugRow_eq h hi js fun j' hj' => hj j' (List.mem_cons_of_mem _ hj')
    unfold debugRow
    rw [h2]
    unfold Arr2.read
    rw [h.cols, h1]
    cases h3 : f (L.coord i j) with
    | none => simp [h3, bind, Except.bind]
    | some x =>
      simp only [List.map_cons, h3, List.mem_cons, bind, Except.bind]
      by_cases h4 : none ∈ (js.map (L.coord i)).map f
      · rw [if_pos h4, if_pos (.inr h4)]
      · rw [if_neg h4, if_neg (by rintro (h | h); cases h; exact h4 h), List.filterMap_cons, h3]

open Classical in
theorem debugRows_eq {a : Arr2 α} {f : C → Option α} (h : ArrInv L a f) {js : List Nat} (hj : ∀ j ∈ js, j < L.height) : ∀ is : List Nat,
    (∀ i ∈ is, i < L.width) → debugRows a js is =
      if none ∈ (is.flatMap fun i => js.map (L.coord i)).map f then .error .ub
      else .ok ((is.flatMap fun i => js.map (L.coord i)).filterMap f)
  | [], _ => rfl
  | i :: is, hi => by
    have h2 := debugRows_eq h hj is fun i' hi' => hi i' (List.mem_cons_of_mem _ hi')
    unfold debugRows
    rw [h2, debugRow_eq h (hi i List.mem_cons_self) js hj, List.flatMap_cons, List.map_append, List.filterMap_append]
    by_cases h3 : none ∈ (js.map (L.coord i)).map f
    · rw [if_pos h3, if_pos (List.mem_append.2 (.inl h3))]; rfl
    · rw [if_neg h3]
      by_cases h4 : none ∈ (is.flatMap fun i => js.map (L.coord i)).map f
      · rw [if_pos h4, if_pos (List.mem_append.2 (.inr h4))]; rfl
      · rw [if_neg h4, if_neg (fun h => (List.mem_append.1 h).elim h3 h4)]; rfl

open Classical in
theorem debug_eq {a : Arr2 α} {f : C → Option α} (h : ArrInv L a f) (alt : Bool) : a.debug alt =
    if none ∈ (shownNodes L alt).map f then .error .ub else .ok ((shownNodes L alt).filterMap f) := by
  have lt : ∀ n len, ∀ i ∈ shownAlong (axisLimit alt n) len, i < len := fun n len i hi => by
    rw [shownAlong_eq] at hi
    exact List.mem_range.1 (List.mem_filter.1 hi).1
  unfold Arr2.debug
  rw [h.rows, h.cols, debugRows_eq h (lt _ _) _ (lt _ _), shownNodes_eq]

open Classical in
theorem debugArrs_eq {f : C → A → Option E} (alt : Bool) : ∀ (es : List (Arr2 E)) (as : List A), EdgesInv L f es as →
    debugArrs alt es = if ∃ a ∈ as, none ∈ (shownNodes L alt).map (f · a) then .error .ub
      else .ok (as.map fun a => (shownNodes L alt).filterMap (f · a))
  | [], [], _ => by simp [debugArrs]
  | [], _ :: _, h => h.elim
  | _ :: _, [], h => h.elim
  | arr :: es, a :: as, hinv => by
    have ih := debugArrs_eq alt es as hinv.2
    unfold debugArrs
    rw [ih, debug_eq hinv.1 alt]
    by_cases h1 : none ∈ (shownNodes L alt).map (f · a)
    · rw [if_pos h1, if_pos (c := ∃ b ∈ a :: as, none ∈ (shownNodes L alt).map (f · b)) ⟨a, List.mem_cons_self, h1⟩]; rfl
    · rw [if_neg h1]
      by_cases h2 : ∃ a ∈ as, none ∈ (shownNodes L alt).map (f · a)
      · obtain ⟨b, h3, h4⟩ := h2
        rw [if_pos ⟨b, h3, h4⟩, if_pos ⟨b, List.mem_cons_of_mem _ h3, h4⟩]; rfl
      · rw [if_neg h2, if_neg]
        · rfl
        · rintro ⟨b, h3, h4⟩
          rcases List.mem_cons.1 h3 with rfl | h3
          · exact h1 h4
          · exact h2 ⟨b, h3, h4⟩

theorem shownNodes_node {alt : Bool} {c : C} (h : c ∈ shownNodes L alt) : L.Node c := by
  obtain ⟨x, y, hx, hy, -, e⟩ := mem_shownNodes.1 h
  exact ⟨x, y, hx, hy, e⟩

/-- **C100**, what remains true, and exactly what happens: formatting a graph writes the weights of the shown nodes, then for each axis
those of the edges of the shown nodes, if all these edges exist, and is undefined behaviour if one does not. Missing: absent edges. -/
theorem c100_debug_partial (hs : Storable s L rep) (hb : Built s L g k) (alt : Bool) :
    g.nodes.debug alt = .ok ((shownNodes L alt).filterMap k.node) ∧
    (∀ c ∈ shownNodes L alt, (k.node c).isSome) ∧
    ((∀ c ∈ shownNodes L alt, ∀ a, L.HasEdge c a) →
      g.debug alt = .ok ((shownNodes L alt).filterMap k.node, L.axes.map fun a => (shownNodes L alt).filterMap (k.edge · a))) ∧
    ((∃ c ∈ shownNodes L alt, ∃ a, ¬ L.HasEdge c a) → g.debug alt = .error .ub) := by
  have hg := hs.good hb
  have hsome : ∀ c ∈ shownNodes L alt, (k.node c).isSome := fun c hc => by
    obtain ⟨w, hw⟩ := hg.total.node_some (shownNodes_node hc)
    rw [hw]; rfl
  have h1 : g.nodes.debug alt = .ok ((shownNodes L alt).filterMap k.node) := by
    rw [debug_eq hg.inv.nodes alt, if_neg]
    intro hm
    obtain ⟨c, hc, e⟩ := List.mem_map.1 hm
    have := hsome c hc
    rw [e] at this
    cases this
  refine ⟨h1, hsome, fun hall => ?_, fun hex => ?_⟩
  · unfold Graph.debug
    rw [h1, debugArrs_eq alt _ _ hg.inv.edges, if_neg]
    · rfl
    · rintro ⟨a, -, hm⟩
      obtain ⟨c, hc, e⟩ := List.mem_map.1 hm
      obtain ⟨w, hw⟩ := hg.total.edge_some (hall c hc a)
      rw [hw] at e
      cases e
  · obtain ⟨c, hc, a, ha⟩ := hex
    unfold Graph.debug
    rw [h1, debugArrs_eq alt _ _ hg.inv.edges, if_pos ⟨a, hs.base.dir.axes_mem a, List.mem_map.2 ⟨c, hc, hg.total.edge_none ha⟩⟩]
    rfl

/-- Corners are always shown. -/
theorem shown_corner {alt : Bool} {c : C} (h : L.Corner c) : c ∈ shownNodes L alt := by
  obtain ⟨x, y, hx, hy, h1, h2, e⟩ := h
  refine mem_shownNodes.2 ⟨x, y, hx, hy, .inr (.inr ⟨?_, ?_⟩), e⟩ <;> omega

/-- **C100** fails: on every nonempty graph of every shape of the crate `{:?}` and `{:#?}` read the uninitialised slot of an absent
edge. -/
theorem c100_debug_ub (hs : Stored s L rep) (hb : Built s L g k) (hw : 0 < L.width) (hh : 0 < L.height) (alt : Bool) :
    g.debug alt = .error .ub := by
  obtain ⟨c, a, hc, ha⟩ := hs.corner hw hh
  exact (c100_debug_partial hs.storable hb alt).2.2.2 ⟨c, shown_corner hc, a, ha⟩

/-- **C100** for a zero-sized edge type: nothing is read that is not there. -/
theorem c100_zero_sized [Subsingleton E] (hs : Storable s L rep) (hb : Built s L g k) (u : E) (alt : Bool) :
    (g.zst u).debug alt = .ok ((shownNodes L alt).filterMap k.node, L.axes.map fun _ => (shownNodes L alt).map fun _ => u) := by
  have hg := hs.good hb
  have he : ∀ (es : List (Arr2 E)) (as : List A), EdgesInv L k.edge es as →
      EdgesInv L (fun c a => some ((k.edge c a).getD u)) (es.map (·.zst u)) as := by
    intro es
    induction es with
    | nil => intro as h; cases as with | nil => trivial | cons => exact h.elim
    | cons e es ih =>
      intro as h
      cases as with
      | nil => exact h.elim
      | cons a as =>
        refine ⟨⟨h.1.rows, h.1.cols, ?_, fun {x y} hx hy => ?_⟩, ih as h.2⟩
        · show (List.map _ _).length = _
          rw [List.length_map, h.1.len]
        · show (List.map _ _)[_]? = _
          rw [List.getElem?_map, h.1.slot hx hy]
          rfl
  have h1 : (g.zst u).nodes.debug alt = .ok ((shownNodes L alt).filterMap k.node) := (c100_debug_partial hs hb alt).1
  have h2 : debugArrs alt (g.zst u).edges = _ := debugArrs_eq alt _ _ (he _ _ hg.inv.edges)
  unfold Graph.debug
  rw [h1, h2, if_neg]
  · show Except.ok _ = Except.ok _
    congr 2
    apply List.map_congr_left
    intro a _
    rw [← List.filterMap_eq_map']
    congr 1
    funext c
    exact congrArg some (Subsingleton.elim _ _)
  · rintro ⟨a, -, hm⟩
    obtain ⟨c, -, e⟩ := List.mem_map.1 hm
    cases e

/-- The hypotheses are met: formatting the 3 × 2 square graph is undefined behaviour, though its node array alone is fine. -/
example : ∃ g : Graph Offset SquareAxis DSquareAxis Nat Nat, g.nodes.debug false = .ok [0, 1, 10, 11, 20, 21] ∧
    g.debug false = .error .ub ∧ g.debug true = .error .ub := by
  obtain ⟨g, hb⟩ := exSquare
  have hs : Stored (squareShape m64 3 2) _ _ := .single (.sound (.square m64 3 2))
  exact ⟨g, (c100_debug_partial hs.storable hb false).1, c100_debug_ub hs hb (by decide) (by decide) false,
    c100_debug_ub hs hb (by decide) (by decide) true⟩

/-- On the 2 × 3 torus of Custom.lean every edge exists and all weights are written. -/
example : ∃ g : Graph Offset TorusAxis (Direction TorusAxis) Nat Nat,
    newWith (torusShape m64 2 3) (fun u c => (c.horizontal, u)) (fun u c _ => (c.vertical, u)) () = .ok (g, ()) ∧
    g.debug false = .ok ([0, 0, 0, 1, 1, 1], [[0, 1, 2, 0, 1, 2], [0, 1, 2, 0, 1, 2]]) := by
  have hs := c75_torus m64 2 3
  obtain ⟨g, hg⟩ := c01_new_with hs (by decide) (fun (u : Unit) c => (c.horizontal, u)) (fun u c _ => (c.vertical, u)) ()
  exact ⟨g, hg, (c100_debug_partial hs.storable (Built.new (L := torusLat 2 3) hg) false).2.2.1 fun c hc a =>
    ⟨shownNodes_node hc, by cases a <;> rfl⟩⟩

set_option maxRecDepth 20000 in
/-- Of a 30 × 20 map `{:?}` writes the 100 outer cells `{0-4, 25-29} × {0-4, 15-19}`, `{:#?}` all 600. -/
example : (shownNodes (squareLat 30 20) false).length = 100 ∧ (shownNodes (squareLat 30 20) true).length = 600 ∧
    (⟨4, 15⟩ : Offset) ∈ shownNodes (squareLat 30 20) false ∧ (⟨5, 15⟩ : Offset) ∉ shownNodes (squareLat 30 20) false :=
  ⟨rfl, rfl, mem_shownNodes.2 ⟨4, 15, by decide, by decide, by decide, rfl⟩, by
    rw [mem_shownNodes]
    rintro ⟨x, y, -, -, h, e⟩
    cases e
    exact absurd h (by decide)⟩

/-- With `()` on the edges the 3 × 2 square graph can be formatted. -/
example : ∃ g : Graph Offset SquareAxis DSquareAxis Nat Unit, newWithZ (squareShape m64 3 2) () exN (fun st _ _ => ((), st)) () = .ok (g, ()) ∧
    g.debug false = .ok ([0, 1, 10, 11, 20, 21], [[(), (), (), (), (), ()], [(), (), (), (), (), ()]]) :=
  ⟨_, rfl, rfl⟩

example : ∃ g : Graph Offset SquareAxis DSquareAxis Nat Unit,
    (g.zst ()).debug true = .ok ([0, 1, 10, 11, 20, 21], [[(), (), (), (), (), ()], [(), (), (), (), (), ()]]) := by
  obtain ⟨g, hb⟩ := (Lawful.square m64 3 2).exists_built (by decide) exN (fun st _ _ => ((), st)) ()
  exact ⟨g, c100_zero_sized (.sound (.square m64 3 2)) hb () true⟩

end
end LG
