import Verif.Lemmas.Components
import Verif.Props.Floyd
import Verif.Props.EdgeCount
/- C85: `connected_components` and `is_cyclic_undirected`. -/
set_option linter.unusedSectionVars false
namespace LG
section
variable {C A D N E : Type} [DecidableEq C] [DecidableEq A] [DecidableEq D]
variable {g : Graph C A D N E} {s : Shape C A D} {L : Lat C A D} {rep : C → Prop} {k : Contents C A N E}

/-- `edges(u)` leads to `t`. -/
def LeadsTo (g : Graph C A D N E) (u t : C) : Prop := ∃ r, EdgeOf g u r ∧ r.target = t

/-- One of these references, taken as an edge. -/
def RefIn (l : List (EdgeRef C D E)) (u t : C) : Prop := ∃ r ∈ l, r.source = u ∧ r.target = t

/-- Some edge of `edge_references()` joins what the others join without it. -/
def EdgeCycle (g : Graph C A D N E) : Prop :=
  ∃ l1 r l2, Yields (edgeRefsNext g) edgeRefsInit (l1 ++ r :: l2) ∧ Joined (RefIn (l1 ++ l2)) r.source r.target

/-- The pairs of indices. -/
def idxPairs (g : Graph C A D N E) (l : List (EdgeRef C D E)) : List (Nat × Nat) :=
  l.map fun r => (nodeIdx g r.source, nodeIdx g r.target)

theorem edgeIn_pairs {l : List (EdgeRef C D E)} {i j : Nat} :
    EdgeIn (idxPairs g l) i j ↔ ∃ r ∈ l, nodeIdx g r.source = i ∧ nodeIdx g r.target = j := by
  unfold EdgeIn idxPairs
  simp only [List.mem_map, Prod.mk.injEq]

/-- Joined by index is joined as nodes, for references between nodes. -/
theorem joined_idx (hs : Lawful s L rep) (hb : Built s L g k) {l : List (EdgeRef C D E)}
    (hl : ∀ r ∈ l, L.Node r.source ∧ L.Node r.target) {a b : C} (ha : L.Node a) (hb' : L.Node b) :
    Joined (EdgeIn (idxPairs g l)) (nodeIdx g a) (nodeIdx g b) ↔ Joined (RefIn l) a b := by
  constructor
  · intro h
    have key : ∀ {i j}, Joined (EdgeIn (idxPairs g l)) i j →
        i = j ∨ ∃ a b, L.Node a ∧ L.Node b ∧ nodeIdx g a = i ∧ nodeIdx g b = j ∧ Joined (RefIn l) a b := by
      intro i j h
      induction h with
      | refl => exact .inl rfl
      | edge e =>
        obtain ⟨r, hr, rfl, rfl⟩ := edgeIn_pairs.1 e
        exact .inr ⟨_, _, (hl r hr).1, (hl r hr).2, rfl, rfl, .edge ⟨r, hr, rfl, rfl⟩⟩
      | symm _ ih =>
        rcases ih with rfl | ⟨a, b, h1, h2, h3, h4, h5⟩
        · exact .inl rfl
        · exact .inr ⟨b, a, h2, h1, h4, h3, h5.symm⟩
      | trans _ _ ih1 ih2 =>
        rcases ih1 with rfl | ⟨a, b, h1, h2, h3, h4, h5⟩
        · exact ih2
        · rcases ih2 with rfl | ⟨a', b', g1, g2, g3, g4, g5⟩
          · exact .inr ⟨a, b, h1, h2, h3, h4, h5⟩
          · have := nodeIdx_inj hs hb h2 g1 (h4.trans g3.symm)
            subst this
            exact .inr ⟨a, b', h1, g2, h3, g4, h5.trans g5⟩
    rcases key h with h | ⟨a', b', h1, h2, h3, h4, h5⟩
    · rw [nodeIdx_inj hs hb ha hb' h]; exact .refl
    · rw [← nodeIdx_inj hs hb h1 ha h3, ← nodeIdx_inj hs hb h2 hb' h4]; exact h5
  · intro h
    clear ha hb'
    induction h with
    | refl => exact .refl
    | edge e =>
      obtain ⟨r, hr, rfl, rfl⟩ := e
      exact .edge (edgeIn_pairs.2 ⟨r, hr, rfl, rfl⟩)
    | symm _ ih => exact ih.symm
    | trans _ _ ih1 ih2 => exact ih1.trans ih2

/-- The references of `edge_references` join nodes as `edges` does. -/
theorem joined_refs (hs : Lawful s L rep) (hb : Built s L g k) {a b : C} :
    Joined (RefIn (allEdges L k)) a b ↔ Joined (fun u t => L.Node u ∧ LeadsTo g u t) a b := by
  constructor
  · refine Joined.mono fun u t h => ?_
    obtain ⟨r, hr, rfl, rfl⟩ := h
    have hn := (allEdges_nodes hs hr).1
    exact ⟨hn, r, (edgeOf_iff hs hb hn).2 (allEdges_out hs hr), rfl⟩
  · intro h
    induction h with
    | refl => exact .refl
    | edge e =>
      obtain ⟨hu, r, h1, rfl⟩ := e
      have ht := Link.node (cost := fun _ => 0) hs hb hu ⟨r, h1, rfl, rfl⟩
      rcases (idxEdge_iff hs hb (fun _ => 0)).2 ⟨_, _, hu, rfl, rfl, r, h1, rfl, rfl⟩ with h | ⟨-, h⟩
      · obtain ⟨r', h2, e⟩ := List.mem_map.1 h
        simp only [Prod.mk.injEq] at e
        obtain ⟨h3, h4⟩ := allEdges_nodes hs h2
        exact .edge ⟨r', h2, nodeIdx_inj hs hb h3 hu e.1, nodeIdx_inj hs hb h4 ht e.2.1⟩
      · obtain ⟨r', h2, e⟩ := List.mem_map.1 h
        simp only [Prod.mk.injEq] at e
        obtain ⟨h3, h4⟩ := allEdges_nodes hs h2
        exact .symm (.edge ⟨r', h2, nodeIdx_inj hs hb h3 ht e.1, nodeIdx_inj hs hb h4 hu e.2.1⟩)
    | symm _ ih => exact ih.symm
    | trans _ _ ih1 ih2 => exact ih1.trans ih2

theorem idxEdges_pairs (cost : E → Nat) : (idxEdges L k g cost).map (fun e => (e.1, e.2.1)) = idxPairs g (allEdges L k) := by
  unfold idxEdges idxPairs
  rw [List.map_map]; rfl

theorem components_iff (hs : Lawful s L rep) (hb : Built s L g k) {r : Nat} :
    Components g r ↔ ccRun (L.width * L.height) (idxPairs g (allEdges L k)) = .ok r := by
  constructor
  · rintro ⟨n, es, h1, h2, h3⟩
    rw [nodeBound_eq hs hb] at h1; cases h1
    rwa [(edgeIndices_iff hs hb _).1 h2, idxEdges_pairs] at h3
  · intro h
    exact ⟨_, _, nodeBound_eq hs hb, (edgeIndices_iff hs hb _).2 rfl, by rw [idxEdges_pairs]; exact h⟩

theorem cyclic_iff (hs : Lawful s L rep) (hb : Built s L g k) {b : Bool} :
    Cyclic g b ↔ cycLoop (L.width * L.height) (idxPairs g (allEdges L k)) id = .ok b := by
  constructor
  · rintro ⟨n, es, h1, h2, h3⟩
    rw [nodeBound_eq hs hb] at h1; cases h1
    rwa [(edgeIndices_iff hs hb _).1 h2, idxEdges_pairs] at h3
  · intro h
    exact ⟨_, _, nodeBound_eq hs hb, (edgeIndices_iff hs hb _).2 rfl, by rw [idxEdges_pairs]; exact h⟩

theorem hasCycle_idx (hs : Lawful s L rep) (hb : Built s L g k) : HasCycle (idxPairs g (allEdges L k)) ↔ EdgeCycle g := by
  have sub : ∀ {l1 l2 : List (EdgeRef C D E)} {r}, l1 ++ r :: l2 = allEdges L k →
      (∀ r' ∈ l1 ++ l2, L.Node r'.source ∧ L.Node r'.target) ∧ L.Node r.source ∧ L.Node r.target := fun {l1 l2 r} e => by
    have hm : ∀ r', r' ∈ l1 ∨ r' = r ∨ r' ∈ l2 → L.Node r'.source ∧ L.Node r'.target := fun r' h =>
      allEdges_nodes (k := k) hs (by rw [← e]; simpa using h)
    refine ⟨fun r' h => hm r' ?_, hm r (.inr (.inl rfl))⟩
    rcases List.mem_append.1 h with h | h
    · exact .inl h
    · exact .inr (.inr h)
  constructor
  · rintro ⟨l1, x, y, l2, h, hj⟩
    obtain ⟨m1, m2, h1, rfl, h2⟩ := List.map_eq_append_iff.1 h
    obtain ⟨r, m3, rfl, h3, rfl⟩ := List.map_eq_cons_iff.1 h2
    cases h3
    obtain ⟨h4, h5, h6⟩ := sub h1.symm
    refine ⟨m1, r, m3, by rw [← h1]; exact c13_edge_references hs hb, (joined_idx hs hb h4 h5 h6).1 ?_⟩
    unfold idxPairs
    rw [List.map_append]; exact hj
  · rintro ⟨l1, r, l2, h, hj⟩
    have e := Yields.unique h (c13_edge_references hs hb)
    obtain ⟨h4, h5, h6⟩ := sub e
    refine ⟨idxPairs g l1, nodeIdx g r.source, nodeIdx g r.target, idxPairs g l2, ?_, ?_⟩
    · rw [← e]; simp [idxPairs]
    · have := (joined_idx hs hb h4 h5 h6).2 hj
      unfold idxPairs at this ⊢
      rwa [List.map_append] at this

theorem pairs_lt (hs : Lawful s L rep) (hb : Built s L g k) :
    ∀ e ∈ idxPairs g (allEdges L k), e.1 < L.width * L.height ∧ e.2 < L.width * L.height := by
  intro e he
  obtain ⟨r, hr, rfl⟩ := List.mem_map.1 he
  obtain ⟨h1, h2⟩ := allEdges_nodes hs hr
  exact ⟨(nodeIdx_spec hs hb h1).2, (nodeIdx_spec hs hb h2).2⟩

/-- **C85.** `connected_components` returns on every graph, and what it returns is the number of components: of nodes joined by
`edges`, whichever way these point. -/
theorem c85_components (hs : Lawful s L rep) (hb : Built s L g k) :
    ∃ r, Components g r ∧ (∀ r', Components g r' → r' = r) ∧ ComponentCount L.Node (fun u t => L.Node u ∧ LeadsTo g u t) r := by
  obtain ⟨r, b, h1, ⟨l, h2, h3, h4, h5⟩, -⟩ := ccRun_spec (pairs_lt hs hb)
  have hnode : ∀ i, i < L.width * L.height → ∃ c, L.Node c ∧ nodeIdx g c = i := fun i hi => by
    obtain ⟨c, -, hc, h⟩ := c04_from_index hs hb hi
    rw [(nodeIdx_spec hs hb hc).1] at h
    exact ⟨c, hc, Except.ok.inj h⟩
  have hlist : ∀ l : List Nat, (∀ i ∈ l, i < L.width * L.height) → ∃ cs : List C, (∀ c ∈ cs, L.Node c) ∧ cs.map (nodeIdx g) = l := by
    intro l
    induction l with
    | nil => exact fun _ => ⟨[], (fun _ h => nomatch h), rfl⟩
    | cons i l ih =>
      intro h
      obtain ⟨c, hc, rfl⟩ := hnode i (h i List.mem_cons_self)
      obtain ⟨cs, h6, h7⟩ := ih fun j hj => h j (List.mem_cons_of_mem _ hj)
      refine ⟨c :: cs, fun x hx => ?_, by rw [List.map_cons, h7]⟩
      rcases List.mem_cons.1 hx with rfl | hx
      · exact hc
      · exact h6 x hx
  obtain ⟨cs, h6, rfl⟩ := hlist l h3
  have hall : ∀ r ∈ allEdges L k, L.Node r.source ∧ L.Node r.target := fun r hr => allEdges_nodes hs hr
  refine ⟨r, (components_iff hs hb).2 h1, fun r' h => ?_, cs, by rw [← h2, List.length_map], h6, ?_, fun x hx => ?_⟩
  · have := (components_iff hs hb).1 h
    rw [h1] at this; exact (Except.ok.inj this).symm
  · refine (List.pairwise_map.1 h4).imp_of_mem fun {x y} hx hy h hj => h ?_
    exact (joined_idx hs hb hall (h6 x hx) (h6 y hy)).2 ((joined_refs hs hb).2 hj)
  · obtain ⟨j, hj, h7⟩ := h5 _ (nodeIdx_spec hs hb hx).2
    obtain ⟨y, hy, rfl⟩ := List.mem_map.1 hj
    exact ⟨y, hy, (joined_refs hs hb).1 ((joined_idx hs hb hall hx (h6 y hy)).1 h7)⟩

theorem CostWalk.joined (hs : Lawful s L rep) (hb : Built s L g k) {cost : EdgeRef C D E → Nat} {a b : C} {n : Nat} (ha : L.Node a)
    (hw : CostWalk g cost a b n) : Joined (fun u t => L.Node u ∧ LeadsTo g u t) a b := by
  induction hw with
  | nil => exact .refl
  | step h1 he ih => exact ih.trans (.edge ⟨h1.node hs hb ha, _, he, rfl⟩)

/-- **C85.** The shapes of the crate are connected: one component, none if there are no nodes. -/
theorem c85_connected (hs : Sound s L rep) (hb : Built s L g k) {r : Nat} (hr : Components g r) :
    r = if s.horizontal * s.vertical = 0 then 0 else 1 := by
  obtain ⟨r', h1, h2, l, h3, h4, h5, h6⟩ := c85_components hs.lawful hb
  rw [h2 r hr, ← h3]
  have hn : L.width * L.height = s.horizontal * s.vertical := by
    have h := nodeBound_eq hs.lawful hb
    rw [c04_node_count hs.lawful hb] at h
    exact (Except.ok.inj h).symm
  rw [← hn]
  match l, h4, h5, h6 with
  | [], _, _, h6 =>
    split
    · rfl
    · rename_i h0
      obtain ⟨c, -, hc, -⟩ := c04_from_index hs.lawful hb (i := 0) (by omega)
      obtain ⟨y, hy, -⟩ := h6 c hc
      cases hy
  | [c], h4, _, _ =>
    have := (nodeIdx_spec hs.lawful hb (h4 c List.mem_cons_self)).2
    rw [if_neg (by omega)]; rfl
  | c :: c' :: l, h4, h5, _ =>
    obtain ⟨n, hw⟩ := costWalk_exists (cost := fun _ => 0) hs hb (h4 c List.mem_cons_self)
      (h4 c' (List.mem_cons_of_mem _ List.mem_cons_self))
    exact absurd (hw.joined hs.lawful hb (h4 c List.mem_cons_self)) ((List.pairwise_cons.1 h5).1 c' List.mem_cons_self)

/-- **C85.** `is_cyclic_undirected` returns on every graph, `true` exactly if some edge of `edge_references` joins what the others join
without it. -/
theorem c85_cyclic (hs : Lawful s L rep) (hb : Built s L g k) :
    ∃ b, Cyclic g b ∧ (∀ b', Cyclic g b' → b' = b) ∧ (b = true ↔ EdgeCycle g) := by
  obtain ⟨r, b, -, -, h1, h2, -⟩ := ccRun_spec (pairs_lt hs hb)
  refine ⟨b, (cyclic_iff hs hb).2 h1, fun b' h => ?_, by rw [h2, hasCycle_idx hs hb]⟩
  have := (cyclic_iff hs hb).1 h
  rw [h1] at this; exact (Except.ok.inj this).symm

/-- **C85.** There is no cycle exactly if edges and components together are as many as the nodes. -/
theorem c85_forest (hs : Lawful s L rep) (hb : Built s L g k) {e r : Nat} {b : Bool} (he : HasEdges g L e) (hr : Components g r)
    (hc : Cyclic g b) : b = false ↔ e + r = s.horizontal * s.vertical := by
  obtain ⟨r', b', h1, -, h2, -, -, h3⟩ := ccRun_spec (pairs_lt hs hb)
  have h4 := (components_iff hs hb).1 hr
  have h5 := (cyclic_iff hs hb).1 hc
  rw [h1] at h4; rw [h2] at h5
  cases h4; cases h5
  obtain ⟨⟨l, h6, h7⟩, -⟩ := he
  have h8 := Yields.unique h6 (c13_edge_references hs hb)
  have hn : L.width * L.height = s.horizontal * s.vertical := by
    have h := nodeBound_eq hs hb
    rw [c04_node_count hs hb] at h
    exact (Except.ok.inj h).symm
  rw [h3, ← hn]
  unfold idxPairs
  rw [List.length_map, ← h8, h7]

theorem cyclic_count (hs : Sound s L rep) (hb : Built s L g k) {e : Nat} {b : Bool} (he : HasEdges g L e)
    (hc : Cyclic g b) (h0 : L.width * L.height ≠ 0) : b = true ↔ e + 1 ≠ L.width * L.height := by
  obtain ⟨r, hr, -⟩ := c85_components hs.lawful hb
  have hn : L.width * L.height = s.horizontal * s.vertical := by
    have h := nodeBound_eq hs.lawful hb
    rw [c04_node_count hs.lawful hb] at h
    exact (Except.ok.inj h).symm
  rw [hn] at h0 ⊢
  have h1 := c85_forest hs.lawful hb he hr hc
  rw [c85_connected hs hb hr, if_neg h0] at h1
  cases b with
  | true => simpa using h1
  | false => simpa using h1

/-- **C85.** A directed graph has both directions of each edge, so `is_cyclic_undirected` is `true` as soon as there is an edge. -/
theorem c85_directed (hs : Lawful s L rep) (hb : Built s L g k) (hd : g.isDirected = true) {e : Nat} {b : Bool} (he : HasEdges g L e)
    (hc : Cyclic g b) : b = true ↔ e ≠ 0 := by
  obtain ⟨b', -, h2, h3⟩ := c85_cyclic hs hb
  cases h2 b hc
  rw [h3]
  obtain ⟨⟨l, h6, h7⟩, -⟩ := he
  have h8 := Yields.unique h6 (c13_edge_references hs hb)
  subst h7
  constructor
  · rintro ⟨l1, r, l2, h, -⟩ e0
    have e1 := congrArg List.length (Yields.unique h h6)
    rw [List.length_append, List.length_cons] at e1
    omega
  · intro h0
    match l, h6, h8, h0 with
    | [], _, _, h0 => exact absurd rfl h0
    | r :: l2, h6, h8, _ =>
      refine ⟨[], r, l2, h6, ?_⟩
      have hg := hb.good hs
      have hr : r ∈ allEdges L k := by rw [← h8]; exact List.mem_cons_self
      obtain ⟨h9, h10, h11, -⟩ := (mem_allEdges hg.laws.dir).1 hr
      have ht := hg.laws.nbr_node h9 h11
      have hback := hg.laws.nbr_opp h9 h11
      rw [Graph.isDirected, hg.impl.axis.directed] at hd
      have hfa : L.fwd (L.ax (L.opp r.direction)) = L.opp r.direction :=
        (hg.laws.dir.fwd_ax _).resolve_right fun h => by rw [h.1] at hd; cases hd
      obtain ⟨w, hw⟩ : ∃ w, k.edge r.target (L.ax (L.opp r.direction)) = some w := by
        refine Option.isSome_iff_exists.1 ((hg.total.edge _ _).2 ⟨ht, ?_⟩)
        rw [hfa, hback]; rfl
      have hr' : (⟨r.target, r.source, w, L.opp r.direction⟩ : EdgeRef C D E) ∈ allEdges L k :=
        (mem_allEdges hg.laws.dir).2 ⟨ht, hfa, hback, hw⟩
      rw [← h8] at hr'
      rcases List.mem_cons.1 hr' with e | hm
      · have : r.target = r.source := congrArg EdgeRef.source e
        rw [this]; exact .refl
      · exact .symm (.edge ⟨_, hm, rfl, rfl⟩)
end

/-! ### Which shapes have cycles -/
section
variable {N E : Type} {rep : Offset → Prop} {repA : Axial → Prop} {w h : Nat} {even flat b : Bool}

theorem square_arith (hw : w ≠ 0) (hh : h ≠ 0) : h * (w - 1) + (h - 1) * w + 1 ≠ w * h ↔ 2 ≤ w ∧ 2 ≤ h := by
  obtain ⟨a, rfl⟩ : ∃ a, w = a + 1 := ⟨w - 1, by omega⟩
  obtain ⟨c, rfl⟩ : ∃ c, h = c + 1 := ⟨h - 1, by omega⟩
  simp only [Nat.add_sub_cancel, Nat.add_mul, Nat.mul_add, Nat.one_mul, Nat.mul_one, Nat.mul_comm c a]
  have := Nat.mul_eq_zero (m := c) (n := a)
  by_cases h0 : a * c = 0
  · have h1 := this.1 h0
    rw [h0]
    constructor <;> intro <;> omega
  · have h1 : a ≠ 0 ∧ c ≠ 0 := ⟨fun e => h0 (this.2 (.inl e)), fun e => h0 (this.2 (.inr e))⟩
    constructor <;> intro <;> omega

theorem diag_arith (hw : w ≠ 0) (hh : h ≠ 0) : h * (w - 1) + (h - 1) * w + 2 * ((h - 1) * (w - 1)) + 1 ≠ w * h ↔ 2 ≤ w ∧ 2 ≤ h := by
  obtain ⟨a, rfl⟩ : ∃ a, w = a + 1 := ⟨w - 1, by omega⟩
  obtain ⟨c, rfl⟩ : ∃ c, h = c + 1 := ⟨h - 1, by omega⟩
  simp only [Nat.add_sub_cancel, Nat.add_mul, Nat.mul_add, Nat.one_mul, Nat.mul_one, Nat.mul_comm c a]
  have := Nat.mul_eq_zero (m := c) (n := a)
  by_cases h0 : a * c = 0
  · have h1 := this.1 h0
    rw [h0]
    constructor <;> intro <;> omega
  · have h1 : a ≠ 0 ∧ c ≠ 0 := ⟨fun e => h0 (this.2 (.inl e)), fun e => h0 (this.2 (.inr e))⟩
    constructor <;> intro <;> omega

theorem hex_arith (hw : w ≠ 0) (hh : h ≠ 0) : hexEdges w h + 1 ≠ w * h ↔ 2 ≤ w ∧ 2 ≤ h := by
  obtain ⟨a, rfl⟩ : ∃ a, w = a + 1 := ⟨w - 1, by omega⟩
  obtain ⟨c, rfl⟩ : ∃ c, h = c + 1 := ⟨h - 1, by omega⟩
  unfold hexEdges
  have e : 2 * (a + 1) - 1 = 2 * a + 1 := by omega
  rw [e]
  simp only [Nat.add_sub_cancel, Nat.add_mul, Nat.mul_add, Nat.one_mul, Nat.mul_one, Nat.mul_comm c a, Nat.mul_comm c (2 * a), Nat.mul_assoc]
  have := Nat.mul_eq_zero (m := c) (n := a)
  by_cases h0 : a * c = 0
  · have h1 := this.1 h0
    rw [h0]
    constructor <;> intro <;> omega
  · have h1 : a ≠ 0 ∧ c ≠ 0 := ⟨fun e => h0 (this.2 (.inl e)), fun e => h0 (this.2 (.inr e))⟩
    constructor <;> intro <;> omega

theorem axial_arith (hw : w ≠ 0) (hh : h ≠ 0) : axEdges flat w h + 1 ≠ w * h ↔ 2 ≤ w ∧ 2 ≤ h := by
  unfold axEdges
  cases flat with
  | false => exact hex_arith hw hh
  | true => rw [if_pos rfl, Nat.mul_comm w h, hex_arith hh hw, and_comm]

/-- **C85.** Square graphs have a cycle exactly if there are two rows and two columns. -/
theorem c85_square {s : Shape Offset SquareAxis DSquareAxis} {g : Graph Offset SquareAxis DSquareAxis N E} {k : Contents Offset SquareAxis N E}
    (hs : Sound s (squareLat w h) rep) (hb : Built s (squareLat w h) g k) (hw : w ≠ 0) (hh : h ≠ 0) (hc : Cyclic g b) :
    b = true ↔ 2 ≤ w ∧ 2 ≤ h :=
  (cyclic_count hs hb (c60_square hs.lawful hb) hc (Nat.mul_ne_zero hw hh)).trans (square_arith hw hh)

/-- **C85.** So have square graphs with diagonals. -/
theorem c85_diag {s : Shape Offset DiagAxis DDiagAxis} {g : Graph Offset DiagAxis DDiagAxis N E} {k : Contents Offset DiagAxis N E}
    (hs : Sound s (diagLat w h) rep) (hb : Built s (diagLat w h) g k) (hw : w ≠ 0) (hh : h ≠ 0) (hc : Cyclic g b) :
    b = true ↔ 2 ≤ w ∧ 2 ≤ h :=
  (cyclic_count hs hb (c60_diag hs.lawful hb) hc (Nat.mul_ne_zero hw hh)).trans (diag_arith hw hh)

/-- **C85.** So have hexagonal graphs with offset coordinates. -/
theorem c85_offset {s : Shape Offset AxisR AxisDR} {g : Graph Offset AxisR AxisDR N E} {k : Contents Offset AxisR N E}
    (hs : Sound s (offLatR even w h) rep) (hb : Built s (offLatR even w h) g k) (hw : w ≠ 0) (hh : h ≠ 0) (hc : Cyclic g b) :
    b = true ↔ 2 ≤ w ∧ 2 ≤ h :=
  (cyclic_count hs hb (c60_offset hs.lawful hb) hc (Nat.mul_ne_zero hw hh)).trans (hex_arith hw hh)

/-- **C85.** So have those with axial coordinates, pointy-top… -/
theorem c85_axial {s : Shape Axial AxisR AxisDR} {g : Graph Axial AxisR AxisDR N E} {k : Contents Axial AxisR N E}
    (hs : Sound s (axLatR even flat w h) repA) (hb : Built s (axLatR even flat w h) g k) (hw : w ≠ 0) (hh : h ≠ 0) (hc : Cyclic g b) :
    b = true ↔ 2 ≤ w ∧ 2 ≤ h :=
  (cyclic_count hs hb (c60_axial hs.lawful hb) hc (Nat.mul_ne_zero hw hh)).trans (axial_arith hw hh)

/-- **C85.** …and flat-top. -/
theorem c85_axial_flat {s : Shape Axial AxisQ AxisDQ} {g : Graph Axial AxisQ AxisDQ N E} {k : Contents Axial AxisQ N E}
    (hs : Sound s (axLatQ even flat w h) repA) (hb : Built s (axLatQ even flat w h) g k) (hw : w ≠ 0) (hh : h ≠ 0) (hc : Cyclic g b) :
    b = true ↔ 2 ≤ w ∧ 2 ≤ h :=
  (cyclic_count hs hb (c60_axial_flat hs.lawful hb) hc (Nat.mul_ne_zero hw hh)).trans (axial_arith hw hh)

/-- **C85.** Every cylinder has one. -/
theorem c85_loop {s : Shape Offset AxisR AxisDR} {g : Graph Offset AxisR AxisDR N E} {k : Contents Offset AxisR N E}
    (hs : Sound s (offLatRLoop even w h) rep) (hb : Built s (offLatRLoop even w h) g k) (hw : w ≠ 0) (hh : h ≠ 0) (hc : Cyclic g b) :
    b = true := by
  refine (cyclic_count hs hb (c60_loop hs.lawful hb) hc (Nat.mul_ne_zero hw hh)).2 ?_
  show h * w + 2 * ((h - 1) * w) + 1 ≠ w * h
  rw [Nat.mul_comm w h]
  omega
end

/-- the 3 × 2 square graph is in one piece and has a cycle -/
example : ∃ (g : Graph Offset SquareAxis DSquareAxis Nat Nat), Components g 1 ∧ Cyclic g true := by
  obtain ⟨g, hb⟩ := exSquare
  have hs := Sound.square m64 3 2
  obtain ⟨r, h1, -⟩ := c85_components hs.lawful hb
  obtain ⟨b, h2, -⟩ := c85_cyclic hs.lawful hb
  cases c85_connected hs hb h1
  cases (c85_square hs hb (by decide) (by decide) h2).2 (by decide)
  exact ⟨g, h1, h2⟩

example : ∃ (g : Graph Offset SquareAxis DSquareAxis Nat Nat) (b : Bool), Cyclic g b ∧ (b = false ↔ 7 + 1 = 6) := by
  obtain ⟨g, hb⟩ := exSquare
  have hs := Sound.square m64 3 2
  obtain ⟨r, h1, -⟩ := c85_components hs.lawful hb
  obtain ⟨b, h2, -⟩ := c85_cyclic hs.lawful hb
  cases c85_connected hs hb h1
  exact ⟨g, b, h2, c85_forest hs.lawful hb (c60_square hs.lawful hb) h1 h2⟩
example : ∃ (g : Graph Offset DSquareAxis DSquareAxis Nat Nat), Cyclic g true := by
  obtain ⟨g, hb⟩ := exSquareD m64 rfl
  have hs := Lawful.squareDirected m64 3 2
  obtain ⟨b, h2, -⟩ := c85_cyclic hs hb
  cases (c85_directed hs hb (by rw [Graph.isDirected, (hb.good hs).shape]; rfl) (c60_square_directed hs hb) h2).2 (by decide)
  exact ⟨g, h2⟩
example : ∃ (g : Graph Offset DiagAxis DDiagAxis Nat Nat), Cyclic g true := by
  have hs := Sound.diag m64 3 2
  obtain ⟨g, hb⟩ := hs.lawful.exists_built (N := Nat) (E := Nat) (by decide) (fun (u : Unit) _ => (0, u)) (fun u _ _ => (0, u)) ()
  obtain ⟨b, h2, -⟩ := c85_cyclic hs.lawful hb
  cases (c85_diag hs hb (by decide) (by decide) h2).2 (by decide)
  exact ⟨g, h2⟩
example : ∃ (g : Graph Offset AxisR AxisDR Nat Nat) (b : Bool), Cyclic g b ∧ b ≠ true := by
  have hs := Sound.hexOffR m64 oddR 1 4
  obtain ⟨g, hb⟩ := hs.lawful.exists_built (N := Nat) (E := Nat) (by decide) (fun (u : Unit) _ => (0, u)) (fun u _ _ => (0, u)) ()
  obtain ⟨b, h2, -⟩ := c85_cyclic hs.lawful hb
  exact ⟨g, b, h2, fun h => absurd ((c85_offset hs hb (by decide) (by decide) h2).1 h) (by decide)⟩
example : ∃ (g : Graph Axial AxisR AxisDR Nat Nat), Cyclic g true := by
  have hs := Sound.hexAxR m64 (isizeTy m64) oddR 4 3 (.isize (by decide) (by decide))
  obtain ⟨g, hb⟩ := hs.lawful.exists_built (N := Nat) (E := Nat) (by decide) (fun (u : Unit) _ => (0, u)) (fun u _ _ => (0, u)) ()
  obtain ⟨b, h2, -⟩ := c85_cyclic hs.lawful hb
  cases (c85_axial hs hb (by decide) (by decide) h2).2 (by decide)
  exact ⟨g, h2⟩
example : ∃ (g : Graph Axial AxisQ AxisDQ Nat Nat), Cyclic g true := by
  have hs := Sound.hexAxQ m64 (isizeTy m64) oddQ 4 3 (.isize (by decide) (by decide))
  obtain ⟨g, hb⟩ := hs.lawful.exists_built (N := Nat) (E := Nat) (by decide) (fun (u : Unit) _ => (0, u)) (fun u _ _ => (0, u)) ()
  obtain ⟨b, h2, -⟩ := c85_cyclic hs.lawful hb
  cases (c85_axial_flat hs hb (by decide) (by decide) h2).2 (by decide)
  exact ⟨g, h2⟩
example : ∃ (g : Graph Offset AxisR AxisDR Nat Nat), Cyclic g true := by
  have hs := Sound.hexOffRLew m64 oddR 1 4
  obtain ⟨g, hb⟩ := hs.lawful.exists_built (N := Nat) (E := Nat) (by decide) (fun (u : Unit) _ => (0, u)) (fun u _ _ => (0, u)) ()
  obtain ⟨b, h2, -⟩ := c85_cyclic hs.lawful hb
  cases c85_loop hs hb (by decide) (by decide) h2
  exact ⟨g, h2⟩

end LG
