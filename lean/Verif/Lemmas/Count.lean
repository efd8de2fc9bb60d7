import Verif.Lemmas.Iter
/- Counting: no node or edge occurs twice, adjacency is symmetric with multiplicity, handshake. -/
set_option linter.unusedVariables false
set_option linter.unusedSectionVars false
namespace LG
section
variable {C A D N E σ α : Type} {L : Lat C A D} {k : Contents C A N E}

theorem nodup_map_of_inj {α β : Type} {f : α → β} : ∀ {l : List α}, l.Nodup →
    (∀ a ∈ l, ∀ b ∈ l, f a = f b → a = b) → (l.map f).Nodup
  | [], _, _ => by simp
  | x :: l, hn, hi => by
    rw [List.nodup_cons] at hn
    rw [List.map_cons, List.nodup_cons]
    refine ⟨?_, nodup_map_of_inj hn.2 fun a ha b hb => hi a (by simp [ha]) b (by simp [hb])⟩
    intro hm
    obtain ⟨y, hy, he⟩ := List.mem_map.1 hm
    have := hi y (by simp [hy]) x (by simp) he
    subst this
    exact hn.1 hy

theorem nodup_filterMap_of_inj {α β : Type} {f : α → Option β} : ∀ {l : List α}, l.Nodup →
    (∀ a ∈ l, ∀ b ∈ l, ∀ y, f a = some y → f b = some y → a = b) → (l.filterMap f).Nodup
  | [], _, _ => by simp
  | x :: l, hn, hi => by
    rw [List.nodup_cons] at hn
    have ih := nodup_filterMap_of_inj hn.2 fun a ha b hb => hi a (by simp [ha]) b (by simp [hb])
    rw [List.filterMap_cons]
    split
    · exact ih
    · rename_i y hy
      rw [List.nodup_cons]
      refine ⟨?_, ih⟩
      intro hm
      obtain ⟨z, hz, he⟩ := List.mem_filterMap.1 hm
      have := hi z (by simp [hz]) x (by simp) y he hy
      subst this
      exact hn.1 hz

theorem nodup_flatMap_of {α β : Type} {f : α → List β} : ∀ {l : List α}, l.Nodup → (∀ a ∈ l, (f a).Nodup) →
    (∀ a ∈ l, ∀ b ∈ l, ∀ y, y ∈ f a → y ∈ f b → a = b) → (l.flatMap f).Nodup
  | [], _, _, _ => by simp
  | x :: l, hn, hf, hi => by
    rw [List.nodup_cons] at hn
    rw [List.flatMap_cons, List.nodup_append]
    refine ⟨hf x (by simp), nodup_flatMap_of hn.2 (fun a ha => hf a (by simp [ha]))
      fun a ha b hb => hi a (by simp [ha]) b (by simp [hb]), ?_⟩
    intro y hy z hz he
    subst he
    obtain ⟨w, hw, h2⟩ := List.mem_flatMap.1 hz
    have := hi x (by simp) w (by simp [hw]) y hy h2
    subst this
    exact hn.1 hw

theorem Lat.at_inj (hl : LatBase L) {i j : Nat} (hi : i < L.width * L.height) (hj : j < L.width * L.height)
    (h : L.at i = L.at j) : i = j := by
  obtain ⟨h1, h2⟩ := hl.coord_inj (div_lt_w hi) (mod_lt_h hi) (div_lt_w hj) (mod_lt_h hj) h
  rw [← idx_eta (H := L.height) (i := i), ← idx_eta (H := L.height) (i := j), h1, h2]

theorem Lat.nodes_nodup (hl : LatBase L) : L.nodes.Nodup := by
  rw [L.nodes_eq]
  exact nodup_map_of_inj List.nodup_range fun a ha b hb h =>
    Lat.at_inj hl (List.mem_range.1 ha) (List.mem_range.1 hb) h

theorem Lat.mem_edgeKeys (hd : DirLaws L) {c : C} {a : A} : (c, a) ∈ L.edgeKeys ↔ L.HasEdge c a := by
  unfold Lat.edgeKeys Lat.HasEdge
  simp only [List.mem_flatMap, List.mem_filterMap, Option.map_eq_some_iff, Prod.mk.injEq, Lat.mem_nodes]
  constructor
  · rintro ⟨c', hc', a', _, t, ht, rfl, rfl⟩
    exact ⟨hc', by simp [ht]⟩
  · rintro ⟨hc, h⟩
    obtain ⟨t, ht⟩ := Option.isSome_iff_exists.1 h
    exact ⟨c, hc, a, hd.axes_mem a, t, ht, rfl, rfl⟩

theorem Lat.edgeKeys_nodup (hl : LatBase L) : L.edgeKeys.Nodup := by
  refine nodup_flatMap_of (Lat.nodes_nodup hl) ?_ ?_
  · intro c _
    refine nodup_filterMap_of_inj hl.dir.axes_nodup ?_
    intro a _ b _ y h1 h2
    simp only [Option.map_eq_some_iff] at h1 h2
    obtain ⟨_, _, rfl⟩ := h1
    obtain ⟨_, _, h⟩ := h2
    exact (Prod.mk.inj h).2.symm
  · intro c _ c' _ y h1 h2
    simp only [List.mem_filterMap, Option.map_eq_some_iff] at h1 h2
    obtain ⟨_, _, _, _, rfl⟩ := h1
    obtain ⟨_, _, _, _, h⟩ := h2
    exact (Prod.mk.inj h).1.symm

theorem callSeq_nodup (hl : LatBase L) : (callSeq L).Nodup := by
  refine nodup_flatMap_of (Lat.nodes_nodup hl) ?_ ?_
  · intro c _
    rw [List.nodup_cons]
    refine ⟨by simp, nodup_map_of_inj (hl.dir.axes_nodup.filter _) fun a _ b _ h => by simpa using h⟩
  · intro c _ c' _ y h1 h2
    simp only [List.mem_cons, List.mem_map] at h1 h2
    rcases h1 with rfl | ⟨a, _, rfl⟩ <;> rcases h2 with h | ⟨b, _, h⟩ <;> simp_all

/-- The opposite directions are the directions, in another order. -/
theorem dirs_opp_perm (hd : DirLaws L) : (L.dirs.map L.opp).Perm L.dirs := by
  rw [List.perm_ext_iff_of_nodup ?_ hd.dirs_nodup]
  · intro d
    simp only [hd.dirs_mem, iff_true, List.mem_map, true_and]
    exact ⟨L.opp d, hd.opp_opp d⟩
  · exact nodup_map_of_inj hd.dirs_nodup fun a _ b _ h => by rw [← hd.opp_opp a, h, hd.opp_opp]

theorem nbr_iff_opp (hl : LatLaws L) {a b : C} (ha : L.Node a) (hb : L.Node b) (d : D) :
    L.nbr a (L.opp d) = some b ↔ L.nbr b d = some a := by
  constructor
  · intro h; have := hl.nbr_opp ha h; rwa [hl.dir.opp_opp] at this
  · intro h; exact hl.nbr_opp hb h

theorem nbrs_count_symm [DecidableEq C] (hl : LatLaws L) {a b : C} (ha : L.Node a) (hb : L.Node b) :
    (L.nbrs a).count b = (L.nbrs b).count a := by
  unfold Lat.nbrs
  rw [List.count_filterMap, List.count_filterMap, ← (dirs_opp_perm hl.dir).countP_eq, List.countP_map]
  congr 1
  funext d
  rw [Bool.eq_iff_iff]
  simp only [Function.comp, beq_iff_eq]
  exact nbr_iff_opp hl ha hb d

theorem sum_countP_comm {α β : Type} (p : α → β → Bool) (l : List α) : ∀ (m : List β),
    (l.map fun a => m.countP fun b => p a b).sum = (m.map fun b => l.countP fun a => p a b).sum
  | [] => by
    simp only [List.countP_nil, List.map_nil, List.sum_nil]
    induction l <;> simp_all
  | b :: m => by
    rw [List.map_cons, List.sum_cons, ← sum_countP_comm p l m]
    simp only [List.countP_cons]
    clear sum_countP_comm
    induction l with
    | nil => rfl
    | cons x l ih => simp only [List.map_cons, List.sum_cons, List.countP_cons]; omega

/-- Number of cells with a neighbour in direction `d`. -/
def Lat.cnt (L : Lat C A D) (d : D) : Nat := L.nodes.countP fun c => (L.nbr c d).isSome

theorem cnt_le (hl : LatLaws L) (d : D) : L.cnt d ≤ L.cnt (L.opp d) := by
  have h1 : L.cnt d = (L.nodes.filterMap fun c => L.nbr c d).length := by
    rw [List.length_filterMap_eq_countP]; rfl
  have h2 : L.cnt (L.opp d) = (L.nodes.filter fun c => (L.nbr c (L.opp d)).isSome).length := by
    rw [← List.countP_eq_length_filter]; rfl
  rw [h1, h2]
  refine List.Nodup.length_le_of_subset ?_ ?_
  · refine nodup_filterMap_of_inj (Lat.nodes_nodup hl) ?_
    intro a ha b hb y h1 h2
    have e1 := hl.nbr_opp (Lat.mem_nodes.1 ha) h1
    have e2 := hl.nbr_opp (Lat.mem_nodes.1 hb) h2
    rw [e1] at e2
    simpa using e2
  · intro y hy
    obtain ⟨c, hc, h⟩ := List.mem_filterMap.1 hy
    have hc := Lat.mem_nodes.1 hc
    rw [List.mem_filter]
    exact ⟨Lat.mem_nodes.2 (hl.nbr_node hc h), by rw [hl.nbr_opp hc h]; rfl⟩

theorem cnt_opp (hl : LatLaws L) (d : D) : L.cnt (L.opp d) = L.cnt d := by
  have h1 := cnt_le hl d
  have h2 := cnt_le hl (L.opp d)
  rw [hl.dir.opp_opp] at h2
  omega

theorem filterMap_length_of {α β : Type} {f : α → Option β} {l : List α} {p : α → Bool} (h : ∀ a, (f a).isSome = p a) :
    (l.filterMap f).length = l.countP p := by
  rw [List.length_filterMap_eq_countP]
  congr 1
  funext a
  exact h a

theorem outEdges_length [DecidableEq C] [DecidableEq A] [DecidableEq D] (hl : LatLaws L) (ht : Total L k) {c : C}
    (hc : L.Node c) : (outEdges L k c).length = L.dirs.countP fun d => (L.nbr c d).isSome := by
  refine filterMap_length_of fun d => ?_
  cases h : L.nbr c d with
  | none => rfl
  | some t =>
    obtain ⟨w, hw⟩ := ht.edge_some (key_hasEdge hl hc h)
    simp [hw]

theorem nodeEdges_length [DecidableEq C] [DecidableEq A] [DecidableEq D] (ht : Total L k) {c : C} (hc : L.Node c) :
    (nodeEdges L k c).length = L.axes.countP fun a => (L.nbr c (L.fwd a)).isSome := by
  refine filterMap_length_of fun a => ?_
  cases h : L.nbr c (L.fwd a) with
  | none => rfl
  | some t =>
    obtain ⟨w, hw⟩ := ht.edge_some (c := c) (a := a) ⟨hc, by simp [h]⟩
    simp [hw]

theorem allEdges_length [DecidableEq C] [DecidableEq A] [DecidableEq D] (ht : Total L k) :
    (allEdges L k).length = (L.axes.map fun a => L.cnt (L.fwd a)).sum := by
  have h : (allEdges L k).length = (L.nodes.map fun c => L.axes.countP fun a => (L.nbr c (L.fwd a)).isSome).sum := by
    unfold allEdges
    rw [List.length_flatMap]
    congr 1
    refine List.map_congr_left fun c hc => ?_
    exact nodeEdges_length ht (Lat.mem_nodes.1 hc)
  rw [h, sum_countP_comm]
  rfl

theorem outEdges_sum [DecidableEq C] [DecidableEq A] [DecidableEq D] (hl : LatLaws L) (ht : Total L k) :
    (L.nodes.map fun c => (outEdges L k c).length).sum = (L.dirs.map L.cnt).sum := by
  have h : (L.nodes.map fun c => (outEdges L k c).length) =
      L.nodes.map fun c => L.dirs.countP fun d => (L.nbr c d).isSome :=
    List.map_congr_left fun c hc => outEdges_length hl ht (Lat.mem_nodes.1 hc)
  rw [h, sum_countP_comm]
  rfl

theorem handshake [DecidableEq C] [DecidableEq A] [DecidableEq D] (hl : LatLaws L) (ht : Total L k) :
    (L.nodes.map fun c => (outEdges L k c).length).sum =
      (if L.directed then 1 else 2) * (allEdges L k).length := by
  rw [outEdges_sum hl ht, allEdges_length ht]
  cases h : L.directed with
  | true =>
    rw [hl.dir.dirs_dir h, List.map_map]
    simp only [if_true, Nat.one_mul]
    rfl
  | false =>
    rw [hl.dir.dirs_und h, List.map_append, List.sum_append, List.map_map, List.map_map]
    simp only [Function.comp_def, cnt_opp hl]
    simp only [Bool.false_eq_true, if_false]
    omega

end
end LG
