import Verif.Lemmas.Hints
/- Array slots, destructors, clones: lemmas. -/
set_option linter.unusedSectionVars false
namespace LG
open scoped Classical
section
variable {C A D N E σ α : Type} [DecidableEq C] [DecidableEq A] [DecidableEq D]
variable {g : Graph C A D N E} {s : Shape C A D} {L : Lat C A D} {rep : C → Prop} {k : Contents C A N E}

theorem ArrInv.data_eq {a : Arr2 α} {f : C → Option α} (h : ArrInv L a f) :
    a.data = (List.range (L.width * L.height)).map fun i => f (L.at i) := by
  apply List.ext_getElem?
  intro i
  by_cases hi : i < L.width * L.height
  · have := h.slot (div_lt_w hi) (mod_lt_h hi)
    rw [idx_eta] at this
    rw [this, List.getElem?_map, List.getElem?_range hi]
    rfl
  · rw [List.getElem?_eq_none (by rw [h.len]; omega), List.getElem?_eq_none (by simp; omega)]

theorem ArrInv.data_nodes {a : Arr2 α} {f : C → Option α} (h : ArrInv L a f) : a.data = L.nodes.map f := by
  rw [h.data_eq, L.nodes_eq, List.map_map]; rfl

theorem ArrInv.mem_data {a : Arr2 α} {f : C → Option α} (h : ArrInv L a f) {v : Option α} :
    v ∈ a.data ↔ ∃ c, L.Node c ∧ f c = v := by
  rw [h.data_nodes, List.mem_map]
  simp only [Lat.mem_nodes]

theorem dropData_all : ∀ {l : List (Option α)}, none ∉ l → dropData l = .ok (List.replicate l.length 1)
  | [], _ => rfl
  | some x :: l, h => by
    simp only [dropData, dropData_all (l := l) (fun h' => h (by simp [h'])), bind, Except.bind]
    rfl
  | none :: l, h => absurd (by simp) h

theorem dropEdgeArr_eq (hi : ImplBase s L rep) {f : C → Option E} {d : D}
    (hf : ∀ c, L.Node c → ((f c).isSome ↔ (L.nbr c d).isSome)) : ∀ (n i : Nat), i + n = L.width * L.height →
    dropEdgeArr s d i ((List.range' i n).map fun i => f (L.at i)) =
      if none ∈ (List.range' i n).map (fun i => f (L.at i)) then .error .ub else .ok (List.replicate n 2)
  | 0, i, h => by
    simp only [List.range'_zero, List.map_nil, dropEdgeArr, nodeIndicesNext_ge hi (show ¬ i < L.width * L.height by omega)]
    rfl
  | n + 1, i, h => by
    have hlt : i < L.width * L.height := by omega
    rw [List.range'_succ, List.map_cons, dropEdgeArr]
    simp only [nodeIndicesNext_lt hi hlt, bind, Except.bind, hi.move (Lat.at_node hlt)]
    cases hs : f (L.at i) with
    | none => simp
    | some w =>
      have := (hf _ (Lat.at_node hlt)).1 (by rw [hs]; rfl)
      obtain ⟨t, ht⟩ := Option.isSome_iff_exists.1 this
      simp only [ht, dropEdgeArr_eq hi hf n (i + 1) (by omega)]
      by_cases hm : none ∈ (List.range' (i + 1) n).map fun i => f (L.at i)
      · rw [if_pos hm, if_pos (by simp only [List.mem_cons]; exact .inr hm)]
      · rw [if_neg hm, if_neg (by simp only [List.mem_cons]; rintro (h | h); cases h; exact hm h)]
        rfl

/-- Destructors run by `Drop` on the edge arrays: undefined behaviour as soon as one edge is absent, otherwise every
destructor runs twice. -/
theorem dropEdges_eq (hi : ImplBase s L rep) (hd : DirLaws L) (ht : Total L k) : ∀ (es : List (Arr2 E)) (as : List A) (j : Nat),
    L.axes.drop j = as → EdgesInv L k.edge es as →
    ((∃ c a, a ∈ as ∧ L.Node c ∧ ¬ L.HasEdge c a) → dropEdges s j es = .error .ub) ∧
    ((∀ c a, a ∈ as → L.Node c → L.HasEdge c a) →
      dropEdges s j es = .ok (as.map fun _ => List.replicate (L.width * L.height) 2))
  | [], [], j, _, _ => ⟨fun ⟨_, _, h, _⟩ => by simp at h, fun _ => rfl⟩
  | [], _ :: _, _, _, h => h.elim
  | _ :: _, [], _, _, h => h.elim
  | arr :: es, a :: as, j, hdrop, hinv => by
    obtain ⟨⟨hj, hja⟩, hrest⟩ := drop_get hdrop
    have ih := dropEdges_eq hi hd ht es as (j + 1) hrest hinv.2
    have harr := hinv.1
    have hfs : ∀ c, L.Node c → ((k.edge c a).isSome ↔ (L.nbr c (L.fwd a)).isSome) := by
      intro c hc
      rw [ht.edge]
      exact ⟨fun h => h.2, fun h => ⟨hc, h⟩⟩
    have hax : s.axis.fromIndexUnchecked j = .ok a := by rw [hi.axis.fromIndex j hj, hja]
    have hda : dropEdgeArr s (L.fwd a) 0 arr.data =
        if none ∈ arr.data then .error .ub else .ok (List.replicate (L.width * L.height) 2) := by
      rw [harr.data_eq, List.range_eq_range']
      exact dropEdgeArr_eq hi hfs _ 0 (by omega)
    simp only [dropEdges, hax, hi.axis.foward, bind, Except.bind, hda]
    constructor
    · rintro ⟨c, b, hb, hc, hne⟩
      by_cases hm : none ∈ arr.data
      · rw [if_pos hm]
      · rw [if_neg hm]
        have hba : b ≠ a := by
          rintro rfl
          exact hm (harr.mem_data.2 ⟨c, hc, ht.edge_none hne⟩)
        have hb' : b ∈ as := by
          rcases List.mem_cons.1 hb with h | h
          · exact absurd h hba
          · exact h
        simp only [ih.1 ⟨c, b, hb', hc, hne⟩]
    · intro hall
      have hm : none ∉ arr.data := by
        intro hm
        obtain ⟨c, hc, hn⟩ := harr.mem_data.1 hm
        obtain ⟨w, hw⟩ := ht.edge_some (hall c a (by simp) hc)
        rw [hw] at hn; cases hn
      rw [if_neg hm]
      simp only [ih.2 fun c b hb hc => hall c b (by simp [hb]) hc]
      rfl

theorem cloneData_eq : ∀ (l : List (Option α)), cloneData l = if none ∈ l then .error .ub else .ok l
  | [] => rfl
  | none :: l => by simp [cloneData]
  | some x :: l => by
    by_cases hm : none ∈ l
    · simp [cloneData, cloneData_eq l, bind, Except.bind, hm]
    · simp [cloneData, cloneData_eq l, bind, Except.bind, hm]

theorem cloneArrs_eq (ht : Total L k) : ∀ (es : List (Arr2 E)) (as : List A), EdgesInv L k.edge es as →
    ((∃ c a, a ∈ as ∧ L.Node c ∧ ¬ L.HasEdge c a) → cloneArrs es = .error .ub) ∧
    ((∀ c a, a ∈ as → L.Node c → L.HasEdge c a) → cloneArrs es = .ok es)
  | [], [], _ => ⟨fun ⟨_, _, h, _⟩ => by simp at h, fun _ => rfl⟩
  | [], _ :: _, h => h.elim
  | _ :: _, [], h => h.elim
  | arr :: es, a :: as, hinv => by
    have ih := cloneArrs_eq ht es as hinv.2
    have harr := hinv.1
    simp only [cloneArrs, Arr2.clone, cloneData_eq, bind, Except.bind]
    constructor
    · rintro ⟨c, b, hb, hc, hne⟩
      by_cases hm : none ∈ arr.data
      · rw [if_pos hm]
      · rw [if_neg hm]
        have hba : b ≠ a := by
          rintro rfl
          exact hm (harr.mem_data.2 ⟨c, hc, ht.edge_none hne⟩)
        have hb' : b ∈ as := by
          rcases List.mem_cons.1 hb with h | h
          · exact absurd h hba
          · exact h
        simp only [ih.1 ⟨c, b, hb', hc, hne⟩]
    · intro hall
      have hm : none ∉ arr.data := by
        intro hm
        obtain ⟨c, hc, hn⟩ := harr.mem_data.1 hm
        obtain ⟨w, hw⟩ := ht.edge_some (hall c a (by simp) hc)
        rw [hw] at hn; cases hn
      rw [if_neg hm]
      simp only [ih.2 fun c b hb hc => hall c b (by simp [hb]) hc]

theorem hashData_eq : ∀ (l : List (Option α)), hashData l = if none ∈ l then .error .ub else .ok (l.filterMap id)
  | [] => rfl
  | none :: l => by simp [hashData]
  | some x :: l => by
    by_cases hm : none ∈ l
    · simp [hashData, hashData_eq l, bind, Except.bind, hm]
    · simp [hashData, hashData_eq l, bind, Except.bind, hm]

theorem hashArrs_eq (ht : Total L k) : ∀ (es : List (Arr2 E)) (as : List A), EdgesInv L k.edge es as →
    ((∃ c a, a ∈ as ∧ L.Node c ∧ ¬ L.HasEdge c a) → hashArrs es = .error .ub)
  | [], [], _ => fun ⟨_, _, h, _⟩ => by simp at h
  | [], _ :: _, h => h.elim
  | _ :: _, [], h => h.elim
  | arr :: es, a :: as, hinv => by
    have ih := hashArrs_eq ht es as hinv.2
    have harr := hinv.1
    simp only [hashArrs, hashData_eq, bind, Except.bind]
    rintro ⟨c, b, hb, hc, hne⟩
    by_cases hm : none ∈ arr.data
    · rw [if_pos hm]
    · rw [if_neg hm]
      have hba : b ≠ a := by
        rintro rfl
        exact hm (harr.mem_data.2 ⟨c, hc, ht.edge_none hne⟩)
      have hb' : b ∈ as := by
        rcases List.mem_cons.1 hb with h | h
        · exact absurd h hba
        · exact h
      simp only [ih ⟨c, b, hb', hc, hne⟩]

theorem eqEach_refl [DecidableEq α] : ∀ (l : List (Option α)),
    eqEach l l = if none ∈ l then .error .ub else .ok true
  | [] => rfl
  | none :: l => by simp [eqEach]
  | some x :: l => by
    simp only [eqEach, eqEach_refl l, if_true, List.mem_cons, reduceCtorEq, false_or]

theorem mem_take_drop (b : Nat) {x : α} {l : List α} : x ∈ l ↔ x ∈ l.take b ∨ x ∈ l.drop b := by
  conv => lhs; rw [← List.take_append_drop b l]
  exact List.mem_append

theorem eqEach_init [DecidableEq α] : ∀ (l l' : List (Option α)), none ∉ l → none ∉ l' → l.length = l'.length →
    eqEach l l' = .ok (decide (l = l'))
  | [], [], _, _, _ => rfl
  | some x :: l, some y :: l', h, h', hl => by
    simp only [eqEach]
    by_cases he : x = y
    · subst he
      rw [if_pos rfl, eqEach_init l l' (fun m => h (by simp [m])) (fun m => h' (by simp [m])) (by simpa using hl)]
      simp
    · rw [if_neg he]
      simp [he]
  | none :: l, _, h, _, _ => absurd (by simp) h
  | some x :: l, none :: l', _, h, _ => absurd (by simp) h
  | some x :: l, [], _, _, h => by simp at h
  | [], y :: l', _, _, h => by simp at h

theorem eqData_short [DecidableEq α] {b : Nat} {l l' : List (Option α)} (h : ¬ (0 < b ∧ b ≤ l.length)) : eqData b l l' = eqEach l l' := by
  unfold eqData
  rw [dif_neg h]

theorem eqData_refl [DecidableEq α] (b : Nat) (l : List (Option α)) :
    eqData b l l = if none ∈ l then .error .ub else .ok true := by
  generalize hn : l.length = n
  induction n using Nat.strongRecOn generalizing l with
  | ind n ih =>
    unfold eqData
    split
    · rename_i h
      have hd := ih (l.drop b).length (by rw [List.length_drop]; omega) _ rfl
      simp only [eqTogether, or_self, hd]
      by_cases h1 : none ∈ l.take b
      · rw [if_pos h1, if_pos (List.mem_of_mem_take h1)]
        rfl
      · rw [if_neg h1]
        simp only [bind, Except.bind, decide_true, if_true]
        by_cases h2 : none ∈ l.drop b
        · rw [if_pos h2, if_pos (List.mem_of_mem_drop h2)]
        · rw [if_neg h2, if_neg fun h => ((mem_take_drop b).1 h).elim h1 h2]
    · exact eqEach_refl l

/-- Comparing fully initialised data is comparing contents. -/
theorem eqData_init [DecidableEq α] (b : Nat) (l l' : List (Option α)) (h : none ∉ l) (h' : none ∉ l') (hl : l.length = l'.length) :
    eqData b l l' = .ok (decide (l = l')) := by
  generalize hn : l.length = n
  induction n using Nat.strongRecOn generalizing l l' with
  | ind n ih =>
    unfold eqData
    split
    · rename_i hb
      have hd := ih (l.drop b).length (by rw [List.length_drop]; omega) (l.drop b) (l'.drop b) (fun m => h (List.mem_of_mem_drop m))
        (fun m => h' (List.mem_of_mem_drop m)) (by rw [List.length_drop, List.length_drop, hl]) rfl
      have ht : ¬ (none ∈ l.take b ∨ none ∈ l'.take b) := fun m => m.elim (fun m => h (List.mem_of_mem_take m)) fun m => h' (List.mem_of_mem_take m)
      have e : l = l' ↔ l.take b = l'.take b ∧ l.drop b = l'.drop b := by
        refine ⟨fun e => by rw [e]; exact ⟨rfl, rfl⟩, fun ⟨e1, e2⟩ => ?_⟩
        rw [← List.take_append_drop b l, ← List.take_append_drop b l', e1, e2]
      simp only [eqTogether, if_neg ht, hd, bind, Except.bind]
      by_cases e1 : l.take b = l'.take b <;> simp [e, e1]
    · exact eqEach_init l l' h h' hl

theorem eqArrs_refl [DecidableEq E] (blk : Nat) (ht : Total L k) : ∀ (es : List (Arr2 E)) (as : List A), EdgesInv L k.edge es as →
    ((∃ c a, a ∈ as ∧ L.Node c ∧ ¬ L.HasEdge c a) → eqArrs blk es es = .error .ub) ∧
    ((∀ c a, a ∈ as → L.Node c → L.HasEdge c a) → eqArrs blk es es = .ok true)
  | [], [], _ => ⟨fun ⟨_, _, h, _⟩ => by simp at h, fun _ => rfl⟩
  | [], _ :: _, h => h.elim
  | _ :: _, [], h => h.elim
  | arr :: es, a :: as, hinv => by
    have ih := eqArrs_refl blk ht es as hinv.2
    have harr := hinv.1
    simp only [eqArrs, Arr2.eq, eqData_refl, bind, Except.bind, and_self, if_true]
    constructor
    · rintro ⟨c, b, hb, hc, hne⟩
      by_cases hm : none ∈ arr.data
      · rw [if_pos hm]
      · rw [if_neg hm]
        have hba : b ≠ a := by
          rintro rfl
          exact hm (harr.mem_data.2 ⟨c, hc, ht.edge_none hne⟩)
        have hb' : b ∈ as := by
          rcases List.mem_cons.1 hb with h | h
          · exact absurd h hba
          · exact h
        simp only [if_true, ih.1 ⟨c, b, hb', hc, hne⟩]
    · intro hall
      have hm : none ∉ arr.data := by
        intro hm
        obtain ⟨c, hc, hn⟩ := harr.mem_data.1 hm
        obtain ⟨w, hw⟩ := ht.edge_some (hall c a (by simp) hc)
        rw [hw] at hn; cases hn
      rw [if_neg hm]
      simp only [if_true, ih.2 fun c b hb hc => hall c b (by simp [hb]) hc]

/-- `c` names a corner of the lattice. -/
def Lat.Corner {C A D : Type} (L : Lat C A D) (c : C) : Prop :=
  ∃ x y, x < L.width ∧ y < L.height ∧ (x = 0 ∨ x + 1 = L.width) ∧ (y = 0 ∨ y + 1 = L.height) ∧ c = L.coord x y

theorem Lat.Corner.node {C A D : Type} {L : Lat C A D} {c : C} : L.Corner c → L.Node c
  | ⟨x, y, hx, hy, _, _, e⟩ => ⟨x, y, hx, hy, e⟩

/-- Every nonempty graph of a sound shape has a corner without an edge along some axis. -/
theorem Sound.corner {C A D : Type} {s : Shape C A D} {L : Lat C A D} {rep : C → Prop} (h : Sound s L rep)
    (hw : 0 < L.width) (hh : 0 < L.height) : ∃ c a, L.Corner c ∧ ¬ L.HasEdge c a := by
  have axl : ∀ (even flat : Bool) (w h : Nat) (v1 v2 : Int × Int), 0 < w → 0 < h → v1 = (0, 1) → v2 = (1, 0) →
      ∃ c : Axial, (∃ x y, x < w ∧ y < h ∧ (x = 0 ∨ x + 1 = w) ∧ (y = 0 ∨ y + 1 = h) ∧ c = axCoord even flat x y) ∧
        (axNbr even flat w h c v1 = none ∨ axNbr even flat w h c v2 = none) := by
    rintro even flat w h _ _ hw hh rfl rfl
    cases flat with
    | false =>
      refine ⟨axCoord even false 0 (h - 1), ⟨0, h - 1, hw, by omega, .inl rfl, .inr (by omega), rfl⟩, .inl ?_⟩
      have e : ((h - 1 : Nat) : Int) = h - 1 := by omega
      have : axIn even false w h ⟨(axCoord even false 0 (h - 1)).r + 0, (axCoord even false 0 (h - 1)).q + 1⟩ = false := by
        simp [axIn, axCoord, e]
      simp only [axNbr, this, Bool.false_eq_true, if_false]
    | true =>
      refine ⟨axCoord even true (w - 1) 0, ⟨w - 1, 0, by omega, hh, .inr (by omega), .inl rfl, rfl⟩, .inr ?_⟩
      have e : ((w - 1 : Nat) : Int) = w - 1 := by omega
      have : axIn even true w h ⟨(axCoord even true (w - 1) 0).r + 1, (axCoord even true (w - 1) 0).q + 0⟩ = false := by
        simp [axIn, axCoord, e]
      simp only [axNbr, this, Bool.false_eq_true, if_false]
  have rowTop : ∀ (even : Bool) (w h : Nat), 0 < h → offNbr even w h ⟨0, h - 1⟩ .NE = none := by
    intro even w h hh
    show inRect w h _ (((h - 1 : Nat) : Int) + 1) = none
    unfold inRect; rw [if_neg]; omega
  have rowTopLoop : ∀ (even : Bool) (w h : Nat), 0 < h → offNbrLoop even w h ⟨0, h - 1⟩ .NE = none := by
    intro even w h hh
    show inRect w h _ (((h - 1 : Nat) : Int) + 1) = none
    unfold inRect; rw [if_neg]; omega
  have mk : ∀ {C A D : Type} {L : Lat C A D} {c : C} {a : A}, L.Corner c → L.nbr c (L.fwd a) = none →
      ∃ c a, L.Corner c ∧ ¬ L.HasEdge c a := fun {C A D L c a} h1 h2 => ⟨c, a, h1, fun h => by
    have := h.2; rw [h2] at this; cases this⟩
  have rect : ∀ (w h : Nat) (v : Int × Int), 0 < h → v.2 = 1 → rectNbr w h ⟨0, h - 1⟩ v = none := by
    intro w h v hh hv
    unfold rectNbr inRect
    rw [if_neg]
    rw [hv]
    simp only
    omega
  induction h with
  | square m w h => exact mk (a := .Y) ⟨0, h - 1, hw, Nat.sub_lt hh (by decide), .inl rfl, .inr (Nat.sub_add_cancel hh), rfl⟩ (rect w h _ hh rfl)
  | squareDirected m w h => exact mk (a := .Y) ⟨0, h - 1, hw, Nat.sub_lt hh (by decide), .inl rfl, .inr (Nat.sub_add_cancel hh), rfl⟩ (rect w h _ hh rfl)
  | diag m w h => exact mk (a := .N) ⟨0, h - 1, hw, Nat.sub_lt hh (by decide), .inl rfl, .inr (Nat.sub_add_cancel hh), rfl⟩ (rect w h _ hh rfl)
  | diagDirected m w h => exact mk (a := .N) ⟨0, h - 1, hw, Nat.sub_lt hh (by decide), .inl rfl, .inr (Nat.sub_add_cancel hh), rfl⟩ (rect w h _ hh rfl)
  | hexOffR m k w h =>
    refine mk (a := .NE) ⟨0, h - 1, hw, Nat.sub_lt hh (by decide), .inl rfl, .inr (Nat.sub_add_cancel hh), rfl⟩ ?_
    exact rowTop k.isEven w h hh
  | hexOffRDirected m k w h =>
    refine mk (a := .NE) ⟨0, h - 1, hw, Nat.sub_lt hh (by decide), .inl rfl, .inr (Nat.sub_add_cancel hh), rfl⟩ ?_
    exact rowTop k.isEven w h hh
  | hexOffRLew m k w h =>
    refine mk (a := .NE) ⟨0, h - 1, hw, Nat.sub_lt hh (by decide), .inl rfl, .inr (Nat.sub_add_cancel hh), rfl⟩ ?_
    exact rowTopLoop k.isEven w h hh
  | hexAxR m t k w h ht =>
    obtain ⟨c, hc, hn | hn⟩ := axl k.isEven k.isFlatTop w h _ _ hw hh rfl rfl
    · exact mk (a := .NE) hc hn
    · exact mk (a := .E) hc hn
  | hexAxRDirected m t k w h ht =>
    obtain ⟨c, hc, hn | hn⟩ := axl k.isEven k.isFlatTop w h _ _ hw hh rfl rfl
    · exact mk (a := .NE) hc hn
    · exact mk (a := .E) hc hn
  | hexAxQ m t k w h ht =>
    obtain ⟨c, hc, hn | hn⟩ := axl k.isEven k.isFlatTop w h _ _ hw hh rfl rfl
    · exact mk (a := .N) hc hn
    · exact mk (a := .NE) hc hn
  | hexAxQDirected m t k w h ht =>
    obtain ⟨c, hc, hn | hn⟩ := axl k.isEven k.isFlatTop w h _ _ hw hh rfl rfl
    · exact mk (a := .N) hc hn
    · exact mk (a := .NE) hc hn
  | byRef _ ih => exact ih hw hh

end
end LG
