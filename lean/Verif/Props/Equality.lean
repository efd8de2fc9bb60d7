import Verif.Props.Memory
import Verif.Props.Custom
/- C23: what the derived `PartialEq` computes, exactly, for any two graphs of the same type. -/
set_option linter.unusedSectionVars false
namespace LG
section
variable {C A D N E σ α : Type} [DecidableEq C] [DecidableEq A] [DecidableEq D]
variable {g g' : Graph C A D N E} {s s' : Shape C A D} {L L' : Lat C A D} {rep rep' : C → Prop} {k k' : Contents C A N E}

/-- The pairs of slots of one edge array that `==` looks at, in order. `none`: no such edge, the slot was never written. -/
def slotPairs (L L' : Lat C A D) (k k' : Contents C A N E) (a : A) : List (Option E × Option E) :=
  (List.range L.width).flatMap fun x => (List.range L.height).map fun y => (k.edge (L.coord x y) a, k'.edge (L'.coord x y) a)

/-- The groups of pairs that are looked at together: `blk` at a time as long as there are that many, then one by one. -/
def groupsOf (blk : Nat) (l : List α) : List (List α) :=
  (List.range (l.length / blk)).map (fun i => (l.drop (i * blk)).take blk) ++ (l.drop (l.length / blk * blk)).map fun x => [x]

/-- All groups, array by array (one per axis). -/
def slotGroups (blk : Nat) (L L' : Lat C A D) (k k' : Contents C A N E) : List (List (Option E × Option E)) :=
  L.axes.flatMap fun a => groupsOf blk (slotPairs L L' k k' a)

/-- What a comparison in that order must come to if it may stop only after a group with a difference: look for the first group that
is not twice the same weights. -/
def compared [DecidableEq α] (gs : List (List (Option α × Option α))) : Res Bool :=
  match gs.find? fun q => q.any fun p => !(p.1.isSome && p.1 == p.2) with
  | none => .ok true
  | some q => if q.any fun p => p.1.isNone || p.2.isNone then .error .ub else .ok false

theorem groupsOf_step {blk : Nat} {l : List α} (h : 0 < blk) (hl : blk ≤ l.length) :
    groupsOf blk l = l.take blk :: groupsOf blk (l.drop blk) := by
  have e : l.length / blk = (l.length - blk) / blk + 1 := by rw [Nat.div_eq, if_pos ⟨h, hl⟩]
  simp only [groupsOf, List.length_drop, e, List.range_succ_eq_map, List.map_cons, List.map_map, Nat.zero_mul, List.drop_zero,
    List.cons_append, List.drop_drop]
  congr 2
  · apply List.map_congr_left
    intro i _
    simp only [Function.comp, Nat.succ_eq_add_one, Nat.add_mul, Nat.one_mul, Nat.add_comm]
  · rw [Nat.add_mul, Nat.one_mul, Nat.add_comm]

theorem groupsOf_rest {blk : Nat} {l : List α} (h : ¬ (0 < blk ∧ blk ≤ l.length)) : groupsOf blk l = l.map fun x => [x] := by
  have e : l.length / blk = 0 := by
    rcases Nat.eq_zero_or_pos blk with rfl | h0
    · exact Nat.div_zero _
    · exact Nat.div_eq_of_lt (by omega)
  simp only [groupsOf, e, List.range_zero, List.map_nil, Nat.zero_mul, List.drop_zero, List.nil_append]

theorem mem_groupsOf (blk : Nat) {x : α} {l : List α} (h : x ∈ l) : ∃ q ∈ groupsOf blk l, x ∈ q := by
  generalize hn : l.length = n
  induction n using Nat.strongRecOn generalizing l with
  | ind n ih =>
    by_cases hb : 0 < blk ∧ blk ≤ l.length
    · rw [groupsOf_step hb.1 hb.2]
      rcases (mem_take_drop blk).1 h with h | h
      · exact ⟨_, List.mem_cons_self, h⟩
      · obtain ⟨q, h1, h2⟩ := ih (l.drop blk).length (by rw [List.length_drop]; omega) h rfl
        exact ⟨q, List.mem_cons_of_mem _ h1, h2⟩
    · rw [groupsOf_rest hb]
      exact ⟨[x], List.mem_map.2 ⟨x, h, rfl⟩, List.mem_cons_self⟩

theorem compared_same [DecidableEq α] {q : List (Option α × Option α)} (h : ∀ p ∈ q, p.1.isSome = true ∧ p.1 = p.2)
    (gs : List (List (Option α × Option α))) : compared (q :: gs) = compared gs := by
  have : (q.any fun p => !(p.1.isSome && p.1 == p.2)) = false := by
    rw [List.any_eq_false]
    intro p hp
    rw [(h p hp).1, ← (h p hp).2]
    simp
  simp only [compared, List.find?_cons, this]

theorem compared_stop [DecidableEq α] {q : List (Option α × Option α)} (h : ¬ ∀ p ∈ q, p.1.isSome = true ∧ p.1 = p.2)
    (gs : List (List (Option α × Option α))) :
    compared (q :: gs) = if q.any fun p => p.1.isNone || p.2.isNone then .error .ub else .ok false := by
  have : (q.any fun p => !(p.1.isSome && p.1 == p.2)) = true := by
    rw [List.any_eq_true]
    apply Classical.byContradiction
    intro hno
    refine h fun p hp => ?_
    have := fun h => hno ⟨p, hp, h⟩
    simpa [Option.isSome_iff_ne_none] using this
  simp only [compared, List.find?_cons, this]

theorem eqEach_compared [DecidableEq α] : ∀ (l l' : List (Option α)), l.length = l'.length →
    eqEach l l' = compared ((l.zip l').map fun x => [x])
  | [], [], _ => rfl
  | some x :: l, some y :: l', h => by
    simp only [eqEach, List.zip_cons_cons, List.map_cons]
    by_cases he : x = y
    · subst he
      rw [if_pos rfl, compared_same (by simp), eqEach_compared l l' (by simpa using h)]
    · rw [if_neg he, compared_stop (by simp [he])]
      simp
  | none :: l, y :: l', _ => by
    rw [List.zip_cons_cons, List.map_cons, compared_stop (by simp)]
    simp [eqEach]
  | some x :: l, none :: l', _ => by
    rw [List.zip_cons_cons, List.map_cons, compared_stop (by simp)]
    simp [eqEach]
  | _ :: _, [], h => by simp at h
  | [], _ :: _, h => by simp at h

theorem zip_same : ∀ {l l' : List (Option α)}, l.length = l'.length →
    ((∀ p ∈ l.zip l', p.1.isSome = true ∧ p.1 = p.2) ↔ none ∉ l ∧ none ∉ l' ∧ l = l')
  | [], [], _ => by simp
  | x :: l, y :: l', h => by
    have ih := zip_same (l := l) (l' := l') (by simpa using h)
    simp only [List.zip_cons_cons, List.mem_cons, forall_eq_or_imp, ih, List.cons.injEq]
    cases x <;> cases y <;> simp <;> grind
  | _ :: _, [], h => by simp at h
  | [], _ :: _, h => by simp at h

theorem zip_none : ∀ {l l' : List (Option α)}, l.length = l'.length →
    (((l.zip l').any fun p => p.1.isNone || p.2.isNone) = true ↔ none ∈ l ∨ none ∈ l')
  | [], [], _ => by simp
  | x :: l, y :: l', h => by
    have ih := zip_none (l := l) (l' := l') (by simpa using h)
    simp only [List.zip_cons_cons, List.any_cons, Bool.or_eq_true, ih, List.mem_cons]
    cases x <;> cases y <;> simp
  | _ :: _, [], h => by simp at h
  | [], _ :: _, h => by simp at h

theorem eqData_compared [DecidableEq α] (blk : Nat) (l l' : List (Option α)) (hl : l.length = l'.length) :
    eqData blk l l' = compared (groupsOf blk (l.zip l')) := by
  generalize hn : l.length = n
  induction n using Nat.strongRecOn generalizing l l' with
  | ind n ih =>
    have hz : (l.zip l').length = l.length := by rw [List.length_zip, ← hl, Nat.min_self]
    unfold eqData
    split
    · rename_i h
      have hd := ih (l.drop blk).length (by rw [List.length_drop]; omega) (l.drop blk) (l'.drop blk)
        (by rw [List.length_drop, List.length_drop, hl]) rfl
      have ht : (l.take blk).length = (l'.take blk).length := by rw [List.length_take, List.length_take, hl]
      have e1 : (l.zip l').take blk = (l.take blk).zip (l'.take blk) := by unfold List.zip; exact List.take_zipWith
      have e2 : (l.zip l').drop blk = (l.drop blk).zip (l'.drop blk) := by unfold List.zip; exact List.drop_zipWith
      rw [groupsOf_step h.1 (by rw [hz]; exact h.2), e1, e2, hd]
      simp only [eqTogether]
      by_cases hs : ∀ p ∈ (l.take blk).zip (l'.take blk), p.1.isSome = true ∧ p.1 = p.2
      · obtain ⟨h1, h2, h3⟩ := (zip_same ht).1 hs
        rw [compared_same hs, if_neg (fun h => h.elim h1 h2), decide_eq_true h3]
        rfl
      · rw [compared_stop hs]
        have := zip_none ht
        by_cases hm : none ∈ l.take blk ∨ none ∈ l'.take blk
        · rw [if_pos hm, if_pos (this.2 hm)]
          rfl
        · rw [if_neg hm, if_neg (fun h => hm (this.1 h))]
          have hne : l.take blk ≠ l'.take blk := fun e => hs ((zip_same ht).2 ⟨fun m => hm (.inl m), fun m => hm (.inr m), e⟩)
          rw [decide_eq_false hne]
          rfl
    · rename_i h
      rw [groupsOf_rest (by rw [hz]; exact h)]
      exact eqEach_compared l l' hl

theorem compared_append [DecidableEq α] (p q : List (List (Option α × Option α))) :
    compared (p ++ q) = (compared p).bind fun b => if b then compared q else .ok false := by
  simp only [compared, List.find?_append]
  cases h : p.find? fun q => q.any fun p => !(p.1.isSome && p.1 == p.2) with
  | none => simp [Except.bind]
  | some x =>
    simp only [Option.some_or]
    split <;> rfl

theorem ArrInv.data_cells {a : Arr2 α} {f : C → Option α} (h : ArrInv L a f) :
    a.data = (List.range L.width).flatMap fun x => (List.range L.height).map fun y => f (L.coord x y) := by
  rw [flatMap_range_map (fun x y => f (L.coord x y)), h.data_eq]
  rfl

theorem zip_map_map {β γ δ : Type} (f : β → γ) (f' : β → δ) : ∀ l : List β, (l.map f).zip (l.map f') = l.map fun x => (f x, f' x)
  | [] => rfl
  | x :: l => by simp [zip_map_map f f' l]

theorem ArrInv.zip {a a' : Arr2 α} {f f' : C → Option α} (h : ArrInv L a f) (h' : ArrInv L' a' f')
    (hw : L'.width = L.width) (hh : L'.height = L.height) :
    a.data.zip a'.data = (List.range L.width).flatMap fun x => (List.range L.height).map fun y =>
      (f (L.coord x y), f' (L'.coord x y)) := by
  rw [h.data_cells, h'.data_cells, hw, hh, flatMap_range_map, flatMap_range_map, flatMap_range_map, zip_map_map]

theorem eqArrs_compared [DecidableEq E] (blk : Nat) (hw : L'.width = L.width) (hh : L'.height = L.height) :
    ∀ (es es' : List (Arr2 E)) (as : List A), EdgesInv L k.edge es as → EdgesInv L' k'.edge es' as →
    eqArrs blk es es' = compared (as.flatMap fun a => groupsOf blk (slotPairs L L' k k' a))
  | [], [], [], _, _ => rfl
  | [], _, _ :: _, h, _ => h.elim
  | _ :: _, _, [], h, _ => h.elim
  | _, [], _ :: _, _, h => h.elim
  | _, _ :: _, [], _, h => h.elim
  | b :: es, b' :: es', a :: as, h, h' => by
    rw [List.flatMap_cons, compared_append, ← eqArrs_compared blk hw hh es es' as h.2 h'.2, slotPairs, ← h.1.zip h'.1 hw hh,
      ← eqData_compared _ _ _ (by rw [h.1.len, h'.1.len, hw, hh])]
    simp only [eqArrs, Arr2.eq]
    rw [if_pos ⟨by rw [h.1.rows, h'.1.rows, hw], by rw [h.1.cols, h'.1.cols, hh]⟩]
    rfl

/-- **C23**: exactly what `==` answers for two graphs of the same type, for any two shapes and any contents. Sizes are compared
first, then node weights, then edge slots in storage order, missing edges included, `blk` at a time: the answer is `false` if a
difference between two weights comes in a group before the first slot that was never written, undefined behaviour if the group of
that slot comes first, and the answer of the shape's own `==` if there is neither. -/
theorem c23_eq_exact [DecidableEq N] [DecidableEq E] (hs : Storable s L rep) (hs' : Storable s' L' rep')
    (hax : L'.axes = L.axes) (hb : Built s L g k) (hb' : Built s' L' g' k') (blk : Nat) (same : Bool) :
    (¬ (L'.width = L.width ∧ L'.height = L.height) → g.eq blk g' same = .ok false) ∧
    (L'.width = L.width → L'.height = L.height →
      ((∃ x y, x < L.width ∧ y < L.height ∧ k.node (L.coord x y) ≠ k'.node (L'.coord x y)) → g.eq blk g' same = .ok false) ∧
      ((∀ x y, x < L.width → y < L.height → k.node (L.coord x y) = k'.node (L'.coord x y)) →
        g.eq blk g' same = (compared (slotGroups blk L L' k k')).map (· && same))) := by
  classical
  have hg := hs.good hb
  have hg' := hs'.good hb'
  refine ⟨fun hne => ?_, fun hw hh => ?_⟩
  · have : g.nodes.eq blk g'.nodes = .ok false := by
      rw [Arr2.eq, if_neg]
      rw [hg.inv.nodes.rows, hg'.inv.nodes.rows, hg.inv.nodes.cols, hg'.inv.nodes.cols]
      exact fun h => hne ⟨h.1.symm, h.2.symm⟩
    simp only [Graph.eq, this, bind, Except.bind, Bool.false_eq_true, if_false]
  · have full : ∀ {s : Shape C A D} {L : Lat C A D} {rep : C → Prop} {g : Graph C A D N E} {k : Contents C A N E},
        GoodBase s L rep g k → none ∉ g.nodes.data := by
      intro s L rep g k hg hm
      obtain ⟨c, hc, h⟩ := hg.inv.nodes.mem_data.1 hm
      obtain ⟨w, hw⟩ := hg.total.node_some hc
      rw [hw] at h; cases h
    have h1 : g.nodes.eq blk g'.nodes = .ok (decide (g.nodes.data = g'.nodes.data)) := by
      rw [Arr2.eq, if_pos ⟨by rw [hg.inv.nodes.rows, hg'.inv.nodes.rows, hw], by rw [hg.inv.nodes.cols, hg'.inv.nodes.cols, hh]⟩,
        eqData_init _ _ _ (full hg) (full hg') (by rw [hg.inv.nodes.len, hg'.inv.nodes.len, hw, hh])]
    have h2 : g.nodes.data = g'.nodes.data ↔
        ∀ x y, x < L.width → y < L.height → k.node (L.coord x y) = k'.node (L'.coord x y) := by
      rw [hg.inv.nodes.data_eq, hg'.inv.nodes.data_eq, hw, hh, List.map_inj_left]
      simp only [List.mem_range]
      constructor
      · intro h x y hx hy
        have := h _ (idx_lt hx hy)
        rwa [Lat.at_idx hy, ← hh, Lat.at_idx (L := L') (by rw [hh]; exact hy)] at this
      · intro h i hi
        have := h _ _ (div_lt_w hi) (mod_lt_h hi)
        show k.node (L.coord (i / L.height) (i % L.height)) = k'.node (L'.coord (i / L'.height) (i % L'.height))
        rw [hh]; exact this
    constructor
    · rintro ⟨x, y, hx, hy, hne⟩
      simp only [Graph.eq, h1, bind, Except.bind]
      rw [if_neg]
      rw [decide_eq_true_iff, h2]
      exact fun h => hne (h x y hx hy)
    · intro hn
      have h3 : eqArrs blk g.edges g'.edges = compared (slotGroups blk L L' k k') :=
        eqArrs_compared blk hw hh g.edges g'.edges L.axes hg.inv.edges (hax ▸ hg'.inv.edges)
      simp only [Graph.eq, h1, bind, Except.bind]
      rw [if_pos (by rw [decide_eq_true_iff, h2]; exact hn), h3,
        if_pos (by rw [hg.inv.edges.length, hg'.inv.edges.length, hax])]
      cases compared (slotGroups blk L L' k k') with
      | error e => rfl
      | ok b => cases b <;> rfl

/-- **C23**: on the crate's own shapes the answer is never `true` unless the graph is empty: two nonempty graphs either differ
before the first missing edge, or the comparison reads a slot that was never written. -/
theorem c23_eq_never_true [DecidableEq N] [DecidableEq E] (hs : Stored s L rep) (hb : Built s L g k) (hb' : Built s L g' k')
    (hw : 0 < L.width) (hh : 0 < L.height) (blk : Nat) (same : Bool) : g.eq blk g' same = .ok false ∨ g.eq blk g' same = .error .ub := by
  classical
  have h := (c23_eq_exact hs.storable hs.storable rfl hb hb' blk same).2 rfl rfl
  by_cases hn : ∀ x y, x < L.width → y < L.height → k.node (L.coord x y) = k'.node (L.coord x y)
  · rw [h.2 hn]
    have hne : compared (slotGroups blk L L k k') ≠ .ok true := by
      obtain ⟨c, a, ⟨x, y, hx, hy, rfl⟩, ha⟩ := hs.absent hw hh
      have hm : (none, none) ∈ slotPairs L L k k' a := by
        simp only [slotPairs, List.mem_flatMap, List.mem_map, List.mem_range]
        refine ⟨x, hx, y, hy, ?_⟩
        rw [(hs.good hb).total.edge_none ha, (hs.good hb').total.edge_none ha]
      obtain ⟨q, hq, hmq⟩ := mem_groupsOf blk hm
      intro he
      unfold compared at he
      cases hf : (slotGroups blk L L k k').find? fun q => q.any fun p => !(p.1.isSome && p.1 == p.2) with
      | none =>
        have := List.find?_eq_none.1 hf q (List.mem_flatMap.2 ⟨a, hs.base.dir.axes_mem a, hq⟩)
        exact this (List.any_eq_true.2 ⟨_, hmq, rfl⟩)
      | some q =>
        rw [hf] at he
        simp only at he
        split at he <;> cases he
    have hub : ∀ f, compared (slotGroups blk L L k k') = .error f → f = .ub := by
      intro f he
      unfold compared at he
      split at he
      · cases he
      · split at he <;> cases he
        rfl
    cases hc : compared (slotGroups blk L L k k') with
    | error f => right; rw [hub f hc]; rfl
    | ok b =>
      cases b with
      | true => exact absurd hc hne
      | false => left; rfl
  · left
    apply h.1
    apply Classical.byContradiction
    intro h'
    apply hn
    intro x y hx hy
    apply Classical.byContradiction
    exact fun he => h' ⟨x, y, hx, hy, he⟩

theorem hashArrs_full : ∀ (es : List (Arr2 E)) (as : List A), EdgesInv L k.edge es as →
    (∀ c a, a ∈ as → L.Node c → (k.edge c a).isSome) → hashArrs es = .ok (as.map fun a => L.nodes.filterMap fun c => k.edge c a)
  | [], [], _, _ => rfl
  | [], _ :: _, h, _ => h.elim
  | _ :: _, [], h, _ => h.elim
  | b :: es, a :: as, h, hall => by
    have hm : none ∉ b.data := by
      intro hm
      obtain ⟨c, hc, hn⟩ := h.1.mem_data.1 hm
      have := hall c a (by simp) hc
      rw [hn] at this; cases this
    simp only [hashArrs, hashData_eq, bind, Except.bind, hashArrs_full es as h.2 fun c a ha => hall c a (by simp [ha])]
    rw [if_neg hm, h.1.data_nodes, List.filterMap_map]
    rfl

/-- **C23**: exactly when `Clone` and `Hash` are defined, for every shape: if no edge is missing they copy the graph and feed the
hasher all node weights, then all edge weights, in storage order; as soon as one edge is missing they read a slot that was never
written. -/
theorem c23_clone_hash_exact (hs : Storable s L rep) (hb : Built s L g k) :
    ((∀ c a, L.Node c → L.HasEdge c a) → g.clone = .ok g ∧
      g.hash = .ok (L.nodes.filterMap k.node, L.axes.map fun a => L.nodes.filterMap fun c => k.edge c a)) ∧
    ((∃ c a, L.Node c ∧ ¬ L.HasEdge c a) → g.clone = .error .ub ∧ g.hash = .error .ub) := by
  classical
  have hg := hs.good hb
  have full : none ∉ g.nodes.data := by
    intro hm
    obtain ⟨c, hc, h⟩ := hg.inv.nodes.mem_data.1 hm
    obtain ⟨w, hw⟩ := hg.total.node_some hc
    rw [hw] at h; cases h
  have hn : g.nodes.clone = .ok g.nodes := by
    simp only [Arr2.clone, cloneData_eq, bind, Except.bind]
    rw [if_neg full]
  have hh : hashData g.nodes.data = .ok (L.nodes.filterMap k.node) := by
    rw [hashData_eq, if_neg full, hg.inv.nodes.data_nodes, List.filterMap_map]; rfl
  constructor
  · intro hall
    constructor
    · simp only [Graph.clone, hn, bind, Except.bind,
        (cloneArrs_eq hg.total g.edges L.axes hg.inv.edges).2 fun c a _ hc => hall c a hc]
    · simp only [Graph.hash, hh, bind, Except.bind,
        hashArrs_full g.edges L.axes hg.inv.edges fun c a _ hc => (hg.total.edge c a).2 (hall c a hc)]
  · rintro ⟨c, a, hc, ha⟩
    constructor
    · simp only [Graph.clone, hn, bind, Except.bind,
        (cloneArrs_eq hg.total g.edges L.axes hg.inv.edges).1 ⟨c, a, hs.base.dir.axes_mem a, hc, ha⟩]
    · simp only [Graph.hash, hh, bind, Except.bind,
        hashArrs_eq hg.total g.edges L.axes hg.inv.edges ⟨c, a, hs.base.dir.axes_mem a, hc, ha⟩]

/-- Example: on the 5 × 4 torus no edge is missing, so a graph can be cloned, hashed and compared with itself. -/
example : ∃ g : Graph Offset TorusAxis (Direction TorusAxis) Nat Nat, g.clone = .ok g ∧ (∃ r, g.hash = .ok r) ∧
    g.eq 8 g true = .ok true := by
  have hs := (c75_torus m64 5 4).storable
  obtain ⟨g, hg⟩ := c01_new_with (c75_torus m64 5 4) (by decide) (fun (u : Unit) c => (c.horizontal, u)) (fun u c _ => (c.vertical, u)) ()
  have hb := Built.new (L := torusLat 5 4) hg
  have hall : ∀ c a, (torusLat 5 4).Node c → (torusLat 5 4).HasEdge c a := fun c a hc => ⟨hc, by cases a <;> rfl⟩
  have h := (c23_clone_hash_exact hs hb).1 hall
  refine ⟨g, h.1, ⟨_, h.2⟩, ?_⟩
  rw [((c23_eq_exact hs hs rfl hb hb 8 true).2 rfl rfl).2 fun _ _ _ _ => rfl]
  rfl

/-- Example: two 3 × 2 square graphs with the same node weights. Edge `(1,0) → (2,0)` along x comes before the first missing edge
(column 2), so a difference there makes `==` answer `false`; a difference in `(0,0) → (0,1)` along y comes after it, and the
comparison is undefined behaviour. (Six slots are fewer than eight, so they are compared one by one; six at a time, the first
comparison would be undefined behaviour as well.) -/
example : ∃ g g1 g2 : Graph Offset SquareAxis DSquareAxis Nat Nat,
    g.modifyEdge ⟨1, 0⟩ .X (· + 1) = .ok (some g1) ∧ g.eq 8 g1 true = .ok false ∧ g.eq 6 g1 true = .error .ub ∧
    g.modifyEdge ⟨0, 0⟩ .Y (· + 1) = .ok (some g2) ∧ g.eq 8 g2 true = .error .ub := by
  obtain ⟨g, hb⟩ := exSquare
  have hs := Stored.sound (Sound.square m64 3 2)
  have hg := hs.good hb
  have hn : (squareLat 3 2).Node ⟨1, 0⟩ := ⟨1, 0, by decide, by decide, rfl⟩
  have hn' : (squareLat 3 2).Node ⟨0, 0⟩ := ⟨0, 0, by decide, by decide, rfl⟩
  rcases modifyEdge_eq (a := .X) hs.base hg.impl hg.inv hg.total (.inl hn) (· + 1) with ⟨g1, h1, _⟩ | ⟨_, h⟩
  · rcases modifyEdge_eq (a := .Y) hs.base hg.impl hg.inv hg.total (.inl hn') (· + 1) with ⟨g2, h2, _⟩ | ⟨_, h⟩
    · refine ⟨g, g1, g2, h1, ?_, ?_, h2, ?_⟩
      · rw [((c23_eq_exact hs.storable hs.storable rfl hb (.edge hb hn rfl h1) 8 true).2 rfl rfl).2 (fun _ _ _ _ => rfl)]
        rfl
      · rw [((c23_eq_exact hs.storable hs.storable rfl hb (.edge hb hn rfl h1) 6 true).2 rfl rfl).2 (fun _ _ _ _ => rfl)]
        rfl
      · rw [((c23_eq_exact hs.storable hs.storable rfl hb (.edge hb hn' rfl h2) 8 true).2 rfl rfl).2 (fun _ _ _ _ => rfl)]
        rfl
    · exact absurd ⟨hn', by decide⟩ h
  · exact absurd ⟨hn, by decide⟩ h

example : ∃ g : Graph Offset SquareAxis DSquareAxis Nat Nat, Built (squareShape m64 3 2) (squareLat 3 2) g exK ∧
    (g.eq 8 g true = .ok false ∨ g.eq 8 g true = .error .ub) := by
  obtain ⟨g, hb⟩ := exSquare
  exact ⟨g, hb, c23_eq_never_true (Stored.sound (Sound.square m64 3 2)) hb hb (by decide) (by decide) 8 true⟩

end
end LG
