import Verif.Lemmas.Dsatur
import Verif.Props.LegacyArticulation
import Verif.Props.LegacyBipartite
/- C122 for the deprecated `SquareGraph`. -/
namespace LG.Sq
section
variable {N E : Type}
variable {g : G N E} {k : Cfg} {h v : Nat} {c : Contents NodeIx Axis N E}

theorem identifier_ids (hb : Built k h v g c) (hf : k.Fits h v) : (k.grid h v).nodes.mapM g.toIndex = .ok (List.range' 0 (h * v)) := by
  obtain ⟨-, h1⟩ := c45_node_references hb hf
  have h2 := mst_nodes hb hf
  rw [← h1, List.mapM_map]
  exact h2

theorem dsStart_iff (hb : Built k h v g c) (hf : k.Fits h v) {deg : Nat → Nat} {st : DsSt} :
    g.DsStart deg st ↔ LG.DsStart (sqTo g) (List.range' 0 (h * v)) deg st := by
  have hy : Yields (NodeIndices.next g.k) (.new g.horizontalNodeCount g.verticalNodeCount) (k.grid h v).nodes := by
    rw [hb.stores.cfg]; exact c45_node_identifiers_partial hb hf
  constructor
  · rintro ⟨cs, ids, h2, h3, h4⟩
    rw [Yields.unique h2 hy, identifier_ids hb hf] at h3
    cases h3
    exact h4
  · exact fun h => ⟨_, _, hy, identifier_ids hb hf, h⟩

theorem node_back (hb : Built k h v g c) (hf : k.Fits h v) {i : Nat} (hi : i < h * v) :
    g.fromIndex i = .ok ((k.grid h v).nodes[i]?.getD ⟨0, 0⟩) ∧ (k.grid h v).Node ((k.grid h v).nodes[i]?.getD ⟨0, 0⟩) ∧
      nodeIdx g ((k.grid h v).nodes[i]?.getD ⟨0, 0⟩) = i := by
  obtain ⟨n, h1, h2, h3⟩ := (c45_index_bijection_partial hb hf).2.1 i hi
  have hn := ((c45_nodes_exact (k.grid h v)).2.1 n).1 (List.mem_of_getElem? h1)
  rw [nodeIdx_eq hb hf hn] at h3
  rw [h1]
  exact ⟨h2, hn, Except.ok.inj h3⟩

theorem back_nodeIdx (hb : Built k h v g c) (hf : k.Fits h v) {n : NodeIx} (hn : (k.grid h v).Node n) :
    (k.grid h v).nodes[nodeIdx g n]?.getD ⟨0, 0⟩ = n := by
  obtain ⟨-, h1, h2⟩ := node_back hb hf ((indexed hb hf).lt hn)
  exact (indexed hb hf).inj h1 hn h2

theorem dsColors (hb : Built k h v g c) (hf : k.Fits h v) {deg : Nat → Nat} {st : DsSt} (hv : DsInv (apAdj g (k.grid h v)) (h * v) deg st) :
    st.colored.mapM (fun p => do return (← g.fromIndex p.1, p.2)) = .ok (st.colored.map fun p => ((k.grid h v).nodes[p.1]?.getD ⟨0, 0⟩, p.2)) :=
  mapM_ok _ fun p hp => by
    rw [(node_back hb hf (hv.lt p.1 (by rw [← hv.seen]; exact List.mem_map.2 ⟨p, hp, rfl⟩))).1]
    rfl

/-- **C122.** `dsatur_coloring` on a `SquareGraph`: there is a result, every state it comes to can be brought to the end, and it never
goes on forever. -/
theorem c122_legacy_runs (hb : Built k h v g c) (hf : k.Fits h v) :
    (∃ out num, g.Dsatur out num) ∧ ∀ deg st, g.DsStart deg st →
      (∀ st', DsSteps (sqTo g) g.nodeCount deg st st' →
        ∃ st'' out, DsSteps (sqTo g) g.nodeCount deg st' st'' ∧ st''.heap = [] ∧ g.Dsatur out (st''.top + 1)) ∧
      ∀ run : Nat → DsSt, run 0 = st → ¬ ∀ i, DsStep (sqTo g) g.nodeCount deg (run i) (run (i + 1)) := by
  have hg := ap_graph hb hf
  have hc := (c45_index_bijection_partial hb hf).1
  have key : ∀ deg st, g.DsStart deg st → ∀ st', DsSteps (sqTo g) g.nodeCount deg st st' →
      ∃ st'' out, DsSteps (sqTo g) g.nodeCount deg st' st'' ∧ st''.heap = [] ∧ g.Dsatur out (st''.top + 1) := fun deg st h0 st' h => by
    have h1 := (dsStart_iff hb hf).1 h0
    have h' := h
    rw [hc] at h'
    have hv := h'.inv hg (.start h1)
    obtain ⟨st'', h2, h3⟩ := ds_completes hg hv
    have h2' := h2
    rw [← hc] at h2'
    exact ⟨st'', _, h2', h3, _, _, _, h0, h.trans h2', h3, dsColors hb hf (h2.inv hg hv), rfl⟩
  refine ⟨?_, fun deg st h0 => ⟨key deg st h0, fun run hr => ?_⟩⟩
  · have h0 : g.DsStart (fun i => (apAdj g (k.grid h v) i).length) _ := (dsStart_iff hb hf).2 ⟨fun i hi =>
      ⟨_, (hg.lists i (by rw [List.mem_range'_1] at hi; omega) _).2 rfl, rfl⟩, rfl⟩
    obtain ⟨st, out, -, -, h⟩ := key _ _ h0 _ .refl
    exact ⟨out, _, h⟩
  · rw [hc]
    exact ds_ends hg (.start (nb := apAdj g (k.grid h v)) ((dsStart_iff hb hf).1 h0)) run hr

/-- **C122.** The result on a `SquareGraph`. -/
theorem c122_legacy (hb : Built k h v g c) (hf : k.Fits h v) {out : List (NodeIx × Nat)} {num : Nat} (hd : g.Dsatur out num) :
    Colouring (Walk g · 1 ·) (k.grid h v).Node out num := by
  have hg := ap_graph hb hf
  obtain ⟨deg, st, st', h0, h1, h2, h3, rfl⟩ := hd
  rw [(c45_index_bijection_partial hb hf).1] at h1
  have hv := h1.inv hg (.start ((dsStart_iff hb hf).1 h0))
  rw [dsColors hb hf hv] at h3
  rw [← Except.ok.inj h3]
  exact hv.colouring hg (indexed hb hf) (R := (Walk g · 1 ·)) (fun u t hu h => walk_one_node hb hf hu h) (fun u hu => mem_apAdj hb hf hu)
    (back := fun i => (k.grid h v).nodes[i]?.getD ⟨0, 0⟩) (fun i hi => (node_back hb hf hi).2) h2

theorem dsatur_two (hb : Built k h v g c) (hf : k.Fits h v) {out : List (NodeIx × Nat)} {num : Nat} (hd : g.Dsatur out num) :
    num ≤ 2 ↔ ∃ f : NodeIx → Bool, ∀ a b, (k.grid h v).Node a → Walk g a 1 b → a ≠ b → f a ≠ f b := by
  refine ⟨(c122_legacy hb hf hd).classes fun u t hu h => walk_one_node hb hf hu h, ?_⟩
  rintro ⟨f, hff⟩
  obtain ⟨deg, st, st', h0, h1, -, -, rfl⟩ := hd
  rw [(c45_index_bijection_partial hb hf).1] at h1
  have := ds_two (ap_graph hb hf) (f := fun i => f ((k.grid h v).nodes[i]?.getD ⟨0, 0⟩)) (fun i hi j hj hne => by
    obtain ⟨n, hn, rfl⟩ := (indexed hb hf).onto hi
    obtain ⟨t, h2, rfl⟩ := (mem_apAdj hb hf hn j).1 hj
    have ht := walk_one_node hb hf hn h2
    rw [back_nodeIdx hb hf ht, back_nodeIdx hb hf hn]
    exact hff _ _ hn h2 fun e => hne (by rw [e])) ((dsStart_iff hb hf).1 h0) h1
  omega

/-- Round a circle the two colours take turns. -/
theorem circle_even {f : Nat → Bool} {n : Nat} (hstep : ∀ i, i + 1 < n → f i ≠ f (i + 1)) (hlast : n ≠ 1 → f (n - 1) ≠ f 0) : n % 2 = 0 ∨ n = 1 := by
  have key : ∀ i, i < n → f i = if i % 2 = 0 then f 0 else !f 0 := by
    intro i
    induction i with
    | zero => exact fun _ => by simp
    | succ i ih =>
      intro hi
      have h1 := ih (by omega)
      have h2 := hstep i hi
      by_cases h3 : i % 2 = 0
      · rw [if_neg (by omega)]
        rw [if_pos h3] at h1
        rw [h1] at h2
        revert h2
        cases f 0 <;> cases f (i + 1) <;> decide
      · rw [if_pos (by omega)]
        rw [if_neg h3] at h1
        rw [h1] at h2
        revert h2
        cases f 0 <;> cases f (i + 1) <;> decide
  refine Classical.byContradiction fun hne => ?_
  have h1 := key (n - 1) (by omega)
  rw [if_pos (by omega)] at h1
  exact hlast (fun e => hne (.inr e)) h1

/-- **C122.** The number of colours of a `SquareGraph`: one if it has a single node or none, two if each looped side is even or of length
one, and at least three otherwise; never more than five. -/
theorem c122_legacy_number (hb : Built k h v g c) (hf : k.Fits h v) {out : List (NodeIx × Nat)} {num : Nat} (hd : g.Dsatur out num) :
    (num = 1 ↔ h * v ≤ 1) ∧
    (0 < h → 0 < v → (num ≤ 2 ↔ (k.loopH = true → h % 2 = 0 ∨ h = 1) ∧ (k.loopV = true → v % 2 = 0 ∨ v = 1))) ∧ num ≤ 5 := by
  have hcol := c122_legacy hb hf hd
  have hnode : ∀ x y, (k.grid h v).Node ⟨x, y⟩ ↔ x < h ∧ y < v := fun x y => Iff.rfl
  have hadj : ∀ {a b}, (k.grid h v).Node a → (Walk g a 1 b ↔ ∃ d, (k.grid h v).step a d = some b) := fun {a b} ha =>
    (walk_one hb hf ha).trans mem_nbrs_step
  have right : ∀ {x y}, x + 1 < h → y < v → Walk g ⟨x, y⟩ 1 ⟨x + 1, y⟩ := fun {x y} hx hy =>
    (hadj ((hnode _ _).2 ⟨by omega, hy⟩)).2 ⟨.foward .horizontal, by
      simp only [Grid.step]
      rw [along_fwd (show x < (k.grid h v).h from by show x < h; omega), if_pos (show x + 1 < (k.grid h v).h from hx)]; rfl⟩
  have up : ∀ {x y}, x < h → y + 1 < v → Walk g ⟨x, y⟩ 1 ⟨x, y + 1⟩ := fun {x y} hx hy =>
    (hadj ((hnode _ _).2 ⟨hx, by omega⟩)).2 ⟨.foward .vertical, by
      simp only [Grid.step]
      rw [along_fwd (show y < (k.grid h v).v from by show y < v; omega), if_pos (show y + 1 < (k.grid h v).v from hy)]; rfl⟩
  refine ⟨?_, fun hh hv => ?_, ?_⟩
  · rw [hcol.one_iff fun u t hu h => walk_one_node hb hf hu h]
    constructor
    · intro hno
      refine Classical.byContradiction fun hgt => ?_
      have p1 : 0 < h := Nat.pos_of_ne_zero fun e => hgt (by rw [e, Nat.zero_mul]; exact Nat.zero_le _)
      have p2 : 0 < v := Nat.pos_of_ne_zero fun e => hgt (by rw [e, Nat.mul_zero]; exact Nat.zero_le _)
      by_cases hh1 : 1 < h
      · exact absurd (congrArg NodeIx.horizontal (hno ⟨0, 0⟩ _ ((hnode _ _).2 ⟨p1, p2⟩) (right hh1 p2))) (by simp only; omega)
      · have : h = 1 := by omega
        subst this
        exact absurd (congrArg NodeIx.vertical (hno ⟨0, 0⟩ _ ((hnode _ _).2 ⟨p1, p2⟩) (up p1 (by omega)))) (by simp only; omega)
    · intro hle a b ha hab
      have hbn := walk_one_node hb hf ha hab
      have g1 := (indexed hb hf).lt ha
      have g2 := (indexed hb hf).lt hbn
      exact (indexed hb hf).inj ha hbn (by omega)
  · rw [dsatur_two hb hf hd]
    constructor
    · rintro ⟨f, hff⟩
      constructor
      · intro hL
        refine circle_even (f := fun x => f ⟨x, 0⟩) (fun i hi => hff _ _ ((hnode _ _).2 ⟨by omega, hv⟩) (right hi hv) fun e =>
          absurd (congrArg NodeIx.horizontal e) (by simp only; omega)) fun hne => hff _ _ ((hnode _ _).2 ⟨by omega, hv⟩) ?_ fun e =>
          absurd (congrArg NodeIx.horizontal e) (by simp only; omega)
        refine (hadj ((hnode _ _).2 ⟨by omega, hv⟩)).2 ⟨.foward .horizontal, ?_⟩
        simp only [Grid.step]
        rw [along_fwd (show h - 1 < (k.grid h v).h from by show h - 1 < h; omega), if_neg (show ¬ h - 1 + 1 < (k.grid h v).h from by show ¬ h - 1 + 1 < h; omega),
          if_pos (show (k.grid h v).loopH = true from hL)]; rfl
      · intro hL
        refine circle_even (f := fun y => f ⟨0, y⟩) (fun i hi => hff _ _ ((hnode _ _).2 ⟨hh, by omega⟩) (up hh hi) fun e =>
          absurd (congrArg NodeIx.vertical e) (by simp only; omega)) fun hne => hff _ _ ((hnode _ _).2 ⟨hh, by omega⟩) ?_ fun e =>
          absurd (congrArg NodeIx.vertical e) (by simp only; omega)
        refine (hadj ((hnode _ _).2 ⟨hh, by omega⟩)).2 ⟨.foward .vertical, ?_⟩
        simp only [Grid.step]
        rw [along_fwd (show v - 1 < (k.grid h v).v from by show v - 1 < v; omega), if_neg (show ¬ v - 1 + 1 < (k.grid h v).v from by show ¬ v - 1 + 1 < v; omega),
          if_pos (show (k.grid h v).loopV = true from hL)]; rfl
    · rintro ⟨h1, h2⟩
      refine ⟨fun n => alternating (n.horizontal + n.vertical), fun a b ha hab hne => alternating_ne ?_⟩
      obtain ⟨d, hd⟩ := (hadj ha).1 hab
      obtain ⟨p, q⟩ := id ha
      have ep : (k.grid h v).h = h := rfl
      have eq : (k.grid h v).v = v := rfl
      have eH : (k.grid h v).loopH = k.loopH := rfl
      have eV : (k.grid h v).loopV = k.loopV := rfl
      rcases a with ⟨x, y⟩
      rcases d with (_ | _) | (_ | _) <;> simp only [Grid.step, along_fwd p, along_fwd q, along_bwd p, along_bwd q, Option.map_eq_some_iff] at hd <;>
        obtain ⟨z, hz, rfl⟩ := hd <;> split at hz
      all_goals simp only [ep, eq, eH, eV] at *
      all_goals simp only [NodeIx.mk.injEq, and_true, true_and, ne_eq] at hne
      all_goals first
        | (cases hz; omega)
        | (split at hz
           · next hL =>
             cases hz
             first | (have := h1 hL; omega) | (have := h2 hL; omega)
           · cases hz)
  · refine Classical.byContradiction fun hgt => ?_
    rcases hcol.top with ⟨-, e⟩ | ⟨u, hu, -⟩
    · omega
    · obtain ⟨a, l, h1, h2, h3, h4⟩ := hcol.degree ⟨u, (hcol.all u).1 (List.mem_map.2 ⟨_, hu, rfl⟩)⟩
      have := h2.length_le_of_subset (l₂ := (k.grid h v).nbrs a) fun t ht => (walk_one hb hf h1).1 (h4 t ht).1
      have h5 : ((k.grid h v).nbrs a).length ≤ 4 := by
        unfold Grid.nbrs
        exact Nat.le_trans (List.length_filterMap_le _ _) (by decide)
      omega
end

/-! ### Cases -/

/-- The 3 × 2 grid of `exCfg`. -/
example : ∃ (g : G Nat Nat) (out : List (NodeIx × Nat)) (num : Nat), g.Dsatur out num ∧ num ≠ 1 ∧
    Colouring (Walk g · 1 ·) (exCfg.grid 3 2).Node out num := by
  obtain ⟨g, c, hb, _⟩ := exGraph exCfg (by decide)
  have hf : exCfg.Fits 3 2 := ⟨by decide, by decide⟩
  obtain ⟨⟨out, num, hd⟩, -⟩ := c122_legacy_runs hb hf
  exact ⟨g, out, num, hd, fun e => absurd ((c122_legacy_number hb hf hd).1.1 e) (by decide), c122_legacy hb hf hd⟩
/-- A circle of three nodes needs three colours. -/
example : ∃ (g : G Nat Nat) (out : List (NodeIx × Nat)) (num : Nat), g.Dsatur out num ∧ 3 ≤ num := by
  obtain ⟨g, h1, _⟩ := newWith_ok (N := Nat) (E := Nat) { exCfg with loopH := true, loopV := false } (h := 3) (v := 1) (by decide) (by decide)
    (by decide) (fun u i j => (10 * i + j, u)) (fun u i j a => ((if a = .horizontal then 100 else 200) + 10 * i + j, u)) ()
  have hf : ({ exCfg with loopH := true, loopV := false } : Cfg).Fits 3 1 := ⟨by decide, by decide⟩
  have hb := Built.new h1 (by decide)
  obtain ⟨⟨out, num, hd⟩, -⟩ := c122_legacy_runs hb hf
  refine ⟨g, out, num, hd, Nat.lt_of_not_le fun hle => ?_⟩
  rcases (((c122_legacy_number hb hf hd).2.1 (by decide) (by decide)).1 hle).1 rfl with h | h <;> exact absurd h (by decide)
end LG.Sq
