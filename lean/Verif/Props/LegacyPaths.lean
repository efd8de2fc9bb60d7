import Verif.Props.Paths
import Verif.Props.LegacyBipartite
/- C113 on the deprecated `SquareGraph`. -/
set_option linter.unusedSectionVars false
namespace LG.Sq

/-- In how many ways one can go from `n` along `l`, choosing a direction for each step. -/
def Grid.routes (s : Grid) : NodeIx → List NodeIx → Nat
  | _, [] => 1
  | n, m :: l => (Grid.dirs.countP fun d => decide (s.step n d = some m)) * s.routes m l

theorem grid_routes (s : Grid) : ∀ (l : List NodeIx) (n : NodeIx), waysAlong s.nbrs n l = s.routes n l
  | [], _ => rfl
  | m :: l, n => by
    have e : (s.nbrs n).count m = Grid.dirs.countP fun d => decide (s.step n d = some m) := by
      unfold Grid.nbrs
      rw [List.count_filterMap]
      congr 1
      funext x
      rw [Bool.eq_iff_iff]
      simp only [beq_iff_eq, decide_eq_true_eq]
    simp only [waysAlong, Grid.routes, grid_routes s l, e]

section
variable {N E : Type} {g : G N E} {k : Cfg} {h v : Nat} {c : Contents NodeIx Axis N E}

theorem simple_paths_list (hb : Built k h v g c) (hf : k.Fits h v) {a b : NodeIx} (ha : (k.grid h v).Node a) {minI : Nat} {maxI : Option Nat}
    (hl : LimitsFit k.m minI maxI) (out : List (List NodeIx)) :
    SimplePaths g a b minI maxI out ↔ out = spList (k.grid h v).nbrs b (minI + 1) (pathLimit (h * v) maxI) [a] ((k.grid h v).nbrs a) := by
  have e : g.nodeCount = h * v := (c45_index_bijection_partial hb hf).1
  have hp : 1 ≤ h * v := Nat.mul_pos (by have : a.horizontal < h := ha.1; omega) (by have : a.vertical < v := ha.2; omega)
  have ek : g.k = k := hb.stores.cfg
  obtain ⟨maxL, e2, e3⟩ := pathBounds_fit hp hl
  have nodes : ∀ n, (k.grid h v).Node n → ∀ x ∈ (k.grid h v).nbrs n, (k.grid h v).Node x := fun n hn x hx => (c46_neighbors_nodes _ hn hx).1
  have run : SpRun (Nbrs.next g.k) (fun c => g.neighborsDirected c .outgoing) b (minI + 1) maxL [a] [g.neighborsDirected a .outgoing]
      (spList (k.grid h v).nbrs b (minI + 1) (pathLimit (h * v) maxI) [a] ((k.grid h v).nbrs a)) := by
    have := spRun_exists (next := Nbrs.next g.k) (start := fun c => g.neighborsDirected c .outgoing) (to := b) (minL := minI + 1) (maxL := maxL)
      (nb := (k.grid h v).nbrs) (Q := (k.grid h v).Node) (fun n hn => by rw [ek]; exact c46_neighbors hb hf hn) nodes
      (pathLimit (h * v) maxI) [a] ((k.grid h v).nbrs a) (g.neighborsDirected a .outgoing) [] [] (by simpa using e3)
      (by rw [ek]; exact c46_neighbors hb hf ha) (nodes a ha) .done
    simpa using this
  constructor
  · rintro ⟨minL, maxL', h1, h2⟩
    rw [e, ek, e2] at h1
    cases h1
    exact h2.unique run
  · rintro rfl
    exact ⟨_, _, by rw [e, ek]; exact e2, run⟩

/-- **C113.** On the deprecated `SquareGraph` as well `all_simple_paths` runs to its end and always returns the same list. -/
theorem c113_legacy_runs (hb : Built k h v g c) (hf : k.Fits h v) {a : NodeIx} (ha : (k.grid h v).Node a) (b : NodeIx) {minI : Nat} {maxI : Option Nat}
    (hl : LimitsFit k.m minI maxI) : ∃ out, SimplePaths g a b minI maxI out ∧ ∀ out', SimplePaths g a b minI maxI out' → out' = out :=
  ⟨_, (simple_paths_list hb hf ha hl _).2 rfl, fun _ h => (simple_paths_list hb hf ha hl _).1 h⟩

/-- **C113.** It returns every path from `a` to `b` that repeats no node on the way and has as many nodes between its ends as asked for, once
for each choice of directions along it; nothing else. -/
theorem c113_legacy_exact (hb : Built k h v g c) (hf : k.Fits h v) {a b : NodeIx} (ha : (k.grid h v).Node a) {minI : Nat} {maxI : Option Nat}
    (hl : LimitsFit k.m minI maxI) {out : List (List NodeIx)} (ho : SimplePaths g a b minI maxI out) :
    (∀ K ∈ out, ∃ mid, K = a :: (mid ++ [b])) ∧
    ∀ mid, out.count (a :: (mid ++ [b])) =
      if (a :: mid).Nodup ∧ b ∉ mid ∧ minI ≤ mid.length ∧ mid.length ≤ pathLimit (h * v) maxI then (k.grid h v).routes a (mid ++ [b]) else 0 := by
  rw [(simple_paths_list hb hf ha hl out).1 ho]
  refine ⟨fun K hK => ?_, fun mid => ?_⟩
  · obtain ⟨mid, h, -⟩ := (mem_spList _ [a] a K (by simp)).1 hK
    exact ⟨mid, by simpa using h⟩
  · split
    · rename_i h'
      obtain ⟨h1, h2, h3, h4⟩ := h'
      rw [List.nodup_cons] at h1
      have := count_spList (nb := (k.grid h v).nbrs) (minL := minI + 1) (to := b) (pathLimit (h * v) maxI) [a] a mid
        (fun m hm e => h1.1 (List.mem_singleton.1 e ▸ hm)) h1.2 h2 (by simp; omega) h4
      rw [grid_routes] at this
      simpa using this
    · rename_i h'
      refine List.count_eq_zero.2 fun hK => h' ?_
      obtain ⟨mid', e, -, h1, h2, h3, h4, h5⟩ := (mem_spList _ [a] a _ (by simp)).1 hK
      have e : mid = mid' := by
        simp only [List.cons_append, List.nil_append, List.cons.injEq, true_and] at e
        exact List.append_cancel_right e
      subst e
      exact ⟨List.nodup_cons.2 ⟨fun hm => h1 a hm (by simp), h2⟩, h3, by simp at h4; omega, h5⟩

theorem along_apart {loop : Bool} {n x : Nat} (hx : x < n) (hn : loop = false ∨ 3 ≤ n) {y z : Nat} :
    (along loop n x 1 = some y → y ≠ x) ∧ (along loop n x (-1) = some y → y ≠ x) ∧ (along loop n x 1 = some y → along loop n x (-1) = some z → y ≠ z) := by
  rw [along_fwd hx, along_bwd hx]
  cases loop with
  | false =>
    refine ⟨fun h1 => ?_, fun h2 => ?_, fun h1 h2 => ?_⟩ <;> simp only [Bool.false_eq_true, if_false, ite_not] at *
    · split at h1
      · cases h1; omega
      · cases h1
    · split at h2
      · cases h2
      · cases h2; omega
    · split at h1
      · split at h2
        · cases h2
        · cases h1; cases h2; omega
      · cases h1
  | true =>
    have h3 : 3 ≤ n := hn.resolve_left (by decide)
    refine ⟨fun h1 => ?_, fun h2 => ?_, fun h1 h2 => ?_⟩ <;> simp only [if_true, ite_not] at *
    · split at h1 <;> cases h1 <;> omega
    · split at h2 <;> cases h2 <;> omega
    · split at h1 <;> split at h2 <;> cases h1 <;> cases h2 <;> omega

theorem grid_one_way (hh : k.loopH = false ∨ 3 ≤ h) (hv : k.loopV = false ∨ 3 ≤ v) {n y : NodeIx} (hn : (k.grid h v).Node n) {d d' : Dir}
    (h1 : (k.grid h v).step n d = some y) (h2 : (k.grid h v).step n d' = some y) : d = d' := by
  have ah := fun (y z : Nat) => along_apart (loop := k.loopH) (n := h) (x := n.horizontal) hn.1 hh (y := y) (z := z)
  have av := fun (y z : Nat) => along_apart (loop := k.loopV) (n := v) (x := n.vertical) hn.2 hv (y := y) (z := z)
  rcases d with (_ | _) | (_ | _) <;> rcases d' with (_ | _) | (_ | _) <;> first
    | rfl
    | (obtain ⟨x1, e1, rfl⟩ := Option.map_eq_some_iff.1 h1
       obtain ⟨x2, e2, e3⟩ := Option.map_eq_some_iff.1 h2
       rw [NodeIx.mk.injEq] at e3
       obtain ⟨e3, e4⟩ := e3
       first
         | exact absurd e3.symm ((ah _ _).2.2 e1 e2)
         | exact absurd e3 ((ah _ _).2.2 e2 e1)
         | exact absurd e4.symm ((av _ _).2.2 e1 e2)
         | exact absurd e4 ((av _ _).2.2 e2 e1)
         | exact absurd e3.symm ((ah _ 0).1 e1)
         | exact absurd e3.symm ((ah _ 0).2.1 e1)
         | exact absurd e3 ((ah _ 0).1 e2)
         | exact absurd e3 ((ah _ 0).2.1 e2))

/-- **C113.** No path is returned twice, unless an axis is looped over two nodes or one. -/
theorem c113_legacy_once (hb : Built k h v g c) (hf : k.Fits h v) (hh : k.loopH = false ∨ 3 ≤ h) (hv : k.loopV = false ∨ 3 ≤ v) {a b : NodeIx}
    (ha : (k.grid h v).Node a) {minI : Nat} {maxI : Option Nat} (hl : LimitsFit k.m minI maxI) {out : List (List NodeIx)}
    (ho : SimplePaths g a b minI maxI out) : out.Nodup := by
  rw [(simple_paths_list hb hf ha hl out).1 ho]
  exact nodup_spList (Q := (k.grid h v).Node) (fun n hn x hx => (c46_neighbors_nodes _ hn hx).1)
    (fun n hn => nodup_filterMap_of_inj (by decide) fun d _ d' _ y e e' => grid_one_way hh hv hn e e') _ [a] a ha (by simp)

/-- **C113.** With the default limits none is left out: the paths from `a` to another node `b` are all sequences of distinct nodes from `a` to
`b` of which each has the next among its neighbors. -/
theorem c113_legacy_all (hb : Built k h v g c) (hf : k.Fits h v) {a b : NodeIx} (ha : (k.grid h v).Node a) (hab : a ≠ b)
    (hm : 1 < 2 * k.m.half) {out : List (List NodeIx)} (ho : SimplePaths g a b 0 none out) (mid : List NodeIx) :
    a :: (mid ++ [b]) ∈ out ↔ (a :: (mid ++ [b])).Nodup ∧ (k.grid h v).routes a (mid ++ [b]) ≠ 0 := by
  have h1 := (c113_legacy_exact hb hf ha (minI := 0) (maxI := none) ⟨hm, fun _ e => nomatch e⟩ ho).2 mid
  have h2 : (a :: (mid ++ [b])).Nodup ↔ (a :: mid).Nodup ∧ b ∉ mid := by
    simp only [List.nodup_cons, List.mem_append, List.mem_cons, List.not_mem_nil, or_false, not_or, List.nodup_append, List.nodup_nil, not_false_eq_true, and_true]
    constructor
    · rintro ⟨⟨h3, -⟩, h4, -, h5⟩
      exact ⟨⟨h3, h4⟩, fun h => h5 b h b rfl rfl⟩
    · rintro ⟨⟨h3, h4⟩, h5⟩
      exact ⟨⟨h3, hab⟩, h4, trivial, fun x hx y hy e => h5 (hy ▸ e ▸ hx)⟩
  have h3 : ∀ (l : List NodeIx) (n : NodeIx), (k.grid h v).Node n → (k.grid h v).routes n l ≠ 0 → ∀ x ∈ n :: l, (k.grid h v).Node x := by
    intro l
    induction l with
    | nil => intro n hn _; simpa using hn
    | cons m l ih =>
      intro n hn hr x hx
      rcases List.mem_cons.1 hx with rfl | hx
      · exact hn
      · have h5 : (k.grid h v).routes m l ≠ 0 := fun h0 => hr (by rw [Grid.routes, h0, Nat.mul_zero])
        have h6 : (Grid.dirs.countP fun d => decide ((k.grid h v).step n d = some m)) ≠ 0 := fun h0 => hr (by rw [Grid.routes, h0, Nat.zero_mul])
        rw [Ne, List.countP_eq_zero] at h6
        obtain ⟨d, hd⟩ := Classical.not_forall.1 h6
        have hd : (k.grid h v).step n d = some m := by simpa using (Classical.not_imp.1 hd).2
        exact ih m (Grid.step_node hn hd) h5 x hx
  rw [h2, ← List.count_pos_iff, h1]
  constructor
  · intro h4
    split at h4
    · rename_i h5
      exact ⟨⟨h5.1, h5.2.1⟩, by omega⟩
    · omega
  · rintro ⟨h4, h5⟩
    have h6 := (h2.2 h4).length_le_of_subset (l₂ := (k.grid h v).nodes) fun x hx => ((c45_nodes_exact _).2.1 x).2 (h3 _ a ha h5 x hx)
    have h7 : (k.grid h v).nodes.length = h * v := (c45_nodes_exact _).2.2
    rw [h7] at h6
    simp only [List.length_cons, List.length_append, List.length_nil] at h6
    rw [if_pos ⟨h4.1, h4.2, Nat.zero_le _, by simp only [pathLimit]; omega⟩]
    omega

/-- On the 3 × 2 grid whose rows are looped: from corner to corner one path goes round, and nothing is listed twice. -/
example : ∃ (g : G Nat Nat) (c : Contents NodeIx Axis Nat Nat) (out : List (List NodeIx)), Built exCfg 3 2 g c ∧ SimplePaths g ⟨0, 0⟩ ⟨2, 1⟩ 0 none out ∧
    [⟨0, 0⟩, ⟨2, 0⟩, ⟨2, 1⟩] ∈ out ∧ out.Nodup ∧ ∀ K ∈ out, ∃ mid, K = ⟨0, 0⟩ :: (mid ++ [⟨2, 1⟩]) := by
  obtain ⟨g, c, hb, -⟩ := exGraph exCfg (by decide)
  have hf : exCfg.Fits 3 2 := ⟨by decide, by decide⟩
  have h0 : (exCfg.grid 3 2).Node ⟨0, 0⟩ := ⟨by decide, by decide⟩
  have hl : LimitsFit exCfg.m 0 none := ⟨by decide, fun _ e => nomatch e⟩
  obtain ⟨out, ho, -⟩ := c113_legacy_runs hb hf h0 ⟨2, 1⟩ hl
  exact ⟨g, c, out, hb, ho, (c113_legacy_all hb hf h0 (by decide) (by decide) ho [⟨2, 0⟩]).2 ⟨by decide, by decide⟩,
    c113_legacy_once hb hf (.inr (by decide)) (.inl rfl) h0 hl ho, (c113_legacy_exact hb hf h0 hl ho).1⟩
end
end LG.Sq
