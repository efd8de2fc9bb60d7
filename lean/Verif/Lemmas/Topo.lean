import Verif.Lemmas.Scc
/- `kosaraju_scc`, `toposort` and `has_path_connecting` over any graph whose methods behave, the direction given to
`neighbors_directed` being ignored. -/
set_option linter.unusedSectionVars false
namespace LG
section
variable {C M : Type} [DecidableEq C] {T : Rovable C M}
variable {nodes : List C} {Ok : C → Prop} {nb : C → List C} {Vis : M → (C → Bool) → Prop} {nbr : C → List C → Prop}

theorem closed_empty : Saturated nodes nb (fun _ => false) := fun _ h => nomatch h

/-! ### Strongly connected components -/

/-- Nodes that lead to each other are never separated. -/
theorem GroupsAre.together : ∀ {gs : List (List C)} {S : C → Bool}, GroupsAre nodes nb S gs → (∀ x y, S x = true → Reached (within nodes nb) x y → S y = true) →
    ∀ {l : List C}, l ∈ gs → ∀ {a b : C}, a ∈ l → Reached (within nodes nb) a b → Reached (within nodes nb) b a → b ∈ l
  | [], _, _, _, _, h, _, _, _, _, _ => by simp at h
  | k :: gs, S, ⟨⟨r, hr, hk⟩, hg⟩, hS, l, hl, a, b, ha, hab, hba => by
    rcases List.mem_cons.1 hl with rfl | hl
    · obtain ⟨h1, h2⟩ := (hk a).1 ha
      refine (hk b).2 ⟨h1.trans hab, ?_⟩
      cases h : S b with
      | false => rfl
      | true => rw [hS b a h hba] at h2; cases h2
    · refine hg.together (fun x y hx hxy => ?_) hl ha hab hba
      simp only [Bool.or_eq_true, decide_eq_true_eq] at hx ⊢
      rcases hx with hx | hx
      · exact .inl (hS x y hx hxy)
      · cases h : S y with
        | true => exact .inl rfl
        | false => exact .inr ((hk y).2 ⟨((hk x).1 hx).1.trans hxy, h⟩)

/-- All of a group is within reach of its first node. -/
theorem GroupsAre.head : ∀ {gs : List (List C)} {S : C → Bool}, GroupsAre nodes nb S gs →
    ∀ {l : List C}, l ∈ gs → ∃ r, l.head? = some r ∧ ∀ c ∈ l, Reached (within nodes nb) r c
  | [], _, _, _, h => by simp at h
  | _ :: _, _, ⟨⟨r, hr, hk⟩, hg⟩, _, hl => by
    rcases List.mem_cons.1 hl with rfl | hl
    · exact ⟨r, hr, fun c hc => ((hk c).1 hc).1⟩
    · exact hg.head hl

/-- If the groups of the second phase are strongly connected, nothing leads from a root to a node that does not lead back:
`R` is the order of the roots, the reverse of a post-order along the same edges. -/
theorem groups_right (hT : Roams T nodes Ok nb Vis) (hnb : ∀ {c}, c ∈ nodes → nbr c (nb c)) (hu : ∀ {c l l'}, nbr c l → nbr c l' → l = l')
    {R : List C} (hRn : R.Nodup) (hR : ∀ {r1 r2 c y}, R = r1 ++ c :: r2 → Reached (within nodes nb) c y →
      y ∈ r2 ∨ y = c ∨ ∃ z ∈ r1, Reached (within nodes nb) c z ∧ Reached (within nodes nb) z c) :
    ∀ (is done : List C) {S : C → Bool} {d : M} {gs : List (List C)}, R = done ++ is → (∀ i ∈ is, i ∈ nodes) → (∀ x ∈ done, S x = true) →
      (∀ x, S x = true → ∃ h ∈ done, Reached (within nodes nb) h x ∧ Reached (within nodes nb) x h) → Vis d S → Saturated nodes nb S →
      Groups T nbr is d gs → (∀ l ∈ gs, ∀ a ∈ l, ∀ b ∈ l, Reached (within nodes nb) a b) →
      ∀ l ∈ gs, ∃ i ∈ l, ∀ y, Reached (within nodes nb) i y → Reached (within nodes nb) y i
  | [], _, _, _, _, _, _, _, _, _, _, h, _ => by cases h; simp
  | i :: is, done, S, d, gs, hRe, hn, hd, hS, hv, hcl, h, hgood => by
    have hi : i ∈ nodes := hn i (by simp)
    have hn' : ∀ j ∈ is, j ∈ nodes := fun j hj => hn j (by simp [hj])
    have hRe' : R = (done ++ [i]) ++ is := by rw [hRe]; simp
    have hvis := hT.isVisited hv (hT.node_ok hi)
    cases h with
    | seen h1 h2 =>
      rw [hvis] at h1
      have hSi : S i = true := by simpa using h1
      refine groups_right hT hnb hu hRn hR is (done ++ [i]) hRe' hn' ?_ ?_ hv hcl h2 hgood
      · intro x hx
        rcases List.mem_append.1 hx with hx | hx
        · exact hd x hx
        · simp only [List.mem_singleton] at hx; rw [hx]; exact hSi
      · intro x hx
        obtain ⟨h, h1, h2⟩ := hS x hx
        exact ⟨h, List.mem_append_left _ h1, h2⟩
    | @root _ _ out _ d1 gs' h1 h2 h3 =>
      rw [hvis] at h1
      have hSi : S i = false := by simpa using h1
      obtain ⟨l, d', S', p1, p2, p3, p4, p5, p6, p7⟩ := dfs_from hT hnb hv hcl hi hSi
      obtain ⟨rfl, rfl⟩ := DfsTo.unique (nbr := nbr) hu h2 p1
      have hil : i ∈ out := (p7 i).2 ⟨.refl, hSi⟩
      have hroot : ∀ y, Reached (within nodes nb) i y → Reached (within nodes nb) y i := by
        intro y hy
        cases hSy : S y with
        | false => exact hgood out (by simp) y ((p7 y).2 ⟨hy, hSy⟩) i hil
        | true =>
          obtain ⟨w, w1, w2, w3⟩ := hS y hSy
          rcases hR hRe (hy.trans w3) with h | h | ⟨z, z1, -, z3⟩
          · exfalso
            rw [hRe] at hRn
            exact (List.nodup_append.1 hRn).2.2 w w1 w (by simp [h]) rfl
          · rw [h] at w3; exact w3
          · have := z3.closed (P := fun x => S x = true) hcl (hd z z1)
            rw [hSi] at this; cases this
      intro l hl
      rcases List.mem_cons.1 hl with rfl | hl
      · exact ⟨i, hil, hroot⟩
      · refine groups_right hT hnb hu hRn hR is (done ++ [i]) hRe' hn' ?_ ?_ p2 p3 h3 (fun l hl => hgood l (by simp [hl])) l hl
        · intro x hx
          rcases List.mem_append.1 hx with hx | hx
          · exact (p4 x).2 (.inl (hd x hx))
          · simp only [List.mem_singleton] at hx; rw [hx]; exact (p4 i).2 (.inr hil)
        · intro x hx
          rcases (p4 x).1 hx with hx | hx
          · obtain ⟨h, h1, h2⟩ := hS x hx
            exact ⟨h, List.mem_append_left _ h1, h2⟩
          · have := ((p7 x).1 hx).1
            exact ⟨i, by simp, this, hroot x this⟩

/-- The groups are the strongly connected components. -/
def AreSccs (nodes : List C) (nb : C → List C) (gs : List (List C)) : Prop :=
  ∀ a ∈ nodes, ∀ b ∈ nodes, (∃ l ∈ gs, a ∈ l ∧ b ∈ l) ↔ Reached (within nodes nb) a b ∧ Reached (within nodes nb) b a

theorem kosaraju_spec (hT : Roams T nodes Ok nb Vis) :
    ∃ sccs, (∀ gs, Kosaraju T gs ↔ gs = sccs) ∧ sccs.flatten.Nodup ∧ (∀ c, c ∈ sccs.flatten ↔ c ∈ nodes) ∧ (∀ l ∈ sccs, l ≠ []) ∧
      GroupsAre nodes nb (fun _ => false) sccs ∧
      (AreSccs nodes nb sccs ↔ ∀ a ∈ nodes, ∀ b, Reached (within nodes nb) a b → Reached (within nodes nb) b a) := by
  obtain ⟨fo, d, S, k1, k2, k3, k4, k5, k6, k7⟩ := finish_all (nbr := T.incoming) hT hT.incoming hT.uniqueI nodes (fun _ h => h) hT.new hT.new closed_empty
  have hfo : ∀ i, i ∈ fo.reverse ↔ i ∈ nodes := by
    intro i
    rw [List.mem_reverse]
    exact ⟨fun h => (k5 i h).2, fun h => by simpa using (k3 i).1 (k6 i h)⟩
  obtain ⟨gs, g1, g2, g3, g4, g5, g6, -⟩ := groups (nbr := T.neighbors) hT hT.neighbors fo.reverse (fun i hi => (hfo i).1 hi) (hT.reset k2) closed_empty
  have hcov : ∀ c, c ∈ gs.flatten ↔ c ∈ nodes := fun c => ⟨fun h => (g3 c h).2, fun h => by simpa using g4 c ((hfo c).2 h)⟩
  refine ⟨gs, fun gs' => ⟨fun ⟨ids, fo', d', q1, q2, q3⟩ => ?_, fun e => e ▸ ⟨nodes, fo, d, hT.ids, k1, g1⟩⟩, g2, hcov, g6, g5, ?_⟩
  · cases hT.uniqueIds q1 hT.ids
    obtain ⟨rfl, rfl⟩ := FinishAll.unique (nbr := T.incoming) hT.uniqueI q2 k1
    exact Groups.unique (nbr := T.neighbors) hT.uniqueN q3 g1
  · have htog := fun {l} (hl : l ∈ gs) {a b : C} => g5.together (fun _ _ h => nomatch h) hl (a := a) (b := b)
    constructor
    · intro hA a ha b hab
      have hroots := groups_right (nbr := T.neighbors) hT hT.neighbors hT.uniqueN (R := fo.reverse) (List.pairwise_reverse.2 (k4.imp fun h => h.symm)) (by
        intro r1 r2 c y e hcy
        have e' : fo = r2.reverse ++ c :: r1.reverse := by
          have := congrArg List.reverse e
          simpa using this
        have hc : c ∈ nodes := (hfo c).1 (by rw [e]; simp)
        rcases (k7 (y := y) e').2 hcy with h | h | ⟨z, z1, z2, z3, z4⟩
        · exact .inl (by simpa [Before] using h)
        · exact .inr (.inl h)
        · refine .inr (.inr ⟨z, ?_, z3, z4⟩)
          have := (hfo z).2 (z3.inside hc)
          rw [e] at this
          simp only [List.mem_append, List.mem_cons] at this
          simp only [Before, List.mem_reverse, Bool.false_eq_true, or_false] at z1
          rcases this with h | h | h
          · exact h
          · exact absurd h z2
          · exact absurd h z1)
        fo.reverse [] rfl (fun i hi => (hfo i).1 hi) (by simp) (S := fun _ => false) (fun _ h => by cases h) (hT.reset k2) closed_empty g1 (by
          intro l hl a ha b hb
          have hln : ∀ x ∈ l, x ∈ nodes := fun x hx => (hcov x).1 (List.mem_flatten.2 ⟨l, hl, hx⟩)
          exact ((hA a (hln a ha) b (hln b hb)).1 ⟨l, hl, ha, hb⟩).1)
      obtain ⟨l, hl, hal⟩ := List.mem_flatten.1 ((hcov a).2 ha)
      obtain ⟨i, hi, hs⟩ := hroots l hl
      have hin : i ∈ nodes := (hcov i).1 (List.mem_flatten.2 ⟨l, hl, hi⟩)
      obtain ⟨hai, hia⟩ := (hA a ha i hin).1 ⟨l, hl, hal, hi⟩
      exact (hs b (hia.trans hab)).trans hia
    · intro hsym a ha b hb
      constructor
      · rintro ⟨l, hl, hal, hbl⟩
        obtain ⟨r, hr, h⟩ := g5.head hl
        have hrl : r ∈ l := List.mem_of_head? hr
        have hrn : r ∈ nodes := (hcov r).1 (List.mem_flatten.2 ⟨l, hl, hrl⟩)
        exact ⟨(hsym r hrn a (h a hal)).trans (h b hbl), (hsym r hrn b (h b hbl)).trans (h a hal)⟩
      · rintro ⟨hab, hba⟩
        obtain ⟨l, hl, hal⟩ := List.mem_flatten.1 ((hcov a).2 ha)
        exact ⟨l, hl, hal, htog hl hal hab hba⟩

/-! ### A path between two nodes -/

theorem DfsTo.finds {b : C} {st l : List C} {d d' : M} (h : DfsTo T T.neighbors st d l d') : DfsFinds T b st d (decide (b ∈ l)) := by
  induction h with
  | done => exact .done
  | skip h1 _ ih => exact .skip h1 ih
  | @next c _ _ _ l _ _ _ h1 h2 h3 _ ih =>
    by_cases e : c = b
    · subst e
      rw [decide_eq_true (by simp)]
      exact .found h1 h2 h3
    · rw [show decide (b ∈ c :: l) = decide (b ∈ l) by simp [show ¬ b = c from fun h => e h.symm]]
      exact .next h1 h2 h3 e ih

theorem DfsFinds.unique (hu : ∀ {c l l'}, T.neighbors c l → T.neighbors c l' → l = l') {b : C} {st : List C} {d : M} {r : Bool} (h : DfsFinds T b st d r) :
    ∀ {r'}, DfsFinds T b st d r' → r = r' := by
  induction h with
  | done => intro _ h'; cases h'; rfl
  | skip h1 _ ih =>
    intro _ h'
    cases h' with
    | skip h1' h2' => rw [h1] at h1'; cases h1'; exact ih h2'
    | found h1' => rw [h1] at h1'; cases h1'
    | next h1' => rw [h1] at h1'; cases h1'
  | found h1 h2 h3 =>
    intro _ h'
    cases h' with
    | skip h1' => rw [h1] at h1'; cases h1'
    | found => rfl
    | next _ _ _ hne => exact absurd rfl hne
  | next h1 h2 h3 hne _ ih =>
    intro _ h'
    cases h' with
    | skip h1' => rw [h1] at h1'; cases h1'
    | found => exact absurd rfl hne
    | next h1' h2' h3' _ h5' =>
      rw [h1] at h1'; cases h1'
      cases hu h2 h2'
      rw [h3] at h3'; cases h3'
      exact ih h5'

theorem hasPath_spec (hT : Roams T nodes Ok nb Vis) {a : C} (ha : a ∈ nodes) (b : C) (r : Bool) :
    HasPath T a b r ↔ (r = true ↔ Reached (within nodes nb) a b) := by
  obtain ⟨l, d', S', k1, -, -, -, -, -, k6⟩ := dfs_from (nbr := T.neighbors) hT hT.neighbors (hT.reset hT.new) closed_empty ha rfl
  have hl : b ∈ l ↔ Reached (within nodes nb) a b := by simpa using k6 b
  have key := k1.finds (b := b)
  rw [← hl]
  constructor
  · intro h
    rw [DfsFinds.unique hT.uniqueN h key]; simp
  · intro h
    have : r = decide (b ∈ l) := by cases r <;> simp_all
    rw [this]; exact key

/-! ### Topological order -/

theorem pushTopo_eq (hT : Roams T nodes Ok nb Vis) {d : M} {S : C → Bool} (hv : Vis d S) {c : C} : ∀ (l : List C), (∀ y ∈ l, Ok y) → ∀ st,
    pushTopo T d c l st = .ok (if c ∈ l then none else some ((l.filter fun y => !S y).reverse ++ st))
  | [], _, st => rfl
  | y :: l, hl, st => by
    rw [pushTopo]
    by_cases e : y = c
    · rw [if_pos e, if_pos (by simp [e])]
    · rw [if_neg e, hT.isVisited hv (hl y (by simp))]
      have ih := pushTopo_eq hT hv (c := c) l (fun z hz => hl z (by simp [hz]))
      have hm : c ∈ y :: l ↔ c ∈ l := by simp [show ¬ c = y from fun h => e h.symm]
      simp only [hm]
      cases h : S y with
      | true => simp only [bind, Except.bind, if_true, ih, List.filter_cons, h, Bool.not_true, Bool.false_eq_true, if_false]
      | false =>
        simp only [bind, Except.bind, Bool.false_eq_true, if_false, ih, List.filter_cons, h, Bool.not_false, if_true, List.reverse_cons]
        simp

/-- A search of the first phase is one in post-order, unless it meets an edge from a node to itself. -/
theorem topo_to (hT : Roams T nodes Ok nb Vis) {st out : List C} {d f d2 f2 : M} (h : PostTo T T.neighbors st d f out d2 f2) :
    ∀ {S F : C → Bool}, Vis d S → Vis f F → (∀ x ∈ st, Ok x) →
      (TopoTo T st d f (.ok (out, d2, f2)) ∧ ∀ c ∈ out, S c = false → c ∉ nb c) ∨
      ∃ c, c ∈ nodes ∧ c ∈ nb c ∧ TopoTo T st d f (.error c) := by
  induction h with
  | done => intro _ _ _ _ _; exact .inl ⟨.done, by simp⟩
  | @enter c st st' nbs out d d' f d2 f2 h1 h2 h3 _ ih =>
    intro S F hv hf hok
    by_cases hc : c ∈ nodes
    · cases hT.uniqueN h2 (hT.neighbors hc)
      obtain ⟨m, h, hv1⟩ := hT.visit hv hc
      rw [h1] at h
      simp only [Except.ok.injEq, Prod.mk.injEq] at h
      obtain ⟨-, rfl⟩ := h
      have ht := pushTopo_eq hT hv1 (c := c) (nb c) (fun y hy => hT.stays hc hy) (c :: st)
      rw [pushNew_eq hT hv1 (nb c) (fun y hy => hT.stays hc hy) (c :: st)] at h3
      cases h3
      by_cases hl : c ∈ nb c
      · rw [if_pos hl] at ht
        exact .inr ⟨c, hc, hl, .loop h1 h2 ht⟩
      · rw [if_neg hl] at ht
        rcases ih hv1 hf (by
          intro x hx
          simp only [List.mem_append, List.mem_reverse, List.mem_filter] at hx
          rcases hx with ⟨hx, -⟩ | hx
          · exact hT.stays hc hx
          · exact hok x hx) with ⟨k1, k2⟩ | ⟨z, z1, z2, z3⟩
        · refine .inl ⟨.enter h1 h2 ht k1, fun x hx hS => ?_⟩
          by_cases e : x = c
          · rw [e]; exact hl
          · exact k2 x hx (by rw [if_neg e]; exact hS)
        · exact .inr ⟨z, z1, z2, .enter h1 h2 ht z3⟩
    · obtain ⟨m, h, -⟩ := hT.visitOff hv (hok c (by simp)) hc
      rw [h1] at h; cases h
  | @leave c st out d d' f f' d2 f2 h1 h2 h3 ih =>
    intro S F hv hf hok
    by_cases hc : c ∈ nodes
    · obtain ⟨m, h, hv1⟩ := hT.visit hv hc
      obtain ⟨m', h', hf1⟩ := hT.visit hf hc
      rw [h1] at h
      rw [h2] at h'
      simp only [Except.ok.injEq, Prod.mk.injEq] at h h'
      obtain ⟨hSc, rfl⟩ := h
      obtain ⟨-, rfl⟩ := h'
      have hSc : S c = true := by simpa using hSc.symm
      rw [upd_same hSc] at hv1
      rcases ih hv1 hf1 (fun x hx => hok x (by simp [hx])) with ⟨k1, k2⟩ | ⟨z, z1, z2, z3⟩
      · refine .inl ⟨.leave h1 h2 k1, fun x hx hS => ?_⟩
        rcases List.mem_cons.1 hx with rfl | hx
        · rw [hSc] at hS; cases hS
        · exact k2 x hx hS
      · exact .inr ⟨z, z1, z2, .leave h1 h2 z3⟩
    · obtain ⟨m, h, -⟩ := hT.visitOff hf (hok c (by simp)) hc
      rw [h2] at h; cases h
  | @again c st out d d' f f' d2 f2 h1 h2 h3 ih =>
    intro S F hv hf hok
    have hok' : ∀ x ∈ st, Ok x := fun x hx => hok x (by simp [hx])
    have key : ∀ {S' F'}, Vis d' S' → Vis f' F' → (∀ x, S x = false → x ≠ c → S' x = false) → (c ∈ nodes → S c = true) →
        (TopoTo T (c :: st) d f (.ok (out, d2, f2)) ∧ ∀ c ∈ out, S c = false → c ∉ nb c) ∨
        ∃ c', c' ∈ nodes ∧ c' ∈ nb c' ∧ TopoTo T (c :: st) d f (.error c') := by
      intro S' F' hv' hf' hS' hc
      rcases ih hv' hf' hok' with ⟨k1, k2⟩ | ⟨z, z1, z2, z3⟩
      · refine .inl ⟨.again h1 h2 k1, fun x hx hS => ?_⟩
        by_cases e : x = c
        · subst e
          by_cases hn : x ∈ nodes
          · rw [hc hn] at hS; cases hS
          · intro hx'
            exact k2 x hx (by
              cases h : S' x with
              | false => rfl
              | true => exact absurd (hT.only hv' h) hn) hx'
        · exact k2 x hx (hS' x hS e)
      · exact .inr ⟨z, z1, z2, .again h1 h2 z3⟩
    by_cases hc : c ∈ nodes
    · obtain ⟨m, h, hv1⟩ := hT.visit hv hc
      obtain ⟨m', h', hf1⟩ := hT.visit hf hc
      rw [h1] at h
      rw [h2] at h'
      simp only [Except.ok.injEq, Prod.mk.injEq] at h h'
      obtain ⟨hSc, rfl⟩ := h
      obtain ⟨-, rfl⟩ := h'
      exact key hv1 hf1 (fun x hx e => by rw [if_neg e]; exact hx) (fun _ => by simpa using hSc.symm)
    · obtain ⟨m, h, hv1⟩ := hT.visitOff hv (hok c (by simp)) hc
      obtain ⟨m', h', hf1⟩ := hT.visitOff hf (hok c (by simp)) hc
      rw [h1] at h
      rw [h2] at h'
      simp only [Except.ok.injEq, Prod.mk.injEq] at h h'
      obtain ⟨-, rfl⟩ := h
      obtain ⟨-, rfl⟩ := h'
      exact key hv1 hf1 (fun x hx _ => hx) (fun h => absurd h hc)

theorem topo_all (hT : Roams T nodes Ok nb Vis) : ∀ (is : List C), (∀ i ∈ is, i ∈ nodes) → ∀ {S : C → Bool} {d f : M}, Vis d S → Vis f S →
    Saturated nodes nb S →
    (∃ fo d', FinishAll T T.neighbors is d f fo d' ∧ TopoAll T is d f (.ok (fo, d')) ∧ ∀ c ∈ fo, c ∉ nb c) ∨
    ∃ c, c ∈ nodes ∧ c ∈ nb c ∧ TopoAll T is d f (.error c)
  | [], _, S, d, f, _, _, _ => .inl ⟨[], d, .done, .done, by simp⟩
  | i :: is, his, S, d, f, hv, hf, hcl => by
    have hi : i ∈ nodes := his i (by simp)
    have his' : ∀ j ∈ is, j ∈ nodes := fun j hj => his j (by simp [hj])
    have hvis := hT.isVisited hv (hT.node_ok hi)
    cases hS : S i with
    | true =>
      rw [hS] at hvis
      rcases topo_all hT is his' hv hf hcl with ⟨fo, d', k1, k2, k3⟩ | ⟨c, k1, k2, k3⟩
      · exact .inl ⟨fo, d', .seen hvis k1, .seen hvis k2, k3⟩
      · exact .inr ⟨c, k1, k2, .seen hvis k3⟩
    | false =>
      rw [hS] at hvis
      obtain ⟨out, d1, f1, S1, p1, p2, p3, p4, p5, p6, p8, -⟩ := post_from (nbr := T.neighbors) hT hT.neighbors hT.uniqueN hv hf hcl hi hS
      rcases topo_to hT p1 hv hf (by simpa using hT.node_ok hi) with ⟨q1, q2⟩ | ⟨c, q1, q2, q3⟩
      · rcases topo_all hT is his' p2 p3 p4 with ⟨fo, d', k1, k2, k3⟩ | ⟨c, k1, k2, k3⟩
        · refine .inl ⟨out ++ fo, d', .root hvis p1 k1, .root hvis q1 k2, fun c hc => ?_⟩
          rcases List.mem_append.1 hc with h | h
          · exact q2 c h ((p8 c).1 h).2
          · exact k3 c h
        · exact .inr ⟨c, k1, k2, .root hvis q1 k3⟩
      · exact .inr ⟨c, q1, q2, .loop hvis q3⟩

/-- Without edges inside the graph the nodes are finished in the order they are named. -/
theorem finish_plain (hT : Roams T nodes Ok nb Vis) (hno : ∀ c ∈ nodes, within nodes nb c = []) : ∀ (is : List C), is.Nodup →
    (∀ i ∈ is, i ∈ nodes) → ∀ {S : C → Bool} {d f : M}, Vis d S → Vis f S → (∀ i ∈ is, S i = false) →
    ∃ d', FinishAll T T.neighbors is d f is d'
  | [], _, _, S, d, f, _, _, _ => ⟨d, .done⟩
  | i :: is, hnd, his, S, d, f, hv, hf, hS => by
    have hcl : Saturated nodes nb S := fun x hx y hy => by rw [hno x (hT.only hv hx)] at hy; simp at hy
    have hi : i ∈ nodes := his i (by simp)
    have hvis := hT.isVisited hv (hT.node_ok hi)
    have hSi := hS i (by simp)
    rw [hSi] at hvis
    obtain ⟨hni, hnd'⟩ := List.nodup_cons.1 hnd
    obtain ⟨out, d1, f1, S1, p1, p2, p3, p4, p5, p6, p8, -⟩ := post_from (nbr := T.neighbors) hT hT.neighbors hT.uniqueN hv hf hcl hi hSi
    have hmem : ∀ c, c ∈ out ↔ c = i := by
      intro c
      rw [p8 c]
      constructor
      · rintro ⟨h, -⟩
        exact h.closed (P := fun x => x = i) (by rintro x rfl y hy; rw [hno x hi] at hy; simp at hy) rfl
      · rintro rfl; exact ⟨.refl, hSi⟩
    have hout : out = [i] := by
      cases out with
      | nil => have := (hmem i).2 rfl; simp at this
      | cons a l =>
        have ha := (hmem a).1 (by simp)
        subst ha
        cases l with
        | nil => rfl
        | cons b l =>
          have hb := (hmem b).1 (by simp)
          subst hb
          simp at p6
    subst hout
    obtain ⟨d', k⟩ := finish_plain hT hno is hnd' (fun j hj => his j (by simp [hj])) p2 p3 (by
      intro j hj
      cases h : S1 j with
      | false => rfl
      | true =>
        rcases (p5 j).1 h with h | h
        · rw [hS j (by simp [hj])] at h; cases h
        · simp only [List.mem_singleton] at h
          exact absurd (h ▸ hj) hni)
    exact ⟨d', .root hvis p1 k⟩

/-- A second search that meets no new node. -/
theorem dfsTwice_none (hT : Roams T nodes Ok nb Vis) : ∀ (st : List C) {S : C → Bool} {d : M}, Vis d S → (∀ x ∈ st, Ok x ∧ x ∉ nodes) →
    ∃ d', DfsTwice T true st d (.ok d') ∧ Vis d' S
  | [], _, d, hv, _ => ⟨d, .done, hv⟩
  | c :: st, S, d, hv, hst => by
    obtain ⟨d1, h1, hv1⟩ := hT.visitOff hv (hst c (by simp)).1 (hst c (by simp)).2
    obtain ⟨d', k1, k2⟩ := dfsTwice_none hT st hv1 (fun x hx => hst x (by simp [hx]))
    exact ⟨d', .skip h1 k1, k2⟩

/-- A second search that does. -/
theorem dfsTwice_some (hT : Roams T nodes Ok nb Vis) : ∀ (st : List C) {S : C → Bool} {d : M}, Vis d S → (∀ x ∈ st, Ok x) →
    (∃ x ∈ st, x ∈ nodes ∧ S x = false) → ∃ j, j ∈ nodes ∧ DfsTwice T true st d (.error j)
  | [], _, _, _, _, ⟨_, h, _⟩ => by simp at h
  | c :: st, S, d, hv, hst, ⟨x, hx, hxn, hxS⟩ => by
    have hst' : ∀ x ∈ st, Ok x := fun x hx => hst x (by simp [hx])
    by_cases hc : c ∈ nodes
    · obtain ⟨d1, h1, hv1⟩ := hT.visit hv hc
      cases hS : S c with
      | false =>
        rw [hS] at h1
        exact ⟨c, hc, .second h1 (hT.incoming hc) (pushNew_eq hT hv1 (nb c) (fun y hy => hT.stays hc hy) st)⟩
      | true =>
        rw [hS] at h1
        rw [upd_same hS] at hv1
        have hxst : x ∈ st := (List.mem_cons.1 hx).resolve_left fun e => by rw [e, hS] at hxS; cases hxS
        obtain ⟨j, j1, j2⟩ := dfsTwice_some hT st hv1 hst' ⟨x, hxst, hxn, hxS⟩
        exact ⟨j, j1, .skip h1 j2⟩
    · obtain ⟨d1, h1, hv1⟩ := hT.visitOff hv (hst c (by simp)) hc
      have hxst : x ∈ st := (List.mem_cons.1 hx).resolve_left fun e => hc (e ▸ hxn)
      obtain ⟨j, j1, j2⟩ := dfsTwice_some hT st hv1 hst' ⟨x, hxst, hxn, hxS⟩
      exact ⟨j, j1, .skip h1 j2⟩

/-- The second phase, over an order of nodes not met yet. -/
theorem topo_check (hT : Roams T nodes Ok nb Vis) : ∀ (is : List C), is.Nodup → (∀ i ∈ is, i ∈ nodes) → ∀ {S : C → Bool} {d : M}, Vis d S →
    (∀ i ∈ is, S i = false) →
    (TopoCheck T is d none ∧ ∀ {a b : List C} {i y : C}, is = a ++ i :: b → y ∈ within nodes nb i → y = i ∨ S y = true ∨ y ∈ a) ∨
    ∃ c i, c ∈ nodes ∧ i ∈ is ∧ within nodes nb i ≠ [] ∧ TopoCheck T is d (some c)
  | [], _, _, _, _, _, _ => .inl ⟨.done, by simp⟩
  | i :: is, hnd, his, S, d, hv, hS => by
    have hi : i ∈ nodes := his i (by simp)
    have hSi := hS i (by simp)
    obtain ⟨hni, hnd'⟩ := List.nodup_cons.1 hnd
    obtain ⟨d1, h1, hv1⟩ := hT.visit hv hi
    rw [hSi] at h1
    have hp := pushNew_eq hT hv1 (nb i) (fun y hy => hT.stays hi hy) []
    simp only [List.append_nil] at hp
    by_cases hnew : ∃ y ∈ within nodes nb i, y ≠ i ∧ S y = false
    · obtain ⟨y, y1, y2, y3⟩ := hnew
      obtain ⟨j, j1, j2⟩ := dfsTwice_some hT ((nb i).filter fun y => !(if y = i then true else S y)).reverse hv1 (by
        intro x hx
        simp only [List.mem_reverse, List.mem_filter] at hx
        exact hT.stays hi hx.1) ⟨y, by
          simp only [List.mem_reverse, List.mem_filter]
          exact ⟨(mem_within.1 y1).1, by simp [y2, y3]⟩, (mem_within.1 y1).2, by simp [y2, y3]⟩
      refine .inr ⟨j, i, j1, by simp, fun e => ?_, .cycle (.first h1 (hT.incoming hi) hp j2)⟩
      rw [e] at y1; simp at y1
    · have hold : ∀ y ∈ within nodes nb i, y = i ∨ S y = true := by
        intro y hy
        by_cases e : y = i
        · exact .inl e
        · refine .inr ?_
          cases h : S y with
          | true => rfl
          | false => exact absurd ⟨y, hy, e, h⟩ hnew
      obtain ⟨d2, k1, k2⟩ := dfsTwice_none hT ((nb i).filter fun y => !(if y = i then true else S y)).reverse hv1 (by
        intro x hx
        simp only [List.mem_reverse, List.mem_filter] at hx
        refine ⟨hT.stays hi hx.1, fun hxn => ?_⟩
        rcases hold x (mem_within.2 ⟨hx.1, hxn⟩) with h | h
        · simp [h] at hx
        · by_cases e : x = i
          · simp [e] at hx
          · simp [e, h] at hx)
      have hfirst := DfsTwice.first h1 (hT.incoming hi) hp k1
      rcases topo_check hT is hnd' (fun j hj => his j (by simp [hj])) k2 (by
        intro j hj
        have hne : ¬ j = i := fun e => hni (e ▸ hj)
        rw [if_neg hne]
        exact hS j (by simp [hj])) with ⟨c1, c2⟩ | ⟨c, j, c1, c2, c3, c4⟩
      · refine .inl ⟨.fine hfirst c1, fun {a b i' y} e hy => ?_⟩
        cases a with
        | nil =>
          simp only [List.nil_append, List.cons.injEq] at e
          obtain ⟨rfl, rfl⟩ := e
          rcases hold y hy with h | h
          · exact .inl h
          · exact .inr (.inl h)
        | cons z a =>
          simp only [List.cons_append, List.cons.injEq] at e
          obtain ⟨rfl, rfl⟩ := e
          rcases c2 rfl hy with h | h | h
          · exact .inl h
          · by_cases e : y = i
            · exact .inr (.inr (by simp [e]))
            · rw [if_neg e] at h; exact .inr (.inl h)
          · exact .inr (.inr (by simp [h]))
      · exact .inr ⟨c, j, c1, by simp [c2], c3, .fine hfirst c4⟩

theorem TopoTo.unique (hu : ∀ {c l l'}, T.neighbors c l → T.neighbors c l' → l = l') {st : List C} {d f : M} {o : Except C (List C × M × M)}
    (h : TopoTo T st d f o) : ∀ {o'}, TopoTo T st d f o' → o = o' := by
  induction h with
  | done => intro _ h'; cases h'; rfl
  | enter h1 h2 h3 _ ih =>
    intro _ h'
    cases h' with
    | enter h1' h2' h3' h4' =>
      rw [h1] at h1'; cases h1'
      cases hu h2 h2'
      rw [h3] at h3'; cases h3'
      exact ih h4'
    | loop h1' h2' h3' =>
      rw [h1] at h1'; cases h1'
      cases hu h2 h2'
      rw [h3] at h3'; cases h3'
    | leave h1' => rw [h1] at h1'; cases h1'
    | again h1' => rw [h1] at h1'; cases h1'
  | loop h1 h2 h3 =>
    intro _ h'
    cases h' with
    | enter h1' h2' h3' h4' =>
      rw [h1] at h1'; cases h1'
      cases hu h2 h2'
      rw [h3] at h3'; cases h3'
    | loop => rfl
    | leave h1' => rw [h1] at h1'; cases h1'
    | again h1' => rw [h1] at h1'; cases h1'
  | leave h1 h2 _ ih =>
    intro _ h'
    cases h' with
    | enter h1' => rw [h1] at h1'; cases h1'
    | loop h1' => rw [h1] at h1'; cases h1'
    | leave h1' h2' h3' =>
      rw [h1] at h1'; cases h1'
      rw [h2] at h2'; cases h2'
      rw [ih h3']
    | again h1' h2' => rw [h2] at h2'; cases h2'
  | again h1 h2 _ ih =>
    intro _ h'
    cases h' with
    | enter h1' => rw [h1] at h1'; cases h1'
    | loop h1' => rw [h1] at h1'; cases h1'
    | leave h1' h2' => rw [h2] at h2'; cases h2'
    | again h1' h2' h3' =>
      rw [h1] at h1'; cases h1'
      rw [h2] at h2'; cases h2'
      exact ih h3'

theorem TopoAll.unique (hu : ∀ {c l l'}, T.neighbors c l → T.neighbors c l' → l = l') {is : List C} {d f : M} {o : Except C (List C × M)}
    (h : TopoAll T is d f o) : ∀ {o'}, TopoAll T is d f o' → o = o' := by
  induction h with
  | done => intro _ h'; cases h'; rfl
  | seen h1 _ ih =>
    intro _ h'
    cases h' with
    | seen _ h2' => exact ih h2'
    | loop h1' => rw [h1] at h1'; cases h1'
    | root h1' => rw [h1] at h1'; cases h1'
  | loop h1 h2 =>
    intro _ h'
    cases h' with
    | seen h1' => rw [h1] at h1'; cases h1'
    | loop _ h2' => have := h2.unique hu h2'; cases this; rfl
    | root _ h2' => have := h2.unique hu h2'; cases this
  | root h1 h2 _ ih =>
    intro _ h'
    cases h' with
    | seen h1' => rw [h1] at h1'; cases h1'
    | loop _ h2' => have := h2.unique hu h2'; cases this
    | root _ h2' h3' =>
      have := h2.unique hu h2'
      cases this
      rw [ih h3']

theorem DfsTwice.unique (hu : ∀ {c l l'}, T.incoming c l → T.incoming c l' → l = l') {seen : Bool} {st : List C} {d : M} {o : Except C M}
    (h : DfsTwice T seen st d o) : ∀ {o'}, DfsTwice T seen st d o' → o = o' := by
  induction h with
  | done => intro _ h'; cases h'; rfl
  | skip h1 _ ih =>
    intro _ h'
    cases h' with
    | skip h1' h2' => rw [h1] at h1'; cases h1'; exact ih h2'
    | first h1' => rw [h1] at h1'; cases h1'
    | second h1' => rw [h1] at h1'; cases h1'
  | first h1 h2 h3 _ ih =>
    intro _ h'
    cases h' with
    | skip h1' => rw [h1] at h1'; cases h1'
    | first h1' h2' h3' h4' =>
      rw [h1] at h1'; cases h1'
      cases hu h2 h2'
      rw [h3] at h3'; cases h3'
      exact ih h4'
  | second h1 h2 h3 =>
    intro _ h'
    cases h' with
    | skip h1' => rw [h1] at h1'; cases h1'
    | second => rfl

theorem TopoCheck.unique (hu : ∀ {c l l'}, T.incoming c l → T.incoming c l' → l = l') {is : List C} {d : M} {o : Option C}
    (h : TopoCheck T is d o) : ∀ {o'}, TopoCheck T is d o' → o = o' := by
  induction h with
  | done => intro _ h'; cases h'; rfl
  | fine h1 _ ih =>
    intro _ h'
    cases h' with
    | fine h1' h2' => have := h1.unique hu h1'; cases this; exact ih h2'
    | cycle h1' => have := h1.unique hu h1'; cases this
  | cycle h1 =>
    intro _ h'
    cases h' with
    | fine h1' => have := h1.unique hu h1'; cases this
    | cycle h1' => have := h1.unique hu h1'; cases this; rfl

theorem Toposort.unique (hT : Roams T nodes Ok nb Vis) {o o' : Except C (List C)} (h : Toposort T o) (h' : Toposort T o') : o = o' := by
  cases h with
  | loop h1 h2 =>
    cases h' with
    | loop h1' h2' =>
      cases hT.uniqueIds h1 h1'
      have := h2.unique hT.uniqueN h2'; cases this; rfl
    | cycle h1' h2' =>
      cases hT.uniqueIds h1 h1'
      have := h2.unique hT.uniqueN h2'; cases this
    | order h1' h2' =>
      cases hT.uniqueIds h1 h1'
      have := h2.unique hT.uniqueN h2'; cases this
  | cycle h1 h2 h3 =>
    cases h' with
    | loop h1' h2' =>
      cases hT.uniqueIds h1 h1'
      have := h2.unique hT.uniqueN h2'; cases this
    | cycle h1' h2' h3' =>
      cases hT.uniqueIds h1 h1'
      have := h2.unique hT.uniqueN h2'; cases this
      have := h3.unique hT.uniqueI h3'; cases this; rfl
    | order h1' h2' h3' =>
      cases hT.uniqueIds h1 h1'
      have := h2.unique hT.uniqueN h2'; cases this
      have := h3.unique hT.uniqueI h3'; cases this
  | order h1 h2 h3 =>
    cases h' with
    | loop h1' h2' =>
      cases hT.uniqueIds h1 h1'
      have := h2.unique hT.uniqueN h2'; cases this
    | cycle h1' h2' h3' =>
      cases hT.uniqueIds h1 h1'
      have := h2.unique hT.uniqueN h2'; cases this
      have := h3.unique hT.uniqueI h3'; cases this
    | order h1' h2' h3' =>
      cases hT.uniqueIds h1 h1'
      have := h2.unique hT.uniqueN h2'; cases this; rfl

/-- There is one outcome: the nodes in reverse if no edge stays inside the graph, and `Err(Cycle(_))` of a node otherwise. -/
theorem toposort_spec (hT : Roams T nodes Ok nb Vis) :
    ∃ o, (∀ o', Toposort T o' ↔ o' = o) ∧ ((∀ c ∈ nodes, within nodes nb c = []) → o = .ok nodes.reverse) ∧
      ((∃ c ∈ nodes, within nodes nb c ≠ []) → ∃ c ∈ nodes, o = .error c) := by
  have hr := hT.reset hT.new
  rcases topo_all hT nodes (fun _ h => h) hr hT.new closed_empty with ⟨fo, d, k1, k2, k3⟩ | ⟨c, k1, k2, k3⟩
  · obtain ⟨fo', d', S', q1, q2, q3, q4, q5, q6, q7⟩ := finish_all (nbr := T.neighbors) hT hT.neighbors hT.uniqueN nodes (fun _ h => h) hr hT.new closed_empty
    obtain ⟨rfl, rfl⟩ := FinishAll.unique (nbr := T.neighbors) hT.uniqueN q1 k1
    have hmem : ∀ i, i ∈ fo' ↔ i ∈ nodes := fun i => ⟨fun h => (q5 i h).2, fun h => by simpa using (q3 i).1 (q6 i h)⟩
    rcases topo_check hT fo'.reverse (List.pairwise_reverse.2 (q4.imp fun h => h.symm)) (fun i hi => (hmem i).1 (List.mem_reverse.1 hi)) (hT.reset q2) (by simp)
      with ⟨c1, c2⟩ | ⟨c, i, c1, c2, c3, c4⟩
    · have hno : ∀ c ∈ nodes, within nodes nb c = [] := by
        intro c hc
        rw [List.eq_nil_iff_forall_not_mem]
        intro y hy
        have back : ∀ {o1 o2 : List C} {x z : C}, fo' = o1 ++ x :: o2 → z ∈ within nodes nb x → z ∈ o2 := by
          intro o1 o2 x z e hz
          rcases c2 (a := o2.reverse) (b := o1.reverse) (i := x) (by rw [e]; simp) hz with h | h | h
          · subst h
            exact absurd (mem_within.1 hz).1 (k3 z (by rw [e]; simp))
          · simp at h
          · simpa using h
        obtain ⟨o1, o2, e⟩ := List.append_of_mem ((hmem c).2 hc)
        have hyo := back e hy
        have hnd := q4
        rw [e] at hnd
        obtain ⟨-, hnd2, hnd3⟩ := List.nodup_append.1 hnd
        rcases (q7 e).1 hy with h | h
        · simp only [Before, Bool.false_eq_true, or_false] at h
          exact hnd3 y h y (by simp [hyo]) rfl
        · have : c ∈ o2 := h.closed (P := fun x => x ∈ o2) (by
            intro x hx z hz
            obtain ⟨p, q, e'⟩ := List.append_of_mem hx
            have := back (o1 := o1 ++ c :: p) (o2 := q) (by rw [e, e']; simp) hz
            rw [e']; simp [this]) hyo
          exact (List.nodup_cons.1 hnd2).1 this
      refine ⟨.ok fo'.reverse, fun o' => ⟨fun h => h.unique hT (.order hT.ids k2 c1), fun e => e ▸ .order hT.ids k2 c1⟩, fun _ => ?_,
        fun ⟨c, h1, h2⟩ => absurd (hno c h1) h2⟩
      obtain ⟨d'', h⟩ := finish_plain hT hno nodes hT.nodup (fun _ h => h) hr hT.new (by simp)
      rw [(FinishAll.unique (nbr := T.neighbors) hT.uniqueN h k1).1]
    · refine ⟨.error c, fun o' => ⟨fun h => h.unique hT (.cycle hT.ids k2 c4), fun e => e ▸ .cycle hT.ids k2 c4⟩, fun h => ?_, fun _ => ⟨c, c1, rfl⟩⟩
      exact absurd (h i ((hmem i).1 (List.mem_reverse.1 c2))) c3
  · refine ⟨.error c, fun o' => ⟨fun h => h.unique hT (.loop hT.ids k3), fun e => e ▸ .loop hT.ids k3⟩, fun h => ?_, fun _ => ⟨c, k1, rfl⟩⟩
    have := mem_within.2 ⟨k2, k1⟩
    rw [h c k1] at this
    simp at this

end
end LG
