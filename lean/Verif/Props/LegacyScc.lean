import Verif.Props.Scc
import Verif.Props.LegacyBipartite
/- C97 - C99 on the deprecated `SquareGraph`, whose `neighbors_directed` ignores the direction as well. -/
set_option linter.unusedSectionVars false
namespace LG.Sq
section
variable {N E : Type} {g : G N E} {k : Cfg} {h v : Nat} {c : Contents NodeIx Axis N E}

theorem roams (hb : Built k h v g c) (hf : k.Fits h v) : Roams g.rovable (k.grid h v).nodes (k.grid h v).Node (k.grid h v).nbrs
    (fun vm S => VisIs vm (k.grid h v) S ∧ ∀ x, S x = true → (k.grid h v).Node x) := by
  have hm : ∀ {n}, n ∈ (k.grid h v).nodes ↔ (k.grid h v).Node n := fun {n} => (c45_nodes_exact _).2.1 n
  refine ⟨(c45_nodes_exact _).1, fun h => hm.1 h, fun hv h => hm.2 (hv.2 _ h), ⟨visitMap_is hb, fun _ h => nomatch h⟩,
    fun hv => ⟨hv.1.reset, fun _ h => nomatch h⟩, fun {m S n} hv hn => ?_, fun _ ho hn => absurd (hm.2 ho) hn,
    fun hv ho => isVisited_eq hv.1 ho, fun hn => nbrs_at hb hf (hm.1 hn), fun hn => nbrs_at hb hf (hm.1 hn),
    fun h h' => Yields.unique h h', fun h h' => Yields.unique h h', fun hn hy => (c46_neighbors_nodes _ (hm.1 hn) hy).1, ?_,
    fun h h' => Yields.unique h h'⟩
  · obtain ⟨m', h1, h2⟩ := visit_eq hv.1 (hm.1 hn)
    refine ⟨m', h1, h2, fun x hx => ?_⟩
    by_cases e : x = n
    · rw [e]; exact hm.1 hn
    · simp only [e, if_false] at hx; exact hv.2 x hx
  · show Yields (NodeIndices.next g.k) _ _
    rw [hb.stores.cfg]
    exact c45_node_identifiers_partial hb hf

theorem reached_walk (hb : Built k h v g c) (hf : k.Fits h v) {a b : NodeIx} (ha : (k.grid h v).Node a) :
    Reached (within (k.grid h v).nodes (k.grid h v).nbrs) a b ↔ ∃ n, Walk g a n b := by
  constructor
  · intro h
    induction h with
    | refl => exact ⟨0, .nil⟩
    | step _ hy ih =>
      obtain ⟨n, hw⟩ := ih
      exact ⟨n + 1, .step hw (nbrs_at hb hf (hw.node hb hf ha)) (mem_within.1 hy).1⟩
  · rintro ⟨n, hw⟩
    induction hw with
    | nil => exact .refl
    | step hw hl hy ih =>
      have hn := hw.node hb hf ha
      rw [Yields.unique hl (nbrs_at hb hf hn)] at hy
      exact ih.step (mem_within.2 ⟨hy, (c45_nodes_exact _).2.1 _ |>.2 (c46_neighbors_nodes _ hn hy).1⟩)

/-- **C97** for the deprecated graph: `kosaraju_scc` ends without a panic, and its one result is one group with every node once
(as the graph is strongly connected). -/
theorem c97_legacy (hb : Built k h v g c) (hf : k.Fits h v) : ∃ l, (∀ gs, Kosaraju g.rovable gs ↔ gs = [l]) ∧ l.Nodup ∧
    (∀ n, n ∈ l ↔ (k.grid h v).Node n) ∧ ∀ a b, a ∈ l → b ∈ l → ∃ n, Walk g a n b := by
  obtain ⟨sccs, k1, k2, k3, k4, k5, -⟩ := kosaraju_spec (roams hb hf)
  have k3' : ∀ c, c ∈ sccs.flatten ↔ (k.grid h v).Node c := fun c => (k3 c).trans ((c45_nodes_exact _).2.1 c)
  have hconn : ∀ a b, (k.grid h v).Node a → (k.grid h v).Node b → ∃ n, Walk g a n b := fun a b ha hb' => by
    obtain ⟨d, -, hw⟩ := c50_walk hb hf ha hb'
    exact ⟨d, hw⟩
  have hall : ∀ l ∈ sccs, ∀ n, n ∈ l ↔ (k.grid h v).Node n := by
    intro l hl n
    refine ⟨fun hn => (k3' n).1 (List.mem_flatten.2 ⟨l, hl, hn⟩), fun hn => ?_⟩
    obtain ⟨r, hr⟩ := List.exists_mem_of_ne_nil _ (k4 l hl)
    have hrn := (k3' r).1 (List.mem_flatten.2 ⟨l, hl, hr⟩)
    exact k5.together (fun _ _ h => nomatch h) hl hr ((reached_walk hb hf hrn).2 (hconn r n hrn hn)) ((reached_walk hb hf hn).2 (hconn n r hn hrn))
  obtain ⟨p1, p2⟩ : 0 < h ∧ 0 < v := ⟨(hb.sizes hf).pos_h, (hb.sizes hf).pos_v⟩
  have h0 : (k.grid h v).Node ⟨0, 0⟩ := ⟨p1, p2⟩
  obtain ⟨l, hl, h0l⟩ := List.mem_flatten.1 ((k3' _).2 h0)
  have hone : sccs = [l] := by
    match sccs, hl, k2, hall with
    | [x], hl, _, _ => simp only [List.mem_singleton] at hl; rw [hl]
    | x :: y :: z, _, k2, hall =>
      exfalso
      simp only [List.flatten_cons] at k2
      have hx := (hall x (by simp) ⟨0, 0⟩).2 h0
      have hy := (hall y (by simp) ⟨0, 0⟩).2 h0
      exact (List.nodup_append.1 k2).2.2 _ hx _ (List.mem_append_left _ hy) rfl
  subst hone
  exact ⟨l, k1, by simpa using k2, hall l (by simp), fun a b ha hb' => hconn a b ((hall l (by simp) a).1 ha) ((hall l (by simp) b).1 hb')⟩

/-- **C98** for the deprecated graph: `toposort` ends without a panic and with one outcome, which is right: `Ok` with all the nodes
if no node has a neighbour, and otherwise `Err(Cycle(_))`, there being a cycle then. -/
theorem c98_legacy (hb : Built k h v g c) (hf : k.Fits h v) : ∃ o, (∀ o', Toposort g.rovable o' ↔ o' = o) ∧
    ((∀ a b, (k.grid h v).Node a → ¬ Walk g a 1 b) ∧ o = .ok (k.grid h v).nodes.reverse ∨
     (∃ a, (k.grid h v).Node a ∧ Walk g a 2 a) ∧ ∃ n, (k.grid h v).Node n ∧ o = .error n) := by
  obtain ⟨o, h1, h2, h3⟩ := toposort_spec (roams hb hf)
  have hm : ∀ {n}, n ∈ (k.grid h v).nodes ↔ (k.grid h v).Node n := fun {n} => (c45_nodes_exact _).2.1 n
  refine ⟨o, h1, ?_⟩
  by_cases hno : ∀ a b, (k.grid h v).Node a → ¬ Walk g a 1 b
  · refine .inl ⟨hno, h2 fun n hn => ?_⟩
    rw [List.eq_nil_iff_forall_not_mem]
    exact fun y hy => hno n y (hm.1 hn) (.step .nil (nbrs_at hb hf (hm.1 hn)) (mem_within.1 hy).1)
  · simp only [Classical.not_forall, Classical.not_not] at hno
    obtain ⟨a, b, ha, hw⟩ := hno
    cases hw with
    | step hw hl hy =>
      cases hw
      rw [Yields.unique hl (nbrs_at hb hf ha)] at hy
      obtain ⟨hbn, hback⟩ := c46_neighbors_nodes _ ha hy
      obtain ⟨n, hn, e⟩ := h3 ⟨a, hm.2 ha, fun e => by
        have := mem_within.2 ⟨hy, hm.2 hbn⟩
        rw [e] at this; simp at this⟩
      exact .inr ⟨⟨a, ha, .step (.step .nil (nbrs_at hb hf ha) hy) (nbrs_at hb hf hbn) hback⟩, n, hm.1 hn, e⟩

/-- **C99** for the deprecated graph: from a node, `has_path_connecting` answers whether `b` is a node. -/
theorem c99_legacy (hb : Built k h v g c) (hf : k.Fits h v) {a : NodeIx} (ha : (k.grid h v).Node a) (b : NodeIx) (r : Bool) :
    HasPath g.rovable a b r ↔ (r = true ↔ (k.grid h v).Node b) := by
  rw [hasPath_spec (roams hb hf) ((c45_nodes_exact _).2.1 a |>.2 ha), reached_walk hb hf ha]
  have : (∃ n, Walk g a n b) ↔ (k.grid h v).Node b := by
    refine ⟨fun ⟨_, hw⟩ => hw.node hb hf ha, fun hn => ?_⟩
    obtain ⟨d, -, hw⟩ := c50_walk hb hf ha hn
    exact ⟨d, hw⟩
  rw [this]

/-- Six nodes in one group; no order; a path from (2,1) to (0,0). -/
example : ∃ (g : G Nat Nat) (c : Contents NodeIx Axis Nat Nat), Built exCfg 3 2 g c ∧
    (∃ l, Kosaraju g.rovable [l] ∧ (⟨2, 1⟩ : NodeIx) ∈ l ∧ (⟨0, 0⟩ : NodeIx) ∈ l) ∧ (∃ n, Toposort g.rovable (.error n)) ∧
    HasPath g.rovable ⟨2, 1⟩ ⟨0, 0⟩ true ∧ HasPath g.rovable ⟨2, 1⟩ ⟨3, 0⟩ false := by
  obtain ⟨g, c, hb, -⟩ := exGraph exCfg (by decide)
  have hf : exCfg.Fits 3 2 := ⟨by decide, by decide⟩
  have h0 : (exCfg.grid 3 2).Node ⟨0, 0⟩ := ⟨by decide, by decide⟩
  have h1 : (exCfg.grid 3 2).Node ⟨2, 1⟩ := ⟨by decide, by decide⟩
  obtain ⟨l, k1, -, k3, -⟩ := c97_legacy hb hf
  obtain ⟨o, t1, t2⟩ := c98_legacy hb hf
  refine ⟨g, c, hb, ⟨l, (k1 _).2 rfl, (k3 _).2 h1, (k3 _).2 h0⟩, ?_, (c99_legacy hb hf h1 _ _).2 ⟨fun _ => h0, fun _ => rfl⟩,
    (c99_legacy hb hf h1 _ _).2 ⟨(fun e => nomatch e), fun h => absurd h.1 (by decide)⟩⟩
  rcases t2 with ⟨hno, -⟩ | ⟨-, n, -, e⟩
  · exact absurd (.step .nil (nbrs_at hb hf h0) (by decide)) (hno ⟨0, 0⟩ ⟨1, 0⟩ h0)
  · exact ⟨n, (t1 _).2 e.symm⟩

end
end LG.Sq
