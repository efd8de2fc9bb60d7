import Verif.Lemmas.Spfa
import Verif.Props.LegacyBellman
/- C118 on the deprecated `SquareGraph`. -/
set_option linter.unusedSectionVars false
namespace LG.Sq
section
variable {N E : Type}
variable {g : G N E} {k : Cfg} {s : Grid} {h v : Nat} {c : Contents NodeIx Axis N E} {val : E → Int}

theorem spfa_right (hb : Built k h v g c) (hf : k.Fits h v) (val : E → Int) {a : NodeIx} (ha : (k.grid h v).Node a) :
    ∃ r, g.Spfa val a r ∧ (∀ r', g.Spfa val a r' → r' = r) ∧ BfRight (k.grid h v).Node (Arc g val) (nodeIdx g) (h * v) a r := by
  have hmem := (c45_nodes_exact (k.grid h v)).2.1
  have hout : ∀ x, (k.grid h v).Node x → ∀ e : NodeIx × Int,
      (e ∈ (outRefs k (k.grid h v) c x).map fun r => (tg k r, val r.weight)) ↔ Arc g val x e.1 e.2 := by
    rintro u hu ⟨t, w⟩
    simp only [List.mem_map, Prod.mk.injEq]
    constructor
    · rintro ⟨r, h2, rfl, rfl⟩
      exact ⟨r, (edgeTo_iff hb hf hu).2 ⟨h2, rfl⟩, rfl⟩
    · rintro ⟨r, h2, rfl⟩
      obtain ⟨h3, rfl⟩ := (edgeTo_iff hb hf hu).1 h2
      exact ⟨r, h3, rfl, rfl⟩
  obtain ⟨r, h1, h2, h3⟩ := spfa_spec (R := Arc g val) (indexed hb hf) (fun x hx => nodeIdx_eq hb hf hx)
    (fun x hx l => sqArcs_iff (val := val) hb hf hx (l := l)) hout (fun u t w hu h => h.node hb hf hu) (fun x hx => (hmem x).2 hx)
    (c45_nodes_exact (k.grid h v)).2.2 ha
  have hn := (c45_index_bijection_partial hb hf).1
  refine ⟨r, ?_, ?_, h3⟩
  · unfold G.Spfa
    rw [hn]; exact h1
  · intro r' h5
    unfold G.Spfa at h5
    rw [hn] at h5
    exact h2 r' h5

/-- **C118.** `spfa` ends on every `SquareGraph` with one result: a negative cycle exactly if `edge_references` has a negative weight. -/
theorem c118_legacy_spfa (hb : Built k h v g c) (hf : k.Fits h v) (val : E → Int) {a : NodeIx} (ha : (k.grid h v).Node a) :
    ∃ r, g.Spfa val a r ∧ (∀ r', g.Spfa val a r' → r' = r) ∧
      (r = none ↔ ∃ rs, Yields (edgeRefsNext g) (edgeRefsInit g) rs ∧ ∃ e ∈ rs, val e.weight < 0) := by
  obtain ⟨r, h1, h2, h3⟩ := spfa_right hb hf val ha
  obtain ⟨r', g1, g2, g3⟩ := c108_legacy_bellman_ford hb hf val ha
  obtain ⟨r'', g4, -, g6⟩ := bellman_right hb hf val ha
  refine ⟨r, h1, h2, ?_⟩
  rw [← g3, h3.neg, ← g6.neg, g2 _ g4]

/-- **C118.** The distances are those of `bellman_ford`. -/
theorem c118_legacy_like_bellman_ford (hb : Built k h v g c) (hf : k.Fits h v) {a : NodeIx} (ha : (k.grid h v).Node a)
    {r r' : Option (Bell NodeIx)} (hr : g.Spfa val a r) (hr' : g.BellmanFord val a r') : r.map (·.dist) = r'.map (·.dist) := by
  obtain ⟨r0, -, h2, h3⟩ := spfa_right hb hf val ha
  obtain ⟨r1, -, h5, h6⟩ := bellman_right hb hf val ha
  rw [h2 r hr, h5 r' hr']
  exact h3.dist_eq (indexed hb hf) h6

/-- **C118.** Following the predecessors back from any cell ends at the source, and is, read forward, a walk of least cost. -/
theorem c118_legacy_predecessors (hb : Built k h v g c) (hf : k.Fits h v) {a b : NodeIx} (ha : (k.grid h v).Node a)
    (hb' : (k.grid h v).Node b) {st : Bell NodeIx} (hr : g.Spfa val a (some st)) :
    ∃ p x, Rebuilt (predOf g st) b p ∧ p.head? = some a ∧ ZPath (Arc g val) a b p.reverse x ∧ ZLeast (Arc g val) a b x := by
  obtain ⟨r, h1, h2, h3⟩ := spfa_right hb hf val ha
  have hr' := (h2 _ hr).symm
  obtain ⟨x, hx⟩ : ∃ x, st.d (nodeIdx g) b = some x := by
    obtain ⟨n, y, hz⟩ := zwalk_exists (val := val) hb hf ha hb'
    cases hx : st.d (nodeIdx g) b with
    | none => exact absurd hz ((h3.inf st hr' b hb').1 hx n y)
    | some x => exact ⟨x, rfl⟩
  obtain ⟨p, h4, h5, h6⟩ := h3.way hr' hb' hx
  refine ⟨p, x, ?_, h5, h6, (h3.dist st hr' b hb' x).1 hx⟩
  have hp : ∀ u, (k.grid h v).Node u → predOf g st u = st.p (nodeIdx g) u := by
    intro u hu
    unfold predOf Bell.p
    rw [nodeIdx_eq hb hf hu]
  have key : ∀ {u p}, Rebuilt (st.p (nodeIdx g)) u p → (k.grid h v).Node u → Rebuilt (predOf g st) u p := by
    intro u p hre
    induction hre with
    | root hv => exact fun pv => .root (by rw [hp _ pv]; exact hv)
    | step hv _ ih => exact fun pv => .step (by rw [hp _ pv]; exact hv) (ih ((h3.tree st hr').pred_node pv hv))
  exact key h4 hb'
end

/-- The looped 3 × 2 graph with its weights, none of them negative. -/
example : ∃ (g : G Nat Nat) (st st' : Bell NodeIx), g.Spfa (fun e => (e : Int)) ⟨2, 1⟩ (some st) ∧
    g.BellmanFord (fun e => (e : Int)) ⟨2, 1⟩ (some st') ∧ st.dist = st'.dist ∧ ∃ p, Rebuilt (predOf g st) ⟨0, 0⟩ p ∧ p.head? = some ⟨2, 1⟩ := by
  obtain ⟨g, c, hb, hc⟩ := exGraph exCfg (by decide)
  have hf : exCfg.Fits 3 2 := ⟨by decide, by decide⟩
  have h2 : (exCfg.grid 3 2).Node ⟨2, 1⟩ := by decide
  have h0 : (exCfg.grid 3 2).Node ⟨0, 0⟩ := by decide
  obtain ⟨r, g1, -, g2⟩ := c118_legacy_spfa hb hf (fun e => (e : Int)) h2
  obtain ⟨r', g3, -, -⟩ := c108_legacy_bellman_ford hb hf (fun e => (e : Int)) h2
  have he := c118_legacy_like_bellman_ford hb hf h2 g1 g3
  cases r with
  | none => obtain ⟨rs, -, e, -, hlt⟩ := g2.1 rfl; omega
  | some st =>
    cases r' with
    | none => cases he
    | some st' =>
      obtain ⟨p, x, h9, h10, -⟩ := c118_legacy_predecessors hb hf h2 h0 g1
      exact ⟨g, st, st', g1, g3, Option.some.inj he, p, h9, h10⟩
end LG.Sq
