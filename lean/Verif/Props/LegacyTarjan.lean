import Verif.Props.LegacyScc
import Verif.Props.LegacyWhole
import Verif.Lemmas.Tarjan
/- C116 on the deprecated `SquareGraph`. -/
set_option linter.unusedSectionVars false
namespace LG.Sq
section
variable {N E : Type} {g : G N E} {k : Cfg} {h v : Nat} {c : Contents NodeIx Axis N E}

/-- **C116** for the deprecated graph: `tarjan_scc` ends without a panic with one result, a single group of all the nodes, each once. -/
theorem c116_legacy (hb : Built k h v g c) (hf : k.Fits h v) :
    ∃ l, (∀ gs, g.Tarjan gs ↔ gs = [l]) ∧ l.Nodup ∧ ∀ n, n ∈ l ↔ (k.grid h v).Node n := by
  have hT := roams hb hf
  have z := hb.sizes hf
  have hm : ∀ {n}, n ∈ (k.grid h v).nodes ↔ (k.grid h v).Node n := fun {n} => (c45_nodes_exact _).2.1 n
  have hlen : (k.grid h v).nodes.length = h * v := by
    rw [Grid.nodes_eq, List.length_map, List.length_range]; rfl
  obtain ⟨hcount, -, hidx⟩ := c45_index_bijection_partial hb hf
  have heq : ∀ {n}, (k.grid h v).Node n → g.toIndex n = .ok (nodeIdx g n) ∧ nodeIdx g n < h * v ∧ g.fromIndex (nodeIdx g n) = .ok n := by
    intro n hn
    obtain ⟨i, q1, q2, q3⟩ := hidx n hn
    have : nodeIdx g n = i := by unfold nodeIdx; rw [q2]
    rw [this]
    exact ⟨q2, q1, q3⟩
  have hnum : Numbered g.toIndex (k.grid h v).nodes (nodeIdx g) (h * v) := by
    refine ⟨fun hc => (heq (hm.1 hc)).1, fun hc hd h => ?_, fun hc => (heq (hm.1 hc)).2.1⟩
    have e := (heq (hm.1 hc)).2.2
    rw [h, (heq (hm.1 hd)).2.2] at e
    cases e
    rfl
  have hk : g.k = k := hb.stores.cfg
  have hmax : (k.grid h v).nodes.length + 1 ≤ 2 * g.k.m.half - 1 := by
    have hsm : h * v < k.m.half := z.small
    rw [hlen, hk]
    omega
  obtain ⟨sccs, k1, k2, k3, k4, k5, -⟩ := tarjan_spec hnum hmax hT.neighbors
    (fun hc hy => hm.2 (c46_neighbors_nodes _ (hm.1 hc) hy).1) hT.uniqueN hT.ids hT.uniqueIds
  have hw : ∀ {x y}, (k.grid h v).Node x → (k.grid h v).Node y → Reached (within (k.grid h v).nodes (k.grid h v).nbrs) x y := fun hx hy => by
    obtain ⟨d, -, hw⟩ := c50_walk hb hf hx hy
    exact (reached_walk hb hf hx).2 ⟨d, hw⟩
  have ha : (k.grid h v).Node ⟨0, 0⟩ := ⟨z.pos_h, z.pos_v⟩
  have k1 : ∀ gs, g.Tarjan gs ↔ gs = sccs := fun gs => by
    rw [← k1]
    unfold G.Tarjan
    rw [hcount]
  match sccs, k1, k2, k3, k4, k5 with
  | [], _, _, k3, _, _ => exact absurd ((k3 ⟨0, 0⟩).2 (hm.2 ha)) (by simp)
  | [l], k1, k2, k3, _, _ => exact ⟨l, k1, by simpa using k2, fun c => by rw [← hm]; simpa using k3 c⟩
  | l :: l' :: r, k1, k2, k3, k4, k5 =>
    exfalso
    obtain ⟨x, hx⟩ := List.exists_mem_of_ne_nil l (k4 l (by simp))
    obtain ⟨y, hy⟩ := List.exists_mem_of_ne_nil l' (k4 l' (by simp))
    have hxn := (k3 x).1 (by simp [hx])
    have hyn := (k3 y).1 (by simp [hy])
    obtain ⟨l'', hmm, h1, h2⟩ := (k5 x hxn y hyn).2 ⟨hw (hm.1 hxn) (hm.1 hyn), hw (hm.1 hyn) (hm.1 hxn)⟩
    rw [List.flatten_cons, List.nodup_append] at k2
    obtain ⟨-, k21, k22⟩ := k2
    rcases List.mem_cons.1 hmm with rfl | hmm
    · exact k22 y h2 y (by simp [hy]) rfl
    · exact k22 x hx x (List.mem_flatten.2 ⟨l'', hmm, h1⟩) rfl
end

/-- The 3 × 2 graph: one group with both (0,0) and (2,1). -/
example : ∃ (g : G Nat Nat) (l : List NodeIx), g.Tarjan [l] ∧ (⟨0, 0⟩ : NodeIx) ∈ l ∧ (⟨2, 1⟩ : NodeIx) ∈ l := by
  obtain ⟨g, c, hb, hc⟩ := exGraph exCfg (by decide)
  have hf : exCfg.Fits 3 2 := ⟨by decide, by decide⟩
  obtain ⟨l, k1, -, k3⟩ := c116_legacy hb hf
  exact ⟨g, l, (k1 _).2 rfl, (k3 _).2 ⟨by decide, by decide⟩, (k3 _).2 ⟨by decide, by decide⟩⟩
end LG.Sq
