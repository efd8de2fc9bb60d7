import Verif.Props.LegacyScc
import Verif.Props.TopoWalk
/- C117 on the deprecated `SquareGraph`. -/
set_option linter.unusedSectionVars false
namespace LG.Sq
section
variable {N E : Type} {g : G N E} {k : Cfg} {h v : Nat} {c : Contents NodeIx Axis N E}

/-- **C117** for the deprecated graph: `Topo` ends without a panic with one result, which is right: it lists the nodes without any
neighbour, each once, and any other node is on a cycle (so that no cycle leads to what is listed). -/
theorem c117_legacy (hb : Built k h v g c) (hf : k.Fits h v) :
    ∃ l, (∀ l', TopoWalk g.rovable l' ↔ l' = l) ∧ l.Nodup ∧ (∀ n, n ∈ l ↔ (k.grid h v).Node n ∧ ¬ ∃ t, Walk g n 1 t) ∧
      ∀ n, (k.grid h v).Node n → n ∉ l → Walk g n 2 n := by
  have hT := roams hb hf
  have hm : ∀ {n}, n ∈ (k.grid h v).nodes ↔ (k.grid h v).Node n := fun {n} => (c45_nodes_exact _).2.1 n
  have hmem : ∀ n, n ∈ ((k.grid h v).nodes.filter (fun c => ((k.grid h v).nbrs c).isEmpty)).reverse ↔ (k.grid h v).Node n ∧ (k.grid h v).nbrs n = [] := by
    intro n
    rw [List.mem_reverse, List.mem_filter, hm, List.isEmpty_iff]
  refine ⟨_, topoWalk_iff hT, ?_, fun n => (hmem n).trans (and_congr_right fun hn => ?_), fun n hn hno => ?_⟩
  · rw [List.nodup_iff_count]; intro a; rw [List.count_reverse]; exact List.nodup_iff_count.1 (hT.nodup.filter _) a
  · constructor
    · rintro he ⟨t, hw⟩
      cases hw with
      | step hw hl hy =>
        cases hw
        rw [Yields.unique hl (nbrs_at hb hf hn), he] at hy
        cases hy
    · exact fun h => List.eq_nil_iff_forall_not_mem.2 fun t ht => h ⟨t, .step .nil (nbrs_at hb hf hn) ht⟩
  · cases e : (k.grid h v).nbrs n with
    | nil => exact absurd ((hmem n).2 ⟨hn, e⟩) hno
    | cons t r =>
      have ht : t ∈ (k.grid h v).nbrs n := by rw [e]; exact List.mem_cons_self
      obtain ⟨htn, hback⟩ := c46_neighbors_nodes _ hn ht
      exact .step (.step .nil (nbrs_at hb hf hn) ht) (nbrs_at hb hf htn) hback
end

/-- The 3 × 2 graph: nothing is listed, (0,0) being on a cycle. -/
example : ∃ g : G Nat Nat, TopoWalk g.rovable [] ∧ Walk g ⟨0, 0⟩ 2 ⟨0, 0⟩ := by
  obtain ⟨g, c, hb, hc⟩ := exGraph exCfg (by decide)
  have hf : exCfg.Fits 3 2 := ⟨by decide, by decide⟩
  obtain ⟨l, k1, -, k3, k4⟩ := c117_legacy hb hf
  have hnil : l = [] := (k1 []).1 ((topoWalk_iff (roams hb hf) []).2 (by decide)) ▸ rfl
  exact ⟨g, (k1 _).2 hnil.symm, k4 _ ⟨by decide, by decide⟩ (by rw [hnil]; simp)⟩
end LG.Sq
