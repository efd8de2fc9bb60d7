import Verif.Props.LegacyOrders
import Verif.Props.LegacyWhole
import Verif.Props.Ascending
/- C109 for the legacy graph: the order of its iterators. -/
namespace LG.Sq
section
variable {N E : Type} {k : Cfg} {h v : Nat} {g : G N E} {c : Contents NodeIx Axis N E}

theorem nodes_ascending (hb : Built k h v g c) (hf : k.Fits h v) : Ascending NodeIx.cmp (k.grid h v).nodes := by
  have h1 := c45_index_bijection_partial hb hf
  have h2 := c45_nodes_exact (k.grid h v)
  have e : (k.grid h v).nodes.length = h * v := h2.2.2
  unfold Ascending
  rw [List.pairwise_iff_getElem]
  intro i j hi hj hij
  obtain ⟨n, hn, -, hn'⟩ := h1.2.1 i (by omega)
  obtain ⟨n', hm, -, hm'⟩ := h1.2.1 j (by omega)
  obtain ⟨_, hn⟩ := List.getElem?_eq_some_iff.1 hn
  obtain ⟨_, hm⟩ := List.getElem?_eq_some_iff.1 hm
  have a1 : (k.grid h v).Node n := hn ▸ (h2.2.1 _).1 (List.getElem_mem _)
  have a2 : (k.grid h v).Node n' := hm ▸ (h2.2.1 _).1 (List.getElem_mem _)
  obtain ⟨i', j', b1, b2, b3⟩ := c79_legacy_order hb hf a1 a2
  rw [hn'] at b1
  rw [hm'] at b2
  cases b1; cases b2
  rw [hn, hm, b3]
  exact Nat.compare_eq_lt.2 hij

/-- **C109.** The legacy `node_identifiers()` comes in strictly ascending order, and so do the ids of `edge_references()`. -/
theorem c109_sorted (hb : Built k h v g c) (hf : k.Fits h v) :
    (∃ l, Yields (NodeIndices.next k) (.new g.horizontalNodeCount g.verticalNodeCount) l ∧ Ascending NodeIx.cmp l ∧
      ∀ n, n ∈ l ↔ (k.grid h v).Node n) ∧
    ∃ l, Yields (edgeRefsNext g) (edgeRefsInit g) l ∧ Ascending EdgeIx.cmp (l.map Ref.id) ∧
      ∀ e, e ∈ l.map Ref.id ↔ (k.grid h v).HasEdge e.node e.axis := by
  refine ⟨⟨_, c45_node_identifiers_partial hb hf, nodes_ascending hb hf, (c45_nodes_exact _).2.1⟩, ?_⟩
  obtain ⟨l, h1, h2⟩ := c48_edge_references hb hf
  have hx := c48_exact hb
  have e : l.map Ref.id = (k.grid h v).edgeKeys := by
    rw [← hx.1]
    have := mapM_view (f := fun r : Ref E => .ok r.id) (F := View.id) l _ h2 fun r w _ hr => by
      unfold Ref.view at hr
      cases e1 : r.source k with
      | error e => simp only [e1, bind, Except.bind] at hr; cases hr
      | ok a =>
        cases e2 : r.target k with
        | error e => simp only [e1, e2, bind, Except.bind] at hr; cases hr
        | ok b => simp only [e1, e2, bind, Except.bind] at hr; cases hr; rfl
    exact Except.ok.inj ((mapM_ok l fun r _ => rfl).symm.trans this)
  refine ⟨l, h1, ?_, by rw [e]; exact hx.2.2.1⟩
  rw [e]
  unfold Ascending Grid.edgeKeys
  rw [List.pairwise_flatMap]
  refine ⟨fun n _ => ?_, (nodes_ascending hb hf).imp fun {n n'} hn r hr r' hr' => ?_⟩
  · rw [List.pairwise_filterMap]
    have h0 : NodeIx.cmp n n = .eq := (c96_index_orders.2.2.1.eq_iff _ _).2 rfl
    refine List.Pairwise.imp (R := fun a b => Axis.cmp a b = .lt) (fun {a b} hab r hr r' hr' => ?_)
      (List.Pairwise.cons (fun b hb => by cases List.mem_singleton.1 hb; decide) (List.pairwise_singleton _ _))
    split at hr <;> cases hr
    split at hr' <;> cases hr'
    simp only [EdgeIx.cmp, h0, lexCmp, hab]
  · simp only [List.mem_filterMap] at hr hr'
    obtain ⟨a, -, hr⟩ := hr
    obtain ⟨a', -, hr'⟩ := hr'
    split at hr <;> cases hr
    split at hr' <;> cases hr'
    simp only [EdgeIx.cmp, hn, lexCmp]

/-- A 3 × 2 graph that loops horizontally. -/
example : ∃ (g : G Nat Nat) (l : List NodeIx) (m : List EdgeIx), Yields (NodeIndices.next exCfg) (.new 3 2) l ∧ Ascending NodeIx.cmp l ∧
    ⟨2, 1⟩ ∈ l ∧ Ascending EdgeIx.cmp m ∧ ⟨⟨2, 0⟩, .horizontal⟩ ∈ m ∧ ∃ rs : List (Ref Nat), Yields (edgeRefsNext g) (edgeRefsInit g) rs ∧ rs.map Ref.id = m := by
  obtain ⟨g, c, hb, -⟩ := exGraph exCfg (by decide)
  obtain ⟨⟨l, h1, h2, h3⟩, rs, h4, h5, h6⟩ := c109_sorted hb ⟨by decide, by decide⟩
  have e1 : g.horizontalNodeCount = 3 := hb.stores.nodes.rows
  have e2 : g.verticalNodeCount = 2 := hb.stores.nodes.cols
  rw [e1, e2] at h1
  exact ⟨g, l, _, h1, h2, (h3 _).2 (by decide), h5, (h6 _).2 (by decide), rs, h4, rfl⟩

end
end LG.Sq
