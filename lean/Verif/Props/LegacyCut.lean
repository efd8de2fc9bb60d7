import Verif.Props.LegacyFiltered
import Verif.Props.Cut
/- C114 on the deprecated `SquareGraph`. -/
set_option linter.unusedSectionVars false
namespace LG.Sq
section
variable {N E : Type} {g : G N E} {k : Cfg} {h v : Nat} {c : Contents NodeIx Axis N E}

/-- Without the node `c` some two other nodes are separated. -/
def Cuts (g : G N E) (Node : NodeIx → Prop) (c : NodeIx) : Prop :=
  ∃ a b, Node a ∧ Node b ∧ a ≠ c ∧ b ≠ c ∧ ¬Ways (Around (Walk g · 1 ·) c) a b

/-- Without the steps from `u` to `w` and back some two nodes are separated. -/
def CutsLink (g : G N E) (Node : NodeIx → Prop) (u w : NodeIx) : Prop :=
  ∃ a b, Node a ∧ Node b ∧ ¬Ways (Beside (Walk g · 1 ·) u w) a b

theorem openWalk_ways {o a b : NodeIx} :
    OpenWalk g (fun x => decide (x ≠ o)) a b ↔ Ways (Around (Walk g · 1 ·) o) a b := by
  constructor
  · intro h
    induction h with
    | nil => exact .nil
    | step h0 hx h1 hy ih => exact ih.step ⟨h1, of_decide_eq_true hx, of_decide_eq_true hy⟩
  · intro h
    induction h with
    | nil => exact .nil
    | step _ h ih => exact .step ih (decide_eq_true h.2.1) h.1 (decide_eq_true h.2.2)

/-- **C114** for the deprecated graph: `has_path_connecting` on the map without the node. -/
theorem c114_legacy_has_path (hb : Built k h v g c) (hf : k.Fits h v) (o : NodeIx) :
    (Cuts g (k.grid h v).Node o ↔ ∃ a b, (k.grid h v).Node a ∧ (k.grid h v).Node b ∧ a ≠ o ∧ b ≠ o ∧
      HasPath (g.nodeFiltered fun x => decide (x ≠ o)) a b false) ∧
    (¬Cuts g (k.grid h v).Node o → ∀ a b, (k.grid h v).Node a → (k.grid h v).Node b → a ≠ o → b ≠ o → ∀ r,
      HasPath (g.nodeFiltered fun x => decide (x ≠ o)) a b r ↔ r = true) := by
  constructor
  · refine exists_congr fun a => exists_congr fun b => and_congr_right fun ha => and_congr_right fun _ => and_congr_right fun _ =>
      and_congr_right fun _ => ?_
    rw [c106_legacy_has_path hb hf _ ha, openWalk_ways]
    simp
  · intro hn a b ha hb' h1 h2 r
    have : Ways (Around (Walk g · 1 ·) o) a b := Classical.byContradiction fun h => hn ⟨a, b, ha, hb', h1, h2, h⟩
    rw [c106_legacy_has_path hb hf _ ha, openWalk_ways]
    simp [this]

theorem mem_nbrs_step {s : Grid} {n t : NodeIx} : t ∈ s.nbrs n ↔ ∃ d, s.step n d = some t := by
  unfold Grid.nbrs
  rw [List.mem_filterMap]
  exact ⟨fun ⟨d, _, h⟩ => ⟨d, h⟩, fun ⟨d, h⟩ => ⟨d, by rcases d with (_ | _) | (_ | _) <;> decide, h⟩⟩

theorem legacy_gridlike (hb : Built k h v g c) (hf : k.Fits h v) :
    Gridlike (Walk g · 1 ·) NodeIx.mk h v k.loopH k.loopV := by
  have node : ∀ {x y}, x < h → y < v → (k.grid h v).Node ⟨x, y⟩ := fun h1 h2 => ⟨h1, h2⟩
  have hw : ∀ {x y t}, x < h → y < v → (Walk g ⟨x, y⟩ 1 t ↔ ∃ d, (k.grid h v).step ⟨x, y⟩ d = some t) := fun h1 h2 => by
    rw [walk_one hb hf (node h1 h2), mem_nbrs_step]
  refine ⟨fun _ _ _ _ e => by cases e; exact ⟨rfl, rfl⟩, fun h1 h2 h3 => ?_, fun h1 h2 h3 h4 h5 => ?_, fun h1 h2 => ?_, fun h1 h2 => ?_,
    fun hr _ h1 h2 => ?_, fun hr _ h1 h2 => ?_, fun hr e _ _ h1 h2 h3 => ?_, fun hr e _ _ h1 h2 h3 => ?_⟩
  · have := (c46_neighbors_nodes _ (node h1 h2) ((walk_one hb hf (node h1 h2)).1 h3)).1
    exact ⟨_, _, this.1, this.2, rfl⟩
  · exact (walk_one hb hf (node h3 h4)).2 (c46_neighbors_nodes _ (node h1 h2) ((walk_one hb hf (node h1 h2)).1 h5)).2
  · refine (hw (by omega) h2).2 ⟨.foward .horizontal, ?_⟩
    rw [step_right (node (by omega) h2)]
    exact if_pos h1
  · refine (hw h1 (by omega)).2 ⟨.foward .vertical, ?_⟩
    rw [step_up (node h1 (by omega))]
    exact if_pos h2
  · refine (hw (by omega) h2).2 ⟨.foward .horizontal, ?_⟩
    rw [step_right (node (by omega) h2), if_neg (by simp only [Cfg.grid]; omega)]
    exact if_pos hr
  · refine (hw h1 (by omega)).2 ⟨.foward .vertical, ?_⟩
    rw [step_up (node h1 (by omega)), if_neg (by simp only [Cfg.grid]; omega)]
    exact if_pos hr
  · obtain ⟨d, hd⟩ := (hw h1 (by omega)).1 h3
    have hn := node h1 (show 0 < v by omega)
    have hr' : (k.grid h v).loopH = false := hr
    rcases d with (_ | _) | (_ | _)
    · rw [step_right hn, hr'] at hd; grind
    · rw [step_up hn] at hd; grind
    · rw [step_left hn, hr'] at hd; grind
    · rw [step_down hn] at hd; grind
  · obtain ⟨d, hd⟩ := (hw (by omega) h1).1 h3
    have hn := node (show 0 < h by omega) h1
    have hr' : (k.grid h v).loopV = false := hr
    rcases d with (_ | _) | (_ | _)
    · rw [step_right hn] at hd; grind
    · rw [step_up hn, hr'] at hd; grind
    · rw [step_left hn] at hd; grind
    · rw [step_down hn, hr'] at hd; grind

/-- **C114** for the deprecated graph. A node separates others only where the map is a single column that does not go round
vertically or a single row that does not go round horizontally, and there all do but the ends. -/
theorem c114_legacy_node (hb : Built k h v g c) (hf : k.Fits h v) {o : NodeIx} (ho : (k.grid h v).Node o) :
    Cuts g (k.grid h v).Node o ↔ (h = 1 ∧ k.loopV = false ∧ 0 < o.vertical ∧ o.vertical + 1 < v) ∨
      (v = 1 ∧ k.loopH = false ∧ 0 < o.horizontal ∧ o.horizontal + 1 < h) := by
  rw [← (legacy_gridlike hb hf).cut ho.1 ho.2]
  constructor
  · rintro ⟨a, b, ha, hb, hw⟩
    exact ⟨a.1, a.2, b.1, b.2, ha.1, ha.2, hb.1, hb.2, hw⟩
  · rintro ⟨x1, y1, x2, y2, h1, h2, h3, h4, hw⟩
    exact ⟨⟨x1, y1⟩, ⟨x2, y2⟩, ⟨h1, h2⟩, ⟨h3, h4⟩, hw⟩

/-- **C114** for the deprecated graph. So does every link of such a row or column, and the one link of a circle of two. -/
theorem c114_legacy_link (hb : Built k h v g c) (hf : k.Fits h v) {a b : NodeIx} (ha : (k.grid h v).Node a) (hne : a ≠ b)
    (hadj : b ∈ (k.grid h v).nbrs a) :
    CutsLink g (k.grid h v).Node a b ↔ (h = 1 ∧ (k.loopV = false ∨ v = 2)) ∨ (v = 1 ∧ (k.loopH = false ∨ h = 2)) := by
  have hb' := (c46_neighbors_nodes _ ha hadj).1
  rw [← (legacy_gridlike hb hf).link (x := a.1) (y := a.2) (x' := b.1) (y' := b.2) ha.1 ha.2 hb'.1 hb'.2 hne ((walk_one hb hf ha).2 hadj)]
  constructor
  · rintro ⟨a, b, ha, hb, hw⟩
    exact ⟨a.1, a.2, b.1, b.2, ha.1, ha.2, hb.1, hb.2, hw⟩
  · rintro ⟨x1, y1, x2, y2, h1, h2, h3, h4, hw⟩
    exact ⟨⟨x1, y1⟩, ⟨x2, y2⟩, ⟨h1, h2⟩, ⟨h3, h4⟩, hw⟩
end

/-! ### Instances -/
example : ∃ (g : G Nat Nat) (c : Contents NodeIx Axis Nat Nat), Built exCfg 3 2 g c ∧
    (∀ o, (exCfg.grid 3 2).Node o → ¬Cuts g (exCfg.grid 3 2).Node o) ∧
    (∀ r, HasPath (g.nodeFiltered fun x => decide (x ≠ ⟨1, 0⟩)) ⟨0, 0⟩ ⟨2, 0⟩ r ↔ r = true) ∧
    ¬CutsLink g (exCfg.grid 3 2).Node ⟨0, 0⟩ ⟨1, 0⟩ := by
  obtain ⟨g, c, hb, -⟩ := exGraph exCfg (by decide)
  have hf : exCfg.Fits 3 2 := ⟨by decide, by decide⟩
  have h0 : ∀ o, (exCfg.grid 3 2).Node o → ¬Cuts g (exCfg.grid 3 2).Node o := fun o ho h => by
    have := (c114_legacy_node hb hf ho).1 h; omega
  refine ⟨g, c, hb, h0, (c114_legacy_has_path hb hf ⟨1, 0⟩).2 (h0 _ ⟨by decide, by decide⟩) _ _ ⟨by decide, by decide⟩ ⟨by decide, by decide⟩
    (by decide) (by decide), fun h => ?_⟩
  have := (c114_legacy_link hb hf ⟨by decide, by decide⟩ (by decide) (by decide)).1 h
  omega
/-- A single row of three that does not go round: the one in the middle cuts, and both links do. -/
example : ∃ (g : G Nat Nat) (c : Contents NodeIx Axis Nat Nat), Built { exCfg with loopH := false, loopV := true } 3 1 g c ∧
    Cuts g (({ exCfg with loopH := false, loopV := true } : Cfg).grid 3 1).Node ⟨1, 0⟩ ∧
    CutsLink g (({ exCfg with loopH := false, loopV := true } : Cfg).grid 3 1).Node ⟨1, 0⟩ ⟨2, 0⟩ := by
  obtain ⟨g, h1, _⟩ := newWith_ok (N := Nat) (E := Nat) { exCfg with loopH := false, loopV := true } (h := 3) (v := 1) (by decide) (by decide)
    (by decide) (fun u i j => (10 * i + j, u)) (fun u i j a => ((if a = .horizontal then 100 else 200) + 10 * i + j, u)) ()
  have hf : ({ exCfg with loopH := false, loopV := true } : Cfg).Fits 3 1 := ⟨by decide, by decide⟩
  have hb := Built.new h1 (by decide)
  exact ⟨g, _, hb, (c114_legacy_node hb hf (o := ⟨1, 0⟩) ⟨by decide, by decide⟩).2 (.inr (by decide)),
    (c114_legacy_link hb hf (a := ⟨1, 0⟩) (b := ⟨2, 0⟩) ⟨by decide, by decide⟩ (by decide) (by decide)).2 (.inr ⟨rfl, .inl rfl⟩)⟩

end LG.Sq
