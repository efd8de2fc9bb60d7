import Verif.Props.Bipartite
import Verif.Props.LegacySearch
/- C88: petgraph's `is_bipartite_undirected` on the deprecated `SquareGraph`. -/
set_option linter.unusedSectionVars false
namespace LG.Sq
section
variable {N E : Type} {g : G N E} {k : Cfg} {s : Grid} {h v : Nat} {c : Contents NodeIx Axis N E}

/-- The grid with its directions in another order. -/
def Grid.lat2 (s : Grid) : Lat NodeIx Axis Dir :=
  { s.lat with dirs := [.foward .horizontal, .foward .vertical, .backward .horizontal, .backward .vertical] }

theorem lat2_laws (s : Grid) : LatLaws s.lat2 where
  dir := by
    constructor
    · simp [Grid.lat2, Grid.lat]
    · intro a; cases a <;> simp [Grid.lat2, Grid.lat]
    · simp [Grid.lat2, Grid.lat]
    · intro d; rcases d with (_ | _) | (_ | _) <;> simp [Grid.lat2, Grid.lat]
    · intro d; rcases d with (_ | _) | (_ | _) <;> rfl
    · intro d; rcases d with (_ | _) | (_ | _) <;> intro h <;> cases h
    · intro a; rfl
    · intro d; rcases d with (_ | _) | (_ | _) <;> simp [Grid.lat2, Grid.lat, Dir.opp]
    · intro _; rfl
    · intro h; cases h
  coord_inj := by intro x y x' y' _ _ _ _ he; simpa [Grid.lat2, Grid.lat] using he
  nbr_node := fun hc hn => lat_node.2 (Grid.step_node (lat_node.1 hc) hn)
  nbr_opp := fun hc hn => Grid.step_opp (lat_node.1 hc) hn

theorem path2 {a b : NodeIx} {n : Nat} : Path s.lat2 a n b ↔ Path s.lat a n b := by
  constructor <;> intro h <;> induction h with
  | nil => exact .nil
  | step _ hd ih => exact .step ih hd

theorem mem_nbrs2 {x y : NodeIx} : y ∈ s.lat2.nbrs x ↔ y ∈ s.nbrs x := by
  constructor <;> intro h <;> obtain ⟨d, -, hd⟩ := List.mem_filterMap.1 h <;> refine List.mem_filterMap.2 ⟨d, ?_, hd⟩
  · exact dirs_all d
  · exact (lat2_laws s).dir.dirs_mem d

theorem steps2 (s : Grid) : Steps s.lat2 where
  right := by
    intro x y hx _
    refine ⟨.foward .horizontal, ?_⟩
    simp only [Grid.lat2, Grid.lat] at hx
    simp only [Grid.lat2, Grid.lat, Grid.step]
    rw [along_fwd (by omega), if_pos hx]; rfl
  up := by
    intro x y _ hy
    refine ⟨.foward .vertical, ?_⟩
    simp only [Grid.lat2, Grid.lat] at hy
    simp only [Grid.lat2, Grid.lat, Grid.step]
    rw [along_fwd (by omega), if_pos hy]; rfl

theorem behaves (hb : Built k h v g c) (hf : k.Fits h v) :
    Behaves g.traversable (k.grid h v).Node (k.grid h v).nbrs (fun vm S => VisIs vm (k.grid h v) S) :=
  ⟨visitMap_is hb, fun hv hn => visit_eq hv hn, fun hv hn => isVisited_eq hv hn, fun hn => nbrs_at hb hf hn,
    fun h h' => Yields.unique h h', fun hn hy => (c46_neighbors_nodes _ hn hy).1⟩

theorem twoColourable2 {a : NodeIx} (ha : s.Node a) : TwoColourable s.nbrs a ↔ EvenRounds s.lat2 a := by
  rw [← twoColourable_iff (lat2_laws s) (lat_node.2 ha)]
  have hr : ∀ x, Reached s.nbrs a x ↔ Reached s.lat2.nbrs a x := by
    intro x
    constructor <;> intro h <;> induction h with
    | refl => exact .refl
    | step _ hy ih => exact ih.step (by first | exact mem_nbrs2.2 hy | exact mem_nbrs2.1 hy)
  constructor
  · rintro ⟨f, hf⟩
    exact ⟨f, fun x hx y hy => hf x ((hr x).2 hx) y (mem_nbrs2.1 hy)⟩
  · rintro ⟨f, hf⟩
    exact ⟨f, fun x hx y hy => hf x ((hr x).1 hx) y (mem_nbrs2.2 hy)⟩

/-- **C88.** On the deprecated graph, too, `is_bipartite_undirected` ends without a panic, and its one answer is `true` exactly if
every closed walk along `neighbors` has even length. -/
theorem c88_bipartite (hb : Built k h v g c) (hf : k.Fits h v) {a : NodeIx} (ha : (k.grid h v).Node a) (b : Bool) :
    IsBipartite g.traversable a b ↔ (b = true ↔ ∀ n, Walk g a n a → n % 2 = 0) := by
  rw [bipartite_spec (behaves hb hf) (nodes := (k.grid h v).lat.nodes) (fun x hx => Lat.mem_nodes.2 (lat_node.2 hx)) ha b, twoColourable2 ha]
  have : EvenRounds (k.grid h v).lat2 a ↔ ∀ n, Walk g a n a → n % 2 = 0 :=
    ⟨fun h n hw => h n (path2.2 (hw.path hb hf ha)), fun h n hp => h n (path_walk hb hf ha (path2.1 hp))⟩
  rw [this]

theorem grid_even {a : NodeIx} (ha : s.Node a) :
    EvenRounds s.lat2 a ↔ (s.loopH = true → s.h % 2 = 0) ∧ (s.loopV = true → s.v % 2 = 0) := by
  have hl := lat2_laws s
  have hst := steps2 s
  obtain ⟨hx, hy⟩ := id ha
  have h0 : s.lat2.Node ⟨0, 0⟩ := lat_node.2 ⟨by simp only; omega, by simp only; omega⟩
  constructor
  · intro he
    refine ⟨fun hL => Decidable.byContradiction fun hodd => ?_, fun hL => Decidable.byContradiction fun hodd => ?_⟩
    · have hrow : Path s.lat2 ⟨0, 0⟩ (s.h - 1) ⟨s.h - 1, 0⟩ :=
        hst.row (x := s.h - 1) (y := 0) (show 0 < s.v by omega) (show s.h - 1 < s.h by omega)
      have hlast : s.lat2.nbr ⟨s.h - 1, 0⟩ (.foward .horizontal) = some ⟨0, 0⟩ := by
        simp only [Grid.lat2, Grid.lat, Grid.step]
        rw [along_fwd (by omega), if_neg (by omega), if_pos hL]; rfl
      exact not_evenRounds hl hst (lat_node.2 ha) h0 (Path.step hrow hlast) (by omega) he
    · have hcol : Path s.lat2 ⟨0, 0⟩ (s.v - 1) ⟨0, s.v - 1⟩ :=
        hst.col (show 0 < s.h by omega) (y := s.v - 1) (show s.v - 1 < s.v by omega)
      have hlast : s.lat2.nbr ⟨0, s.v - 1⟩ (.foward .vertical) = some ⟨0, 0⟩ := by
        simp only [Grid.lat2, Grid.lat, Grid.step]
        rw [along_fwd (by omega), if_neg (by omega), if_pos hL]; rfl
      exact not_evenRounds hl hst (lat_node.2 ha) h0 (Path.step hcol hlast) (by omega) he
  · rintro ⟨h1, h2⟩
    refine evenRounds_of (f := fun n => alternating (n.horizontal + n.vertical)) hl (lat_node.2 ha) fun x hn d y hd => alternating_ne ?_
    obtain ⟨p, q⟩ := lat_node.1 hn
    simp only [Grid.lat2, Grid.lat] at hd
    rcases d with (_ | _) | (_ | _) <;> simp only [Grid.step, along_fwd p, along_fwd q, along_bwd p, along_bwd q, Option.map_eq_some_iff] at hd <;>
      obtain ⟨z, hz, rfl⟩ := hd <;> split at hz
    all_goals first
      | (cases hz; simp only; omega)
      | (split at hz
         · next hL => cases hz; simp only; first | (have := h1 hL; omega) | (have := h2 hL; omega)
         · cases hz)

/-- **C88.** The deprecated graph is bipartite exactly if each of its looped sides is even. -/
theorem c88_even_loops (hb : Built k h v g c) (hf : k.Fits h v) {a : NodeIx} (hx : a.horizontal < h) (hy : a.vertical < v) (b : Bool) :
    IsBipartite g.traversable a b ↔ b = decide ((k.loopH = true → h % 2 = 0) ∧ (k.loopV = true → v % 2 = 0)) := by
  have key : ∀ (p : Prop) [Decidable p], (b = true ↔ p) ↔ b = decide p := by intro p _; cases b <;> simp
  have ha : (k.grid h v).Node a := ⟨hx, hy⟩
  rw [bipartite_spec (behaves hb hf) (nodes := (k.grid h v).lat.nodes) (fun x hx => Lat.mem_nodes.2 (lat_node.2 hx)) ha b, twoColourable2 ha,
    grid_even ha]
  simp only [Cfg.grid]
  exact key _

/-- Three columns in a loop: not bipartite. -/
example : ∃ (g : G Nat Nat) (c : Contents NodeIx Axis Nat Nat), Built exCfg 3 2 g c ∧ IsBipartite g.traversable ⟨1, 1⟩ false ∧
    ¬ IsBipartite g.traversable ⟨1, 1⟩ true := by
  obtain ⟨g, c, hb, -⟩ := exGraph exCfg (by decide)
  have hf : exCfg.Fits 3 2 := ⟨by decide, by decide⟩
  exact ⟨g, c, hb, (c88_even_loops hb hf (by decide) (by decide) _).2 rfl, fun h => by cases (c88_even_loops hb hf (by decide) (by decide) _).1 h⟩

example : ∃ (g : G Nat Nat) (c : Contents NodeIx Axis Nat Nat), Built exCfg 3 2 g c ∧ ¬ ∀ n, Walk g ⟨1, 1⟩ n ⟨1, 1⟩ → n % 2 = 0 := by
  obtain ⟨g, c, hb, -⟩ := exGraph exCfg (by decide)
  have hf : exCfg.Fits 3 2 := ⟨by decide, by decide⟩
  have hn : (exCfg.grid 3 2).Node ⟨1, 1⟩ := by decide
  have h := (c88_bipartite hb hf hn false).1 ((c88_even_loops hb hf (by decide) (by decide) _).2 rfl)
  exact ⟨g, c, hb, fun hw => nomatch h.2 hw⟩

end
end LG.Sq
