import Verif.Props.Dijkstra
import Verif.Props.Stored
import Verif.Props.Double
/- C68: searches on the shapes whose moves do not form a lattice. -/
set_option linter.unusedSectionVars false
namespace LG
section
variable {C A D N E : Type} [DecidableEq C]
variable {g : Graph C A D N E} {s : Shape C A D} {L : Lat C A D} {rep : C → Prop} {k : Contents C A N E}
variable {cost : EdgeRef C D E → Nat}

/-- Walking `n` steps along items of `neighbors` that are in the graph. -/
inductive InWalk (s : Shape C A D) (a : C) : Nat → C → Prop where
  | nil : InWalk s a 0 a
  | step {n : Nat} {b c : C} {l : List C} : InWalk s a n b → Yields (neighborsNext s b) 0 l → c ∈ l →
    (∃ o, s.toOffset c = .ok (some o)) → InWalk s a (n + 1) c

/-- Distances on what can be reached. -/
theorem hopDist_reach (hd : DirLaws L) (a : C) : ∃ δ, HopDist L (fun c => ∃ n, Path L a n c) a δ := by
  have hall : ∀ c, ∃ d, (∃ n, Path L a n c) → Path L a d c ∧ ∀ n, Path L a n c → d ≤ n := fun c => by
    by_cases hc : ∃ n, Path L a n c
    · obtain ⟨n, hn⟩ := hc
      obtain ⟨d, h⟩ := least_exists (p := fun n => Path L a n c) n hn
      exact ⟨d, fun _ => h⟩
    · exact ⟨0, fun h => absurd h hc⟩
  refine ⟨fun c => Classical.choose (hall c), ?_, ?_, ?_, ?_, ?_⟩
  · intro c hc h0
    have := (Classical.choose_spec (hall c) hc).1
    rw [h0] at this
    cases this
    rfl
  · intro x y hx hy
    obtain ⟨d, -, hd⟩ := List.mem_filterMap.1 hy
    have hp := Path.step (Classical.choose_spec (hall x) hx).1 hd
    exact (Classical.choose_spec (hall y) ⟨_, hp⟩).2 _ hp
  · intro y n hy h1
    have hp := (Classical.choose_spec (hall y) hy).1
    rw [h1] at hp
    cases hp with
    | @step _ x _ d hp hd' =>
      refine ⟨x, ⟨_, hp⟩, ?_, List.mem_filterMap.2 ⟨d, hd.dirs_mem d, hd'⟩⟩
      have e1 := (Classical.choose_spec (hall x) ⟨_, hp⟩).2 _ hp
      have e2 := (Classical.choose_spec (hall y) hy).2 _ (.step (Classical.choose_spec (hall x) ⟨_, hp⟩).1 hd')
      rw [h1] at e2
      omega
  · exact Nat.le_zero.1 ((Classical.choose_spec (hall a) ⟨0, .nil⟩).2 _ .nil)
  · intro c hc
    exact Classical.choose_spec (hall c) hc

/-! ### Moves and paths of the shapes -/

theorem inner_dir (hd : DirLaws L) : DirLaws (inner L) := by
  cases hd; constructor <;> assumption

/-- A path there and back for every step to the right or up. -/
structure BothWays (L : Lat C A D) : Prop where
  right : ∀ {x y}, x + 1 < L.width → y < L.height → (∃ n, Path (inner L) (L.coord x y) n (L.coord (x + 1) y)) ∧
    ∃ n, Path (inner L) (L.coord (x + 1) y) n (L.coord x y)
  up : ∀ {x y}, x < L.width → y + 1 < L.height → (∃ n, Path (inner L) (L.coord x y) n (L.coord x (y + 1))) ∧
    ∃ n, Path (inner L) (L.coord x (y + 1)) n (L.coord x y)

theorem BothWays.origin (hw : BothWays L) : ∀ {x y : Nat}, x < L.width → y < L.height →
    (∃ n, Path (inner L) (L.coord 0 0) n (L.coord x y)) ∧ ∃ n, Path (inner L) (L.coord x y) n (L.coord 0 0)
  | 0, 0, _, _ => ⟨⟨0, .nil⟩, ⟨0, .nil⟩⟩
  | x + 1, y, hx, hy => by
    obtain ⟨⟨n, h1⟩, n', h2⟩ := hw.origin (x := x) (y := y) (by omega) hy
    obtain ⟨⟨m, h3⟩, m', h4⟩ := hw.right hx hy
    exact ⟨⟨_, h1.trans h3⟩, _, h4.trans h2⟩
  | 0, y + 1, hx, hy => by
    obtain ⟨⟨n, h1⟩, n', h2⟩ := hw.origin (x := 0) (y := y) hx (by omega)
    obtain ⟨⟨m, h3⟩, m', h4⟩ := hw.up hx hy
    exact ⟨⟨_, h1.trans h3⟩, _, h4.trans h2⟩

theorem BothWays.connected (hw : BothWays L) {a b : C} (ha : L.Node a) (hb : L.Node b) : ∃ n, Path (inner L) a n b := by
  obtain ⟨x, y, hx, hy, rfl⟩ := ha
  obtain ⟨x', y', hx', hy', rfl⟩ := hb
  obtain ⟨n, h1⟩ := (hw.origin hx hy).2
  obtain ⟨m, h2⟩ := (hw.origin hx' hy').1
  exact ⟨_, h1.trans h2⟩

theorem Path.one {L : Lat C A D} {a b : C} {d : D} (h : L.nbr a d = some b) : Path L a 1 b := .step .nil h

theorem inner_one {a b : C} {d : D} (h : L.nbr a d = some b) (hb : L.Node b) : ∃ n, Path (inner L) a n b :=
  ⟨1, .one (inner_nbr.2 ⟨h, hb⟩)⟩

theorem inner_two {a b c : C} {d d' : D} (h : L.nbr a d = some b) (hb : L.Node b) (h' : L.nbr b d' = some c) (hc : L.Node c) :
    ∃ n, Path (inner L) a n c := ⟨2, .step (.one (inner_nbr.2 ⟨h, hb⟩)) (inner_nbr.2 ⟨h', hc⟩)⟩

theorem coord_node {x y : Nat} (hx : x < L.width) (hy : y < L.height) : L.Node (L.coord x y) := ⟨x, y, hx, hy, rfl⟩

/-- More moves than a lattice has. -/
theorem BothWays.of (hl : LatLaws L) (hst : Steps L) {f : C → D → Option C}
    (hf : ∀ c d t, L.nbr c d = some t → L.Node t → f c d = some t) : BothWays { L with nbr := f } := by
  constructor
  · intro x y hx hy
    obtain ⟨d, hd⟩ := hst.right hx hy
    have h1 : L.Node (L.coord x y) := coord_node (by have := hx; simp only at this; omega) hy
    have h2 : L.Node (L.coord (x + 1) y) := coord_node hx hy
    exact ⟨inner_one (hf _ _ _ hd h2) h2, inner_one (hf _ _ _ (hl.nbr_opp h1 hd) h1) h1⟩
  · intro x y hx hy
    obtain ⟨d, hd⟩ := hst.up hx hy
    have h1 : L.Node (L.coord x y) := coord_node hx (by have := hy; simp only at this; omega)
    have h2 : L.Node (L.coord x (y + 1)) := coord_node hx hy
    exact ⟨inner_one (hf _ _ _ hd h2) h2, inner_one (hf _ _ _ (hl.nbr_opp h1 hd) h1) h1⟩

end

theorem axLewNbr_of {even : Bool} {h v : Nat} {c t : Axial} {u : Int × Int} (hn : axNbr even false h v c u = some t) :
    axLewNbr even h v c u = some t := by
  unfold axNbr at hn
  split at hn
  · rename_i hi
    rw [← inAxial_iff] at hi
    cases hn
    unfold InAxial at hi
    simp only at hi
    unfold axLewNbr displaced column
    simp only
    rw [if_neg (by omega), if_neg (by omega), if_neg (by omega)]
  · cases hn

theorem axLewNbr_rep {m : Machine} {even : Bool} {h v : Nat} (hw : h < m.half) (hh : v < m.half) {c t : Axial} {u : Int × Int}
    (hu : UnitVec u) (hc : InAxial even h v c) (hn : axLewNbr even h v c u = some t) :
    InAxial even h v t ∨ axRep m even false t := by
  have hr := step_rep hw hh hu (inAxial_iff.1 hc)
  have hcol := column_step hc hu
  unfold axLewNbr at hn
  simp only at hn
  split at hn
  · cases hn
  · split at hn
    · cases hn
      unfold InAxial at hc
      unfold column displaced at *
      left
      unfold InAxial
      simp only at *
      omega
    · split at hn
      · cases hn
        unfold InAxial at hc
        unfold column displaced at *
        left
        unfold InAxial
        simp only at *
        omega
      · cases hn
        exact .inr hr

/-- What moves return can at least be passed back to the graph. -/
theorem Single.nbr_rep {C A D : Type} {s : Shape C A D} {L : Lat C A D} {rep : C → Prop} (h : Single s L rep) :
    Constructible s → ∀ {c t d}, L.Node c → L.nbr c d = some t → L.Node t ∨ rep t := by
  induction h with
  | sound h => intro _ c t d hc hn; exact .inl (h.laws.nbr_node hc hn)
  | hexOffQ m k h v => intros; exact .inr trivial
  | hexOffQDirected m k h v => intros; exact .inr trivial
  | hexOffQLew m k h v => intros; exact .inr trivial
  | hexAxRLew m t k hk h v ht =>
    intro hcn c t d hc hn
    have hi : InAxial k.isEven h v c := inAxial_iff.2 (axIn_iff.2 hc)
    exact (axLewNbr_rep hcn.bounds.2.1 hcn.bounds.2.2 (axialStepR_eq d ▸ d.unit) hi hn).imp
      (fun h => axIn_iff.1 (inAxial_iff.1 h)) id
  | hexAxQLew m t k hk h v ht =>
    intro hcn c t d hc hn
    have hi : InAxial k.isEven h v c := inAxial_iff.2 (axIn_iff.2 hc)
    exact (axLewNbr_rep hcn.bounds.2.1 hcn.bounds.2.2 (axialStepQ_eq d ▸ d.unit) hi hn).imp
      (fun h => axIn_iff.1 (inAxial_iff.1 h)) id
  | hexAxRLewDirected m t k hk h v ht =>
    intro hcn c t d hc hn
    have hi : InAxial k.isEven h v c := inAxial_iff.2 (axIn_iff.2 hc)
    exact (axLewNbr_rep hcn.bounds.2.1 hcn.bounds.2.2 (axialStepR_eq d ▸ d.unit) hi hn).imp
      (fun h => axIn_iff.1 (inAxial_iff.1 h)) id
  | hexAxQLewDirected m t k hk h v ht =>
    intro hcn c t d hc hn
    have hi : InAxial k.isEven h v c := inAxial_iff.2 (axIn_iff.2 hc)
    exact (axLewNbr_rep hcn.bounds.2.1 hcn.bounds.2.2 (axialStepQ_eq d ▸ d.unit) hi hn).imp
      (fun h => axIn_iff.1 (inAxial_iff.1 h)) id
  | byRef _ ih => exact ih

theorem Stored.nbr_rep {C A D : Type} {s : Shape C A D} {L : Lat C A D} {rep : C → Prop} (h : Stored s L rep) :
    Constructible s → ∀ {c t d}, L.Node c → L.nbr c d = some t → L.Node t ∨ rep t := by
  induction h with
  | single h => exact h.nbr_rep
  | double m h v =>
    intro _ c t d hc hn
    exact .inr ((dblNbr_iff.1 hn).1.parity (dblLat_node.1 hc))
  | byRef _ ih => exact ih

theorem qNbr_bothWays {A : Type} [DecidableEq Offset] {even : Bool} {h v : Nat} {L : Lat Offset A AxisDQ} (hw : L.width = h)
    (hh : L.height = v) (hco : L.coord = Offset.mk) (hn : L.nbr = qNbr even h v) : BothWays L := by
  subst hw hh
  have hnode : ∀ {x y}, x < L.width → y < L.height → L.Node ⟨x, y⟩ := fun hx hy => (node_mk hco).2 ⟨hx, hy⟩
  constructor
  · intro x y hx hy
    rw [hco]
    cases hu : upRow even y with
    | true =>
      refine ⟨inner_one (d := .NE) ?_ (hnode hx hy), inner_one (d := .SE) ?_ (hnode (by omega) hy)⟩ <;>
      · rw [hn, qNbr_iff]; simp only [hu, qStep]; omega
    | false =>
      refine ⟨inner_one (d := .NW) ?_ (hnode hx hy), inner_one (d := .SW) ?_ (hnode (by omega) hy)⟩ <;>
      · rw [hn, qNbr_iff]; simp only [hu, qStep]; omega
  · intro x y hx hy
    rw [hco]
    refine ⟨inner_one (d := .N) ?_ (hnode hx hy), inner_one (d := .S) ?_ (hnode hx (by omega))⟩ <;>
    · rw [hn, qNbr_iff]; simp only [qStep]; omega

theorem qLewNbr_bothWays [DecidableEq Offset] {even : Bool} {h v : Nat} : BothWays (offLatQLoop even h v) := by
  have hnode : ∀ {x y}, x < h → y < v → (offLatQLoop even h v).Node ⟨x, y⟩ := fun hx hy => (node_mk rfl).2 ⟨hx, hy⟩
  have mv : ∀ {x y x' y' : Nat} {d : AxisDQ}, x < h → x' < h → y' < v → _ → (offLatQLoop even h v).nbr ⟨x, y⟩ d = some ⟨x', y'⟩ :=
    fun hx hx' hy' hr => (qLewNbr_iff hx).2 ⟨hx', hy', hr⟩
  have east : ∀ {x y}, x + 1 < h → y < v → (offLatQLoop even h v).nbr ⟨x, y⟩ .N = some ⟨x + 1, y⟩ := fun {x y} hx hy =>
    mv (by omega) hx hy (by simp only [qLewStep]; omega)
  have west : ∀ {x y}, x + 1 < h → y < v → (offLatQLoop even h v).nbr ⟨x + 1, y⟩ .S = some ⟨x, y⟩ := fun {x y} hx hy =>
    mv hx (by omega) hy (by simp only [qLewStep]; omega)
  have last : ∀ {y}, 0 < h → y < v → (offLatQLoop even h v).nbr ⟨h - 1, y⟩ .N = some ⟨0, y⟩ := fun {y} hx hy =>
    mv (by omega) (by omega) hy (by simp only [qLewStep, true_and]; omega)
  have first : ∀ {y}, 0 < h → y < v → (offLatQLoop even h v).nbr ⟨0, y⟩ .S = some ⟨h - 1, y⟩ := fun {y} hx hy =>
    mv (by omega) (by omega) hy (by simp only [qLewStep, true_and]; omega)
  constructor
  · intro x y hx hy
    exact ⟨inner_one (east hx hy) (hnode hx hy), inner_one (west hx hy) (hnode (Nat.lt_of_succ_lt hx) hy)⟩
  · intro x y hx hy
    replace hx : x < h := hx
    replace hy : y + 1 < v := hy
    show (∃ n, Path (inner (offLatQLoop even h v)) ⟨x, y⟩ n ⟨x, y + 1⟩) ∧ ∃ n, Path (inner (offLatQLoop even h v)) ⟨x, y + 1⟩ n ⟨x, y⟩
    -- one column to the west or to the east, round the ring
    have low : ∀ {y y' : Nat} {d : AxisDQ}, y' < v → (qLewStep d (upRow even y)).1.1 = -1 → (qLewStep d (upRow even y)).2 = true →
        (y' : Int) = y + (qLewStep d (upRow even y)).1.2 → ∃ n, Path (inner (offLatQLoop even h v)) ⟨x, y⟩ n ⟨x, y'⟩ := by
      intro y y' d hy' h1 h2 h3
      cases x with
      | zero =>
        exact inner_two (mv hx (x' := h - 1) (d := d) (by omega) hy' (by simp only [h1, h2, true_and]; omega)) (hnode (by omega) hy')
          (last (by omega) hy') (hnode hx hy')
      | succ x =>
        exact inner_two (mv hx (x' := x) (d := d) (by omega) hy' (by simp only [h1, h2, true_and]; omega)) (hnode (by omega) hy')
          (east hx hy') (hnode hx hy')
    have high : ∀ {y y' : Nat} {d : AxisDQ}, y' < v → (qLewStep d (upRow even y)).1.1 = 1 → (qLewStep d (upRow even y)).2 = true →
        (y' : Int) = y + (qLewStep d (upRow even y)).1.2 → ∃ n, Path (inner (offLatQLoop even h v)) ⟨x, y⟩ n ⟨x, y'⟩ := by
      intro y y' d hy' h1 h2 h3
      by_cases hl : x + 1 = h
      · have : x = h - 1 := by omega
        subst this
        exact inner_two (mv hx (x' := 0) (d := d) (by omega) hy' (by simp only [h1, h2, true_and]; omega)) (hnode (by omega) hy')
          (first (by omega) hy') (hnode hx hy')
      · exact inner_two (mv hx (x' := x + 1) (d := d) (by omega) hy' (by simp only [h1, h2, true_and]; omega)) (hnode (by omega) hy')
          (west (by omega) hy') (hnode hx hy')
    have hsucc := upRow_succ even y
    cases hu : upRow even y with
    | true =>
      rw [hu] at hsucc
      exact ⟨low (d := .NW) hy (by rw [hu]; rfl) (by rw [hu]; rfl) (by rw [hu]; simp only [qLewStep]; omega),
        high (d := .SE) (by omega) (by rw [hsucc]; rfl) (by rw [hsucc]; rfl) (by rw [hsucc]; simp only [qLewStep, Bool.not_true]; omega)⟩
    | false =>
      rw [hu] at hsucc
      exact ⟨high (d := .NE) hy (by rw [hu]; rfl) (by rw [hu]; rfl) (by rw [hu]; simp only [qLewStep]; omega),
        low (d := .SW) (by omega) (by rw [hsucc]; rfl) (by rw [hsucc]; rfl) (by rw [hsucc]; simp only [qLewStep, Bool.not_false]; omega)⟩

theorem Single.bothWays {C A D : Type} {s : Shape C A D} {L : Lat C A D} {rep : C → Prop} (h : Single s L rep) :
    ∀ [DecidableEq C], BothWays L := by
  induction h with
  | @sound C A D s L rep h => intro _; exact BothWays.of h.laws h.steps (f := L.nbr) (fun _ _ _ h _ => h)
  | hexOffQ m k h v => intro _; exact qNbr_bothWays (even := k.isEven) rfl rfl rfl rfl
  | hexOffQDirected m k h v => intro _; exact qNbr_bothWays (even := k.isEven) rfl rfl rfl rfl
  | hexOffQLew m k h v => intro _; exact qLewNbr_bothWays
  | hexAxRLew m t k hk h v ht =>
    intro _
    have hs := Sound.hexAxR m t k h v ht
    rw [hk] at hs
    exact BothWays.of hs.laws hs.steps (fun c d t hn _ => by rw [axialStepR_eq]; exact axLewNbr_of hn)
  | hexAxQLew m t k hk h v ht =>
    intro _
    have hs := Sound.hexAxQ m t k h v ht
    rw [hk] at hs
    exact BothWays.of hs.laws hs.steps (fun c d t hn _ => by rw [axialStepQ_eq]; exact axLewNbr_of hn)
  | hexAxRLewDirected m t k hk h v ht =>
    intro _
    have hs := Sound.hexAxRDirected m t k h v ht
    rw [hk] at hs
    exact BothWays.of hs.laws hs.steps (fun c d t hn _ => by rw [axialStepR_eq]; exact axLewNbr_of hn)
  | hexAxQLewDirected m t k hk h v ht =>
    intro _
    have hs := Sound.hexAxQDirected m t k h v ht
    rw [hk] at hs
    exact BothWays.of hs.laws hs.steps (fun c d t hn _ => by rw [axialStepQ_eq]; exact axLewNbr_of hn)
  | byRef _ ih => exact ih

section
variable {C A D N E : Type} [DecidableEq C] [DecidableEq A] [DecidableEq D]
variable {g : Graph C A D N E} {s : Shape C A D} {L : Lat C A D} {rep : C → Prop} {k : Contents C A N E}
variable {cost : EdgeRef C D E → Nat}

omit [DecidableEq A] [DecidableEq C] [DecidableEq D] in
/-- The storing end of an edge seen from a node is a node. -/
theorem Single.key_node {s : Shape C A D} {L : Lat C A D} {rep : C → Prop} (h : Single s L rep) :
    ∀ [DecidableEq C] [DecidableEq A] [DecidableEq D] {c d t}, L.Node c → L.nbr c d = some t → L.Node (L.key c d t).1 := by
  induction h with
  | sound h => intro _ _ _ c d t hc hn; exact (h.lawful.readable hc _ _ hn).1
  | hexOffQ m k h v => intro _ _ i c d t hc hn; cases Subsingleton.elim i instDecidableEqAxisDQ; exact (c58_offQ hc).1 d t hn
  | hexOffQDirected m k h v => intro _ _ i c d t hc hn; cases Subsingleton.elim i instDecidableEqAxisDQ; exact (c58_offQDirected hc _ _ hn).1
  | hexOffQLew m k h v => intro _ _ i c d t hc hn; cases Subsingleton.elim i instDecidableEqAxisDQ; exact (c58_offQLew hc).1 d t hn
  | hexAxRLew m t k hk h v ht => intro _ _ i c d t hc hn; cases Subsingleton.elim i instDecidableEqAxisDR; exact (c58_axRLew hc _ _ hn).1
  | hexAxQLew m t k hk h v ht => intro _ _ i c d t hc hn; cases Subsingleton.elim i instDecidableEqAxisDQ; exact (c58_axQLew hc _ _ hn).1
  | hexAxRLewDirected m t k hk h v ht => intro _ _ i c d t hc hn; cases Subsingleton.elim i instDecidableEqAxisDR; exact (c58_axDRLew hc _ _ hn).1
  | hexAxQLewDirected m t k hk h v ht => intro _ _ i c d t hc hn; cases Subsingleton.elim i instDecidableEqAxisDQ; exact (c58_axDQLew hc _ _ hn).1
  | byRef _ ih => exact ih

omit [DecidableEq A] [DecidableEq C] [DecidableEq D] in
theorem Stored.key_node {s : Shape C A D} {L : Lat C A D} {rep : C → Prop} (h : Stored s L rep) :
    ∀ [DecidableEq C] [DecidableEq A] [DecidableEq D] {c d t}, L.Node c → L.nbr c d = some t → L.Node (L.key c d t).1 := by
  induction h with
  | single h => exact h.key_node
  | double m h v =>
    intro _ _ i c d t hc hn
    cases Subsingleton.elim i instDecidableEqAxisDR
    exact (c34_edges_readable (dblLat_node.1 hc)).1 d t hn
  | byRef _ ih => exact ih

/-- What searching needs of a shape: it can store, its moves end at coordinates `to_offset` can be asked about, and an edge is
looked for at a node. -/
structure Searchable (s : Shape C A D) (L : Lat C A D) (rep : C → Prop) : Prop extends Storable s L rep where
  nbr_rep : Constructible s → ∀ {c t d}, L.Node c → L.nbr c d = some t → L.Node t ∨ rep t
  key_node : ∀ [DecidableEq C] [DecidableEq A] [DecidableEq D] {c d t}, L.Node c → L.nbr c d = some t → L.Node (L.key c d t).1

omit [DecidableEq A] [DecidableEq C] [DecidableEq D] in
theorem Stored.searchable {s : Shape C A D} {L : Lat C A D} {rep : C → Prop} (h : Stored s L rep) : Searchable s L rep :=
  ⟨h.storable, h.nbr_rep, h.key_node⟩

theorem Searchable.double (m : Machine) (h v : Nat) : Searchable (dblShape m h v) (dblLat h v) (fun c => c.h % 2 = c.v % 2) :=
  (Stored.double m h v).searchable

omit [DecidableEq A] [DecidableEq C] [DecidableEq D] in
theorem Lawful.searchable {s : Shape C A D} {L : Lat C A D} {rep : C → Prop} (h : Lawful s L rep) : Searchable s L rep :=
  ⟨h.storable, fun _ {_ _ _} hc hn => .inl (h.laws.nbr_node hc hn), fun [_] [_] [_] {_ _ _} hc hn => (h.readable hc _ _ hn).1⟩

theorem inWalk_iff (hs : Searchable s L rep) (hb : Built s L g k) {a b : C} {n : Nat} (ha : L.Node a) :
    InWalk g.s a n b ↔ Path (inner L) a n b := by
  have hg := hs.toStorable.good hb
  constructor
  · intro h
    induction h with
    | nil => exact .nil
    | @step n b c l _ hl hc ho ih =>
      have hbn := ih.inner_node ha
      obtain ⟨o, ho⟩ := ho
      rw [hg.shape] at ho
      rw [hl.unique (c57_neighbors hs.toStorable hb hbn)] at hc
      obtain ⟨d, -, hd⟩ := List.mem_filterMap.1 hc
      refine .step ih (inner_nbr.2 ⟨hd, Classical.byContradiction fun hn => ?_⟩)
      rw [(hs.impl hg.constructible).toOffset_none ((hs.nbr_rep hg.constructible hbn hd).resolve_left hn) hn] at ho
      cases ho
  · intro h
    induction h with
    | nil => exact .nil
    | @step n b c d hp hd ih =>
      obtain ⟨h1, x, y, hx, hy, rfl⟩ := inner_nbr.1 hd
      exact .step ih (c57_neighbors hs.toStorable hb (hp.inner_node ha)) (List.mem_filterMap.2 ⟨d, hs.base.dir.dirs_mem d, h1⟩)
        ⟨_, hg.impl.toOffset_coord hx hy⟩

theorem Searchable.nbrs_ok (hs : Searchable s L rep) (hc : Constructible s) {x : C} (hx : L.Node x) : ∀ y ∈ L.nbrs x, L.Node y ∨ rep y :=
  fun y hy => by
    obtain ⟨d, -, hd⟩ := List.mem_filterMap.1 hy
    exact hs.nbr_rep hc hx hd

/-- What can be reached from `a` by moves inside the graph. -/
abbrev Reach (L : Lat C A D) (a c : C) : Prop := ∃ n, Path (inner L) a n c

omit [DecidableEq A] [DecidableEq D] in
theorem Reach.node {a c : C} (h : Reach L a c) (ha : L.Node a) : L.Node c := h.choose_spec.inner_node ha

omit [DecidableEq A] [DecidableEq D] in
theorem Reach.refl {a : C} : Reach L a a := ⟨0, .nil⟩

omit [DecidableEq A] [DecidableEq D] in
theorem Reach.step {a c t : C} {d : D} (h : Reach L a c) (hd : (inner L).nbr c d = some t) : Reach L a t :=
  ⟨_, .step h.choose_spec hd⟩

/-! ### Breadth first -/

theorem bfs_run_base (hs : Searchable s L rep) (hb : Built s L g k) {a : C} {δ : C → Nat} (hδ : HopDist (inner L) (Reach L a) a δ) (ha : L.Node a) :
    ∀ (n : Nat) (O Q : List C) (vm : VisMap C A D) (S : C → Bool), VisInv s L vm S → BfsInv (inner L) (Reach L a) a δ O Q S →
      L.nodes.length ≤ O.length + n →
      ∃ l, BfsRun g ⟨Q, vm⟩ l ∧ (O ++ l).Nodup ∧ (∀ c, c ∈ O ++ l ↔ Reach L a c) ∧
        (O ++ l).Pairwise (fun x y => δ x ≤ δ y) := by
  have hg := hs.toStorable.good hb
  have hi := (hs.impl hg.constructible)
  have stop : ∀ {O : List C} {vm : VisMap C A D} {S : C → Bool}, BfsInv (inner L) (Reach L a) a δ O [] S →
      ∃ l, BfsRun g ⟨[], vm⟩ l ∧ (O ++ l).Nodup ∧ (∀ c, c ∈ O ++ l ↔ Reach L a c) ∧ (O ++ l).Pairwise (fun x y => δ x ≤ δ y) :=
    fun {O vm S} hv => by
      refine ⟨[], .done, hv.nodup, fun c => ⟨hv.node c, fun hc => ?_⟩, hv.sorted⟩
      rw [List.append_nil]
      exact hv.all hδ _ c hc rfl
  intro n
  induction n with
  | zero =>
    intro O Q vm S hvm hv hlen
    have hsub : (O ++ Q).length ≤ L.nodes.length :=
      hv.nodup.length_le_of_subset fun c hc => Lat.mem_nodes.2 ((hv.node c hc).node ha)
    rw [List.length_append] at hsub
    have hQ : Q = [] := List.length_eq_zero_iff.1 (by omega)
    subst hQ
    exact stop hv
  | succ n ih =>
    intro O Q vm S hvm hv hlen
    cases Q with
    | nil => exact stop hv
    | cons x q =>
      have hx : L.Node x := (hv.node x (by simp)).node ha
      obtain ⟨new, vm', S', h1, h2, h3, h4, h5⟩ :=
        discover_base hi hs.base (L.nbrs x) hvm (hs.nbrs_ok hg.constructible hx)
      simp only [← inner_nbrs] at h4 h5
      have hv' := hv.step Reach.step hδ h3 h4 h5
      obtain ⟨l, h6, h7, h8, h9⟩ := ih (O ++ [x]) (q ++ new) vm' S' h2 hv' (by simp only [List.length_append, List.length_singleton]; omega)
      refine ⟨x :: l, .next (c57_neighbors hs.toStorable hb hx) h1 h6, ?_, ?_, ?_⟩
      · simpa using h7
      · simpa using h8
      · simpa using h9

/-- **C68**, breadth first. Also on the shapes whose moves may leave the graph, a breadth-first search from any node runs
without fault to its end and returns every node within reach exactly once, the start first, in the order of the least number of
steps inside the graph. Coordinates outside the graph are skipped. (Which nodes are within reach: `c68_connected`, and Props/
DoubleSearch.lean for double coordinates.) -/
theorem c68_bfs (hs : Searchable s L rep) (hb : Built s L g k) {a : C} (ha : L.Node a) :
    ∃ b l, bfsNew g a = .ok b ∧ (∀ l', BfsRun g b l' ↔ l' = l) ∧ l.Nodup ∧ (∀ c, c ∈ l ↔ ∃ n, InWalk g.s a n c) ∧ l.head? = some a ∧
      l.Pairwise fun x y => ∃ n m, (InWalk g.s a n x ∧ ∀ i, InWalk g.s a i x → n ≤ i) ∧
        (InWalk g.s a m y ∧ ∀ i, InWalk g.s a i y → m ≤ i) ∧ n ≤ m := by
  have hg := hs.toStorable.good hb
  have hi := (hs.impl hg.constructible)
  obtain ⟨δ, hδ⟩ := hopDist_reach (inner_dir hs.base.dir) a
  obtain ⟨vm, h1, h2⟩ := visit_base hi hs.base (VisInv.newBase hi) ha
  have hinv : BfsInv (inner L) (Reach L a) a δ [] [a] (fun c' => if c' = a then true else false) := by
    refine ⟨by simp, by simp, ?_, by simp, by simp, ?_, by simp⟩
    · intro c hc; simp at hc; rw [hc]; exact .refl
    · intro x q h y hy; simp at h; rw [h.2] at hy; simp at hy
  obtain ⟨l, h3, h4, h5, h6⟩ := bfs_run_base hs hb hδ ha L.nodes.length [] [a] vm _ h2 hinv (by simp)
  refine ⟨⟨[a], vm⟩, l, ?_, fun l' => ⟨fun h => h.unique h3, fun h => h ▸ h3⟩, by simpa using h4, fun c => ?_, ?_, ?_⟩
  · simp only [bfsNew, hg.shape, h1, bind, Except.bind]
  · simp only [List.nil_append] at h5
    simp only [h5, inWalk_iff hs hb ha]
  · cases h3; rfl
  · simp only [List.nil_append] at h5 h6
    have hw : ∀ c, Reach L a c → InWalk g.s a (δ c) c ∧ ∀ i, InWalk g.s a i c → δ c ≤ i := fun c hc =>
      ⟨(inWalk_iff hs hb ha).2 (hδ.short hc).1, fun i h => (hδ.short hc).2 i ((inWalk_iff hs hb ha).1 h)⟩
    refine List.Pairwise.imp_of_mem ?_ h6
    intro x y hx hy hxy
    exact ⟨_, _, hw x ((h5 x).1 hx), hw y ((h5 y).1 hy), hxy⟩

/-! ### Depth first -/

theorem pushUnvisited_base (hi : ImplBase s L rep) (hb : LatBase L) {vm : VisMap C A D} {S : C → Bool}
    (hv : VisInv s L vm S) : ∀ (l st : List C), (∀ c ∈ l, L.Node c ∨ rep c) →
    ∃ st', pushUnvisited vm l st = .ok st' ∧ ∀ c, c ∈ st' ↔ c ∈ st ∨ c ∈ l ∧ S c = false
  | [], st, _ => ⟨st, rfl, by simp⟩
  | c :: l, st, hl => by
    have h1 := isVisited_base hi hb hv (hl c (by simp))
    cases hS : S c with
    | true =>
      obtain ⟨st', h2, h3⟩ := pushUnvisited_base hi hb hv l st (fun c h => hl c (List.mem_cons_of_mem _ h))
      refine ⟨st', by simp only [pushUnvisited, h1, hS, bind, Except.bind, if_true, h2], fun c' => ?_⟩
      rw [h3]
      by_cases he : c' = c
      · subst he; simp [hS]
      · simp [he]
    | false =>
      obtain ⟨st', h2, h3⟩ := pushUnvisited_base hi hb hv l (c :: st) (fun c h => hl c (List.mem_cons_of_mem _ h))
      refine ⟨st', by simp only [pushUnvisited, h1, hS, bind, Except.bind, Bool.false_eq_true, if_false, h2], fun c' => ?_⟩
      rw [h3]
      by_cases he : c' = c
      · subst he; simp [hS]
      · simp [he]

/-- After returning `O`, with stack `st` (which may hold coordinates outside the graph) and visited set `S`. -/
structure DfsInvBase (L : Lat C A D) (rep : C → Prop) (a : C) (O st : List C) (S : C → Bool) : Prop where
  nodup : O.Nodup
  vis : ∀ c, S c = true ↔ c ∈ O
  node : ∀ c, c ∈ O → Reach L a c
  known : ∀ c, c ∈ st → L.Node c ∨ rep c
  reach : ∀ c, c ∈ st → L.Node c → Reach L a c
  closed : ∀ x ∈ O, ∀ y ∈ L.nbrs x, L.Node y → y ∈ O ∨ y ∈ st
  start : a ∈ O ∨ a ∈ st

theorem DfsInvBase.all {a : C} {δ : C → Nat} (hδ : HopDist (inner L) (Reach L a) a δ) {O : List C} {S : C → Bool}
    (hv : DfsInvBase L rep a O [] S) (ha : L.Node a) : ∀ n c, Reach L a c → δ c = n → c ∈ O := by
  have hst := hv.start
  have hcl := hv.closed
  simp only [List.not_mem_nil, or_false] at hst hcl
  intro n
  induction n with
  | zero => intro c hc h0; rw [hδ.zero hc h0]; exact hst
  | succ n ih =>
    intro c hc h1
    obtain ⟨y, hy, h2, h3⟩ := hδ.pred hc h1
    rw [inner_nbrs] at h3
    exact hcl y (ih y hy h2) c h3.1 (hc.node ha)

theorem dfs_run_base (hs : Searchable s L rep) (hb : Built s L g k) {a : C} {δ : C → Nat} (hδ : HopDist (inner L) (Reach L a) a δ) (ha : L.Node a) :
    ∀ (n : Nat) (st O : List C) (vm : VisMap C A D) (S : C → Bool), VisInv s L vm S → DfsInvBase L rep a O st S →
      L.nodes.length < O.length + n → ∃ l, DfsRun g ⟨st, vm⟩ l ∧ (O ++ l).Nodup ∧ ∀ c, c ∈ O ++ l ↔ Reach L a c := by
  have hg := hs.toStorable.good hb
  have hi := (hs.impl hg.constructible)
  intro n
  induction n with
  | zero =>
    intro st O vm S _ hv hlen
    have := hv.nodup.length_le_of_subset fun c hc => Lat.mem_nodes.2 ((hv.node c hc).node ha)
    omega
  | succ n ih =>
    intro st
    induction st with
    | nil =>
      intro O vm S hvm hv hlen
      refine ⟨[], .done, by simpa using hv.nodup, fun c => ⟨fun hc => hv.node c (by simpa using hc), fun hc => ?_⟩⟩
      rw [List.append_nil]
      exact hv.all hδ ha _ c hc rfl
    | cons x st ihst =>
      intro O vm S hvm hv hlen
      have drop : (L.Node x → x ∈ O) → DfsInvBase L rep a O st S := fun hxO => by
        refine ⟨hv.nodup, hv.vis, hv.node, fun c hc => hv.known c (List.mem_cons_of_mem _ hc),
          fun c hc => hv.reach c (List.mem_cons_of_mem _ hc), fun u hu y hy hyn => ?_, ?_⟩
        · rcases hv.closed u hu y hy hyn with h | h
          · exact .inl h
          · rcases List.mem_cons.1 h with rfl | h
            · exact .inl (hxO hyn)
            · exact .inr h
        · rcases hv.start with h | h
          · exact .inl h
          · rcases List.mem_cons.1 h with rfl | h
            · exact .inl (hxO ha)
            · exact .inr h
      by_cases hx : L.Node x
      · obtain ⟨vm', h1, h2⟩ := visit_base hi hs.base hvm hx
        cases hS : S x with
        | true =>
          have hS' : (fun c' => if c' = x then true else S c') = S := by
            funext c'
            by_cases he : c' = x <;> simp [he, hS]
          rw [hS'] at h2
          rw [hS] at h1
          obtain ⟨l, h3, h4⟩ := ihst O vm' S h2 (drop fun _ => (hv.vis x).1 hS) hlen
          exact ⟨l, .skip h1 h3, h4⟩
        | false =>
          rw [hS] at h1
          have hnb := hs.nbrs_ok hg.constructible hx
          have hxO : x ∉ O := fun h => by rw [(hv.vis x).2 h] at hS; cases hS
          obtain ⟨st', h3, h4⟩ := pushUnvisited_base hi hs.base h2 (L.nbrs x) st hnb
          have hv' : DfsInvBase L rep a (O ++ [x]) st' (fun c' => if c' = x then true else S c') := by
            refine ⟨?_, ?_, ?_, ?_, ?_, ?_, ?_⟩
            · rw [List.nodup_append]
              refine ⟨hv.nodup, by simp, ?_⟩
              rintro u hu y hy rfl
              rw [List.mem_singleton] at hy
              exact hxO (hy ▸ hu)
            · intro c
              by_cases he : c = x
              · simp [he]
              · simp [he, hv.vis]
            · intro c h
              rcases List.mem_append.1 h with h | h
              · exact hv.node c h
              · rw [List.mem_singleton] at h; rw [h]; exact hv.reach x (by simp) hx
            · intro c h
              rcases (h4 c).1 h with h | h
              · exact hv.known c (List.mem_cons_of_mem _ h)
              · exact hnb c h.1
            · intro c h hcn
              rcases (h4 c).1 h with h | h
              · exact hv.reach c (List.mem_cons_of_mem _ h) hcn
              · obtain ⟨d, -, hd⟩ := List.mem_filterMap.1 h.1
                exact (hv.reach x (by simp) hx).step (inner_nbr.2 ⟨hd, hcn⟩)
            · intro u hu y hy hyn
              rcases List.mem_append.1 hu with h | h
              · rcases hv.closed u h y hy hyn with h | h
                · exact .inl (List.mem_append_left _ h)
                · rcases List.mem_cons.1 h with rfl | h
                  · exact .inl (by simp)
                  · exact .inr ((h4 y).2 (.inl h))
              · rw [List.mem_singleton] at h
                subst h
                by_cases hyu : y = u
                · exact .inl (by simp [hyu])
                · cases hSy : S y with
                  | true => exact .inl (List.mem_append_left _ ((hv.vis y).1 hSy))
                  | false => exact .inr ((h4 y).2 (.inr ⟨hy, by simp [hyu, hSy]⟩))
            · rcases hv.start with h | h
              · exact .inl (List.mem_append_left _ h)
              · rcases List.mem_cons.1 h with rfl | h
                · exact .inl (by simp)
                · exact .inr ((h4 a).2 (.inl h))
          obtain ⟨l, h5, h6, h7⟩ := ih st' (O ++ [x]) vm' _ h2 hv' (by
            simp only [List.length_append, List.length_singleton]; omega)
          exact ⟨x :: l, .next h1 (c57_neighbors hs.toStorable hb hx) h3 h5, by simpa using h6, by simpa using h7⟩
      · obtain ⟨vm', h1, h2⟩ := visit_off hi hs.base hvm ((hv.known x (by simp)).resolve_left hx) hx
        obtain ⟨l, h3, h4⟩ := ihst O vm' S h2 (drop fun h => absurd h hx) hlen
        exact ⟨l, .skip h1 h3, h4⟩

/-- **C68**, depth first. Likewise: every node within reach exactly once, the start first, no fault. -/
theorem c68_dfs (hs : Searchable s L rep) (hb : Built s L g k) {a : C} (ha : L.Node a) :
    ∃ l, (∀ l', DfsRun g (dfsNew g a) l' ↔ l' = l) ∧ l.Nodup ∧ (∀ c, c ∈ l ↔ ∃ n, InWalk g.s a n c) ∧ l.head? = some a := by
  have hg := hs.toStorable.good hb
  have hi := (hs.impl hg.constructible)
  obtain ⟨δ, hδ⟩ := hopDist_reach (inner_dir hs.base.dir) a
  have hinv : DfsInvBase L rep a [] [a] (fun _ => false) := by
    refine ⟨by simp, by simp, by simp, ?_, ?_, by simp, by simp⟩
    · intro c hc; simp at hc; rw [hc]; exact .inl ha
    · intro c hc _; simp at hc; rw [hc]; exact .refl
  have hv0 := VisInv.newBase hi
  obtain ⟨l, h3, h4, h5⟩ := dfs_run_base hs hb hδ ha (L.nodes.length + 1) [a] [] (VisMap.new s) _ hv0 hinv (by simp)
  rw [← hg.shape] at h3
  refine ⟨l, fun l' => ⟨fun h => h.unique h3, fun h => h ▸ h3⟩, by simpa using h4, fun c => ?_, ?_⟩
  · simp only [List.nil_append] at h5
    simp only [h5, inWalk_iff hs hb ha]
  cases h3 with
  | skip h => 
    obtain ⟨vm', h6, -⟩ := visit_base hi hs.base hv0 ha
    rw [hg.shape, h6] at h
    cases h
  | next => rfl

/-- **C68.** On all shapes but the double-coordinate one every node is within reach of every other by walks inside the graph. -/
theorem c68_connected (hs : Single s L rep) (hb : Built s L g k) {a c : C} (ha : L.Node a) :
    L.Node c ↔ ∃ n, InWalk g.s a n c := by
  simp only [inWalk_iff hs.stored.searchable hb ha]
  exact ⟨fun hc => hs.bothWays.connected ha hc, fun ⟨_, hp⟩ => hp.inner_node ha⟩

/-! ### Dijkstra -/

/-- Listing the edges of `c` faults. -/
def EdgesFault (g : Graph C A D N E) (c : C) : Prop :=
  (∃ f, g.edgesOf c = .error f) ∨ ∃ it f, g.edgesOf c = .ok it ∧ Fails (edgesNext g) it f

/-- Listing the edges of `c` works and names nodes only. -/
def EdgesStay (L : Lat C A D) (g : Graph C A D N E) (c : C) : Prop :=
  ∃ it l, g.edgesOf c = .ok it ∧ Yields (edgesNext g) it l ∧ ∀ r ∈ l, L.Node r.target

theorem Searchable.steps_inv (hs : Searchable s L rep) (hb : Built s L g k) {a : C} (ha : L.Node a) {st : Dij C A D} {j : Nat}
    (h : DijSteps g cost (dijNew g a) j st) :
    ∃ S, DijInvBase s L g cost a st S ∧ j + 9 * unvisited L S + st.heap.length ≤ 9 * L.nodes.length + 1 :=
  h.invBase hs.toStorable hb (hs.nbr_rep (hs.toStorable.good hb).constructible) hs.key_node ha

/-- **C69**, the part that holds: no run makes more than `9 · nodes + 1` turns, and as long as the heap is not empty, any least
entry can be popped next unless listing the edges of its coordinate faults. Missing: that it never does. -/
theorem c69_progress_partial (hs : Searchable s L rep) (hb : Built s L g k) {a : C} (ha : L.Node a) (cost : EdgeRef C D E → Nat)
    {j : Nat} {st : Dij C A D} (h : DijSteps g cost (dijNew g a) j st) : j ≤ 9 * (L.width * L.height) + 1 ∧
    ∀ {e : Nat × C} {rest : List (Nat × C)}, Pop st.heap e rest → (∃ st', DijStep g cost st e rest st') ∨ EdgesFault g e.2 := by
  obtain ⟨S, h3, h2⟩ := hs.steps_inv hb ha h
  have hlen : L.nodes.length = L.width * L.height := by simp [Lat.nodes_eq]
  refine ⟨by rw [hlen] at h2; omega, fun {e rest} hp => ?_⟩
  have hk : ∀ {c d t}, L.Node c → L.nbr c d = some t → L.Node t ∨ rep t := hs.nbr_rep (hs.toStorable.good hb).constructible
  have hknown : L.Node e.2 ∨ rep e.2 := by
    rcases h3.known e.1 e.2 (hp.mem.2 (.inl rfl)) with h | ⟨u, d, h1, h2⟩
    · exact .inl (h ▸ ha)
    · exact hk (h3.clean u h1).1 h2
  by_cases hn : L.Node e.2
  · by_cases hr : L.Readable e.2
    · obtain ⟨st', _, h4, -⟩ := h3.turn hs.toStorable hb hk hp fun _ => ⟨hn, hr⟩
      exact .inl ⟨st', h4⟩
    · obtain ⟨it, h3, h4⟩ := c58_edges_ub hs.toStorable hb hn (fun d t => hs.key_node hn) hr
      exact .inr (.inr ⟨it, _, h3, h4⟩)
  · exact .inr (.inl ⟨_, (c20_off_graph_faults hs.toStorable hb (hknown.resolve_left hn) hn .outgoing).1⟩)

/-- At the end everything has been visited. -/
theorem DijInvBase.visited (hs : Searchable s L rep) (hb : Built s L g k) {a : C} {st : Dij C A D}
    {S : C → Bool} (h1 : DijInvBase s L g cost a st S) (hempty : st.heap = []) {c : C} {n : Nat} (hp : Path (inner L) a n c) :
    S c = true ∧ ∀ d t, L.nbr c d = some t → S t = true := by
  have scored : ∀ v, (∃ i, st.scores v = some i) → S v = true := fun v ⟨i, hi⟩ => by
    cases hS : S v with
    | true => rfl
    | false =>
      have := h1.front v i hS hi
      rw [hempty] at this
      cases this
  have next : ∀ c, S c = true → ∀ d t, L.nbr c d = some t → S t = true := fun c hS d t hn => by
    obtain ⟨i, hi, -⟩ := h1.exact c hS
    obtain ⟨hcn, hrd⟩ := h1.clean c hS
    obtain ⟨w, hw⟩ := Option.isSome_iff_exists.1 (((hs.toStorable.good hb).total.edge _ _).2 (hrd d t hn))
    have he : EdgeOf g c ⟨c, t, w, d⟩ := (edgeOf_base hs.toStorable hb hcn hrd).2 ((mem_outEdges hs.base.dir).2 ⟨rfl, hn, hw⟩)
    obtain ⟨i', hi', -⟩ := h1.edge c _ i hS he hi
    exact scored t ⟨i', hi'⟩
  have here : S c = true := by
    induction hp with
    | nil => exact scored _ ⟨_, h1.start.choose_spec.1⟩
    | step _ hd ih => exact next _ ih _ _ (inner_nbr.1 hd).1
  exact ⟨here, next c here⟩

/-- **C69**, exactly when a run can be completed: when the edges of every node within reach can be listed and lead to nodes. The
claim was that it always can. -/
theorem c69_completes_iff (hs : Searchable s L rep) (hb : Built s L g k) {a : C} (ha : L.Node a) (cost : EdgeRef C D E → Nat) :
    (∃ j st, DijSteps g cost (dijNew g a) j st ∧ st.heap = []) ↔ ∀ c n, InWalk g.s a n c → EdgesStay L g c := by
  constructor
  · rintro ⟨j, st, h, hempty⟩ c n hw
    obtain ⟨S, h1, -⟩ := hs.steps_inv hb ha h
    have hp := (inWalk_iff hs hb ha).1 hw
    have hc := hp.inner_node ha
    obtain ⟨h2, h3⟩ := h1.visited hs hb hempty hp
    obtain ⟨it, h4, h5⟩ := c58_edges_partial hs.toStorable hb hc (h1.clean c h2).2
    refine ⟨it, _, h4, h5, fun r hr => ?_⟩
    exact (h1.clean _ (h3 _ _ ((mem_outEdges hs.base.dir).1 hr).2.1)).1
  · intro hall
    replace hall : ∀ c, Reach L a c → EdgesStay L g c := fun c ⟨n, hp⟩ => hall c n ((inWalk_iff hs hb ha).2 hp)
    have hrd : ∀ c, Reach L a c → L.Readable c := fun c hr => Classical.byContradiction fun hrd => by
      obtain ⟨it, l, h1, h2, -⟩ := hall c hr
      have hc := hr.node ha
      obtain ⟨it', h3, h4⟩ := c58_edges_ub hs.toStorable hb hc (fun d t => hs.key_node hc) hrd
      rw [h1] at h3
      cases h3
      exact h4.not_yields ⟨l, h2⟩
    have hstay : ∀ {c d t}, Reach L a c → L.nbr c d = some t → L.Node t := fun {c d t} hc hn => by
      obtain ⟨it, l, h1, h2, h3⟩ := hall c hc
      obtain ⟨it', h4, h5⟩ := c58_edges_partial hs.toStorable hb (hc.node ha) (hrd c hc)
      rw [h1] at h4
      cases h4
      obtain ⟨w, hw⟩ := Option.isSome_iff_exists.1 (((hs.toStorable.good hb).total.edge _ _).2 (hrd c hc d t hn))
      rw [h2.unique h5] at h3
      exact h3 ⟨c, t, w, d⟩ ((mem_outEdges hs.base.dir).2 ⟨rfl, hn, hw⟩)
    have : ∀ n j st, DijSteps g cost (dijNew g a) j st → 9 * (L.width * L.height) + 1 ≤ j + n →
        ∃ j' st', DijSteps g cost (dijNew g a) j' st' ∧ st'.heap = [] := by
      intro n
      induction n with
      | zero =>
        intro j st h hn
        obtain ⟨S, -, h1⟩ := hs.steps_inv hb ha h
        have : L.nodes.length = L.width * L.height := by simp [Lat.nodes_eq]
        rw [this] at h1
        exact ⟨j, st, h, List.length_eq_zero_iff.1 (by omega)⟩
      | succ n ih =>
        intro j st h hn
        by_cases he : st.heap = []
        · exact ⟨j, st, h, he⟩
        · obtain ⟨e, rest, hp⟩ := pop_exists st.heap he
          obtain ⟨S, h1, -⟩ := hs.steps_inv hb ha h
          have hen : Reach L a e.2 := by
            rcases h1.known e.1 e.2 (hp.mem.2 (.inl rfl)) with h | ⟨u, d, h2, h3⟩
            · exact h ▸ .refl
            · exact Reach.step (h1.reach u h2) (inner_nbr.2 ⟨h3, hstay (h1.reach u h2) h3⟩)
          obtain ⟨st', _, h2, -⟩ := h1.turn hs.toStorable hb (hs.nbr_rep (hs.toStorable.good hb).constructible) hp fun _ => ⟨hen.node ha, hrd _ hen⟩
          exact ih (j + 1) st' (.step h h2) (by omega)
    exact this _ 0 _ .nil (Nat.le_add_left _ _)

/-- **C69**, result of a run that was completed: the least cost of a walk along the edges, for exactly the nodes
within reach. -/
theorem c69_result_partial (hs : Searchable s L rep) (hb : Built s L g k) {a : C} (ha : L.Node a) (cost : EdgeRef C D E → Nat)
    {j : Nat} {st : Dij C A D} (h : DijSteps g cost (dijNew g a) j st) (hempty : st.heap = []) (c : C) :
    (∀ n, st.scores c = some n ↔ CostWalk g cost a c n ∧ ∀ n', CostWalk g cost a c n' → n ≤ n') ∧
    ((∃ n, InWalk g.s a n c) ↔ ∃ n, st.scores c = some n) := by
  obtain ⟨S, h1, -⟩ := hs.steps_inv hb ha h
  have settled : ∀ {c n}, CostWalk g cost a c n → ∃ i, st.scores c = some i ∧ ∀ n', CostWalk g cost a c n' → i ≤ n' :=
    fun {c n} hw => by
      rcases h1.frontier hw with ⟨hS, _⟩ | ⟨x, i, h2, h3, _⟩
      · exact h1.exact c hS
      · have := h1.front x i h2 h3
        rw [hempty] at this
        cases this
  refine ⟨fun n => ⟨fun hn => ?_, fun ⟨hw, hle⟩ => ?_⟩, fun ⟨n, hw⟩ => ?_, fun ⟨n, hn⟩ => ?_⟩
  · have hw := h1.upper c n hn
    obtain ⟨i, h2, h3⟩ := settled hw
    rw [hn] at h2
    cases h2
    exact ⟨hw, h3⟩
  · obtain ⟨i, h2, h3⟩ := settled hw
    have e1 := h3 n hw
    have e2 := hle i (h1.upper c i h2)
    rw [h2]
    congr 1
    omega
  · have hp := (inWalk_iff hs hb ha).1 hw
    obtain ⟨i, hi, -⟩ := h1.exact c (h1.visited hs hb hempty hp).1
    exact ⟨i, hi⟩
  · cases hS : S c with
    | true =>
      obtain ⟨n, hp⟩ := h1.reach c hS
      exact ⟨n, (inWalk_iff hs hb ha).2 hp⟩
    | false =>
      have := h1.front c n hS hn
      rw [hempty] at this
      cases this

end

/-- **C69** fails on every looped axial map with a sheared row: from any start, whatever the costs, no run is completed, since
some edge leads outside the graph and `edges` of its end faults. -/
theorem c69_fails_axial (m : Machine) (t : CoordTy) (k : Marker) (hk : k.isFlatTop = false) (h v : Nat)
    (ht : Holds t k.isFlatTop h v) (hv : if k.isEven then 2 ≤ v else 3 ≤ v) {N E : Type} :
    (∀ {g : Graph Axial AxisR AxisDR N E} {c}, Built (hexAxRLew m t k h v) (axLatRLoop k.isEven h v) g c →
      ∀ {a}, (axLatRLoop k.isEven h v).Node a → ∀ cost j st, DijSteps g cost (dijNew g a) j st → st.heap ≠ []) ∧
    (∀ {g : Graph Axial AxisQ AxisDQ N E} {c}, Built (hexAxQLew m t k h v) (axLatQLoop k.isEven h v) g c →
      ∀ {a}, (axLatQLoop k.isEven h v).Node a → ∀ cost j st, DijSteps g cost (dijNew g a) j st → st.heap ≠ []) ∧
    (∀ {g : Graph Axial AxisDR AxisDR N E} {c}, Built (hexAxRLewDirected m t k h v) (axLatDRLoop k.isEven h v) g c →
      ∀ {a}, (axLatDRLoop k.isEven h v).Node a → ∀ cost j st, DijSteps g cost (dijNew g a) j st → st.heap ≠ []) ∧
    (∀ {g : Graph Axial AxisDQ AxisDQ N E} {c}, Built (hexAxQLewDirected m t k h v) (axLatDQLoop k.isEven h v) g c →
      ∀ {a}, (axLatDQLoop k.isEven h v).Node a → ∀ cost j st, DijSteps g cost (dijNew g a) j st → st.heap ≠ []) := by
  have hsh : 1 ≤ shear k.isEven (v - 1 : Nat) := by unfold shear; split at hv <;> simp_all <;> omega
  have hc : ∀ {a}, InAxial k.isEven h v a → InAxial k.isEven h v ⟨(h : Int) - 1 - shear k.isEven (v - 1 : Nat), (v - 1 : Nat)⟩ := by
    intro a ha
    unfold InAxial at *
    simp only
    omega
  have hn : ¬ InAxial k.isEven h v ⟨(h : Int) - shear k.isEven (v - 1 : Nat), (v - 1 : Nat)⟩ := by
    unfold InAxial
    simp only
    omega
  have hmv : ∀ {a}, InAxial k.isEven h v a → axLewNbr k.isEven h v ⟨(h : Int) - 1 - shear k.isEven (v - 1 : Nat), (v - 1 : Nat)⟩ (1, 0) =
      some ⟨(h : Int) - shear k.isEven (v - 1 : Nat), (v - 1 : Nat)⟩ := by
    intro a ha
    unfold InAxial at ha
    unfold axLewNbr displaced column
    simp only [Int.add_zero]
    rw [if_neg (by omega), if_neg (by omega), if_neg (by omega)]
    congr 2
    omega
  refine ⟨?_, ?_, ?_, ?_⟩
  · intro g c hb a ha cost j st hst hempty
    have hs : Single (hexAxRLew m t k h v) _ _ := .hexAxRLew m t k hk h v ht
    have hi : InAxial k.isEven h v a := inAxial_iff.2 (axIn_iff.2 ha)
    have hcn := axIn_iff.1 (inAxial_iff.1 (hc hi))
    obtain ⟨S, h1, -⟩ := hs.stored.searchable.steps_inv hb ha hst
    obtain ⟨n, hp⟩ := hs.bothWays.connected ha hcn
    have := (h1.clean _ ((h1.visited hs.stored.searchable hb hempty hp).2 .E _ (hmv hi))).1
    exact hn (inAxial_iff.2 (axIn_iff.2 this))
  · intro g c hb a ha cost j st hst hempty
    have hs : Single (hexAxQLew m t k h v) _ _ := .hexAxQLew m t k hk h v ht
    have hi : InAxial k.isEven h v a := inAxial_iff.2 (axIn_iff.2 ha)
    have hcn := axIn_iff.1 (inAxial_iff.1 (hc hi))
    obtain ⟨S, h1, -⟩ := hs.stored.searchable.steps_inv hb ha hst
    obtain ⟨n, hp⟩ := hs.bothWays.connected ha hcn
    have := (h1.clean _ ((h1.visited hs.stored.searchable hb hempty hp).2 .NE _ (hmv hi))).1
    exact hn (inAxial_iff.2 (axIn_iff.2 this))
  · intro g c hb a ha cost j st hst hempty
    have hs : Single (hexAxRLewDirected m t k h v) _ _ := .hexAxRLewDirected m t k hk h v ht
    have hi : InAxial k.isEven h v a := inAxial_iff.2 (axIn_iff.2 ha)
    have hcn := axIn_iff.1 (inAxial_iff.1 (hc hi))
    obtain ⟨S, h1, -⟩ := hs.stored.searchable.steps_inv hb ha hst
    obtain ⟨n, hp⟩ := hs.bothWays.connected ha hcn
    have := (h1.clean _ ((h1.visited hs.stored.searchable hb hempty hp).2 .E _ (hmv hi))).1
    exact hn (inAxial_iff.2 (axIn_iff.2 this))
  · intro g c hb a ha cost j st hst hempty
    have hs : Single (hexAxQLewDirected m t k h v) _ _ := .hexAxQLewDirected m t k hk h v ht
    have hi : InAxial k.isEven h v a := inAxial_iff.2 (axIn_iff.2 ha)
    have hcn := axIn_iff.1 (inAxial_iff.1 (hc hi))
    obtain ⟨S, h1, -⟩ := hs.stored.searchable.steps_inv hb ha hst
    obtain ⟨n, hp⟩ := hs.bothWays.connected ha hcn
    have := (h1.clean _ ((h1.visited hs.stored.searchable hb hempty hp).2 .NE _ (hmv hi))).1
    exact hn (inAxial_iff.2 (axIn_iff.2 this))

/-- **C69** fails on flat-top offset maps: with at least two columns no run is completed when the row after the last would be an
`upRow` (unannounced edges), nor, with the loop, when the first or the last row is not an `upRow`. -/
theorem c69_fails_offset (m : Machine) (k : Marker) (h v : Nat) (hh : 2 ≤ h) {N E : Type} :
    (upRow k.isEven v = true → ∀ {g : Graph Offset AxisQ AxisDQ N E} {c}, Built (hexOffQ m k h v) (offLatQ k.isEven h v) g c →
      ∀ {a}, (offLatQ k.isEven h v).Node a → ∀ cost j st, DijSteps g cost (dijNew g a) j st → st.heap ≠ []) ∧
    (upRow k.isEven v = true ∨ k.isEven = false → ∀ {g : Graph Offset AxisQ AxisDQ N E} {c},
      Built (hexOffQLew m k h v) (offLatQLoop k.isEven h v) g c →
      ∀ {a}, (offLatQLoop k.isEven h v).Node a → ∀ cost j st, DijSteps g cost (dijNew g a) j st → st.heap ≠ []) := by
  have hrow : 1 ≤ v → upRow k.isEven v = true → upRow k.isEven (v - 1) = false := fun h1 h2 => by
    have := upRow_succ k.isEven (v - 1)
    rw [show v - 1 + 1 = v by omega, h2] at this
    simpa using this.symm
  constructor
  · intro hup g c hb a ha cost j st hst hempty
    have hs := Single.hexOffQ m k h v
    have hv : a.vertical < v := ((node_mk rfl).1 ha).2
    have hcn : (offLatQ k.isEven h v).Node ⟨0, v - 1⟩ := (node_mk rfl).2 (by simp only [offLatQ, hexLatQ]; omega)
    obtain ⟨S, h1, -⟩ := hs.stored.searchable.steps_inv hb ha hst
    obtain ⟨n, hp⟩ := hs.bothWays.connected ha hcn
    have := (h1.clean _ (h1.visited hs.stored.searchable hb hempty hp).1).2
    exact (c58_offQ hcn).2.1 this ⟨by simp only; omega, hrow (by omega) hup, by simp only; omega⟩
  · intro hup g c hb a ha cost j st hst hempty
    have hs := Single.hexOffQLew m k h v
    have hv : a.vertical < v := ((node_mk rfl).1 ha).2
    obtain ⟨S, h1, -⟩ := hs.stored.searchable.steps_inv hb ha hst
    rcases hup with hup | hup
    · have hcn : (offLatQLoop k.isEven h v).Node ⟨1, v - 1⟩ := (node_mk rfl).2 (by simp only [offLatQLoop, hexLatQ]; omega)
      obtain ⟨n, hp⟩ := hs.bothWays.connected ha hcn
      have := (h1.clean _ (h1.visited hs.stored.searchable hb hempty hp).1).2
      exact (c58_offQLew hcn).2.1 this ⟨hrow (by omega) hup, .inl ⟨by simp only; omega, by simp only; omega⟩⟩
    · have hcn : (offLatQLoop k.isEven h v).Node ⟨0, 0⟩ := (node_mk rfl).2 (by simp only [offLatQLoop, hexLatQ]; omega)
      obtain ⟨n, hp⟩ := hs.bothWays.connected ha hcn
      have := (h1.clean _ (h1.visited hs.stored.searchable hb hempty hp).1).2
      exact (c58_offQLew hcn).2.1 this ⟨by rw [hup]; rfl, .inr ⟨rfl, by simp only; omega⟩⟩

/-- Example: the looped axial map of three rows and two columns can be built, breadth-first search from (0,0) returns its nodes,
and Dijkstra from (0,0) is never completed, although (1,0) is one step away. -/
example : ∃ g : Graph Axial AxisR AxisDR Nat Nat,
    (∃ st, newWith (hexAxRLew m64 (isizeTy m64) oddR 2 3) (fun n _ => (n, n + 1)) (fun n _ _ => (n, n + 1)) 0 = .ok (g, st)) ∧
    (∃ b l, bfsNew g ⟨0, 0⟩ = .ok b ∧ BfsRun g b l ∧ (⟨0, 2⟩ : Axial) ∈ l ∧ (⟨1, 2⟩ : Axial) ∉ l) ∧
    (∀ j st, DijSteps g EdgeRef.weight (dijNew g ⟨0, 0⟩) j st → st.heap ≠ []) := by
  have ht : Holds (isizeTy m64) oddR.isFlatTop 2 3 := .isize (by decide) (by decide)
  have hs := Single.hexAxRLew m64 (isizeTy m64) oddR rfl 2 3 ht
  obtain ⟨g, h1, h2⟩ := c57_new_with hs.storable (by decide)
    (fun n _ => (n, n + 1)) (fun n _ _ => (n, n + 1)) 0
  have h0 : (axLatRLoop oddR.isEven 2 3).Node ⟨0, 0⟩ := ⟨0, 0, by decide, by decide, rfl⟩
  obtain ⟨b, l, h3, h4, -, h5, -⟩ := c68_bfs hs.stored.searchable h2 h0
  refine ⟨g, ⟨_, h1⟩, ⟨b, l, h3, (h4 l).2 rfl, (h5 _).2 ((c68_connected hs h2 h0).1 ⟨1, 2, by decide, by decide, by decide⟩), fun h => ?_⟩, ?_⟩
  · have := Lat.mem_nodes.2 ((c68_connected hs h2 h0).2 ((h5 _).1 h))
    revert this
    decide
  · exact fun j st h => (c69_fails_axial m64 (isizeTy m64) oddR rfl 2 3 ht (by decide)).1 h2 h0 _ j st h

/-- Example: with two rows (none sheared) a run is completed. -/
example : ∃ g : Graph Axial AxisR AxisDR Nat Nat,
    (∃ st, newWith (hexAxRLew m64 (isizeTy m64) oddR 3 2) (fun n _ => (n, n + 1)) (fun n _ _ => (n, n + 1)) 0 = .ok (g, st)) ∧
    ∃ j st, DijSteps g EdgeRef.weight (dijNew g ⟨0, 0⟩) j st ∧ st.heap = [] := by
  have ht : Holds (isizeTy m64) oddR.isFlatTop 3 2 := .isize (by decide) (by decide)
  have hs := Single.hexAxRLew m64 (isizeTy m64) oddR rfl 3 2 ht
  obtain ⟨g, h1, h2⟩ := c57_new_with hs.storable (by decide)
    (fun n _ => (n, n + 1)) (fun n _ _ => (n, n + 1)) 0
  have h0 : (axLatRLoop oddR.isEven 3 2).Node ⟨0, 0⟩ := ⟨0, 0, by decide, by decide, rfl⟩
  refine ⟨g, ⟨_, h1⟩, (c69_completes_iff hs.stored.searchable h2 h0 _).2 fun c n hw => ?_⟩
  have hc := (c68_connected hs h2 h0).2 ⟨n, hw⟩
  obtain ⟨it, h3, h4⟩ := c58_edges_partial hs.storable h2 hc (c58_axRLew hc)
  refine ⟨it, _, h3, h4, fun r hr => ?_⟩
  have hall : ∀ c ∈ (axLatRLoop oddR.isEven 3 2).nodes, ∀ t ∈ (axLatRLoop oddR.isEven 3 2).nbrs c,
      t ∈ (axLatRLoop oddR.isEven 3 2).nodes := by decide
  exact Lat.mem_nodes.1 (hall c (Lat.mem_nodes.2 hc) _ (List.mem_filterMap.2 ⟨r.direction, hs.base.dir.dirs_mem _,
    ((mem_outEdges hs.base.dir).1 hr).2.1⟩))

/-- Example: a history on an `OddQ` offset map, reading back what was written to a node and an edge; `edges` of (0,1) may be
asked for, as it is not in the last row. -/
example : ∀ op ∈ ([.writeNode ⟨0, 1⟩ (· + 5), .readNode ⟨0, 1⟩, .writeEdge ⟨0, 1⟩ .N (· * 2), .edges ⟨0, 1⟩, .edgeReferences] :
      List (Op Offset AxisQ Nat Nat)),
    OpOk (D := AxisDQ) (offLatQ oddQ.isEven 2 3) (fun _ => True) op ∧ ∀ c, op = .edges c → (offLatQ oddQ.isEven 2 3).Readable c := by
  have hn : (offLatQ oddQ.isEven 2 3).Node ⟨0, 1⟩ := ⟨0, 1, by decide, by decide, rfl⟩
  intro op hop
  simp only [List.mem_cons, List.not_mem_nil, or_false] at hop
  rcases hop with rfl | rfl | rfl | rfl | rfl
  · exact ⟨.inr trivial, fun c h => by cases h⟩
  · exact ⟨.inr trivial, fun c h => by cases h⟩
  · exact ⟨.inr trivial, fun c h => by cases h⟩
  · refine ⟨hn, fun c h => ?_⟩
    cases h
    exact (c58_offQ hn).2.2 (by decide)
  · exact ⟨trivial, fun c h => by cases h⟩

/-- Depth first search and Dijkstra's algorithm on the 3 × 2 looped shape of the second example. -/
example : ∃ g : Graph Axial AxisR AxisDR Nat Nat,
    (∃ l, DfsRun g (dfsNew g ⟨0, 0⟩) l ∧ l.head? = some (⟨0, 0⟩ : Axial) ∧ (⟨2, 1⟩ : Axial) ∈ l) ∧
    (∀ j st, DijSteps g EdgeRef.weight (dijNew g ⟨0, 0⟩) j st → j ≤ 55) ∧
    (∀ j st, DijSteps g EdgeRef.weight (dijNew g ⟨0, 0⟩) j st → st.heap = [] → ∃ n, st.scores ⟨2, 1⟩ = some n) := by
  have ht : Holds (isizeTy m64) oddR.isFlatTop 3 2 := .isize (by decide) (by decide)
  have hs := Single.hexAxRLew m64 (isizeTy m64) oddR rfl 3 2 ht
  obtain ⟨g, h1, h2⟩ := c57_new_with hs.storable (by decide) (fun (n : Nat) _ => (n, n + 1)) (fun (n : Nat) _ _ => (n, n + 1)) 0
  have h0 : (axLatRLoop oddR.isEven 3 2).Node ⟨0, 0⟩ := ⟨0, 0, by decide, by decide, rfl⟩
  have hw := (c68_connected hs h2 h0 (c := ⟨2, 1⟩)).1 ⟨2, 1, by decide, by decide, by decide⟩
  obtain ⟨l, h3, -, h4, h5⟩ := c68_dfs hs.stored.searchable h2 h0
  exact ⟨g, ⟨l, (h3 l).2 rfl, h5, (h4 _).2 hw⟩, fun j st h => (c69_progress_partial hs.stored.searchable h2 h0 _ h).1,
    fun j st h he => (c69_result_partial hs.stored.searchable h2 h0 _ h he _).2.1 hw⟩
example : ∃ g : Graph Offset AxisQ AxisDQ Nat Nat,
    (∃ st, newWith (hexOffQ m64 oddQ 3 3) (fun n _ => (n, n + 1)) (fun n _ _ => (n, n + 1)) 0 = .ok (g, st)) ∧
    ∀ cost j st, DijSteps g cost (dijNew g ⟨1, 1⟩) j st → st.heap ≠ [] := by
  obtain ⟨g, h1, h2⟩ := c57_new_with (Single.hexOffQ m64 oddQ 3 3).storable (by decide)
    (fun (n : Nat) _ => (n, n + 1)) (fun (n : Nat) _ _ => (n, n + 1)) 0
  exact ⟨g, ⟨_, h1⟩, (c69_fails_offset m64 oddQ 3 3 (by decide)).1 (by decide) h2 ⟨1, 1, by decide, by decide, rfl⟩⟩

end LG
