import Verif.Props.Geometry
import Verif.Props.Walks
import Verif.Props.Ex
/- C101: reflections and rotations of a map are symmetries of its graph. -/
set_option linter.unusedSectionVars false
namespace LG

/-- `f` maps the nodes of `s` one-to-one onto the nodes of `s'`, `t` the directions of `s` one-to-one onto those of `s'`, and a
move of `s` followed by `f` is `f` followed by the corresponding move of `s'`. -/
structure Symmetry {C A D C' A' D' : Type} (s : Shape C A D) (s' : Shape C' A' D') (f : C → C') (t : D → D') : Prop where
  node : ∀ {c o}, s.toOffset c = .ok (some o) → ∃ o', s'.toOffset (f c) = .ok (some o')
  inj : ∀ {a b o o'}, s.toOffset a = .ok (some o) → s.toOffset b = .ok (some o') → f a = f b → a = b
  onto : ∀ {c' o'}, s'.toOffset c' = .ok (some o') → ∃ c o, s.toOffset c = .ok (some o) ∧ f c = c'
  dir_inj : ∀ {d e}, t d = t e → d = e
  dir_onto : ∀ d', ∃ d, t d = d'
  move : ∀ {c o}, s.toOffset c = .ok (some o) → ∀ d, ∃ r, s.moveCoord c d = .ok r ∧ s'.moveCoord (f c) (t d) = .ok (r.map f)

/-- One symmetry after another. -/
theorem Symmetry.trans {C A D C' A' D' C'' A'' D'' : Type} {s : Shape C A D} {s' : Shape C' A' D'} {s'' : Shape C'' A'' D''}
    {f : C → C'} {t : D → D'} {f' : C' → C''} {t' : D' → D''} (h : Symmetry s s' f t) (h' : Symmetry s' s'' f' t') :
    Symmetry s s'' (f' ∘ f) (t' ∘ t) where
  node := fun hc => let ⟨_, h1⟩ := h.node hc; h'.node h1
  inj := fun ha hb he => let ⟨_, h1⟩ := h.node ha; let ⟨_, h2⟩ := h.node hb; h.inj ha hb (h'.inj h1 h2 he)
  onto := fun hc => by
    obtain ⟨c', o', h1, rfl⟩ := h'.onto hc
    obtain ⟨c, o, h2, rfl⟩ := h.onto h1
    exact ⟨c, o, h2, rfl⟩
  dir_inj := fun he => h.dir_inj (h'.dir_inj he)
  dir_onto := fun d'' => by
    obtain ⟨d', rfl⟩ := h'.dir_onto d''
    obtain ⟨d, rfl⟩ := h.dir_onto d'
    exact ⟨d, rfl⟩
  move := fun hc d => by
    obtain ⟨r, h1, h2⟩ := h.move hc d
    obtain ⟨o', h3⟩ := h.node hc
    obtain ⟨r', h4, h5⟩ := h'.move h3 (t d)
    rw [h2] at h4
    cases h4
    exact ⟨r, h1, by rw [Function.comp, Function.comp, h5, Option.map_map]⟩

/-! ### What a symmetry preserves -/
section
variable {C A D C' A' D' N E N' E' : Type} [DecidableEq C] [DecidableEq A] [DecidableEq D] [DecidableEq C'] [DecidableEq A']
  [DecidableEq D']
variable {g : Graph C A D N E} {s : Shape C A D} {L : Lat C A D} {rep : C → Prop} {k : Contents C A N E}
variable {g' : Graph C' A' D' N' E'} {s' : Shape C' A' D'} {L' : Lat C' A' D'} {rep' : C' → Prop} {k' : Contents C' A' N' E'}
variable {f : C → C'} {t : D → D'}

theorem Impl.node_iff (hi : Impl s L rep) (c : C) : L.Node c ↔ ∃ o, s.toOffset c = .ok (some o) := by
  constructor
  · rintro ⟨x, y, hx, hy, rfl⟩
    exact ⟨_, hi.toOffset_coord hx hy⟩
  · rintro ⟨o, ho⟩
    obtain ⟨h1, h2, rfl⟩ := hi.toOffset_some ho
    exact ⟨_, _, h1, h2, rfl⟩

theorem Symmetry.nbr (hy : Symmetry s s' f t) (hi : Impl s L rep) (hi' : Impl s' L' rep') {c : C} (hc : L.Node c) (d : D) :
    L'.Node (f c) ∧ L'.nbr (f c) (t d) = (L.nbr c d).map f := by
  obtain ⟨o, ho⟩ := (hi.node_iff c).1 hc
  have hn := (hi'.node_iff _).2 (hy.node ho)
  obtain ⟨r, h1, h2⟩ := hy.move ho d
  rw [hi.move hc] at h1
  rw [hi'.move hn] at h2
  cases h1
  exact ⟨hn, Except.ok.inj h2⟩

/-- **C101.** The neighbours of the image of a node are the images of its neighbours (in another order). -/
theorem c101_neighbors (hs : Lawful s L rep) (hs' : Lawful s' L' rep') (hb : Built s L g k) (hb' : Built s' L' g' k')
    (hy : Symmetry s s' f t) {a : C} (ha : L.Node a) {l : List C} {l' : List C'} (hl : Yields (neighborsNext g.s a) 0 l)
    (hl' : Yields (neighborsNext g'.s (f a)) 0 l') : l'.Perm (l.map f) := by
  have hi := hs.impl (hb.good hs).constructible
  have hi' := hs'.impl (hb'.good hs').constructible
  have hn := (hi'.node_iff _).2 (hy.node ((hi.node_iff a).1 ha).choose_spec)
  rw [hl.unique (c07_neighbors hs hb ha), hl'.unique (c07_neighbors hs' hb' hn)]
  have hp : L'.dirs.Perm (L.dirs.map t) := by
    have h1 : (L.dirs.map t).Nodup :=
      hs.laws.dir.dirs_nodup.map _ (fun x y h he => h (hy.dir_inj he))
    refine (List.perm_ext_iff_of_nodup hs'.laws.dir.dirs_nodup h1).2 fun d => ⟨fun _ => ?_, fun _ => hs'.laws.dir.dirs_mem d⟩
    obtain ⟨e, rfl⟩ := hy.dir_onto d
    exact List.mem_map_of_mem (hs.laws.dir.dirs_mem e)
  have he : (L.dirs.map t).filterMap (L'.nbr (f a)) = (L.dirs.filterMap (L.nbr a)).map f := by
    rw [List.filterMap_map, List.map_filterMap]
    congr 1
    funext d
    exact (hy.nbr hi hi' ha d).2
  show (L'.dirs.filterMap (L'.nbr (f a))).Perm ((L.dirs.filterMap (L.nbr a)).map f)
  rw [← he]
  exact hp.filterMap _

/-- **C101.** Two nodes are adjacent iff their images are. -/
theorem c101_adjacent (hs : Lawful s L rep) (hs' : Lawful s' L' rep') (hb : Built s L g k) (hb' : Built s' L' g' k')
    (hy : Symmetry s s' f t) {a b : C} (ha : L.Node a) (hn : L.Node b) : g'.isAdjacent (f a) (f b) = g.isAdjacent a b := by
  have hi := hs.impl (hb.good hs).constructible
  have hi' := hs'.impl (hb'.good hs').constructible
  have ha' := (hi'.node_iff _).2 (hy.node ((hi.node_iff a).1 ha).choose_spec)
  rw [c09_is_adjacent hs hb ha b (c07_neighbors hs hb ha), c09_is_adjacent hs' hb' ha' (f b) (c07_neighbors hs' hb' ha')]
  have hp := c101_neighbors hs hs' hb hb' hy ha (c07_neighbors hs hb ha) (c07_neighbors hs' hb' ha')
  congr 1
  rw [decide_eq_decide, hp.mem_iff, List.mem_map]
  constructor
  · rintro ⟨c, hc, he⟩
    obtain ⟨o, ho⟩ := (hi.node_iff b).1 hn
    obtain ⟨o', ho'⟩ := (hi.node_iff c).1 ((c07_neighbors_exact hs ha c).2 hc)
    rwa [← hy.inj ho' ho he]
  · exact fun h => ⟨b, h, rfl⟩

/-- **C101.** There is a walk of `n` steps between the images of two nodes iff there is one between the nodes; so distances, and
what can be reached at all, are the same. -/
theorem c101_walks (hs : Lawful s L rep) (hs' : Lawful s' L' rep') (hb : Built s L g k) (hb' : Built s' L' g' k')
    (hy : Symmetry s s' f t) {a b : C} (ha : L.Node a) (hn : L.Node b) (n : Nat) :
    Walk g'.s (f a) n (f b) ↔ Walk g.s a n b := by
  have hi := hs.impl (hb.good hs).constructible
  have hi' := hs'.impl (hb'.good hs').constructible
  have hnode : ∀ {c}, L.Node c → L'.Node (f c) := fun hc => (hi'.node_iff _).2 (hy.node ((hi.node_iff _).1 hc).choose_spec)
  constructor
  · intro h
    have hp := h.path hs' hb' (hnode ha)
    have key : ∀ {m c'}, Path L' (f a) m c' → ∃ c, L.Node c ∧ f c = c' ∧ Path L a m c := by
      intro m c' hp
      induction hp with
      | nil => exact ⟨a, ha, rfl, .nil⟩
      | @step m b' c' d' _ hd ih =>
        obtain ⟨c, hc, rfl, hpc⟩ := ih
        obtain ⟨d, rfl⟩ := hy.dir_onto d'
        rw [(hy.nbr hi hi' hc d).2, Option.map_eq_some_iff] at hd
        obtain ⟨e, he, rfl⟩ := hd
        exact ⟨e, hs.laws.nbr_node hc he, rfl, .step hpc he⟩
    obtain ⟨c, hc, he, hpc⟩ := key hp
    obtain ⟨o, ho⟩ := (hi.node_iff b).1 hn
    obtain ⟨o', ho'⟩ := (hi.node_iff c).1 hc
    cases hy.inj ho' ho he
    exact hpc.walk hs hb ha
  · intro h
    have hp := h.path hs hb ha
    have key : ∀ {m c}, Path L a m c → Path L' (f a) m (f c) := by
      intro m c hp
      induction hp with
      | nil => exact .nil
      | @step m b c d hp hd ih =>
        refine .step ih (d := t d) ?_
        rw [(hy.nbr hi hi' (hp.node hs.laws ha) d).2, hd]
        rfl
    exact (key hp).walk hs' hb' (hnode ha)

end

/-! ### The symmetries there are -/

/-- Two shapes whose nodes and moves are given by predicates. -/
theorem symmetry_of {C A D C' A' D' : Type} {s : Shape C A D} {s' : Shape C' A' D'} {f : C → C'} {t : D → D'}
    {P : C → Prop} {P' : C' → Prop} {R : C → D → C → Prop} {R' : C' → D' → C' → Prop} (inv : C' → C) (tinv : D' → D)
    (hn : ∀ c, (∃ o, s.toOffset c = .ok (some o)) ↔ P c) (hn' : ∀ c, (∃ o, s'.toOffset c = .ok (some o)) ↔ P' c)
    (hm : ∀ c d, P c → ∃ r, s.moveCoord c d = .ok r ∧ ∀ e, r = some e ↔ P e ∧ R c d e)
    (hm' : ∀ c d, P' c → ∃ r, s'.moveCoord c d = .ok r ∧ ∀ e, r = some e ↔ P' e ∧ R' c d e)
    (hf : ∀ c, P c → P' (f c) ∧ inv (f c) = c) (hinv : ∀ c, P' c → P (inv c) ∧ f (inv c) = c)
    (ht : ∀ d, tinv (t d) = d) (ht' : ∀ d, t (tinv d) = d)
    (hR : ∀ c d e, P c → P e → (R' (f c) (t d) (f e) ↔ R c d e)) : Symmetry s s' f t where
  node := fun hc => (hn' _).2 (hf _ ((hn _).1 ⟨_, hc⟩)).1
  inj := fun {a b _ _} ha hb he => by
    rw [← (hf a ((hn _).1 ⟨_, ha⟩)).2, he, (hf b ((hn _).1 ⟨_, hb⟩)).2]
  onto := fun {c' _} hc => by
    obtain ⟨h1, h2⟩ := hinv c' ((hn' _).1 ⟨_, hc⟩)
    obtain ⟨o, ho⟩ := (hn _).2 h1
    exact ⟨_, o, ho, h2⟩
  dir_inj := fun {d e} he => by rw [← ht d, he, ht]
  dir_onto := fun d => ⟨_, ht' d⟩
  move := fun {c o} hc d => by
    have h1 := (hn _).1 ⟨_, hc⟩
    obtain ⟨r, h2, h3⟩ := hm c d h1
    obtain ⟨r', h4, h5⟩ := hm' (f c) (t d) (hf c h1).1
    refine ⟨r, h2, h4.trans (congrArg _ ?_)⟩
    apply Option.ext
    intro e'
    rw [h5, Option.map_eq_some_iff]
    constructor
    · rintro ⟨h6, h7⟩
      obtain ⟨h8, h9⟩ := hinv e' h6
      refine ⟨inv e', (h3 _).2 ⟨h8, ?_⟩, h9⟩
      rwa [← hR c d _ h1 h8, h9]
    · rintro ⟨e, h6, rfl⟩
      rw [h3] at h6
      exact ⟨(hf e h6.1).1, (hR c d e h1 h6.1).2 h6.2⟩

/-- East and west exchanged on a map `h` columns wide. -/
def flipX (h : Nat) (c : Offset) : Offset := ⟨h - 1 - c.horizontal, c.vertical⟩
/-- North and south exchanged on a map of `v` rows. -/
def flipY (v : Nat) (c : Offset) : Offset := ⟨c.horizontal, v - 1 - c.vertical⟩
/-- Rows and columns exchanged. -/
def swapXY (c : Offset) : Offset := ⟨c.vertical, c.horizontal⟩

theorem rectNode_iff {A D : Type} {s : Shape Offset A D} {h v : Nat}
    (hg : ∀ c, s.toOffset c = .ok (if c.horizontal < h ∧ c.vertical < v then some c else none)) (c : Offset) :
    (∃ o, s.toOffset c = .ok (some o)) ↔ c.horizontal < h ∧ c.vertical < v := by
  rw [hg]
  split <;> simp [*]

/-- `f` with inverse `inv` takes the `h × v` rectangle to the `h' × v'` one. -/
def RectMap (h v h' v' : Nat) (f inv : Offset → Offset) : Prop :=
  ∀ c, c.horizontal < h ∧ c.vertical < v → ((f c).horizontal < h' ∧ (f c).vertical < v') ∧ inv (f c) = c

theorem flipX_map (h v : Nat) : RectMap h v h v (flipX h) (flipX h) := by
  intro ⟨x, y⟩ hc
  have : h - 1 - (h - 1 - x) = x := by simp only at hc; omega
  exact ⟨⟨by simp only [flipX] at *; omega, hc.2⟩, by simp only [flipX, this]⟩

theorem flipY_map (h v : Nat) : RectMap h v h v (flipY v) (flipY v) := by
  intro ⟨x, y⟩ hc
  have : v - 1 - (v - 1 - y) = y := by simp only at hc; omega
  exact ⟨⟨hc.1, by simp only [flipY] at *; omega⟩, by simp only [flipY, this]⟩

theorem swapXY_map (h v : Nat) : RectMap h v v h swapXY swapXY := fun _ hc => ⟨⟨hc.2, hc.1⟩, rfl⟩

theorem RectGeometry.symmetry {A D A' : Type} {s : Shape Offset A D} {s' : Shape Offset A' D} {h v h' v' : Nat}
    {vec vec' : D → Int × Int} {f inv : Offset → Offset} {t : D → D}
    (hg : RectGeometry s h v vec) (hg' : RectGeometry s' h' v' vec') (hf : RectMap h v h' v' f inv) (hinv : RectMap h' v' h v inv f)
    (ht : ∀ d, t (t d) = d)
    (hR : ∀ c d e, c.horizontal < h ∧ c.vertical < v → e.horizontal < h ∧ e.vertical < v →
      (((f e).horizontal : Int) = (f c).horizontal + (vec' (t d)).1 ∧ ((f e).vertical : Int) = (f c).vertical + (vec' (t d)).2 ↔
        (e.horizontal : Int) = c.horizontal + (vec d).1 ∧ (e.vertical : Int) = c.vertical + (vec d).2)) :
    Symmetry s s' f t :=
  symmetry_of inv t (rectNode_iff hg.nodes) (rectNode_iff hg'.nodes)
    (fun c d hc => let ⟨r, h1, h2⟩ := hg.move c d hc.1 hc.2; ⟨r, h1, fun e => by rw [h2, and_assoc]⟩)
    (fun c d hc => let ⟨r, h1, h2⟩ := hg'.move c d hc.1 hc.2; ⟨r, h1, fun e => by rw [h2, and_assoc]⟩) hf hinv ht ht hR

/-- Opposite direction east-west, square. -/
def DSquareAxis.mirrorX : DSquareAxis → DSquareAxis | .X => .RX | .RX => .X | .Y => .Y | .RY => .RY
/-- Opposite direction north-south, square. -/
def DSquareAxis.mirrorY : DSquareAxis → DSquareAxis | .X => .X | .RX => .RX | .Y => .RY | .RY => .Y
/-- Directions of the axes exchanged, square. -/
def DSquareAxis.swap : DSquareAxis → DSquareAxis | .X => .Y | .Y => .X | .RX => .RY | .RY => .RX

/-- **C101**, square lattices: mirroring east-west, mirroring north-south and exchanging rows with columns. -/
theorem c101_square (m : Machine) (h v : Nat) (hh : h < 2 * m.half) (hv : v < 2 * m.half) :
    Symmetry (squareShape m h v) (squareShape m h v) (flipX h) .mirrorX ∧
    Symmetry (squareShape m h v) (squareShape m h v) (flipY v) .mirrorY ∧
    Symmetry (squareShape m h v) (squareShape m v h) swapXY .swap := by
  have hg := c24_square m h v hh hv
  have hg' := c24_square m v h hv hh
  refine ⟨hg.symmetry hg (flipX_map h v) (flipX_map h v) (by intro d; cases d <;> rfl) ?_,
    hg.symmetry hg (flipY_map h v) (flipY_map h v) (by intro d; cases d <;> rfl) ?_,
    hg.symmetry hg' (swapXY_map h v) (swapXY_map v h) (by intro d; cases d <;> rfl) ?_⟩ <;>
  · intro c d e hc he
    cases d <;> simp only [flipX, flipY, swapXY, DSquareAxis.mirrorX, DSquareAxis.mirrorY, DSquareAxis.swap] <;> omega

/-- **C101**, directed square lattices. -/
theorem c101_square_directed (m : Machine) (h v : Nat) (hh : h < 2 * m.half) (hv : v < 2 * m.half) :
    Symmetry (squareShapeDirected m h v) (squareShapeDirected m h v) (flipX h) .mirrorX ∧
    Symmetry (squareShapeDirected m h v) (squareShapeDirected m h v) (flipY v) .mirrorY ∧
    Symmetry (squareShapeDirected m h v) (squareShapeDirected m v h) swapXY .swap := by
  have hg := c24_square_directed m h v hh hv
  have hg' := c24_square_directed m v h hv hh
  refine ⟨hg.symmetry hg (flipX_map h v) (flipX_map h v) (by intro d; cases d <;> rfl) ?_,
    hg.symmetry hg (flipY_map h v) (flipY_map h v) (by intro d; cases d <;> rfl) ?_,
    hg.symmetry hg' (swapXY_map h v) (swapXY_map v h) (by intro d; cases d <;> rfl) ?_⟩ <;>
  · intro c d e hc he
    cases d <;> simp only [flipX, flipY, swapXY, DSquareAxis.mirrorX, DSquareAxis.mirrorY, DSquareAxis.swap] <;> omega

/-- Opposite direction east-west, compass. -/
def DDiagAxis.mirrorX : DDiagAxis → DDiagAxis
  | .N => .N | .NE => .NW | .E => .W | .SE => .SW | .S => .S | .SW => .SE | .W => .E | .NW => .NE
/-- Opposite direction north-south, compass. -/
def DDiagAxis.mirrorY : DDiagAxis → DDiagAxis
  | .N => .S | .NE => .SE | .E => .E | .SE => .NE | .S => .N | .SW => .NW | .W => .W | .NW => .SW
/-- North exchanged with east, compass. -/
def DDiagAxis.swap : DDiagAxis → DDiagAxis
  | .N => .E | .NE => .NE | .E => .N | .SE => .NW | .S => .W | .SW => .SW | .W => .S | .NW => .SE

/-- **C101**, square lattices with diagonals. -/
theorem c101_diagonal (m : Machine) (h v : Nat) (hh : h < 2 * m.half) (hv : v < 2 * m.half) :
    Symmetry (diagShape m h v) (diagShape m h v) (flipX h) .mirrorX ∧
    Symmetry (diagShape m h v) (diagShape m h v) (flipY v) .mirrorY ∧
    Symmetry (diagShape m h v) (diagShape m v h) swapXY .swap := by
  have hg := c25_diagonal m h v hh hv
  have hg' := c25_diagonal m v h hv hh
  refine ⟨hg.symmetry hg (flipX_map h v) (flipX_map h v) (by intro d; cases d <;> rfl) ?_,
    hg.symmetry hg (flipY_map h v) (flipY_map h v) (by intro d; cases d <;> rfl) ?_,
    hg.symmetry hg' (swapXY_map h v) (swapXY_map v h) (by intro d; cases d <;> rfl) ?_⟩ <;>
  · intro c d e hc he
    cases d <;> simp only [flipX, flipY, swapXY, DDiagAxis.mirrorX, DDiagAxis.mirrorY, DDiagAxis.swap] <;> omega

/-- **C101**, directed square lattices with diagonals. -/
theorem c101_diagonal_directed (m : Machine) (h v : Nat) (hh : h < 2 * m.half) (hv : v < 2 * m.half) :
    Symmetry (diagShapeDirected m h v) (diagShapeDirected m h v) (flipX h) .mirrorX ∧
    Symmetry (diagShapeDirected m h v) (diagShapeDirected m h v) (flipY v) .mirrorY ∧
    Symmetry (diagShapeDirected m h v) (diagShapeDirected m v h) swapXY .swap := by
  have hg := c25_diagonal_directed m h v hh hv
  have hg' := c25_diagonal_directed m v h hv hh
  refine ⟨hg.symmetry hg (flipX_map h v) (flipX_map h v) (by intro d; cases d <;> rfl) ?_,
    hg.symmetry hg (flipY_map h v) (flipY_map h v) (by intro d; cases d <;> rfl) ?_,
    hg.symmetry hg' (swapXY_map h v) (swapXY_map v h) (by intro d; cases d <;> rfl) ?_⟩ <;>
  · intro c d e hc he
    cases d <;> simp only [flipX, flipY, swapXY, DDiagAxis.mirrorX, DDiagAxis.mirrorY, DDiagAxis.swap] <;> omega

/-! Hexagons. -/

/-- East and west exchanged. -/
def AxisDR.mirrorX : AxisDR → AxisDR | .E => .W | .W => .E | .NE => .NW | .NW => .NE | .SE => .SW | .SW => .SE
/-- North and south exchanged. -/
def AxisDR.mirrorY : AxisDR → AxisDR | .E => .E | .W => .W | .NE => .SE | .NW => .SW | .SE => .NE | .SW => .NW

theorem HexGeometry.symmetry {A A' : Type} {s : Shape Offset A AxisDR} {s' : Shape Offset A' AxisDR} {h v : Nat} {even even' : Bool}
    {f inv : Offset → Offset} {t : AxisDR → AxisDR} (hg : HexGeometry s even h v) (hg' : HexGeometry s' even' h v)
    (hf : RectMap h v h v f inv) (hinv : RectMap h v h v inv f) (ht : ∀ d, t (t d) = d)
    (hR : ∀ c d e, c.horizontal < h ∧ c.vertical < v → e.horizontal < h ∧ e.vertical < v →
      ((centre even' (f e)).1 = (centre even' (f c)).1 + (hexStep (t d)).1 ∧
          (centre even' (f e)).2 = (centre even' (f c)).2 + (hexStep (t d)).2 ↔
        (centre even e).1 = (centre even c).1 + (hexStep d).1 ∧ (centre even e).2 = (centre even c).2 + (hexStep d).2)) :
    Symmetry s s' f t :=
  symmetry_of inv t (rectNode_iff hg.nodes) (rectNode_iff hg'.nodes)
    (fun c d hc => let ⟨r, h1, h2⟩ := hg.move c d hc.1 hc.2; ⟨r, h1, fun e => by rw [h2, and_assoc]⟩)
    (fun c d hc => let ⟨r, h1, h2⟩ := hg'.move c d hc.1 hc.2; ⟨r, h1, fun e => by rw [h2, and_assoc]⟩) hf hinv ht ht hR

/-- Mirrored east-west, the rows that were shifted are those that were not. -/
theorem centre_flipX (even : Bool) {h : Nat} {c : Offset} (hc : c.horizontal < h) :
    (centre (!even) (flipX h c)).1 = 2 * h - 1 - (centre even c).1 ∧ (centre (!even) (flipX h c)).2 = (centre even c).2 := by
  refine ⟨?_, rfl⟩
  cases even <;> simp only [centre, flipX, Bool.not_true, Bool.not_false, Bool.true_eq_false, eq_iff_iff, iff_true,
    iff_false] <;> by_cases hp : c.vertical % 2 = 1 <;> simp only [hp, not_true, not_false_eq_true, if_true, if_false] <;> omega

/-- Mirrored north-south, the same rows are shifted if the number of rows is odd, the others if it is even. -/
theorem centre_flipY (even : Bool) {v : Nat} {c : Offset} (hc : c.vertical < v) :
    (centre (even == decide (v % 2 = 1)) (flipY v c)).1 = (centre even c).1 ∧
    (centre (even == decide (v % 2 = 1)) (flipY v c)).2 = v - 1 - (centre even c).2 := by
  refine ⟨?_, by simp only [centre, flipY]; omega⟩
  by_cases hv : v % 2 = 1 <;> cases even <;> simp [centre, flipY, hv] <;> omega

theorem hex_symmetries {A : Type} {sh : Marker → Shape Offset A AxisDR} {h v : Nat} (hg : ∀ k, HexGeometry (sh k) k.isEven h v)
    (k k' : Marker) :
    (k'.isEven = !k.isEven → Symmetry (sh k) (sh k') (flipX h) .mirrorX) ∧
    (k'.isEven = (k.isEven == decide (v % 2 = 1)) → Symmetry (sh k) (sh k') (flipY v) .mirrorY) := by
  refine ⟨fun hk => (hg k).symmetry (hg k') (flipX_map h v) (flipX_map h v) (by intro d; cases d <;> rfl) fun c d e hc he => ?_,
    fun hk => (hg k).symmetry (hg k') (flipY_map h v) (flipY_map h v) (by intro d; cases d <;> rfl) fun c d e hc he => ?_⟩
  · obtain ⟨h1, h2⟩ := centre_flipX k.isEven hc.1
    obtain ⟨h3, h4⟩ := centre_flipX k.isEven he.1
    rw [hk, h1, h2, h3, h4]
    cases d <;> simp only [hexStep, AxisDR.mirrorX] <;> omega
  · obtain ⟨h1, h2⟩ := centre_flipY k.isEven hc.2
    obtain ⟨h3, h4⟩ := centre_flipY k.isEven he.2
    rw [hk, h1, h2, h3, h4]
    cases d <;> simp only [hexStep, AxisDR.mirrorY] <;> omega

/-- **C101**, offset hexagons: mirrored east-west, an `OddR` map is the `EvenR` map of the same size and conversely; mirrored
north-south, a map with an odd number of rows is itself, one with an even number of rows is the map of the other base. -/
theorem c101_hex_offset (m : Machine) (h v : Nat) (hh : h < 2 * m.half) (hv : v < 2 * m.half) :
    Symmetry (hexOffR m oddR h v) (hexOffR m evenR h v) (flipX h) .mirrorX ∧
    Symmetry (hexOffR m evenR h v) (hexOffR m oddR h v) (flipX h) .mirrorX ∧
    (v % 2 = 1 → Symmetry (hexOffR m oddR h v) (hexOffR m oddR h v) (flipY v) .mirrorY ∧
      Symmetry (hexOffR m evenR h v) (hexOffR m evenR h v) (flipY v) .mirrorY) ∧
    (v % 2 = 0 → Symmetry (hexOffR m oddR h v) (hexOffR m evenR h v) (flipY v) .mirrorY ∧
      Symmetry (hexOffR m evenR h v) (hexOffR m oddR h v) (flipY v) .mirrorY) := by
  have hk := fun k k' => hex_symmetries (fun k => c26_hex_offset m k h v hh hv) k k'
  exact ⟨(hk _ _).1 rfl, (hk _ _).1 rfl, fun hv => ⟨(hk _ _).2 (by rw [hv]; rfl), (hk _ _).2 (by rw [hv]; rfl)⟩,
    fun hv => ⟨(hk _ _).2 (by rw [hv]; rfl), (hk _ _).2 (by rw [hv]; rfl)⟩⟩

/-- **C101**, directed offset hexagons. -/
theorem c101_hex_offset_directed (m : Machine) (h v : Nat) (hh : h < 2 * m.half) (hv : v < 2 * m.half) :
    Symmetry (hexOffRDirected m oddR h v) (hexOffRDirected m evenR h v) (flipX h) .mirrorX ∧
    Symmetry (hexOffRDirected m evenR h v) (hexOffRDirected m oddR h v) (flipX h) .mirrorX ∧
    (v % 2 = 1 → Symmetry (hexOffRDirected m oddR h v) (hexOffRDirected m oddR h v) (flipY v) .mirrorY ∧
      Symmetry (hexOffRDirected m evenR h v) (hexOffRDirected m evenR h v) (flipY v) .mirrorY) ∧
    (v % 2 = 0 → Symmetry (hexOffRDirected m oddR h v) (hexOffRDirected m evenR h v) (flipY v) .mirrorY ∧
      Symmetry (hexOffRDirected m evenR h v) (hexOffRDirected m oddR h v) (flipY v) .mirrorY) := by
  have hk := fun k k' => hex_symmetries (fun k => c26_hex_offset_directed m k h v hh hv) k k'
  exact ⟨(hk _ _).1 rfl, (hk _ _).1 rfl, fun hv => ⟨(hk _ _).2 (by rw [hv]; rfl), (hk _ _).2 (by rw [hv]; rfl)⟩,
    fun hv => ⟨(hk _ _).2 (by rw [hv]; rfl), (hk _ _).2 (by rw [hv]; rfl)⟩⟩

/-- Turned by `n` columns around a cylinder `h` columns around. -/
def turn (h n : Nat) (c : Offset) : Offset := ⟨(c.horizontal + n) % h, c.vertical⟩

theorem turn_map {h : Nat} (v n : Nat) :
    RectMap h v h v (turn h n) (turn h (h - n % h)) ∧ RectMap h v h v (turn h (h - n % h)) (turn h n) := by
  have key : ∀ {x a b : Nat}, x < h → (∃ j, a + b = h * j) → ((x + a) % h + b) % h = x := by
    rintro x a b hx ⟨j, hj⟩
    rw [Nat.mod_add_mod, Nat.add_assoc, hj, Nat.add_mul_mod_self_left, Nat.mod_eq_of_lt hx]
  have he : 0 < h → n + (h - n % h) = h * (n / h + 1) := fun h0 => by
    have h1 := Nat.div_add_mod n h
    have h2 := Nat.mod_lt n h0
    rw [Nat.mul_add]
    omega
  constructor
  · intro ⟨x, y⟩ hc
    have hx : x < h := hc.1
    refine ⟨⟨Nat.mod_lt _ (by omega), hc.2⟩, ?_⟩
    simp only [turn, Offset.mk.injEq, and_true]
    exact key hx ⟨_, he (by omega)⟩
  · intro ⟨x, y⟩ hc
    have hx : x < h := hc.1
    refine ⟨⟨Nat.mod_lt _ (by omega), hc.2⟩, ?_⟩
    simp only [turn, Offset.mk.injEq, and_true]
    exact key hx ⟨_, (Nat.add_comm ..).trans (he (by omega))⟩

/-- **C101**, the cylinder: turned by any number of columns it is itself; mirrored east-west it is the cylinder of the other
base. -/
theorem c101_hex_loop (m : Machine) (k : Marker) (h v : Nat) (hh : h < 2 * m.half) (hv : v < 2 * m.half) :
    (∀ n, Symmetry (hexOffRLew m k h v) (hexOffRLew m k h v) (turn h n) id) ∧
    ∀ k' : Marker, k'.isEven = !k.isEven → Symmetry (hexOffRLew m k h v) (hexOffRLew m k' h v) (flipX h) .mirrorX := by
  have hn : ∀ k : Marker, ∀ c, (hexOffRLew m k h v).toOffset c = .ok (if c.horizontal < h ∧ c.vertical < v then some c else none) :=
    fun k c => congrArg Except.ok (rangeCheck_eq h v c)
  have hm : ∀ k : Marker, ∀ c d, c.horizontal < h ∧ c.vertical < v → ∃ r, (hexOffRLew m k h v).moveCoord c d = .ok r ∧
      ∀ e, r = some e ↔ (e.horizontal < h ∧ e.vertical < v) ∧
        (∃ n : Int, (centre k.isEven e).1 + 2 * h * n = (centre k.isEven c).1 + (hexStep d).1) ∧
        (centre k.isEven e).2 = (centre k.isEven c).2 + (hexStep d).2 := fun k c d hc => by
    obtain ⟨r, h1, -, h2⟩ := c30_hex_offset_loop m k h v hh hv c d hc.1 hc.2
    exact ⟨r, h1, fun e => by rw [h2, and_assoc]⟩
  refine ⟨fun n => symmetry_of (turn h (h - n % h)) id (rectNode_iff (hn k)) (rectNode_iff (hn k)) (hm k) (hm k) (turn_map v n).1 (turn_map v n).2
    (fun _ => rfl) (fun _ => rfl) fun c d e hc he => ?_,
    fun k' hk => symmetry_of (flipX h) .mirrorX (rectNode_iff (hn k)) (rectNode_iff (hn k')) (hm k) (hm k') (flipX_map h v) (flipX_map h v)
      (by intro d; cases d <;> rfl) (by intro d; cases d <;> rfl) fun c d e hc he => ?_⟩
  · have key : ∀ c : Offset, ∃ q : Int, (centre k.isEven (turn h n c)).1 = (centre k.isEven c).1 + 2 * n - 2 * h * q ∧
        (centre k.isEven (turn h n c)).2 = (centre k.isEven c).2 := by
      intro c
      refine ⟨((c.horizontal + n) / h : Nat), ?_, rfl⟩
      have := Nat.div_add_mod (c.horizontal + n) h
      have h2 : (h : Int) * ((c.horizontal + n) / h : Nat) + ((c.horizontal + n) % h : Nat) = c.horizontal + n := by exact_mod_cast this
      rw [centre_eq, centre_eq, Int.mul_assoc]
      simp only [offPos, turn]
      generalize (c.horizontal + n) / h = a at h2 ⊢
      generalize (c.horizontal + n) % h = b at h2 ⊢
      generalize (h : Int) * (a : Nat) = p at h2 ⊢
      omega
    obtain ⟨q, h1, h2⟩ := key c
    obtain ⟨q', h3, h4⟩ := key e
    rw [h1, h2, h3, h4]
    constructor
    · rintro ⟨⟨j, hj⟩, h5⟩
      refine ⟨⟨j - q' + q, ?_⟩, h5⟩
      rw [Int.mul_add, Int.mul_sub]
      simp only [id] at hj
      omega
    · rintro ⟨⟨j, hj⟩, h5⟩
      refine ⟨⟨j + q' - q, ?_⟩, h5⟩
      rw [Int.mul_sub, Int.mul_add]
      simp only [id]
      omega
  · obtain ⟨h1, h2⟩ := centre_flipX k.isEven hc.1
    obtain ⟨h3, h4⟩ := centre_flipX k.isEven he.1
    rw [hk, h1, h2, h3, h4]
    constructor
    · rintro ⟨⟨j, hj⟩, h5⟩
      refine ⟨⟨-j, ?_⟩, ?_⟩
      · rw [Int.mul_neg]
        cases d <;> simp only [hexStep, AxisDR.mirrorX] at * <;> omega
      · cases d <;> simp only [hexStep, AxisDR.mirrorX] at * <;> omega
    · rintro ⟨⟨j, hj⟩, h5⟩
      refine ⟨⟨-j, ?_⟩, ?_⟩
      · rw [Int.mul_neg]
        cases d <;> simp only [hexStep, AxisDR.mirrorX] at * <;> omega
      · cases d <;> simp only [hexStep, AxisDR.mirrorX] at * <;> omega

/-! Axial coordinates. -/

/-- East and west exchanged on an axial map `h` columns wide. -/
def flipAx (h : Nat) (c : Axial) : Axial := ⟨h - 1 - c.r - c.q, c.q⟩

/-- The flat-top directions that correspond to east and west exchanged in the layout the code uses for them (C35). -/
def AxisDQ.mirrorX : AxisDQ → AxisDQ | .NE => .SW | .SW => .NE | .N => .NW | .NW => .N | .SE => .S | .S => .SE

theorem AxialGeometry.flip {A A' D : Type} {s : Shape Axial A D} {s' : Shape Axial A' D} {even : Bool} {h v : Nat}
    {vec : D → Int × Int} {t : D → D} (hg : AxialGeometry s even h v vec) (hg' : AxialGeometry s' (!even) h v vec)
    (ht : ∀ d, t (t d) = d) (hv : ∀ d, vec (t d) = (-(vec d).1 - (vec d).2, (vec d).2)) : Symmetry s s' (flipAx h) t := by
  have hsh : ∀ q : Int, shear even q + shear (!even) q = q := by
    intro q
    cases even <;> simp only [shear, Bool.not_true, Bool.not_false, Bool.false_eq_true, if_true, if_false] <;> omega
  have hin : ∀ c, InAxial even h v c → InAxial (!even) h v (flipAx h c) := by
    intro c hc
    have := hsh c.q
    unfold InAxial flipAx at *
    simp only
    omega
  have hin' : ∀ c, InAxial (!even) h v c → InAxial even h v (flipAx h c) := by
    intro c hc
    have := hsh c.q
    unfold InAxial flipAx at *
    simp only
    omega
  have hff : ∀ c, flipAx h (flipAx h c) = c := by
    rintro ⟨r, q⟩
    simp only [flipAx, Axial.mk.injEq, and_true]
    omega
  refine symmetry_of (flipAx h) t (fun c => (hg.nodes c).symm) (fun c => (hg'.nodes c).symm) (hg.move) (hg'.move)
    (fun c hc => ⟨hin c hc, hff c⟩) (fun c hc => ⟨hin' c hc, hff c⟩) ht ht fun c d e _ _ => ?_
  rw [hv]
  simp only [flipAx]
  omega

/-- **C101**, axial hexagons: mirrored east-west, the map of an odd base is the map of the even base of the same size. -/
theorem c101_hex_axial (m : Machine) (h v : Nat) (hh : h < m.half) (hv : v < m.half) :
    Symmetry (hexAxR m (isizeTy m) oddR h v) (hexAxR m (isizeTy m) evenR h v) (flipAx h) .mirrorX ∧
    Symmetry (hexAxR m (isizeTy m) evenR h v) (hexAxR m (isizeTy m) oddR h v) (flipAx h) .mirrorX ∧
    Symmetry (hexAxRDirected m (isizeTy m) oddR h v) (hexAxRDirected m (isizeTy m) evenR h v) (flipAx h) .mirrorX ∧
    Symmetry (hexAxQ m (isizeTy m) oddQ h v) (hexAxQ m (isizeTy m) evenQ h v) (flipAx h) .mirrorX ∧
    Symmetry (hexAxQ m (isizeTy m) evenQ h v) (hexAxQ m (isizeTy m) oddQ h v) (flipAx h) .mirrorX ∧
    Symmetry (hexAxQDirected m (isizeTy m) oddQ h v) (hexAxQDirected m (isizeTy m) evenQ h v) (flipAx h) .mirrorX := by
  have ht : Holds (isizeTy m) false h v := .isize hh hv
  have r := fun k (hk : k.isFlatTop = false) => c27_axial_r m k hk _ h v hh hv (by rw [hk]; exact ht)
  have rd := fun k (hk : k.isFlatTop = false) => c27_axial_r_directed m k hk _ h v hh hv (by rw [hk]; exact ht)
  have q := fun k (hk : k.isFlatTop = false) => c27_axial_q m k hk _ h v hh hv (by rw [hk]; exact ht)
  have qd := fun k (hk : k.isFlatTop = false) => c27_axial_q_directed m k hk _ h v hh hv (by rw [hk]; exact ht)
  have tr : ∀ d : AxisDR, d.mirrorX.mirrorX = d := by intro d; cases d <;> rfl
  have tq : ∀ d : AxisDQ, d.mirrorX.mirrorX = d := by intro d; cases d <;> rfl
  have vr : ∀ d : AxisDR, axialStepR d.mirrorX = (-(axialStepR d).1 - (axialStepR d).2, (axialStepR d).2) := by intro d; cases d <;> rfl
  have vq : ∀ d : AxisDQ, axialStepQ d.mirrorX = (-(axialStepQ d).1 - (axialStepQ d).2, (axialStepQ d).2) := by intro d; cases d <;> rfl
  exact ⟨(r oddR rfl).flip (r evenR rfl) tr vr, (r evenR rfl).flip (r oddR rfl) tr vr, (rd oddR rfl).flip (rd evenR rfl) tr vr,
    (q oddQ rfl).flip (q evenQ rfl) tq vq, (q evenQ rfl).flip (q oddQ rfl) tq vq, (qd oddQ rfl).flip (qd evenQ rfl) tq vq⟩

/-! ### Instances -/

/-- A walk of three steps from `(0, 1)` to `(2, 0)` in a 3 × 2 square, seen after exchanging rows and columns. -/
example : ∃ (g g' : Graph Offset SquareAxis DSquareAxis Nat Nat), Walk g.s ⟨0, 1⟩ 3 ⟨2, 0⟩ ∧ Walk g'.s ⟨1, 0⟩ 3 ⟨0, 2⟩ ∧
    ¬ Walk g'.s ⟨1, 0⟩ 0 ⟨0, 2⟩ ∧ g'.isAdjacent ⟨1, 0⟩ ⟨1, 1⟩ = g.isAdjacent ⟨0, 1⟩ ⟨1, 1⟩ := by
  have hs := Lawful.square m64 3 2
  have hs' := Lawful.square m64 2 3
  obtain ⟨g, hb⟩ := hs.exists_built (N := Nat) (E := Nat) (by decide) (fun (u : Unit) _ => (0, u)) (fun u _ _ => (0, u)) ()
  obtain ⟨g', hb'⟩ := hs'.exists_built (N := Nat) (E := Nat) (by decide) (fun (u : Unit) _ => (0, u)) (fun u _ _ => (0, u)) ()
  have hy := (c101_square m64 3 2 (by decide) (by decide)).2.2
  have h0 : (squareLat 3 2).Node ⟨0, 1⟩ := Lat.mem_nodes.1 (by decide)
  have h1 : (squareLat 3 2).Node ⟨2, 0⟩ := Lat.mem_nodes.1 (by decide)
  have h2 : (squareLat 3 2).Node ⟨1, 1⟩ := Lat.mem_nodes.1 (by decide)
  have hw : Walk g.s ⟨0, 1⟩ 3 ⟨2, 0⟩ := by
    refine .step (b := ⟨1, 0⟩) (.step (b := ⟨0, 0⟩) (.step (b := ⟨0, 1⟩) .nil (c07_neighbors hs hb h0) ?_)
      (c07_neighbors hs hb (Lat.mem_nodes.1 (by decide))) ?_) (c07_neighbors hs hb (Lat.mem_nodes.1 (by decide))) ?_ <;> decide
  have hw0 : ¬ Walk g.s ⟨0, 1⟩ 0 ⟨2, 0⟩ := fun h => by cases h
  exact ⟨g, g', hw, (c101_walks hs hs' hb hb' hy h0 h1 3).2 hw, fun h => hw0 ((c101_walks hs hs' hb hb' hy h0 h1 0).1 h),
    c101_adjacent hs hs' hb hb' hy h0 h2⟩
/-- Corner of an `OddR` map, and the opposite corner of the `EvenR` map. -/
example : ∃ (g g' : Graph Offset AxisR AxisDR Nat Nat) (l l' : List Offset), Yields (neighborsNext g.s ⟨0, 1⟩) 0 l ∧
    Yields (neighborsNext g'.s ⟨4, 1⟩) 0 l' ∧ l'.Perm (l.map (flipX 5)) ∧ l.length = 5 := by
  have hs := Lawful.hexOffR m64 oddR 5 4
  have hs' := Lawful.hexOffR m64 evenR 5 4
  obtain ⟨g, hb⟩ := hs.exists_built (N := Nat) (E := Nat) (by decide) (fun (u : Unit) _ => (0, u)) (fun u _ _ => (0, u)) ()
  obtain ⟨g', hb'⟩ := hs'.exists_built (N := Nat) (E := Nat) (by decide) (fun (u : Unit) _ => (0, u)) (fun u _ _ => (0, u)) ()
  have h0 : (offLatR oddR.isEven 5 4).Node ⟨0, 1⟩ := Lat.mem_nodes.1 (by decide)
  have h1 := c07_neighbors hs hb h0
  have h2 := c07_neighbors hs' hb' (a := ⟨4, 1⟩) (Lat.mem_nodes.1 (by decide))
  exact ⟨g, g', _, _, h1, h2, c101_neighbors hs hs' hb hb' (c101_hex_offset m64 5 4 (by decide) (by decide)).1 h0 h1 h2, by decide⟩
example : Symmetry (hexOffR m64 oddR 5 3) (hexOffR m64 oddR 5 3) (flipY 3) .mirrorY :=
  ((c101_hex_offset m64 5 3 (by decide) (by decide)).2.2.1 (by decide)).1
example : Symmetry (hexOffRDirected m64 oddR 5 4) (hexOffRDirected m64 evenR 5 4) (flipY 4) .mirrorY :=
  ((c101_hex_offset_directed m64 5 4 (by decide) (by decide)).2.2.2 (by decide)).1
/-- Half a turn. -/
example : Symmetry (squareShapeDirected m64 3 2) (squareShapeDirected m64 3 2) (flipY 2 ∘ flipX 3) (.mirrorY ∘ .mirrorX) :=
  (c101_square_directed m64 3 2 (by decide) (by decide)).1.trans (c101_square_directed m64 3 2 (by decide) (by decide)).2.1
example : Symmetry (diagShape m64 3 2) (diagShape m64 2 3) swapXY .swap ∧
    Symmetry (diagShapeDirected m64 3 2) (diagShapeDirected m64 3 2) (flipX 3) .mirrorX :=
  ⟨(c101_diagonal m64 3 2 (by decide) (by decide)).2.2, (c101_diagonal_directed m64 3 2 (by decide) (by decide)).1⟩
/-- One column further around the cylinder: `NE` of `(4, 1)` wraps around. -/
example : ∃ r, (hexOffRLew m64 oddR 5 4).moveCoord ⟨3, 1⟩ .NE = .ok r ∧ (hexOffRLew m64 oddR 5 4).moveCoord ⟨4, 1⟩ .NE = .ok (r.map (turn 5 1)) ∧
    r = some ⟨4, 2⟩ := by
  obtain ⟨r, h1, h2⟩ := ((c101_hex_loop m64 oddR 5 4 (by decide) (by decide)).1 1).move (c := ⟨3, 1⟩) (o := ⟨3, 1⟩) rfl .NE
  exact ⟨r, h1, h2, Except.ok.inj (h1.symm.trans rfl)⟩
/-- The south-west corner of the axial map of base `OddR`, mirrored. -/
example : ∃ r, (hexAxR m64 (isizeTy m64) oddR 4 3).moveCoord ⟨-1, 2⟩ .SE = .ok r ∧
    (hexAxR m64 (isizeTy m64) evenR 4 3).moveCoord ⟨2, 2⟩ .SW = .ok (r.map (flipAx 4)) ∧ r = some ⟨0, 1⟩ := by
  obtain ⟨r, h1, h2⟩ := (c101_hex_axial m64 4 3 (by decide) (by decide)).1.move (c := ⟨-1, 2⟩) (o := ⟨0, 2⟩) rfl .SE
  exact ⟨r, h1, h2, Except.ok.inj (h1.symm.trans rfl)⟩

end LG
