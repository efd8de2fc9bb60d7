import Verif.Lemmas.Lawful
/- The square shapes implement the square lattices. -/
namespace LG

theorem uadd_ok {m : Machine} {a b : Nat} (h : a + b < 2 * m.half) : uadd m a b = .ok (a + b) := by
  simp [uadd, h]

theorem usub_ok {m : Machine} {a b : Nat} (h : b ≤ a) : usub m a b = .ok (a - b) := by
  simp [usub, h]

theorem inRect_some {w h : Nat} {x y : Int} {a b : Nat} (hx : x = a) (hy : y = b) (ha : a < w) (hb : b < h) :
    inRect w h x y = some ⟨a, b⟩ := by
  subst hx hy
  simp [inRect]; omega

theorem inRect_none {w h : Nat} {x y : Int} (hn : x < 0 ∨ w ≤ x ∨ y < 0 ∨ h ≤ y) : inRect w h x y = none := by
  unfold inRect
  rw [if_neg (by omega)]

theorem inRect_eq_some {w h : Nat} {x y : Int} {o : Offset} :
    inRect w h x y = some o ↔ x = o.horizontal ∧ y = o.vertical ∧ o.horizontal < w ∧ o.vertical < h := by
  constructor
  · intro hh
    unfold inRect at hh
    split at hh
    · cases hh; simp only; omega
    · cases hh
  · rintro ⟨h1, h2, h3, h4⟩
    exact inRect_some h1 h2 h3 h4

/-- Close a goal `.ok o = .ok (inRect ..)` by arithmetic. -/
macro "rect" : tactic =>
  `(tactic| (apply congrArg Except.ok; symm; first
    | (apply inRect_some <;> (try dsimp only at *) <;> omega)
    | (apply inRect_none; (try dsimp only at *); omega)))

theorem squareMove_eq {m : Machine} {h v : Nat} (hh : h < 2 * m.half) (hv : v < 2 * m.half) {c : Offset}
    (hx : c.horizontal < h) (hy : c.vertical < v) (d : DSquareAxis) :
    squareMove m h v c d = .ok (rectNbr h v c d.vec) := by
  cases d <;>
    simp only [squareMove, Offset.addX, Offset.addY, Offset.checkX, Offset.checkY, Offset.subX, Offset.subY, rectNbr,
      DSquareAxis.vec]
  · rw [uadd_ok (by omega)]
    simp only [bind, Except.bind]
    split <;> rect
  · rw [uadd_ok (by omega)]
    simp only [bind, Except.bind]
    split <;> rect
  · split <;> rect
  · split <;> rect

theorem addXCheck_eq {m : Machine} {h : Nat} (hh : h < 2 * m.half) {o : Offset} (ho : o.horizontal < h) :
    addXCheck m o h = .ok (if o.horizontal + 1 < h then some ⟨o.horizontal + 1, o.vertical⟩ else none) := by
  simp only [addXCheck, Offset.addX, Offset.checkX]
  rw [uadd_ok (by omega)]
  rfl

theorem addYCheck_eq {m : Machine} {v : Nat} (hv : v < 2 * m.half) {o : Offset} (ho : o.vertical < v) :
    addYCheck m o v = .ok (if o.vertical + 1 < v then some ⟨o.horizontal, o.vertical + 1⟩ else none) := by
  simp only [addYCheck, Offset.addY, Offset.checkY]
  rw [uadd_ok (by omega)]
  rfl

theorem diagMove_eq {m : Machine} {h v : Nat} (hh : h < 2 * m.half) (hv : v < 2 * m.half) {c : Offset}
    (hx : c.horizontal < h) (hy : c.vertical < v) (d : DDiagAxis) :
    diagMove m h v c d = .ok (rectNbr h v c d.vec) := by
  cases d <;> simp only [diagMove, rectNbr, DDiagAxis.vec]
  · rw [addYCheck_eq hv hy]; split <;> rect
  · rw [addXCheck_eq hh hx]; simp only [bind, Except.bind]
    split <;> simp only [andThen]
    · rw [addYCheck_eq hv (by simpa)]; split <;> rect
    · rect
  · rw [addXCheck_eq hh hx]; split <;> rect
  · rw [addXCheck_eq hh hx]; simp only [bind, Except.bind]
    split <;> simp only [andThen, Offset.subY]
    · split <;> rect
    · rect
  · simp only [Offset.subY]; split <;> rect
  · simp only [Offset.subX, Offset.subY]
    split <;> simp only [andThen]
    · split <;> rect
    · rect
  · simp only [Offset.subX]; split <;> rect
  · simp only [Offset.subX]
    split <;> simp only [andThen]
    · rw [addYCheck_eq hv (by simpa)]; split <;> rect
    · rect

theorem rangeCheck_some {h v : Nat} {c o : Offset} (hc : rangeCheck h v c = some o) :
    o.horizontal < h ∧ o.vertical < v ∧ c = o := by
  unfold rangeCheck at hc
  split at hc
  · cases hc; simp_all
  · cases hc

theorem rangeCheck_in {h v x y : Nat} (hx : x < h) (hy : y < v) : rangeCheck h v ⟨x, y⟩ = some ⟨x, y⟩ := by
  simp [rangeCheck, hx, hy]

theorem rangeCheck_none {h v : Nat} {c : Offset} (hc : ¬ ∃ x y, x < h ∧ y < v ∧ c = ⟨x, y⟩) : rangeCheck h v c = none := by
  unfold rangeCheck
  rw [if_neg]
  rintro ⟨h1, h2⟩
  exact hc ⟨_, _, h1, h2, rfl⟩

/-- Translation in a rectangle is reversible. -/
theorem rectNbr_opp {w h : Nat} {c t : Offset} {v v' : Int × Int} (hv : v' = (-v.1, -v.2)) (hx : c.horizontal < w)
    (hy : c.vertical < h) (ht : rectNbr w h c v = some t) : rectNbr w h t v' = some c := by
  subst hv
  unfold rectNbr at *
  rw [inRect_eq_some] at *
  simp only
  omega

theorem rectNbr_node {w h : Nat} {c t : Offset} {v : Int × Int} (ht : rectNbr w h c v = some t) :
    t.horizontal < w ∧ t.vertical < h := by
  unfold rectNbr at ht
  rw [inRect_eq_some] at ht
  omega

theorem squareLat_dirLaws (w h : Nat) : DirLaws (squareLat w h) where
  axes_nodup := by simp [squareLat]
  axes_mem := by intro a; cases a <;> simp [squareLat]
  dirs_nodup := by simp [squareLat]
  dirs_mem := by intro a; cases a <;> simp [squareLat]
  opp_opp := by intro d; cases d <;> rfl
  opp_ne := by intro d; cases d <;> simp [squareLat]
  ax_fwd := by intro d; cases d <;> rfl
  fwd_ax := by intro d; cases d <;> simp [squareLat]
  dirs_und := fun _ => rfl
  dirs_dir := by intro h; cases h

theorem squareLat_laws (w h : Nat) : LatLaws (squareLat w h) where
  dir := squareLat_dirLaws w h
  coord_inj := by intro x y x' y' _ _ _ _ he; simpa [squareLat] using he
  nbr_node := by
    intro c d t _ ht
    have := rectNbr_node ht
    exact ⟨t.horizontal, t.vertical, this.1, this.2, rfl⟩
  nbr_opp := by
    rintro c d t ⟨x, y, hx, hy, rfl⟩ ht
    exact rectNbr_opp (by cases d <;> rfl) hx hy ht

theorem squareAxis_impl (m : Machine) (w h : Nat) : AxisImpl (squareAxis m) (squareLat w h) where
  count := rfl
  directed := rfl
  undirectedCount := rfl
  fromIndex := by
    intro i hi
    match i, hi with
    | 0, _ => rfl
    | 1, _ => rfl
    | n + 2, hi => exact absurd hi (by simp [squareLat])
  toIndex := by intro a; cases a <;> rfl
  dirFromIndex := by
    intro i hi
    match i, hi with
    | 0, _ => rfl
    | 1, _ => rfl
    | 2, _ => rfl
    | 3, _ => rfl
    | n + 4, hi => exact absurd hi (by simp [squareLat])
  dirToIndex := by intro d; cases d <;> rfl
  foward := by intro d; cases d <;> rfl
  backward := by intro d; cases d <;> rfl
  fromDirection := by intro d; cases d <;> rfl
  isForward := by intro d; cases d <;> rfl
  count_le := by simp [squareLat]

theorem squareShape_impl {m : Machine} {h v : Nat} (hc : Constructible (squareShape m h v)) :
    Impl (squareShape m h v) (squareLat h v) (fun _ => True) where
  axis := squareAxis_impl m h v
  width := rfl
  height := rfl
  small := hc.bounds.1
  width_small := hc.bounds.2.1
  height_small := hc.bounds.2.2
  toOffset_some := by intro c o hh; exact rangeCheck_some (Except.ok.inj hh)
  toOffset_coord := by intro x y hx hy; exact congrArg Except.ok (rangeCheck_in hx hy)
  toOffset_none := by intro c _ hn; exact congrArg Except.ok (rangeCheck_none hn)
  toOffsetUnchecked := by intros; rfl
  offsetToCoordinate := by intros; rfl
  move := by
    rintro c ⟨x, y, hx, hy, rfl⟩ d
    exact squareMove_eq hc.wordH hc.wordV hx hy d
  isNeighbor := rfl

theorem squareLatDirected_dirLaws (w h : Nat) : DirLaws (squareLatDirected w h) where
  axes_nodup := by simp [squareLatDirected]
  axes_mem := by intro a; cases a <;> simp [squareLatDirected]
  dirs_nodup := by simp [squareLatDirected]
  dirs_mem := by intro a; cases a <;> simp [squareLatDirected]
  opp_opp := by intro d; cases d <;> rfl
  opp_ne := by intro d; cases d <;> simp [squareLatDirected]
  ax_fwd := by intro d; cases d <;> rfl
  fwd_ax := by intro d; cases d <;> simp [squareLatDirected]
  dirs_und := by intro h; cases h
  dirs_dir := fun _ => rfl

theorem squareLatDirected_laws (w h : Nat) : LatLaws (squareLatDirected w h) where
  dir := squareLatDirected_dirLaws w h
  coord_inj := by intro x y x' y' _ _ _ _ he; simpa [squareLatDirected] using he
  nbr_node := by
    intro c d t _ ht
    have := rectNbr_node ht
    exact ⟨t.horizontal, t.vertical, this.1, this.2, rfl⟩
  nbr_opp := by
    rintro c d t ⟨x, y, hx, hy, rfl⟩ ht
    exact rectNbr_opp (by cases d <;> rfl) hx hy ht

theorem dSquareAxis_impl (m : Machine) (w h : Nat) : AxisImpl (dSquareAxis m) (squareLatDirected w h) where
  count := rfl
  directed := rfl
  undirectedCount := rfl
  fromIndex := by
    intro i hi
    match i, hi with
    | 0, _ => rfl
    | 1, _ => rfl
    | 2, _ => rfl
    | 3, _ => rfl
    | n + 4, hi => exact absurd hi (by simp [squareLatDirected])
  toIndex := by intro a; cases a <;> rfl
  dirFromIndex := by
    intro i hi
    match i, hi with
    | 0, _ => rfl
    | 1, _ => rfl
    | 2, _ => rfl
    | 3, _ => rfl
    | n + 4, hi => exact absurd hi (by simp [squareLatDirected])
  dirToIndex := by intro d; cases d <;> rfl
  foward := by intro d; cases d <;> rfl
  backward := by intro d; cases d <;> rfl
  fromDirection := by intro d; cases d <;> rfl
  isForward := by intro d; cases d <;> rfl
  count_le := by simp [squareLatDirected]

theorem squareShapeDirected_impl {m : Machine} {h v : Nat} (hc : Constructible (squareShapeDirected m h v)) :
    Impl (squareShapeDirected m h v) (squareLatDirected h v) (fun _ => True) where
  axis := dSquareAxis_impl m h v
  width := rfl
  height := rfl
  small := hc.bounds.1
  width_small := hc.bounds.2.1
  height_small := hc.bounds.2.2
  toOffset_some := by intro c o hh; exact rangeCheck_some (Except.ok.inj hh)
  toOffset_coord := by intro x y hx hy; exact congrArg Except.ok (rangeCheck_in hx hy)
  toOffset_none := by intro c _ hn; exact congrArg Except.ok (rangeCheck_none hn)
  toOffsetUnchecked := by
    intro x y hx hy
    simp only [squareShapeDirected, defaultToOffsetUnchecked, bind, Except.bind]
    rw [show (squareLatDirected h v).coord x y = ⟨x, y⟩ from rfl, rangeCheck_in (h := h) (v := v) hx hy]
  offsetToCoordinate := by intros; rfl
  move := by
    rintro c ⟨x, y, hx, hy, rfl⟩ d
    exact squareMove_eq hc.wordH hc.wordV hx hy d
  isNeighbor := rfl

theorem diagLat_dirLaws (w h : Nat) : DirLaws (diagLat w h) where
  axes_nodup := by simp [diagLat]
  axes_mem := by intro a; cases a <;> simp [diagLat]
  dirs_nodup := by simp [diagLat]
  dirs_mem := by intro a; cases a <;> simp [diagLat]
  opp_opp := by intro d; cases d <;> rfl
  opp_ne := by intro d; cases d <;> simp [diagLat]
  ax_fwd := by intro d; cases d <;> rfl
  fwd_ax := by intro d; cases d <;> simp [diagLat]
  dirs_und := fun _ => rfl
  dirs_dir := by intro h; cases h

theorem diagLat_laws (w h : Nat) : LatLaws (diagLat w h) where
  dir := diagLat_dirLaws w h
  coord_inj := by intro x y x' y' _ _ _ _ he; simpa [diagLat] using he
  nbr_node := by
    intro c d t _ ht
    have := rectNbr_node ht
    exact ⟨t.horizontal, t.vertical, this.1, this.2, rfl⟩
  nbr_opp := by
    rintro c d t ⟨x, y, hx, hy, rfl⟩ ht
    exact rectNbr_opp (by cases d <;> rfl) hx hy ht

theorem diagAxis_impl (m : Machine) (w h : Nat) : AxisImpl (diagAxis m) (diagLat w h) where
  count := rfl
  directed := rfl
  undirectedCount := rfl
  fromIndex := by
    intro i hi
    match i, hi with
    | 0, _ => rfl
    | 1, _ => rfl
    | 2, _ => rfl
    | 3, _ => rfl
    | n + 4, hi => exact absurd hi (by simp [diagLat])
  toIndex := by intro a; cases a <;> rfl
  dirFromIndex := by
    intro i hi
    match i, hi with
    | 0, _ => rfl
    | 1, _ => rfl
    | 2, _ => rfl
    | 3, _ => rfl
    | 4, _ => rfl
    | 5, _ => rfl
    | 6, _ => rfl
    | 7, _ => rfl
    | n + 8, hi => exact absurd hi (by simp [diagLat])
  dirToIndex := by intro d; cases d <;> rfl
  foward := by intro d; cases d <;> rfl
  backward := by intro d; cases d <;> rfl
  fromDirection := by intro d; cases d <;> rfl
  isForward := by intro d; cases d <;> rfl
  count_le := by simp [diagLat]

theorem diagShape_impl {m : Machine} {h v : Nat} (hc : Constructible (diagShape m h v)) :
    Impl (diagShape m h v) (diagLat h v) (fun _ => True) where
  axis := diagAxis_impl m h v
  width := rfl
  height := rfl
  small := hc.bounds.1
  width_small := hc.bounds.2.1
  height_small := hc.bounds.2.2
  toOffset_some := by intro c o hh; exact rangeCheck_some (Except.ok.inj hh)
  toOffset_coord := by intro x y hx hy; exact congrArg Except.ok (rangeCheck_in hx hy)
  toOffset_none := by intro c _ hn; exact congrArg Except.ok (rangeCheck_none hn)
  toOffsetUnchecked := by intros; rfl
  offsetToCoordinate := by intros; rfl
  move := by
    rintro c ⟨x, y, hx, hy, rfl⟩ d
    exact diagMove_eq hc.wordH hc.wordV hx hy d
  isNeighbor := rfl

theorem diagLatDirected_dirLaws (w h : Nat) : DirLaws (diagLatDirected w h) where
  axes_nodup := by simp [diagLatDirected]
  axes_mem := by intro a; cases a <;> simp [diagLatDirected]
  dirs_nodup := by simp [diagLatDirected]
  dirs_mem := by intro a; cases a <;> simp [diagLatDirected]
  opp_opp := by intro d; cases d <;> rfl
  opp_ne := by intro d; cases d <;> simp [diagLatDirected]
  ax_fwd := by intro d; cases d <;> rfl
  fwd_ax := by intro d; cases d <;> simp [diagLatDirected]
  dirs_und := by intro h; cases h
  dirs_dir := fun _ => rfl

theorem diagLatDirected_laws (w h : Nat) : LatLaws (diagLatDirected w h) where
  dir := diagLatDirected_dirLaws w h
  coord_inj := by intro x y x' y' _ _ _ _ he; simpa [diagLatDirected] using he
  nbr_node := by
    intro c d t _ ht
    have := rectNbr_node ht
    exact ⟨t.horizontal, t.vertical, this.1, this.2, rfl⟩
  nbr_opp := by
    rintro c d t ⟨x, y, hx, hy, rfl⟩ ht
    exact rectNbr_opp (by cases d <;> rfl) hx hy ht

theorem dDiagAxis_impl (m : Machine) (w h : Nat) : AxisImpl (dDiagAxis m) (diagLatDirected w h) where
  count := rfl
  directed := rfl
  undirectedCount := rfl
  fromIndex := by
    intro i hi
    match i, hi with
    | 0, _ => rfl
    | 1, _ => rfl
    | 2, _ => rfl
    | 3, _ => rfl
    | 4, _ => rfl
    | 5, _ => rfl
    | 6, _ => rfl
    | 7, _ => rfl
    | n + 8, hi => exact absurd hi (by simp [diagLatDirected])
  toIndex := by intro a; cases a <;> rfl
  dirFromIndex := by
    intro i hi
    match i, hi with
    | 0, _ => rfl
    | 1, _ => rfl
    | 2, _ => rfl
    | 3, _ => rfl
    | 4, _ => rfl
    | 5, _ => rfl
    | 6, _ => rfl
    | 7, _ => rfl
    | n + 8, hi => exact absurd hi (by simp [diagLatDirected])
  dirToIndex := by intro d; cases d <;> rfl
  foward := by intro d; cases d <;> rfl
  backward := by intro d; cases d <;> rfl
  fromDirection := by intro d; cases d <;> rfl
  isForward := by intro d; cases d <;> rfl
  count_le := by simp [diagLatDirected]

theorem diagShapeDirected_impl {m : Machine} {h v : Nat} (hc : Constructible (diagShapeDirected m h v)) :
    Impl (diagShapeDirected m h v) (diagLatDirected h v) (fun _ => True) where
  axis := dDiagAxis_impl m h v
  width := rfl
  height := rfl
  small := hc.bounds.1
  width_small := hc.bounds.2.1
  height_small := hc.bounds.2.2
  toOffset_some := by intro c o hh; exact rangeCheck_some (Except.ok.inj hh)
  toOffset_coord := by intro x y hx hy; exact congrArg Except.ok (rangeCheck_in hx hy)
  toOffset_none := by intro c _ hn; exact congrArg Except.ok (rangeCheck_none hn)
  toOffsetUnchecked := by intros; rfl
  offsetToCoordinate := by intros; rfl
  move := by
    rintro c ⟨x, y, hx, hy, rfl⟩ d
    exact diagMove_eq hc.wordH hc.wordV hx hy d
  isNeighbor := rfl

end LG
