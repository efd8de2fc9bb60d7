import Verif.Lemmas.HexDirs
/- The point-top offset shapes (plain and cylindrical) implement the doubled-plane hexagonal lattices. -/
namespace LG

/-- Row parity as seen by the code's flag. -/
theorem parity_flag (even : Bool) (y : Nat) :
    (y % 2 == (if even then 1 else 0)) = true ↔ rowShift even y = 0 := by
  cases even <;> simp [rowShift] <;> omega

theorem rowShift_cases (even : Bool) (y : Int) :
    (rowShift even y = 0 ∧ rowShift even (y + 1) = 1 ∧ rowShift even (y + -1) = 1) ∨
    (rowShift even y = 1 ∧ rowShift even (y + 1) = 0 ∧ rowShift even (y + -1) = 0) := by
  cases even <;> simp [rowShift] <;> omega

theorem offMoveR_eq {m : Machine} {k : Marker} {h v : Nat} (hh : h < 2 * m.half) (hv : v < 2 * m.half) {c : Offset}
    (hx : c.horizontal < h) (hy : c.vertical < v) (d : AxisDR) :
    offMoveR m h v c d (offFlag k) = .ok (offNbr k.isEven h v c d) := by
  have hp := parity_flag k.isEven c.vertical
  have hs := rowShift_cases k.isEven c.vertical
  unfold offMoveR offFlag offNbr offAt offPos
  generalize hb : (c.vertical % 2 == if k.isEven = true then 1 else 0) = b at hp
  cases b
  · have h0 : rowShift k.isEven c.vertical ≠ 0 := fun e => absurd (hp.2 e) (by simp)
    have h1 : rowShift k.isEven c.vertical = 1 := by omega
    have h2 : rowShift k.isEven (c.vertical + 1) = 0 := by omega
    have h3 : rowShift k.isEven (c.vertical + -1) = 0 := by omega
    cases d <;> simp only [AxisDR.vec, Int.add_zero, h1, h2, h3]
    · rw [addXCheck_eq hh hx]; simp only [bind, Except.bind]
      split <;> simp only [andThen]
      · rw [addYCheck_eq hv (by simpa)]; split <;> rect
      · rect
    · rw [addXCheck_eq hh hx]; split <;> rect
    · rw [addXCheck_eq hh hx]; simp only [bind, Except.bind]
      split <;> simp only [andThen, Offset.subY]
      · split <;> rect
      · rect
    · simp only [Offset.subY]; split <;> rect
    · simp only [Offset.subX]; split <;> rect
    · rw [addYCheck_eq hv hy]; split <;> rect
  · have h1 : rowShift k.isEven c.vertical = 0 := hp.1 rfl
    have h2 : rowShift k.isEven (c.vertical + 1) = 1 := by omega
    have h3 : rowShift k.isEven (c.vertical + -1) = 1 := by omega
    cases d <;> simp only [AxisDR.vec, Int.add_zero, h1, h2, h3]
    · rw [addYCheck_eq hv hy]; split <;> rect
    · rw [addXCheck_eq hh hx]; split <;> rect
    · simp only [Offset.subY]; split <;> rect
    · simp only [Offset.subX, Offset.subY]
      split <;> simp only [andThen]
      · split <;> rect
      · rect
    · simp only [Offset.subX]; split <;> rect
    · simp only [Offset.subX]
      split <;> simp only [andThen]
      · rw [addYCheck_eq hv (by simpa)]; split <;> rect
      · rect

/-- One step off the right end wraps to column 0. -/
theorem emod_step_right {x w : Nat} (hx : x < w) :
    ((x : Int) + 1) % w = if x + 1 < w then (x : Int) + 1 else 0 := by
  split
  · rw [Int.emod_eq_of_lt] <;> omega
  · have : (x : Int) + 1 = w := by omega
    rw [this, Int.emod_self]

/-- One step off the left end wraps to the last column. -/
theorem emod_step_left {x w : Nat} (hx : x < w) :
    ((x : Int) - 1) % w = if 1 ≤ x then (x : Int) - 1 else w - 1 := by
  split
  · rw [Int.emod_eq_of_lt] <;> omega
  · have : (x : Int) - 1 = (w - 1) + w * (-1) := by omega
    rw [this, Int.add_mul_emod_self_left, Int.emod_eq_of_lt] <;> omega

theorem emod_step_none {x w : Nat} (hx : x < w) : (x : Int) % w = x := by
  rw [Int.emod_eq_of_lt] <;> omega

theorem wrapE_eq {m : Machine} {h : Nat} (hh : h < 2 * m.half) {o : Offset} (ho : o.horizontal < h) :
    wrapE m o h = .ok ⟨if o.horizontal + 1 < h then o.horizontal + 1 else 0, o.vertical⟩ := by
  unfold wrapE
  rw [addXCheck_eq hh ho]
  simp only [bind, Except.bind]
  split <;> rename_i h1 <;> split at h1 <;> simp_all [Offset.setX]

theorem wrapW_eq {m : Machine} {h : Nat} {o : Offset} (ho : o.horizontal < h) :
    wrapW m o h = .ok ⟨if 1 ≤ o.horizontal then o.horizontal - 1 else h - 1, o.vertical⟩ := by
  unfold wrapW
  simp only [Offset.subX]
  split <;> rename_i h1 <;> split at h1
  · cases h1; simp_all
  · cases h1
  · cases h1
  · rw [usub_ok (by omega)]
    simp_all [Offset.setX, bind, Except.bind]

theorem offMoveRLew_eq {m : Machine} {k : Marker} {h v : Nat} (hh : h < 2 * m.half) (hv : v < 2 * m.half) {c : Offset}
    (hx : c.horizontal < h) (hy : c.vertical < v) (d : AxisDR) :
    offMoveRLew m h v c d (offFlag k) = .ok (offNbrLoop k.isEven h v c d) := by
  have hp := parity_flag k.isEven c.vertical
  have hs := rowShift_cases k.isEven c.vertical
  have er := emod_step_right hx
  have el := emod_step_left hx
  have en := emod_step_none hx
  unfold offMoveRLew offFlag offNbrLoop offAtLoop offPos
  generalize hb : (c.vertical % 2 == if k.isEven = true then 1 else 0) = b at hp
  have q0 : ∀ z : Int, z = 2 * (c.horizontal : Int) ∨ z = 2 * c.horizontal + 1 → z / 2 = c.horizontal := by omega
  have q1 : ∀ z : Int, z = 2 * (c.horizontal : Int) + 2 ∨ z = 2 * c.horizontal + 3 → z / 2 = c.horizontal + 1 := by omega
  have q2 : ∀ z : Int, z = 2 * (c.horizontal : Int) - 2 ∨ z = 2 * c.horizontal - 1 → z / 2 = c.horizontal - 1 := by omega
  cases b
  · have h0 : rowShift k.isEven c.vertical ≠ 0 := fun e => absurd (hp.2 e) (by simp)
    have h1 : rowShift k.isEven c.vertical = 1 := by omega
    have h2 : rowShift k.isEven (c.vertical + 1) = 0 := by omega
    have h3 : rowShift k.isEven (c.vertical + -1) = 0 := by omega
    cases d <;> simp only [AxisDR.vec, Int.add_zero, h1, h2, h3]
    · rw [q1 _ (by omega), er, wrapE_eq hh hx]; simp only [bind, Except.bind]
      rw [addYCheck_eq hv (by simpa)]; simp only
      split <;> split <;> rect
    · rw [q1 _ (by omega), er, wrapE_eq hh hx]; simp only [bind, Except.bind]
      split <;> rect
    · rw [q1 _ (by omega), er, wrapE_eq hh hx]; simp only [bind, Except.bind, Offset.subY]
      split <;> split <;> rect
    · rw [q0 _ (by omega), en]
      simp only [Offset.subY]; split <;> rect
    · rw [q2 _ (by omega), el, wrapW_eq hx]; simp only [bind, Except.bind]
      split <;> rect
    · rw [q0 _ (by omega), en]
      rw [addYCheck_eq hv hy]; split <;> rect
  · have h1 : rowShift k.isEven c.vertical = 0 := hp.1 rfl
    have h2 : rowShift k.isEven (c.vertical + 1) = 1 := by omega
    have h3 : rowShift k.isEven (c.vertical + -1) = 1 := by omega
    cases d <;> simp only [AxisDR.vec, Int.add_zero, h1, h2, h3]
    · rw [q0 _ (by omega), en]
      rw [addYCheck_eq hv hy]; split <;> rect
    · rw [q1 _ (by omega), er, wrapE_eq hh hx]; simp only [bind, Except.bind]
      split <;> rect
    · rw [q0 _ (by omega), en]
      simp only [Offset.subY]; split <;> rect
    · rw [q2 _ (by omega), el, wrapW_eq hx]; simp only [bind, Except.bind, Offset.subY]
      split <;> split <;> rect
    · rw [q2 _ (by omega), el, wrapW_eq hx]; simp only [bind, Except.bind]
      split <;> rect
    · rw [q2 _ (by omega), el, wrapW_eq hx]; simp only [bind, Except.bind]
      rw [addYCheck_eq hv (by simpa)]; simp only
      split <;> split <;> rect

/-- A move succeeds exactly when the target cell is in the map and sits at the displaced plane position. -/
theorem offNbr_iff {even : Bool} {w h : Nat} {c t : Offset} {d : AxisDR} :
    offNbr even w h c d = some t ↔ t.horizontal < w ∧ t.vertical < h ∧
      (offPos even t).1 = (offPos even c).1 + d.vec.1 ∧ (offPos even t).2 = (offPos even c).2 + d.vec.2 := by
  have hs := rowShift_cases even c.vertical
  unfold offNbr offAt offPos
  rw [inRect_eq_some]
  dsimp only
  constructor
  · rintro ⟨h1, h2, h3, h4⟩
    refine ⟨h3, h4, ?_, h2.symm⟩
    rw [← h2]
    cases d <;> simp only [AxisDR.vec, Int.add_zero] at * <;> omega
  · rintro ⟨h1, h2, h3, h4⟩
    refine ⟨?_, h4.symm, h1, h2⟩
    rw [h4] at h3
    cases d <;> simp only [AxisDR.vec, Int.add_zero] at * <;> omega

/-- On the cylinder the same up to whole turns (one turn is `2 * w` in the doubled plane). -/
theorem offNbrLoop_iff {even : Bool} {w h : Nat} {c t : Offset} {d : AxisDR} :
    offNbrLoop even w h c d = some t ↔ t.horizontal < w ∧ t.vertical < h ∧
      (∃ k : Int, (offPos even t).1 + 2 * w * k = (offPos even c).1 + d.vec.1) ∧
      (offPos even t).2 = (offPos even c).2 + d.vec.2 := by
  have hs := rowShift_cases even c.vertical
  unfold offNbrLoop offAtLoop offPos
  rw [inRect_eq_some]
  dsimp only
  constructor
  · rintro ⟨h1, h2, h3, h4⟩
    refine ⟨h3, h4, ?_, h2.symm⟩
    rw [← h2]
    have hm := Int.emod_add_mul_ediv ((2 * ↑c.horizontal + rowShift even ↑c.vertical + d.vec.fst - rowShift even (↑c.vertical + d.vec.snd)) / 2) w
    rw [h1] at hm
    refine ⟨(2 * ↑c.horizontal + rowShift even ↑c.vertical + d.vec.fst - rowShift even (↑c.vertical + d.vec.snd)) / 2 / w, ?_⟩
    rw [Int.mul_assoc]
    generalize (w : Int) * _ = z at *
    cases d <;> simp only [AxisDR.vec, Int.add_zero] at * <;> omega
  · rintro ⟨h1, h2, ⟨k, h3⟩, h4⟩
    refine ⟨?_, h4.symm, h1, h2⟩
    rw [h4] at h3
    have : (2 * ↑c.horizontal + rowShift even ↑c.vertical + d.vec.fst - rowShift even (↑c.vertical + d.vec.snd)) / 2
        = t.horizontal + w * k := by
      rw [Int.mul_assoc] at h3
      generalize (w : Int) * _ = z at *
      cases d <;> simp only [AxisDR.vec, Int.add_zero] at * <;> omega
    rw [this, Int.add_mul_emod_self_left, Int.emod_eq_of_lt] <;> omega

theorem AxisDR.vec_rev (d : AxisDR) : d.rev.vec = (-d.vec.1, -d.vec.2) := by cases d <;> rfl

theorem offNbr_opp {even : Bool} {w h : Nat} {c t : Offset} {d : AxisDR} (hx : c.horizontal < w) (hy : c.vertical < h)
    (ht : offNbr even w h c d = some t) : offNbr even w h t d.rev = some c := by
  rw [offNbr_iff, AxisDR.vec_rev] at *
  omega

theorem offNbrLoop_opp {even : Bool} {w h : Nat} {c t : Offset} {d : AxisDR} (hx : c.horizontal < w)
    (hy : c.vertical < h) (ht : offNbrLoop even w h c d = some t) : offNbrLoop even w h t d.rev = some c := by
  rw [offNbrLoop_iff, AxisDR.vec_rev] at *
  obtain ⟨h1, h2, ⟨k, h3⟩, h4⟩ := ht
  refine ⟨hx, hy, ⟨-k, ?_⟩, by omega⟩
  rw [Int.mul_neg]
  dsimp only
  omega

theorem offNbr_lawsR (even : Bool) (w h : Nat) : LatLaws (offLatR even w h) where
  dir := hexLatR_dirLaws w h _ _
  coord_inj := by intro x y x' y' _ _ _ _ he; simpa [hexLatR, offLatR, offLatRLoop] using he
  nbr_node := by
    intro c d t _ ht
    have := offNbr_iff.1 ht
    exact ⟨t.horizontal, t.vertical, this.1, this.2.1, rfl⟩
  nbr_opp := by
    rintro c d t ⟨x, y, hx, hy, rfl⟩ ht
    exact offNbr_opp hx hy ht

theorem offNbr_lawsDR (even : Bool) (w h : Nat) : LatLaws (offLatDR even w h) where
  dir := hexLatDR_dirLaws w h _ _
  coord_inj := by intro x y x' y' _ _ _ _ he; simpa [hexLatDR, offLatDR] using he
  nbr_node := by
    intro c d t _ ht
    have := offNbr_iff.1 ht
    exact ⟨t.horizontal, t.vertical, this.1, this.2.1, rfl⟩
  nbr_opp := by
    rintro c d t ⟨x, y, hx, hy, rfl⟩ ht
    exact offNbr_opp hx hy ht

theorem offNbrLoop_lawsR (even : Bool) (w h : Nat) : LatLaws (offLatRLoop even w h) where
  dir := hexLatR_dirLaws w h _ _
  coord_inj := by intro x y x' y' _ _ _ _ he; simpa [hexLatR, offLatR, offLatRLoop] using he
  nbr_node := by
    rintro c d t ⟨x, y, hx, hy, rfl⟩ ht
    have := offNbrLoop_iff.1 ht
    exact ⟨t.horizontal, t.vertical, this.1, this.2.1, rfl⟩
  nbr_opp := by
    rintro c d t ⟨x, y, hx, hy, rfl⟩ ht
    exact offNbrLoop_opp hx hy ht

/-- Shape facts common to all offset-coordinate hexagonal shapes. -/
theorem hexOffsetShapeOf_impl {A D : Type} [DecidableEq D] {m : Machine} {axis : Axis A D} {h v : Nat}
    {move : Offset → D → Res (Option Offset)} {L : Lat Offset A D} (hc : Constructible (hexOffsetShapeOf m axis h v move))
    (hax : AxisImpl axis L) (hw : L.width = h) (hh : L.height = v) (hco : L.coord = Offset.mk)
    (hm : ∀ {c}, c.horizontal < h → c.vertical < v → ∀ d, move c d = .ok (L.nbr c d)) :
    Impl (hexOffsetShapeOf m axis h v move) L (fun _ => True) := by
  subst hw hh
  exact {
    axis := hax
    width := rfl
    height := rfl
    small := hc.bounds.1
    width_small := hc.bounds.2.1
    height_small := hc.bounds.2.2
    toOffset_some := by intro c o he; rw [hco]; exact rangeCheck_some (Except.ok.inj he)
    toOffset_coord := by intro x y hx hy; rw [hco]; exact congrArg Except.ok (rangeCheck_in hx hy)
    toOffset_none := by
      intro c _ hn
      refine congrArg Except.ok (rangeCheck_none ?_)
      rintro ⟨x, y, hx, hy, rfl⟩
      exact hn ⟨x, y, hx, hy, by rw [hco]⟩
    toOffsetUnchecked := by intros; rw [hco]; rfl
    offsetToCoordinate := by intros; rw [hco]; rfl
    move := by
      rintro c ⟨x, y, hx, hy, rfl⟩ d
      rw [hco]
      exact hm hx hy d
    isNeighbor := rfl }

theorem hexOffR_impl {m : Machine} {k : Marker} {h v : Nat} (hc : Constructible (hexOffR m k h v)) :
    Impl (hexOffR m k h v) (offLatR k.isEven h v) (fun _ => True) :=
  hexOffsetShapeOf_impl hc (axisR_impl _ _ _ _ _) rfl rfl rfl
    (fun hx hy d => offMoveR_eq hc.wordH hc.wordV hx hy d)

theorem hexOffRDirected_impl {m : Machine} {k : Marker} {h v : Nat} (hc : Constructible (hexOffRDirected m k h v)) :
    Impl (hexOffRDirected m k h v) (offLatDR k.isEven h v) (fun _ => True) :=
  hexOffsetShapeOf_impl hc (axisDR_impl _ _ _ _ _) rfl rfl rfl
    (fun hx hy d => offMoveR_eq hc.wordH hc.wordV hx hy d)

theorem hexOffRLew_impl {m : Machine} {k : Marker} {h v : Nat} (hc : Constructible (hexOffRLew m k h v)) :
    Impl (hexOffRLew m k h v) (offLatRLoop k.isEven h v) (fun _ => True) :=
  hexOffsetShapeOf_impl hc (axisR_impl _ _ _ _ _) rfl rfl rfl
    (fun hx hy d => offMoveRLew_eq hc.wordH hc.wordV hx hy d)

end LG
