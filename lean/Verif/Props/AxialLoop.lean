import Verif.Props.Geometry
/- C31: the east-west loop of the axial shape. The code computes the upper end of a row as `h - min` instead of `h + min`, so
leaving a sheared row eastwards is not wrapped. -/
namespace LG

/-- `while stay(r) { r = step(r); }` entered with `r` ends with outcome `o`, after any number of rounds. -/
inductive WhileEnds (step : Int → Res Int) (stay : Int → Bool) : Int → Res Int → Prop where
  | stop {r : Int} : stay r = false → WhileEnds step stay r (.ok r)
  | fault {r : Int} {e : Fault} : stay r = true → step r = .error e → WhileEnds step stay r (.error e)
  | next {r r' : Int} {o : Res Int} : stay r = true → step r = .ok r' → WhileEnds step stay r' o → WhileEnds step stay r o

theorem spin_ends {step : Int → Res Int} {stay : Int → Bool} :
    ∀ (n : Nat) (r : Int), spin step stay n r ≠ .error .diverge → WhileEnds step stay r (spin step stay n r) := by
  intro n
  induction n with
  | zero => intro r h; exact absurd rfl h
  | succ n ih =>
    intro r h
    unfold spin at h ⊢
    cases e : stay r with
    | false => exact .stop e
    | true =>
      rw [e] at h
      simp only [if_true] at h ⊢
      cases e2 : step r with
      | error f => exact .fault e e2
      | ok r' =>
        rw [e2] at h
        exact .next e e2 (ih r' h)

theorem ends_spin {step : Int → Res Int} {stay : Int → Bool} {r : Int} {o : Res Int} (h : WhileEnds step stay r o) :
    ∃ n, ∀ k, n ≤ k → spin step stay k r = o := by
  induction h with
  | stop e => exact ⟨1, fun k hk => by obtain ⟨k, rfl⟩ : ∃ j, k = j + 1 := ⟨k - 1, by omega⟩; simp only [spin, e]; rfl⟩
  | fault e e2 =>
    exact ⟨1, fun k hk => by
      obtain ⟨k, rfl⟩ : ∃ j, k = j + 1 := ⟨k - 1, by omega⟩; simp only [spin, e, e2]; rfl⟩
  | next e e2 _ ih =>
    obtain ⟨n, hn⟩ := ih
    exact ⟨n + 1, fun k hk => by
      obtain ⟨k, rfl⟩ : ∃ j, k = j + 1 := ⟨k - 1, by omega⟩
      simp only [spin, e, e2, if_true, bind, Except.bind]; exact hn k (by omega)⟩

/-- The value of `isize` congruent to `x`. -/
def wrapMod (m : Machine) (x : Int) : Int := (x + m.half) % (2 * m.half) - m.half

theorem wrapMod_inI {m : Machine} {x : Int} : InI m (wrapMod m x) := by
  have := m.half_ge
  have h1 := Int.emod_nonneg (x + m.half) (b := 2 * m.half) (by omega)
  have h2 := Int.emod_lt_of_pos (x + m.half) (b := 2 * m.half) (by omega)
  unfold InI wrapMod
  omega

theorem wrapMod_id {m : Machine} {x : Int} (h : InI m x) : wrapMod m x = x := by
  unfold InI at h
  unfold wrapMod
  rw [Int.emod_eq_of_lt (by omega) (by omega)]
  omega

theorem wrapMod_add {m : Machine} {x y : Int} : wrapMod m (wrapMod m x + y) = wrapMod m (x + y) := by
  unfold wrapMod
  rw [show (x + ↑m.half) % (2 * ↑m.half) - ↑m.half + y + ↑m.half = (x + ↑m.half) % (2 * ↑m.half) + y by omega, Int.emod_add_emod]
  rw [show x + ↑m.half + y = x + y + ↑m.half by omega]

theorem wrapMod_period {m : Machine} {x : Int} {k : Int} : wrapMod m (x + k * (2 * m.half)) = wrapMod m x := by
  unfold wrapMod
  rw [show x + k * (2 * m.half) + m.half = x + m.half + k * (2 * m.half) by omega, Int.add_mul_emod_self_right]

theorem overflow_ok {m : Machine} {x y : Int} (h : overflow m x = .ok y) : y = x := by
  unfold overflow at h
  split at h
  · cases h
  · exact (Except.ok.inj h).symm

theorem wrapI_eq {m : Machine} {x : Int} (h1 : -(2 * m.half : Int) ≤ x) (h2 : x < 2 * m.half) : wrapI m x = wrapMod m x := by
  have hm := m.half_ge
  unfold wrapI
  split
  · rw [← wrapMod_period (k := 1), Int.one_mul, wrapMod_id (by unfold InI; omega)]
  · split
    · rw [← wrapMod_period (k := -1), wrapMod_id (by unfold InI; omega)]; omega
    · rw [wrapMod_id (by unfold InI; omega)]

theorem iadd_wrapMod {m : Machine} {a b y : Int} (ha : InI m a) (hb : InI m b) (h : iadd m a b = .ok y) : y = wrapMod m (a + b) := by
  unfold iadd at h
  unfold InI at ha hb
  split at h
  · rename_i hi; rw [wrapMod_id hi]; exact (Except.ok.inj h).symm
  · rw [overflow_ok h, wrapI_eq (by omega) (by omega)]

theorem isub_wrapMod {m : Machine} {a b y : Int} (ha : InI m a) (hb : InI m b) (h : isub m a b = .ok y) : y = wrapMod m (a + -b) := by
  unfold isub at h
  unfold InI at ha hb
  split at h
  · rename_i hi; rw [show a + -b = a - b by omega, wrapMod_id hi]; exact (Except.ok.inj h).symm
  · rw [overflow_ok h, wrapI_eq (by omega) (by omega)]; rfl

/-- A loop that goes on for `2 * half + 1` rounds has seen every value it will ever take. -/
theorem spin_forever {m : Machine} {step : Int → Res Int} {stay : Int → Bool} {c r : Int} (hr : InI m r)
    (hst : ∀ a y, InI m a → step a = .ok y → y = wrapMod m (a + c)) (hnd : ∀ a, step a ≠ .error .diverge)
    (h : spin step stay (2 * m.half + 1) r = .error .diverge) (n : Nat) : spin step stay n r = .error .diverge := by
  have hm := m.half_ge
  have key : ∀ (k : Nat) (i : Int), spin step stay k (wrapMod m i) = .error .diverge →
      ∀ j : Nat, j < k → stay (wrapMod m (i + j * c)) = true ∧ step (wrapMod m (i + j * c)) = .ok (wrapMod m (i + (j + 1 : Nat) * c)) := by
    intro k
    induction k with
    | zero => intro i _ j hj; omega
    | succ k ih =>
      intro i hk j hj
      unfold spin at hk
      cases e : stay (wrapMod m i) with
      | false => rw [e] at hk; cases hk
      | true =>
        rw [e] at hk
        simp only [if_true] at hk
        cases e2 : step (wrapMod m i) with
        | error f => rw [e2] at hk; exact absurd (e2.trans hk) (hnd _)
        | ok r' =>
          rw [e2] at hk
          have hr' : r' = wrapMod m (i + c) := by rw [hst _ _ wrapMod_inI e2, wrapMod_add]
          subst hr'
          cases j with
          | zero =>
            simp only [Int.natCast_zero, Int.zero_mul, Int.add_zero, Nat.zero_add, Int.natCast_one, Int.one_mul]
            exact ⟨e, e2⟩
          | succ j =>
            have := ih (i + c) hk j (by omega)
            rw [show i + ((j + 1 : Nat) : Int) * c = i + c + j * c by rw [Int.natCast_add, Int.add_mul]; omega,
              show i + ((j + 1 + 1 : Nat) : Int) * c = i + c + (j + 1 : Nat) * c by rw [Int.natCast_add, Int.add_mul]; omega]
            exact this
  rw [← wrapMod_id hr] at h ⊢
  have h0 := key _ r h
  have hper : ∀ j : Nat, wrapMod m (r + (j : Int) * c) = wrapMod m (r + ((j % (2 * m.half) : Nat) : Int) * c) := by
    intro j
    have e : (j : Int) = ((j % (2 * m.half) : Nat) : Int) + 2 * m.half * ((j / (2 * m.half) : Nat) : Int) := by
      have := Nat.mod_add_div j (2 * m.half)
      have h3 : ((j % (2 * m.half) + 2 * m.half * (j / (2 * m.half)) : Nat) : Int) = j := by rw [this]
      rw [Int.natCast_add, Int.natCast_mul, Int.natCast_mul] at h3
      exact h3.symm
    conv => lhs; rw [e, Int.add_mul, ← Int.add_assoc]
    rw [show 2 * (m.half : Int) * ((j / (2 * m.half) : Nat) : Int) * c = ((j / (2 * m.half) : Nat) : Int) * c * (2 * m.half) by
      rw [Int.mul_assoc, Int.mul_comm]]
    exact wrapMod_period
  have hall : ∀ j : Nat, stay (wrapMod m (r + j * c)) = true ∧ step (wrapMod m (r + j * c)) = .ok (wrapMod m (r + (j + 1 : Nat) * c)) := by
    intro j
    have hlt : j % (2 * m.half) < 2 * m.half := Nat.mod_lt _ (by omega)
    have := h0 (j % (2 * m.half)) (by omega)
    rw [hper j]
    refine ⟨this.1, ?_⟩
    rw [this.2, hper (j + 1), hper (j % (2 * m.half) + 1), Nat.mod_add_mod]
  have hrun : ∀ (n j : Nat), spin step stay n (wrapMod m (r + j * c)) = .error .diverge := by
    intro n
    induction n with
    | zero => intro j; rfl
    | succ n ih =>
      intro j
      unfold spin
      rw [(hall j).1, (hall j).2]
      exact ih (j + 1)
  have := hrun n 0
  simpa only [Int.natCast_zero, Int.zero_mul, Int.add_zero] using this

theorem spin_iff {m : Machine} {step : Int → Res Int} {stay : Int → Bool} {c r : Int} (hr : InI m r)
    (hst : ∀ a y, InI m a → step a = .ok y → y = wrapMod m (a + c)) (hnd : ∀ a, step a ≠ .error .diverge) (o : Res Int) :
    WhileEnds step stay r o ↔ spin step stay (2 * m.half + 1) r = o ∧ o ≠ .error .diverge := by
  constructor
  · intro h
    obtain ⟨n, hn⟩ := ends_spin h
    have hne : o ≠ .error .diverge := by
      clear hn
      induction h with
      | stop _ => intro h; cases h
      | fault _ e => exact e ▸ hnd _
      | next h1 h2 _ ih => exact ih (by rw [hst _ _ hr h2]; exact wrapMod_inI)
    refine ⟨?_, hne⟩
    have hnd2 : spin step stay (2 * m.half + 1) r ≠ .error .diverge := by
      intro h2
      exact hne ((hn n (Nat.le_refl _)).symm.trans (spin_forever hr hst hnd h2 n))
    obtain ⟨n2, hn2⟩ := ends_spin (spin_ends _ _ hnd2)
    rw [← hn2 (n + n2) (by omega), hn (n + n2) (by omega)]
  · rintro ⟨rfl, h⟩
    exact spin_ends _ _ h

theorem overflow_ne {m : Machine} {x : Int} : (overflow m x : Res Int) ≠ .error .diverge := by
  unfold overflow
  split <;> (intro h; cases h)

/-- **C31**: the two loops of the code end exactly as the model says, for all machine integers; `diverge` stands for those that
never end. -/
theorem c31_loop_exact (m : Machine) {h bound r : Int} (hh : InI m h) (hr : InI m r) (o : Res Int) :
    (WhileEnds (fun r => isub m r h) (fun r => decide (bound ≤ r)) r o ↔ lewDown m h bound r = o ∧ o ≠ .error .diverge) ∧
    ((∃ e, iadd m r h = .error e ∧ o = .error e) ∨
      (∃ r', iadd m r h = .ok r' ∧ WhileEnds (fun r => iadd m r h) (fun r => decide (r < bound)) r' o) ↔
      lewUp m h bound r = o ∧ o ≠ .error .diverge) := by
  have hnd : ∀ a, iadd m a h ≠ .error .diverge := by
    intro a
    unfold iadd
    split
    · intro h; cases h
    · exact overflow_ne
  refine ⟨spin_iff (c := -h) hr (fun a y ha => isub_wrapMod ha hh) (fun a => ?_) o, ?_⟩
  · show isub m a h ≠ _
    unfold isub
    split
    · intro h; cases h
    · exact overflow_ne
  · unfold lewUp
    cases e : iadd m r h with
    | error f =>
      simp only [bind, Except.bind]
      constructor
      · rintro (⟨e', h1, rfl⟩ | ⟨r', h1, -⟩)
        · cases h1; exact ⟨rfl, e ▸ hnd r⟩
        · cases h1
      · rintro ⟨rfl, -⟩; exact .inl ⟨_, rfl, rfl⟩
    | ok r' =>
      have hr' : InI m r' := by rw [iadd_wrapMod hr hh e]; exact wrapMod_inI
      simp only [bind, Except.bind]
      rw [← spin_iff (c := h) hr' (fun a y ha => iadd_wrapMod ha hh) hnd o]
      constructor
      · rintro (⟨e', h1, -⟩ | ⟨r'', h1, h2⟩)
        · cases h1
        · cases h1; exact h2
      · intro h2; exact .inr ⟨_, rfl, h2⟩

theorem lewUp_once {m : Machine} {h min r : Int} (hm : min ≤ r + h) (hi : InI m (r + h)) :
    lewUp m h min r = .ok (r + h) := by
  unfold lewUp iadd
  rw [if_pos hi]
  simp only [bind, Except.bind, spin, decide_eq_false (show ¬ r + h < min by omega)]
  rfl

theorem lewDown_none {m : Machine} {h max r : Int} (hm : r < max) : lewDown m h max r = .ok r := by
  unfold lewDown spin
  rw [decide_eq_false (by omega)]
  rfl

theorem lewDown_once {m : Machine} {h max r : Int} (hm : max ≤ r) (h2 : r - h < max) (hi : InI m (r - h)) :
    lewDown m h max r = .ok (r - h) := by
  have := m.half_ge
  obtain ⟨n, hn⟩ : ∃ n, 2 * m.half = n + 1 := ⟨2 * m.half - 1, by omega⟩
  unfold lewDown
  rw [hn]
  simp only [spin, isub, if_pos hi, bind, Except.bind, decide_eq_true hm, decide_eq_false (show ¬ max ≤ r - h by omega), if_true]
  rfl

theorem tdiv2_shear {k : Marker} {q : Int} (hq : 0 ≤ q) : -((q + k.convertOffset).tdiv 2) = -shear k.isEven q := by
  have := convertOffset_eq k
  rw [Int.tdiv_eq_ediv_of_nonneg (by omega), shear_eq, axShift_eq]

/-- Column of an axial coordinate: how far it is from the west end of its row. -/
def column (even : Bool) (c : Axial) : Int := c.r + shear even c.q

/-- The coordinate displaced by a step. -/
def displaced (c : Axial) (v : Int × Int) : Axial := ⟨c.r + v.1, c.q + v.2⟩

/-- A unit step from a node lands at most one cell outside its new row. -/
theorem column_step {even : Bool} {h v : Nat} {c : Axial} (hc : InAxial even h v c) {u : Int × Int} (hu : UnitVec u) :
    -1 ≤ column even (displaced c u) ∧ column even (displaced c u) ≤ h := by
  have h1 := axShift_step even c.q
  unfold InAxial at hc
  unfold column displaced
  rw [shear_eq] at *
  rcases hu with rfl | rfl | rfl | rfl | rfl | rfl <;> simp only [Int.add_zero] at * <;> omega

/-- What `move_coord` of the looped axial shape computes from a node. -/
theorem axMoveLew_eq {D : Type} {m : Machine} {t : CoordTy} {k : Marker} {h v : Nat} {move : Axial → D → Res Axial}
    {vec : D → Int × Int} (hh : h < m.half) (hv : v < m.half) (hhv : h * v < m.half) (hf : k.isFlatTop = false)
    (ht : Holds t k.isFlatTop h v) (hu : ∀ d, UnitVec (vec d))
    (hm : ∀ {c}, axIn k.isEven k.isFlatTop h v c = true → ∀ d, move c d = .ok ⟨c.r + (vec d).1, c.q + (vec d).2⟩)
    {c : Axial} (hc : InAxial k.isEven h v c) (d : D) :
    axMoveLew m t k h v move c d = .ok (
      let p := displaced c (vec d)
      if p.q < 0 ∨ (v : Int) ≤ p.q then none
      else if column k.isEven p = -1 then some ⟨p.r + h, p.q⟩
      else if column k.isEven p = h ∧ shear k.isEven p.q = 0 then some ⟨0, p.q⟩
      else some p) := by
  have hc' : axIn k.isEven k.isFlatTop h v c = true := by rw [hf]; exact inAxial_iff.1 hc
  have hrep := step_rep hh hv (hu d) hc'
  have hcol := column_step hc (hu d)
  have hhalf := m.half_ge
  have hco := convertOffset_le k
  obtain ⟨a1, a2, a3, a4⟩ := ht
  rw [hf] at a4
  simp only [Bool.false_eq_true, if_false] at a4
  unfold axMoveLew
  simp only [hm hc' d, bind, Except.bind]
  have hpos : 0 < (h : Int) := by unfold InAxial at hc; omega
  have hsum : h + v ≤ m.half := by
    unfold InAxial at hc
    obtain ⟨h', rfl⟩ : ∃ h', h = h' + 1 := ⟨h - 1, by omega⟩
    obtain ⟨v', rfl⟩ : ∃ v', v = v' + 1 := ⟨v - 1, by omega⟩
    rw [Nat.succ_mul, Nat.mul_succ] at hhv
    have : 0 ≤ h' * v' := Nat.zero_le _
    omega
  rw [getQ_ok hrep.2.1]
  simp only
  show _ = Except.ok (if (displaced c (vec d)).q < 0 ∨ (v : Int) ≤ (displaced c (vec d)).q then none else _)
  by_cases hq : (displaced c (vec d)).q < 0 ∨ (v : Int) ≤ (displaced c (vec d)).q
  · rw [if_pos hq, if_pos]
    have := (asUsize_lt (h := v) hrep.2.1 hv)
    unfold displaced at hq
    simp only at *
    omega
  · rw [if_neg hq, if_neg]
    · have hq0 : 0 ≤ c.q + (vec d).2 := by unfold displaced at hq; simp only at hq; omega
      have hq1 : c.q + (vec d).2 < v := by unfold displaced at hq; simp only at hq; omega
      have hs := axShift_bounds k.isEven hq0
      rw [iadd_ok (by unfold InI; omega)]
      simp only
      rw [tdiv2_shear hq0, asIsize_small hh, getR_ok hrep.1]
      simp only
      unfold column displaced at *
      simp only at *
      rw [← shear_eq] at hs
      by_cases hlow : c.r + (vec d).1 + shear k.isEven (c.q + (vec d).2) = -1
      · rw [if_pos hlow, if_pos (by omega), lewUp_once (by omega) (by unfold InI; omega)]
        simp only [CoordTy.new]
        rw [if_pos (by omega)]
      · rw [if_neg hlow, if_neg (by omega), isub_ok (by unfold InI; omega)]
        simp only
        by_cases hhi : c.r + (vec d).1 + shear k.isEven (c.q + (vec d).2) = h ∧ shear k.isEven (c.q + (vec d).2) = 0
        · rw [if_pos hhi, lewDown_once (by omega) (by omega) (by unfold InI; omega)]
          simp only [CoordTy.new]
          rw [if_pos (by omega), show c.r + (vec d).1 - (h : Int) = 0 by omega]
        · rw [if_neg hhi, lewDown_none (by omega)]
          simp only [CoordTy.new]
          rw [if_pos (by omega)]
    · have := (asUsize_lt (h := v) hrep.2.1 hv)
      unfold displaced at hq
      simp only at *
      omega

/-- A looped axial shape, as the code computes it: the nodes and storage are those of the unlooped shape; a move from a node
wraps on the west side always, on the east side only in rows that are not sheared. -/
structure AxialLoopActual {A D : Type} (s : Shape Axial A D) (even : Bool) (h v : Nat) (vec : D → Int × Int) : Prop where
  nodes : ∀ c, InAxial even h v c ↔ ∃ o, s.toOffset c = .ok (some o)
  exact : ∀ c d, InAxial even h v c → s.moveCoord c d = .ok (
    let p := displaced c (vec d)
    if p.q < 0 ∨ (v : Int) ≤ p.q then none
    else if column even p = -1 then some ⟨p.r + h, p.q⟩
    else if column even p = h ∧ shear even p.q = 0 then some ⟨0, p.q⟩
    else some p)

/-- **C31**, what the code does, for the four bases and every size whose node array can be allocated. -/
theorem c31_exact (m : Machine) (k : Marker) (hk : k.isFlatTop = false) (t : CoordTy) (h v : Nat) (hh : h < m.half)
    (hv : v < m.half) (hhv : h * v < m.half) (ht : Holds t k.isFlatTop h v) :
    AxialLoopActual (hexAxRLew m t k h v) k.isEven h v axialStepR ∧
    AxialLoopActual (hexAxQLew m t k h v) k.isEven h v axialStepQ :=
  ⟨⟨(c27_axial_r m k hk t h v hh hv ht).nodes, fun _ d hc => axMoveLew_eq hh hv hhv hk ht (fun d => axialStepR_eq d ▸ d.unit)
      (fun hc d => axialStepR_eq d ▸ axMoveR_eq hh hv ht hc d) hc d⟩,
    ⟨(c27_axial_q m k hk t h v hh hv ht).nodes, fun _ d hc => axMoveLew_eq hh hv hhv hk ht (fun d => axialStepQ_eq d ▸ d.unit)
      (fun hc d => axialStepQ_eq d ▸ axMoveQ_eq hh hv ht hc d) hc d⟩⟩

/-- **C31**, what the code does, directed. -/
theorem c31_exact_directed (m : Machine) (k : Marker) (hk : k.isFlatTop = false) (t : CoordTy) (h v : Nat) (hh : h < m.half)
    (hv : v < m.half) (hhv : h * v < m.half) (ht : Holds t k.isFlatTop h v) :
    AxialLoopActual (hexAxRLewDirected m t k h v) k.isEven h v axialStepR ∧
    AxialLoopActual (hexAxQLewDirected m t k h v) k.isEven h v axialStepQ :=
  ⟨⟨(c31_exact m k hk t h v hh hv hhv ht).1.nodes, (c31_exact m k hk t h v hh hv hhv ht).1.exact⟩,
    ⟨(c31_exact m k hk t h v hh hv hhv ht).2.nodes, (c31_exact m k hk t h v hh hv hhv ht).2.exact⟩⟩

/-- **C31**, the part that holds: unless the step leaves a sheared row on its east side, the move succeeds iff the target row
exists and returns the node of that row reached by going a whole number of times round. -/
theorem c31_partial {A D : Type} {s : Shape Axial A D} {even : Bool} {h v : Nat} {vec : D → Int × Int}
    (hs : AxialLoopActual s even h v vec) (hu : ∀ d, UnitVec (vec d)) {c : Axial} (hc : InAxial even h v c) (d : D)
    (hok : column even (displaced c (vec d)) = h → shear even (displaced c (vec d)).q = 0) :
    ∃ r, s.moveCoord c d = .ok r ∧
      (r.isSome ↔ 0 ≤ (displaced c (vec d)).q ∧ (displaced c (vec d)).q < v) ∧
      ∀ t, r = some t ↔ InAxial even h v t ∧ t.q = (displaced c (vec d)).q ∧
        ∃ n : Int, t.r + n * h = (displaced c (vec d)).r := by
  refine ⟨_, hs.exact c d hc, ?_⟩
  have hcol := column_step hc (hu d)
  have hpos : 0 < (h : Int) := by unfold InAxial at hc; omega
  generalize displaced c (vec d) = p at *
  simp only
  -- the node of row `p.q` congruent to `p`
  have uniq : ∀ {x : Int}, 0 ≤ p.q → p.q < v → 0 ≤ x + shear even p.q → x + shear even p.q < h → (∃ n : Int, x + n * h = p.r) →
      ∀ t : Axial, some (⟨x, p.q⟩ : Axial) = some t ↔ InAxial even h v t ∧ t.q = p.q ∧ ∃ n : Int, t.r + n * h = p.r := by
    rintro x h1 h2 h3 h4 ⟨n, hn⟩ t
    constructor
    · intro h; cases h
      exact ⟨⟨h1, h2, h3, h4⟩, rfl, n, hn⟩
    · obtain ⟨r, q⟩ := t
      rintro ⟨h5, h6, n', hn'⟩
      simp only at h6 hn'
      subst h6
      unfold InAxial at h5
      simp only at h5
      have e : (n - n') * h = r - x := by rw [Int.sub_mul]; omega
      have : n - n' = 0 := by
        rcases (by omega : n - n' = 0 ∨ 1 ≤ n - n' ∨ n - n' ≤ -1) with hz | hz | hz
        · exact hz
        · have := Int.mul_le_mul_of_nonneg_right (c := (h : Int)) hz (by omega); omega
        · have := Int.mul_le_mul_of_nonneg_right (c := (h : Int)) hz (by omega); omega
      rw [this] at e
      have : r = x := by omega
      rw [this]
  unfold column at *
  by_cases hq : p.q < 0 ∨ (v : Int) ≤ p.q
  · rw [if_pos hq]
    constructor
    · simp only [Option.isSome_none, Bool.false_eq_true, false_iff]; omega
    · intro t
      constructor
      · intro h; cases h
      · rintro ⟨h1, h2, _⟩
        unfold InAxial at h1
        omega
  · rw [if_neg hq]
    by_cases h1 : p.r + shear even p.q = -1
    · rw [if_pos h1]
      exact ⟨by simp; omega, uniq (by omega) (by omega) (by omega) (by omega) ⟨-1, by omega⟩⟩
    · rw [if_neg h1]
      by_cases h2 : p.r + shear even p.q = h ∧ shear even p.q = 0
      · rw [if_pos h2]
        exact ⟨by simp; omega, uniq (by omega) (by omega) (by omega) (by omega) ⟨1, by omega⟩⟩
      · rw [if_neg h2]
        refine ⟨by simp; omega, ?_⟩
        have := uniq (x := p.r) (by omega) (by omega) (by omega) (by omega) ⟨0, by omega⟩
        obtain ⟨r, q⟩ := p
        exact this

/-- **C31** fails: a step that leaves a sheared row on its east side succeeds with a coordinate that is not in the graph. -/
theorem c31_off_graph {A D : Type} {s : Shape Axial A D} {even : Bool} {h v : Nat} {vec : D → Int × Int}
    (hs : AxialLoopActual s even h v vec) {c : Axial} (hc : InAxial even h v c) (d : D)
    (hq : 0 ≤ (displaced c (vec d)).q ∧ (displaced c (vec d)).q < v) (hcol : column even (displaced c (vec d)) = h)
    (hsh : shear even (displaced c (vec d)).q ≠ 0) :
    s.moveCoord c d = .ok (some (displaced c (vec d))) ∧ ¬ InAxial even h v (displaced c (vec d)) ∧
    ¬ ∃ o, s.toOffset (displaced c (vec d)) = .ok (some o) := by
  have hn : ¬ InAxial even h v (displaced c (vec d)) := by unfold InAxial; unfold column at hcol; omega
  refine ⟨?_, hn, fun h => hn ((hs.nodes _).2 h)⟩
  rw [hs.exact c d hc]
  simp only
  rw [if_neg (by omega), if_neg (by omega), if_neg (fun h => hsh h.2)]

/-- **C31** fails on every map with three rows or more (two for even bases): going east from the last cell of any sheared row. -/
theorem c31_violated (m : Machine) (k : Marker) (hk : k.isFlatTop = false) (t : CoordTy) (h v : Nat) (hh : h < m.half)
    (hv : v < m.half) (hhv : h * v < m.half) (ht : Holds t k.isFlatTop h v) (h1 : 1 ≤ h) (y : Nat) (hy : y < v) (hy2 : if k.isEven then 1 ≤ y else 2 ≤ y) :
    ∃ c c', InAxial k.isEven h v c ∧ (hexAxRLew m t k h v).moveCoord c .E = .ok (some c') ∧ ¬ InAxial k.isEven h v c' ∧
      (hexAxQLew m t k h v).moveCoord c .NE = .ok (some c') ∧ (hexAxRLewDirected m t k h v).moveCoord c .E = .ok (some c') ∧
      (hexAxQLewDirected m t k h v).moveCoord c .NE = .ok (some c') := by
  have hsh : 1 ≤ shear k.isEven y := by unfold shear; split at hy2 <;> simp_all <;> omega
  have hc : InAxial k.isEven h v ⟨(h : Int) - 1 - shear k.isEven y, y⟩ := by unfold InAxial; simp only; omega
  have ha := c31_exact m k hk t h v hh hv hhv ht
  have e1 : axialStepR .E = (1, 0) := rfl
  have e2 : axialStepQ .NE = (1, 0) := rfl
  have hr := c31_off_graph ha.1 hc .E (by rw [e1]; simp only [displaced]; omega)
    (by rw [e1]; simp only [column, displaced, Int.add_zero]; omega) (by rw [e1]; simp only [displaced, Int.add_zero]; omega)
  have hq := c31_off_graph ha.2 hc .NE (by rw [e2]; simp only [displaced]; omega)
    (by rw [e2]; simp only [column, displaced, Int.add_zero]; omega) (by rw [e2]; simp only [displaced, Int.add_zero]; omega)
  exact ⟨_, _, hc, hr.1, hr.2.1, hq.1, hr.1, hq.1⟩

theorem axLew_east (m : Machine) (k : Marker) {h : Nat} (v : Nat) (hh : h < 2 * m.half) (hv : 1 ≤ v) :
    (hexAxRLew m (isizeTy m) k h v).moveCoord ⟨0, 0⟩ .E =
      (do let r ← lewDown m (asIsize m h) (asIsize m h) 1
          .ok (some (← (isizeTy m).new m r 0))) := by
  have hhalf := m.half_ge
  have hco := convertOffset_le k
  have z : InI m 0 := by unfold InI; omega
  have o : InI m 1 := by unfold InI; omega
  have hi : InI m (asIsize m h) := by unfold InI asIsize; split <;> omega
  show axMoveLew m (isizeTy m) k h v (axMoveR m (isizeTy m)) ⟨0, 0⟩ .E = _
  have hmv : axMoveR m (isizeTy m) ⟨0, 0⟩ .E = .ok ⟨1, 0⟩ := by
    simp only [axMoveR, newAt, getR_ok (c := ⟨0, 0⟩) z, getQ_ok (c := ⟨0, 0⟩) z, bind, Except.bind]
    rw [iadd_ok (by unfold InI; omega)]
    simp only [CoordTy.new]
    rw [if_pos (by simp only [isizeTy]; omega)]; rfl
  unfold axMoveLew
  simp only [hmv, bind, Except.bind]
  rw [getQ_ok (c := ⟨1, 0⟩) z]
  simp only
  rw [if_neg (by rw [asUsize_nonneg (by omega)]; simp only [Int.toNat_zero]; omega), iadd_ok (by unfold InI; omega)]
  simp only
  rw [tdiv2_shear (by omega), getR_ok (c := ⟨1, 0⟩) o]
  have hs : shear k.isEven 0 = 0 := by unfold shear; split <;> rfl
  simp only [hs]
  rw [if_neg (by omega), isub_ok (by unfold InI at hi ⊢; omega)]
  simp only [Int.neg_zero, Int.sub_zero]

/-- **C31**: on an empty map (`h = 0`) the loop of the code never ends. -/
theorem c31_empty_diverges (m : Machine) (k : Marker) (v : Nat) (hv : 1 ≤ v) :
    (hexAxRLew m (isizeTy m) k 0 v).moveCoord ⟨0, 0⟩ .E = .error .diverge := by
  have hhalf := m.half_ge
  rw [axLew_east m k v (by omega) hv, asIsize_small (by omega)]
  have : ∀ n, spin (fun r => isub m r (0 : Nat)) (fun r => decide (((0 : Nat) : Int) ≤ r)) n 1 = .error .diverge := by
    intro n
    induction n with
    | zero => rfl
    | succ n ih =>
      unfold spin
      rw [isub_ok (by unfold InI; omega)]
      exact ih
  simp only [lewDown, this, bind, Except.bind]

/-- **C31**: shapes are values of their own, no array stands behind them. With a width that `isize` does not hold, a step to the
east within the first row overflows in a debug build. -/
theorem c31_wide_panics (m : Machine) (hm : m.mode = .debug) (k : Marker) {h : Nat} (v : Nat) (h1 : m.half ≤ h) (h2 : h < 2 * m.half)
    (hv : 1 ≤ v) : (hexAxRLew m (isizeTy m) k h v).moveCoord ⟨0, 0⟩ .E = .error .panic := by
  have hhalf := m.half_ge
  have e : asIsize m h = (h : Int) - 2 * m.half := by unfold asIsize; rw [if_neg (by omega)]
  rw [axLew_east m k v h2 hv, e]
  have : ∀ (n : Nat) (r : Int), 0 ≤ r → r < m.half → m.half - r < n →
      spin (fun r => isub m r ((h : Int) - 2 * m.half)) (fun r => decide ((h : Int) - 2 * m.half ≤ r)) n r = .error .panic := by
    intro n
    induction n with
    | zero => intro r _ _ _; omega
    | succ n ih =>
      intro r h3 h4 h5
      unfold spin
      rw [decide_eq_true (by omega)]
      unfold isub
      simp only [if_true]
      split
      · rename_i hi
        unfold InI at hi
        exact ih _ (by omega) (by omega) (by omega)
      · unfold overflow; rw [hm]; rfl
  unfold lewDown
  rw [this _ 1 (by omega) (by omega) (by omega)]
  rfl

/-- **C31**: with a width of `isize::MAX + 1` it never ends in a release build. -/
theorem c31_wide_diverges (m : Machine) (hm : m.mode = .release) (k : Marker) (v : Nat) (hv : 1 ≤ v) :
    (hexAxRLew m (isizeTy m) k m.half v).moveCoord ⟨0, 0⟩ .E = .error .diverge := by
  have hhalf := m.half_ge
  have e : asIsize m m.half = -(m.half : Int) := by unfold asIsize; rw [if_neg (by omega)]; omega
  have hi : InI m (-(m.half : Int)) := by unfold InI; omega
  rw [axLew_east m k v (by omega) hv, e]
  have : ∀ (n : Nat) (r : Int), InI m r →
      spin (fun r => isub m r (-(m.half : Int))) (fun r => decide (-(m.half : Int) ≤ r)) n r = .error .diverge := by
    intro n
    induction n with
    | zero => intro r _; rfl
    | succ n ih =>
      intro r h3
      unfold spin
      rw [decide_eq_true h3.1]
      cases e2 : isub m r (-(m.half : Int)) with
      | error f => unfold isub overflow at e2; rw [hm] at e2; split at e2 <;> cases e2
      | ok r' => exact ih r' (by rw [isub_wrapMod h3 hi e2]; exact wrapMod_inI)
  unfold lewDown
  rw [this _ 1 (by unfold InI; omega)]
  rfl

example : (hexAxRLew m64 (isizeTy m64) oddR (2 ^ 63 + 5) 3).moveCoord ⟨0, 0⟩ .E = .error .panic :=
  c31_wide_panics m64 rfl oddR 3 (by decide) (by decide) (by decide)
example : (hexAxRLew m64r (isizeTy m64r) evenR (2 ^ 63) 3).moveCoord ⟨0, 0⟩ .E = .error .diverge :=
  c31_wide_diverges m64r rfl evenR 3 (by decide)
/-- a loop that turns twice -/
example : lewDown m64 3 4 8 = .ok 2 :=
  ((c31_loop_exact m64 (h := 3) (bound := 4) (r := 8) (by decide) (by decide) (.ok 2)).1.1
    (.next rfl rfl (.next rfl rfl (.stop rfl)))).1

example : ∃ c', (hexAxRLew m64 (isizeTy m64) oddR 5 5).moveCoord ⟨3, 2⟩ .E = .ok (some c') ∧ ¬ InAxial false 5 5 c' := by
  have := c31_off_graph (c31_exact m64 oddR rfl (isizeTy m64) 5 5 (by decide) (by decide) (by decide) (.isize (by decide) (by decide))).1
    (c := ⟨3, 2⟩) (by decide) .E (by decide) (by decide) (by decide)
  exact ⟨_, this.1, this.2.1⟩
example : ∃ r, (hexAxRLew m64 (isizeTy m64) oddR 5 5).moveCoord ⟨-1, 2⟩ .W = .ok r ∧ r = some ⟨3, 2⟩ := by
  obtain ⟨r, h1, _, h2⟩ := c31_partial (c31_exact m64 oddR rfl (isizeTy m64) 5 5 (by decide) (by decide) (by decide)
    (.isize (by decide) (by decide))).1 (fun d => axialStepR_eq d ▸ d.unit) (c := ⟨-1, 2⟩) (by decide) .W (by decide)
  exact ⟨r, h1, (h2 _).2 ⟨by decide, by decide, -1, by decide⟩⟩

example : (hexAxRLewDirected m64 (isizeTy m64) oddR 5 5).moveCoord ⟨0, 0⟩ .W = .ok (some ⟨4, 0⟩) :=
  (c31_exact_directed m64 oddR rfl (isizeTy m64) 5 5 (by decide) (by decide) (by decide) (.isize (by decide) (by decide))).1.exact ⟨0, 0⟩ .W (by decide)
example : ∃ c c', InAxial oddR.isEven 5 5 c ∧ (hexAxRLew m64 (isizeTy m64) oddR 5 5).moveCoord c .E = .ok (some c') ∧ ¬ InAxial oddR.isEven 5 5 c' :=
  let ⟨c, c', h1, h2, h3, _⟩ := c31_violated m64 oddR rfl (isizeTy m64) 5 5 (by decide) (by decide) (by decide) (.isize (by decide) (by decide))
    (by decide) 2 (by decide) (by decide)
  ⟨c, c', h1, h2, h3⟩
example : (hexAxRLew m64 (isizeTy m64) oddR 0 3).moveCoord ⟨0, 0⟩ .E = .error .diverge := c31_empty_diverges m64 oddR 3 (by decide)

end LG
