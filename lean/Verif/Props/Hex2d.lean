import Verif.Props.Geometry
import Verif.Props.History
import Verif.Props.Build
/-
C38: conversions between `hex2d::Direction` and the crate's directions. C39: `hex2d::Coordinate<I>` with a narrow `I`.
-/
set_option linter.unusedSectionVars false
namespace LG

/-! ### C38 -/

/-- The displacement `hex2d` assigns to a direction: `Coordinate + Direction`, in `(x, y)`, documented in hex2d as moving
along the named pair of axes (`YZ`: `y + 1`, `z - 1`; …), where `x + y + z = 0`. -/
def H2Dir.vec : H2Dir → Int × Int
  | .YZ => (0, 1) | .XZ => (1, 0) | .XY => (1, -1) | .ZY => (0, -1) | .ZX => (-1, 0) | .YX => (-1, 1)

theorem axisDROfH2_eq (m : Machine) (d : H2Dir) : axisDROfH2 m d = .ok
    (match d with | .YZ => .E | .XZ => .SE | .XY => .SW | .ZY => .W | .ZX => .NW | .YX => .NE) := by
  cases d <;> (simp only [axisDROfH2, debugAssert]; cases m.mode <;> rfl)

theorem axisDQOfH2_eq (m : Machine) (d : H2Dir) : axisDQOfH2 m d = .ok
    (match d with | .YZ => .N | .XZ => .NE | .XY => .SE | .ZY => .S | .ZX => .SW | .YX => .NW) := by
  cases d <;> (simp only [axisDQOfH2, debugAssert]; cases m.mode <;> rfl)

theorem h2OfAxisDR_eq (m : Machine) (d : AxisDR) : h2OfAxisDR m d = .ok
    (match d with | .E => .YZ | .SE => .XZ | .SW => .XY | .W => .ZY | .NW => .ZX | .NE => .YX) := by
  cases d <;> (simp only [h2OfAxisDR, debugAssert]; cases m.mode <;> rfl)

/-- **C38**, `AxisDR`: the conversions never fault and are inverse to each other. -/
theorem c38_dr_roundtrip (m : Machine) :
    (∀ d, ∃ a, axisDROfH2 m d = .ok a ∧ h2OfAxisDR m a = .ok d) ∧
    (∀ a, ∃ d, h2OfAxisDR m a = .ok d ∧ axisDROfH2 m d = .ok a) := by
  constructor
  · intro d
    refine ⟨_, axisDROfH2_eq m d, ?_⟩
    rw [h2OfAxisDR_eq]; cases d <;> rfl
  · intro d
    refine ⟨_, h2OfAxisDR_eq m d, ?_⟩
    rw [axisDROfH2_eq]; cases d <;> rfl

/-- **C38**, `AxisDQ`: the conversions never fault and are inverse to each other. -/
theorem c38_dq_roundtrip (m : Machine) :
    (∀ d, ∃ a, axisDQOfH2 m d = .ok a ∧ h2OfAxisDQ a = d) ∧ (∀ a, axisDQOfH2 m (h2OfAxisDQ a) = .ok a) := by
  constructor
  · intro d
    refine ⟨_, axisDQOfH2_eq m d, ?_⟩
    cases d <;> rfl
  · intro d
    rw [axisDQOfH2_eq]; cases d <;> rfl

/-- **C38**, `AxisDQ`: moving a coordinate of a flat-top graph in the converted direction displaces it by the vector of the
`hex2d` direction, whenever the displaced coordinate is in the graph, and fails otherwise. -/
theorem c38_dq_moves_partial (m : Machine) (k : Marker) (hk : k.isFlatTop = false) (t : CoordTy) (h v : Nat) (hh : h < m.half)
    (hv : v < m.half) (ht : Holds t k.isFlatTop h v) (d : H2Dir) (c : Axial) (hc : InAxial k.isEven h v c) :
    ∃ a r, axisDQOfH2 m d = .ok a ∧ (hexAxQ m t k h v).moveCoord c a = .ok r ∧
      ∀ c', r = some c' ↔ InAxial k.isEven h v c' ∧ c'.r = c.r + d.vec.1 ∧ c'.q = c.q + d.vec.2 := by
  obtain ⟨a, h1, h2⟩ := (c38_dq_roundtrip m).1 d
  obtain ⟨r, h3, h4⟩ := (c27_axial_q m k hk t h v hh hv ht).move c a hc
  refine ⟨a, r, h1, h3, ?_⟩
  have : axialStepQ a = d.vec := by rw [← h2]; cases a <;> rfl
  rwa [this] at h4

/-- **C38** fails for `AxisDR`: every direction is converted to the next one clockwise, i.e. its vector `(x, y)` is turned by
60° into `(x + y, -x)`. -/
theorem c38_dr_rotated (m : Machine) (d : H2Dir) :
    ∃ a, axisDROfH2 m d = .ok a ∧ axialStepR a = (d.vec.1 + d.vec.2, -d.vec.1) := by
  refine ⟨_, axisDROfH2_eq m d, ?_⟩
  cases d <;> rfl

/-- **C38** fails for `AxisDR`: on every point-top graph, from every node and in every direction, a successful move in the
converted direction does not end where `hex2d` says. -/
theorem c38_dr_moves_wrong (m : Machine) (k : Marker) (hk : k.isFlatTop = false) (t : CoordTy) (h v : Nat) (hh : h < m.half)
    (hv : v < m.half) (ht : Holds t k.isFlatTop h v) (d : H2Dir) (c : Axial) (hc : InAxial k.isEven h v c) :
    ∃ a r, axisDROfH2 m d = .ok a ∧ (hexAxR m t k h v).moveCoord c a = .ok r ∧
      ∀ c', r = some c' → ¬ (c'.r = c.r + d.vec.1 ∧ c'.q = c.q + d.vec.2) := by
  obtain ⟨a, h1, h2⟩ := c38_dr_rotated m d
  obtain ⟨r, h3, h4⟩ := (c27_axial_r m k hk t h v hh hv ht).move c a hc
  refine ⟨a, r, h1, h3, fun c' hr => ?_⟩
  obtain ⟨-, h5, h6⟩ := (h4 c').1 hr
  rw [h2] at h5 h6
  cases d <;> simp only [H2Dir.vec] at * <;> omega

example : axisDROfH2 m64 .YZ = .ok .E ∧ (hexAxR m64 (isizeTy m64) oddR 5 5).moveCoord ⟨1, 1⟩ .E = .ok (some ⟨2, 1⟩) :=
  ⟨rfl, rfl⟩

/-! ### C39 -/
section
variable {C A D N E σ : Type} [DecidableEq C] [DecidableEq A] [DecidableEq D]
variable {s s' : Shape C A D} {L : Lat C A D} {rep : C → Prop}

/-- The public calls return the same on both graphs, without fault: any sequence of weight reads and writes and of weight
iterations, and the calls that do not touch weights. -/
structure Same (L : Lat C A D) (rep : C → Prop) (g g' : Graph C A D N E) : Prop where
  ops : ∀ ops : List (Op C A N E), (∀ op ∈ ops, OpOk L rep op) →
    ∃ outs g1 g1', ExecAll g ops outs g1 ∧ ExecAll g' ops outs g1'
  nodes : ∃ l, Yields (nodeIndicesNext g.s) 0 l ∧ Yields (nodeIndicesNext g'.s) 0 l
  neighbors : ∀ c, L.Node c → ∃ l, Yields (neighborsNext g.s c) 0 l ∧ Yields (neighborsNext g'.s c) 0 l
  index : ∀ c, L.Node c → ∃ i, g.toIndex c = .ok i ∧ g'.toIndex c = .ok i ∧ g.fromIndex i = .ok c ∧ g'.fromIndex i = .ok c
  direction : ∀ c b, L.Node c → ∃ d, g.s.getDirection c b = .ok d ∧ g'.s.getDirection c b = .ok d

/-- Two sound shapes standing for the same lattice cannot be told apart: built with the same closures, the closures are left
in the same state, and all calls then return the same results on both, without fault. -/
theorem same_behaviour (hs : Lawful s L rep) (hs' : Lawful s' L rep) (hc : Constructible s) (hc' : Constructible s')
    (n : σ → C → N × σ) (e : σ → C → A → E × σ) (st : σ) :
    ∃ (g g' : Graph C A D N E) (st' : σ), newWith s n e st = .ok (g, st') ∧ newWith s' n e st = .ok (g', st') ∧
      Same L rep g g' := by
  obtain ⟨g, h1⟩ := c01_new_with hs hc n e st
  obtain ⟨g', h2⟩ := c01_new_with hs' hc' n e st
  have hb : Built s L g _ := .new h1
  have hb' : Built s' L g' _ := .new h2
  refine ⟨g, g', _, h1, h2, fun ops hok => ?_, ?_, ?_, ?_, ?_⟩
  · obtain ⟨g1, h3, -⟩ := c16_refines_map hs hb hok
    obtain ⟨g1', h4, -⟩ := c16_refines_map hs' hb' hok
    exact ⟨_, g1, g1', h3, h4⟩
  · exact ⟨_, c05_node_identifiers hs hb, c05_node_identifiers hs' hb'⟩
  · exact fun c h => ⟨_, c07_neighbors hs hb h, c07_neighbors hs' hb' h⟩
  · rintro c ⟨x, y, hx, hy, rfl⟩
    have h3 := (hb.good hs).toIndex hx hy
    have h4 := (hb'.good hs').toIndex hx hy
    refine ⟨_, h3, h4, ?_, ?_⟩
    · rw [Graph.fromIndex, (hb.good hs).impl.indexToCoordinate (idx_lt hx hy), Lat.at_idx hy]
    · rw [Graph.fromIndex, (hb'.good hs').impl.indexToCoordinate (idx_lt hx hy), Lat.at_idx hy]
  · exact fun c b h => ⟨_, c09_get_direction hs hb h b, c09_get_direction hs' hb' h b⟩

end

section
variable {N E σ : Type}

/-- The coordinates one step around an `h × v` map fit the range `t` and `isize`, and ndarray accepts the size. -/
structure Fits (m : Machine) (t : CoordTy) (h v : Nat) : Prop where
  holds : Holds t false h v
  size : (if h = 0 then 1 else h) * (if v = 0 then 1 else v) < m.half

theorem Fits.lt {m : Machine} {t : CoordTy} {h v : Nat} (hf : Fits m t h v) : h < m.half ∧ v < m.half :=
  let hb := Constructible.bounds (s := squareShape m h v) hf.size
  ⟨hb.2.1, hb.2.2⟩

/-- **C39**, point-top: the graph over `hex2d::Coordinate<I>` (`I` with range `t`) behaves as the graph over `HexAxial`. -/
theorem c39_r (m : Machine) (t : CoordTy) (k : Marker) (hk : k.isFlatTop = false) (h v : Nat) (hf : Fits m t h v)
    (n : σ → Axial → N × σ) (e : σ → Axial → AxisR → E × σ) (st : σ) :
    ∃ (g g' : Graph Axial AxisR AxisDR N E) (st' : σ), newWith (hexAxR m t k h v) n e st = .ok (g, st') ∧
      newWith (hexAxR m (isizeTy m) k h v) n e st = .ok (g', st') ∧
      Same (axLatR k.isEven false h v) (axRep m k.isEven false) g g' := by
  have := same_behaviour (.hexAxR m t k h v (hk ▸ hf.holds)) (.hexAxR m (isizeTy m) k h v (hk ▸ .isize hf.lt.1 hf.lt.2))
    hf.size hf.size n e st
  rwa [hk] at this

/-- **C39**, directed point-top. -/
theorem c39_dr (m : Machine) (t : CoordTy) (k : Marker) (hk : k.isFlatTop = false) (h v : Nat) (hf : Fits m t h v)
    (n : σ → Axial → N × σ) (e : σ → Axial → AxisDR → E × σ) (st : σ) :
    ∃ (g g' : Graph Axial AxisDR AxisDR N E) (st' : σ), newWith (hexAxRDirected m t k h v) n e st = .ok (g, st') ∧
      newWith (hexAxRDirected m (isizeTy m) k h v) n e st = .ok (g', st') ∧
      Same (axLatDR k.isEven false h v) (axRep m k.isEven false) g g' := by
  have := same_behaviour (.hexAxRDirected m t k h v (hk ▸ hf.holds))
    (.hexAxRDirected m (isizeTy m) k h v (hk ▸ .isize hf.lt.1 hf.lt.2)) hf.size hf.size n e st
  rwa [hk] at this

/-- **C39**, flat-top. -/
theorem c39_q (m : Machine) (t : CoordTy) (k : Marker) (hk : k.isFlatTop = false) (h v : Nat) (hf : Fits m t h v)
    (n : σ → Axial → N × σ) (e : σ → Axial → AxisQ → E × σ) (st : σ) :
    ∃ (g g' : Graph Axial AxisQ AxisDQ N E) (st' : σ), newWith (hexAxQ m t k h v) n e st = .ok (g, st') ∧
      newWith (hexAxQ m (isizeTy m) k h v) n e st = .ok (g', st') ∧
      Same (axLatQ k.isEven false h v) (axRep m k.isEven false) g g' := by
  have := same_behaviour (.hexAxQ m t k h v (hk ▸ hf.holds)) (.hexAxQ m (isizeTy m) k h v (hk ▸ .isize hf.lt.1 hf.lt.2))
    hf.size hf.size n e st
  rwa [hk] at this

/-- **C39**, directed flat-top. -/
theorem c39_dq (m : Machine) (t : CoordTy) (k : Marker) (hk : k.isFlatTop = false) (h v : Nat) (hf : Fits m t h v)
    (n : σ → Axial → N × σ) (e : σ → Axial → AxisDQ → E × σ) (st : σ) :
    ∃ (g g' : Graph Axial AxisDQ AxisDQ N E) (st' : σ), newWith (hexAxQDirected m t k h v) n e st = .ok (g, st') ∧
      newWith (hexAxQDirected m (isizeTy m) k h v) n e st = .ok (g', st') ∧
      Same (axLatDQ k.isEven false h v) (axRep m k.isEven false) g g' := by
  have := same_behaviour (.hexAxQDirected m t k h v (hk ▸ hf.holds))
    (.hexAxQDirected m (isizeTy m) k h v (hk ▸ .isize hf.lt.1 hf.lt.2)) hf.size hf.size n e st
  rwa [hk] at this

/-- `i8`. -/
def i8Ty : CoordTy := ⟨-128, 127⟩

example : Fits m64 i8Ty 100 127 := ⟨⟨by decide, by decide, by decide, by decide⟩, by decide⟩

end

/-! The hypothesis of C39 cannot be weakened: a map that is one cell too large faults while it is built. -/

section
variable {C A D N E σ : Type} {s : Shape C A D}

theorem newWithEdges_moves {e : σ → C → A → E × σ} {o : Offset} {c : C} : ∀ {l : List (Arr2 E)} {j : Nat} {st : σ} {r},
    newWithEdges s e o c j l st = .ok r → ∀ i, i < l.length →
      ∃ a d t, s.axis.fromIndexUnchecked (j + i) = .ok a ∧ s.axis.foward a = .ok d ∧ s.moveCoord c d = .ok t
  | [], _, _, _, _, i, hi => absurd hi (by simp)
  | arr :: l, j, st, r, h, i, hi => by
    simp only [newWithEdges, bind, Except.bind] at h
    cases h1 : s.axis.fromIndexUnchecked j with
    | error f => simp [h1] at h
    | ok a =>
      cases h2 : s.axis.foward a with
      | error f => simp [h1, h2] at h
      | ok d =>
        cases h3 : s.moveCoord c d with
        | error f => simp [h1, h2, h3] at h
        | ok t =>
          cases i with
          | zero => exact ⟨a, d, t, h1, h2, h3⟩
          | succ i =>
            have : ∃ st1 r1, newWithEdges s e o c (j + 1) l st1 = .ok r1 := by
              cases t with
              | none =>
                simp only [h1, h2, h3] at h
                cases h4 : newWithEdges s e o c (j + 1) l st with
                | error f => simp [h4] at h
                | ok r1 => exact ⟨_, _, h4⟩
              | some t =>
                simp only [h1, h2, h3] at h
                cases h4 : newWithEdges s e o c (j + 1) l (e st c a).2 with
                | error f => simp [h4] at h
                | ok r1 => exact ⟨_, _, h4⟩
            obtain ⟨st1, r1, h4⟩ := this
            obtain ⟨a', d', t', h5, h6, h7⟩ := newWithEdges_moves h4 i (by simp at hi; omega)
            exact ⟨a', d', t', by rw [← h5]; congr 1; omega, h6, h7⟩

theorem newWithEdges_length {e : σ → C → A → E × σ} {o : Offset} {c : C} : ∀ {l : List (Arr2 E)} {j : Nat} {st : σ} {r},
    newWithEdges s e o c j l st = .ok r → r.1.length = l.length
  | [], _, _, _, h => by cases h; rfl
  | arr :: l, j, st, r, h => by
    simp only [newWithEdges, bind, Except.bind] at h
    cases h1 : s.axis.fromIndexUnchecked j with
    | error f => simp [h1] at h
    | ok a =>
      cases h2 : s.axis.foward a with
      | error f => simp [h1, h2] at h
      | ok d =>
        cases h3 : s.moveCoord c d with
        | error f => simp [h1, h2, h3] at h
        | ok t =>
          cases t with
          | none =>
            simp only [h1, h2, h3] at h
            cases h4 : newWithEdges s e o c (j + 1) l st with
            | error f => simp [h4] at h
            | ok r1 =>
              simp only [h4, Except.ok.injEq] at h
              have := newWithEdges_length h4
              subst h; simp [this]
          | some t =>
            simp only [h1, h2, h3] at h
            cases h4 : newWithEdges s e o c (j + 1) l (e st c a).2 with
            | error f => simp [h4] at h
            | ok r1 =>
              simp only [h4, Except.ok.injEq] at h
              have := newWithEdges_length h4
              subst h; simp [this]

theorem newWithNodes_moves {n : σ → C → N × σ} {e : σ → C → A → E × σ} : ∀ {k i : Nat} {ns : Arr2 N} {es : List (Arr2 E)}
    {st : σ} {r}, newWithNodes s n e i k ns es st = .ok r → ∀ p, p < k →
      ∃ o c, s.indexToOffset (i + p) = .ok o ∧ s.offsetToCoordinate o = .ok c ∧ ∀ j, j < es.length →
        ∃ a d t, s.axis.fromIndexUnchecked j = .ok a ∧ s.axis.foward a = .ok d ∧ s.moveCoord c d = .ok t
  | 0, _, _, _, _, _, _, p, hp => absurd hp (by simp)
  | k + 1, i, ns, es, st, r, h, p, hp => by
    simp only [newWithNodes, bind, Except.bind] at h
    cases h1 : s.indexToOffset i with
    | error f => simp [h1] at h
    | ok o =>
      cases h2 : s.offsetToCoordinate o with
      | error f => simp [h1, h2] at h
      | ok c =>
        simp only [h1, h2] at h
        split at h
        · cases h3 : newWithEdges s e o c 0 es (n st c).2 with
          | error f => simp [h3] at h
          | ok r1 =>
            simp only [h3] at h
            cases p with
            | zero =>
              refine ⟨o, c, h1, h2, fun j hj => ?_⟩
              have := newWithEdges_moves h3 j hj
              rwa [Nat.zero_add] at this
            | succ p =>
              obtain ⟨o', c', h4, h5, h6⟩ := newWithNodes_moves h p (by omega)
              refine ⟨o', c', by rw [← h4]; congr 1; omega, h5, fun j hj => ?_⟩
              exact h6 j (by rw [newWithEdges_length h3]; exact hj)
        · cases h

theorem uninitEdges_length : ∀ {n : Nat} {l : List (Arr2 E)}, uninitEdges s n = .ok l → l.length = n
  | 0, _, h => by cases h; rfl
  | n + 1, l, h => by
    simp only [uninitEdges, bind, Except.bind] at h
    split at h
    · cases h
    · split at h
      · cases h
      · rename_i h2
        cases h
        simp [uninitEdges_length h2]

/-- If construction returns, every cell had a coordinate and every forward move from it could be computed. -/
theorem newWith_moves {n : σ → C → N × σ} {e : σ → C → A → E × σ} {st : σ} {r : Graph C A D N E × σ}
    (h : newWith s n e st = .ok r) {x y : Nat} (hx : x < s.horizontal) (hy : y < s.vertical) :
    ∃ c, s.offsetToCoordinate ⟨x, y⟩ = .ok c ∧ ∀ j, j < s.axis.count →
      ∃ a d t, s.axis.fromIndexUnchecked j = .ok a ∧ s.axis.foward a = .ok d ∧ s.moveCoord c d = .ok t := by
  have hc : Constructible s := by
    by_cases hc : Constructible s
    · exact hc
    · rw [newWith_panic hc] at h; cases h
  have hb := hc.bounds
  have hcnt : s.nodeCount = .ok (s.horizontal * s.vertical) := by
    unfold Shape.nodeCount umul
    rw [if_pos (by omega)]
  simp only [newWith, newUninit, bind, Except.bind, hcnt] at h
  cases h1 : (Arr2.uninit s.m s.horizontal s.vertical : Res (Arr2 N)) with
  | error f => simp [h1] at h
  | ok ns =>
    cases h2 : (uninitEdges s s.axis.count : Res (List (Arr2 E))) with
    | error f => simp [h1, h2] at h
    | ok es =>
      simp only [h1, h2] at h
      cases h3 : newWithNodes s n e 0 (s.horizontal * s.vertical) ns es st with
      | error f => simp [h3] at h
      | ok r1 =>
        obtain ⟨o, c, h4, h5, h6⟩ := newWithNodes_moves h3 (x * s.vertical + y) (idx_lt hx hy)
        rw [Nat.zero_add] at h4
        unfold Shape.indexToOffset at h4
        rw [if_neg (by omega), idx_div hy, idx_mod hy] at h4
        cases h4
        refine ⟨c, h5, fun j hj => h6 j ?_⟩
        rw [uninitEdges_length h2]; exact hj

end

section
variable {N E σ : Type}

/-- **C39**, necessity: if the component type cannot count up to the width and the height of the map, `new_with` faults (it is
undefined behaviour in release builds when a conversion fails). Here for point-top graphs. -/
theorem c39_too_large {m : Machine} {t : CoordTy} {k : Marker} (hk : k.isFlatTop = false) {h v : Nat} (hh : 0 < h) (hv : 0 < v)
    (hbig : t.hi < h ∨ t.hi < v) (n : σ → Axial → N × σ) (e : σ → Axial → AxisR → E × σ) (st : σ) :
    ∃ f, newWith (hexAxR m t k h v) n e st = .error f := by
  cases hn : newWith (hexAxR m t k h v) n e st with
  | error f => exact ⟨f, rfl⟩
  | ok r =>
    exfalso
    have hc : Constructible (hexAxR m t k h v) := by
      by_cases hc : Constructible (hexAxR m t k h v)
      · exact hc
      · rw [newWith_panic hc] at hn; cases hn
    have hb : h < m.half ∧ v < m.half := ⟨hc.bounds.2.1, hc.bounds.2.2⟩
    have hco := convertOffset_le k
    have new_inv : ∀ {r q : Int} {c : Axial}, t.new m r q = .ok c → r ≤ t.hi ∧ q ≤ t.hi ∧ c = ⟨r, q⟩ := by
      intro r q c hnew
      unfold CoordTy.new at hnew
      split at hnew
      · cases hnew; exact ⟨by omega, by omega, rfl⟩
      · unfold unreachableDebugChecked at hnew; split at hnew <;> cases hnew
    rcases hbig with hbig | hbig
    · -- the last cell of row 0: its coordinate or its east neighbour does not fit
      obtain ⟨c, h1, h2⟩ := newWith_moves hn (x := h - 1) (y := 0) (by show h - 1 < h; omega) hv
      have hc0 : c = ⟨(h : Int) - 1, 0⟩ := by
        change axOffsetToCoord m t k ⟨h - 1, 0⟩ = .ok c at h1
        unfold axOffsetToCoord at h1
        simp only [hk, Bool.false_eq_true, if_false, newAt, bind, Except.bind] at h1
        rw [uadd_ok (by have := m.half_ge; omega), asIsize_small (by omega)] at h1
        simp only at h1
        have h0 : (0 + k.convertOffset) / 2 = 0 := by omega
        rw [h0, asIsize_small (by omega), isub_ok (by unfold InI; omega)] at h1
        simp only at h1
        obtain ⟨_, _, rfl⟩ := new_inv h1
        simp only [Axial.mk.injEq, Int.natCast_zero, and_true]
        omega
      subst hc0
      obtain ⟨a, d, tt, h3, h4, h5⟩ := h2 1 (by show 1 < 3; decide)
      cases h3
      cases h4
      change axMoveChecked m k h v (axMoveR m t) _ _ = _ at h5
      unfold axMoveChecked at h5
      simp only [bind, Except.bind] at h5
      have : ∃ f, axMoveR m t ⟨(h : Int) - 1, 0⟩ .E = .error f := by
        simp only [axMoveR, newAt, bind, Except.bind]
        rw [getR_ok (by unfold InI; simp only; omega), getQ_ok (by unfold InI; simp only; omega)]
        simp only
        rw [iadd_ok (by unfold InI; omega)]
        simp only
        unfold CoordTy.new
        rw [if_neg (by omega)]
        unfold unreachableDebugChecked; split <;> exact ⟨_, rfl⟩
      obtain ⟨f, hf⟩ := this
      rw [hf] at h5
      cases h5
    · -- a cell of the last row: its coordinate or its north-east neighbour does not fit
      obtain ⟨c, h1, h2⟩ := newWith_moves hn (x := 0) (y := v - 1) hh (by show v - 1 < v; omega)
      have hc0 : c = ⟨-axShift k.isEven ((v : Int) - 1), (v : Int) - 1⟩ := by
        change axOffsetToCoord m t k ⟨0, v - 1⟩ = .ok c at h1
        unfold axOffsetToCoord at h1
        simp only [hk, Bool.false_eq_true, if_false, newAt, bind, Except.bind] at h1
        rw [uadd_ok (by have := m.half_ge; omega), asIsize_small (by omega)] at h1
        simp only at h1
        rw [asIsize_small (by have := m.half_ge; omega), isub_ok (by unfold InI; omega)] at h1
        simp only at h1
        obtain ⟨_, _, rfl⟩ := new_inv h1
        rw [axShift_eq, asIsize_small (by omega)]
        simp only [Axial.mk.injEq]
        omega
      subst hc0
      have hsb := axShift_bounds k.isEven (y := (v : Int) - 1) (by omega)
      obtain ⟨a, d, tt, h3, h4, h5⟩ := h2 0 (by show 0 < 3; decide)
      cases h3
      cases h4
      change axMoveChecked m k h v (axMoveR m t) _ _ = _ at h5
      unfold axMoveChecked at h5
      simp only [bind, Except.bind] at h5
      have : ∃ f, axMoveR m t ⟨-axShift k.isEven ((v : Int) - 1), (v : Int) - 1⟩ .NE = .error f := by
        simp only [axMoveR, newAt, bind, Except.bind]
        rw [getR_ok (by unfold InI; simp only; omega), getQ_ok (by unfold InI; simp only; omega)]
        simp only
        rw [iadd_ok (by unfold InI; omega)]
        simp only
        unfold CoordTy.new
        rw [if_neg (by omega)]
        unfold unreachableDebugChecked; split <;> exact ⟨_, rfl⟩
      obtain ⟨f, hf⟩ := this
      rw [hf] at h5
      cases h5

example (n : Unit → Axial → Nat × Unit) (e : Unit → Axial → AxisR → Nat × Unit) :
    ∃ f, newWith (hexAxR m64r i8Ty oddR 128 1) n e () = .error f :=
  c39_too_large rfl (by decide) (by decide) (.inl (by decide)) n e ()

/-- **C39** says nothing about coordinates outside the graph, and for them the graphs do differ: on `neighbors` of the
coordinate `(0, I::MAX)` the narrow graph (in release builds) has undefined behaviour while the `HexAxial` graph of the same
size has no fault in its first step. Both calls are safe code. -/
theorem c39_neighbors_outside {m : Machine} (hm : m.mode = .release) {t : CoordTy} {k : Marker} (hk : k.isFlatTop = false)
    {h v : Nat} (hhi : 0 ≤ t.hi) (hnarrow : t.hi + 1 < m.half)
    (hvt : (v : Int) ≤ t.hi) :
    neighborsNext (hexAxR m t k h v) ⟨0, t.hi⟩ 0 = .error .ub ∧
    ∃ r, (hexAxR m (isizeTy m) k h v).moveCoord ⟨0, t.hi⟩ .NE = .ok r ∧ r = none := by
  have hm0 := m.half_ge
  constructor
  · rw [neighborsNext, dif_pos (show 0 < (hexAxR m t k h v).axis.undirectedCount by show 0 < 6; decide)]
    simp only [bind, Except.bind]
    have h1 : (hexAxR m t k h v).axis.dirFromIndexUnchecked 0 = .ok .NE := rfl
    have h2 : (hexAxR m t k h v).moveCoord ⟨0, t.hi⟩ .NE = .error .ub := by
      show axMoveChecked m k h v (axMoveR m t) _ _ = _
      simp only [axMoveChecked, axMoveR, newAt, bind, Except.bind]
      rw [getR_ok (by unfold InI; simp only; omega), getQ_ok (by unfold InI; simp only; omega)]
      simp only
      rw [iadd_ok (by unfold InI; omega)]
      simp only
      unfold CoordTy.new
      rw [if_neg (by omega)]
      simp [unreachableDebugChecked, hm]
    simp only [h1, h2]
  · refine ⟨none, ?_, rfl⟩
    show axMoveChecked m k h v (axMoveR m (isizeTy m)) _ _ = _
    simp only [axMoveChecked, axMoveR, newAt, bind, Except.bind]
    rw [getR_ok (by unfold InI; simp only; omega), getQ_ok (by unfold InI; simp only; omega)]
    simp only
    rw [iadd_ok (by unfold InI; omega)]
    simp only
    unfold CoordTy.new
    rw [if_pos (by simp only [isizeTy]; omega)]
    simp only [axToOffset, hk, Bool.false_eq_true, if_false, bind, Except.bind]
    rw [getQ_ok (by unfold InI; simp only; omega)]
    simp only
    rw [if_neg (by rw [asUsize_nonneg (by omega)]; omega)]

example : neighborsNext (hexAxR m64r i8Ty oddR 5 5) ⟨0, 127⟩ 0 = .error .ub :=
  (c39_neighbors_outside rfl rfl (by decide) (by decide) (by decide)).1

/-! Instances of the remaining theorems of C38 and C39. -/

example : ∃ a, axisDROfH2 m64 .XZ = .ok a ∧ h2OfAxisDR m64 a = .ok .XZ := (c38_dr_roundtrip m64).1 .XZ
example : axisDQOfH2 m64 (h2OfAxisDQ .SE) = .ok .SE := (c38_dq_roundtrip m64).2 .SE
example : ∃ a r, axisDQOfH2 m64 .XZ = .ok a ∧ (hexAxQ m64 (isizeTy m64) oddR 5 5).moveCoord ⟨1, 1⟩ a = .ok r ∧ r = some ⟨2, 1⟩ := by
  obtain ⟨a, r, h1, h2, h3⟩ := c38_dq_moves_partial m64 oddR rfl (isizeTy m64) 5 5 (by decide) (by decide) (.isize (by decide) (by decide)) .XZ ⟨1, 1⟩ (by decide)
  exact ⟨a, r, h1, h2, (h3 _).2 (by decide)⟩
example : ∃ a, axisDROfH2 m64 .YZ = .ok a ∧ axialStepR a = (1, 0) := c38_dr_rotated m64 .YZ
example : ∃ a r, axisDROfH2 m64 .YZ = .ok a ∧ (hexAxR m64 (isizeTy m64) oddR 5 5).moveCoord ⟨1, 1⟩ a = .ok r ∧ r ≠ some ⟨1, 2⟩ := by
  obtain ⟨a, r, h1, h2, h3⟩ := c38_dr_moves_wrong m64 oddR rfl (isizeTy m64) 5 5 (by decide) (by decide) (.isize (by decide) (by decide)) .YZ ⟨1, 1⟩ (by decide)
  exact ⟨a, r, h1, h2, fun h => h3 _ h (by decide)⟩
example : ∃ (g g' : Graph Axial AxisR AxisDR Nat Nat) (st : Nat),
    newWith (hexAxR m64 i8Ty oddR 100 127) (fun st _ => (st, st + 1)) (fun st _ _ => (st, st + 1)) 0 = .ok (g, st) ∧
    newWith (hexAxR m64 (isizeTy m64) oddR 100 127) (fun st _ => (st, st + 1)) (fun st _ _ => (st, st + 1)) 0 = .ok (g', st) := by
  obtain ⟨g, g', st, h1, h2, -⟩ := c39_r m64 i8Ty oddR rfl 100 127 ⟨⟨by decide, by decide, by decide, by decide⟩, by decide⟩
    (fun (st : Nat) _ => (st, st + 1)) (fun st _ _ => (st, st + 1)) 0
  exact ⟨g, g', st, h1, h2⟩
example : ∃ (g g' : Graph Axial AxisDR AxisDR Nat Nat) (st : Nat),
    newWith (hexAxRDirected m64 i8Ty evenR 5 5) (fun st _ => (st, st + 1)) (fun st _ _ => (st, st + 1)) 0 = .ok (g, st) ∧
    newWith (hexAxRDirected m64 (isizeTy m64) evenR 5 5) (fun st _ => (st, st + 1)) (fun st _ _ => (st, st + 1)) 0 = .ok (g', st) := by
  obtain ⟨g, g', st, h1, h2, -⟩ := c39_dr m64 i8Ty evenR rfl 5 5 ⟨⟨by decide, by decide, by decide, by decide⟩, by decide⟩
    (fun (st : Nat) _ => (st, st + 1)) (fun st _ _ => (st, st + 1)) 0
  exact ⟨g, g', st, h1, h2⟩
example : ∃ (g g' : Graph Axial AxisQ AxisDQ Nat Nat) (st : Nat),
    newWith (hexAxQ m64 i8Ty oddR 5 5) (fun st _ => (st, st + 1)) (fun st _ _ => (st, st + 1)) 0 = .ok (g, st) ∧
    newWith (hexAxQ m64 (isizeTy m64) oddR 5 5) (fun st _ => (st, st + 1)) (fun st _ _ => (st, st + 1)) 0 = .ok (g', st) := by
  obtain ⟨g, g', st, h1, h2, -⟩ := c39_q m64 i8Ty oddR rfl 5 5 ⟨⟨by decide, by decide, by decide, by decide⟩, by decide⟩
    (fun (st : Nat) _ => (st, st + 1)) (fun st _ _ => (st, st + 1)) 0
  exact ⟨g, g', st, h1, h2⟩
example : ∃ (g g' : Graph Axial AxisDQ AxisDQ Nat Nat) (st : Nat),
    newWith (hexAxQDirected m64 i8Ty oddR 5 5) (fun st _ => (st, st + 1)) (fun st _ _ => (st, st + 1)) 0 = .ok (g, st) ∧
    newWith (hexAxQDirected m64 (isizeTy m64) oddR 5 5) (fun st _ => (st, st + 1)) (fun st _ _ => (st, st + 1)) 0 = .ok (g', st) := by
  obtain ⟨g, g', st, h1, h2, -⟩ := c39_dq m64 i8Ty oddR rfl 5 5 ⟨⟨by decide, by decide, by decide, by decide⟩, by decide⟩
    (fun (st : Nat) _ => (st, st + 1)) (fun st _ _ => (st, st + 1)) 0
  exact ⟨g, g', st, h1, h2⟩

end
end LG
