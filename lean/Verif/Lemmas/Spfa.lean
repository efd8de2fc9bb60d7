import Verif.Model.Spfa
import Verif.Lemmas.Bellman
/- `spfa` on any graph whose nodes are numbered: it reports a negative cycle exactly if there is one within reach, and otherwise finds the
least costs and a tree of cheapest ways. -/
namespace LG
section
variable {V : Type} {P : V → Prop} {idx : V → Nat} {ix : V → Res Nat} {n : Nat} {R : V → V → Int → Prop}

/-- The vectors have an entry per node, and `in_queue` tells which nodes are in the queue. -/
structure SpWf (P : V → Prop) (idx : V → Nat) (n : Nat) (st : SpfaSt V) : Prop where
  len : st.bell.Len n
  inqLen : st.inq.length = n
  visLen : st.visits.length = n
  inq : ∀ v, P v → (st.inq[idx v]? = some true ↔ v ∈ st.queue)
  nodes : ∀ v ∈ st.queue, P v
  nodup : st.queue.Nodup

theorem spfaEdge_spec (hi : Indexed P idx n) (hix : ∀ v, P v → ix v = .ok (idx v)) {st : SpfaSt V} (hw : SpWf P idx n st) {i j : V} (pi : P i)
    (pj : P j) (w : Int) : ∃ st', spfaEdge ix i j w st = .ok st' ∧ SpWf P idx n st' ∧ st'.visits = st.visits ∧
      ((st' = st ∧ ∀ x, st.bell.d idx i = some x → ∃ y, st.bell.d idx j = some y ∧ y ≤ x + w) ∨
        (Improved P idx st.bell i j w st'.bell ∧ j ∈ st'.queue ∧ (st'.queue = st.queue ∨ st'.queue = st.queue ++ [j]))) := by
  obtain ⟨bell, b, h1, h2, h3, h4⟩ := bfEdge_spec hi hix hw.len pi pj w
  unfold spfaEdge
  rw [h1]
  simp only [bind, Except.bind]
  cases b with
  | false =>
    obtain ⟨rfl, h5⟩ := h3 rfl
    exact ⟨st, rfl, hw, rfl, .inl ⟨rfl, h5⟩⟩
  | true =>
    have h5 := h4 rfl
    simp only [if_true]
    rw [hix j pj]
    simp only []
    have hlt : idx j < st.inq.length := by rw [hw.inqLen]; exact hi.lt pj
    obtain ⟨b, hb⟩ : ∃ b, st.inq[idx j]? = some b := ⟨_, List.getElem?_eq_getElem hlt⟩
    rw [hb]
    cases b with
    | true =>
      have hm := (hw.inq j pj).1 hb
      exact ⟨_, rfl, ⟨h2, hw.inqLen, hw.visLen, hw.inq, hw.nodes, hw.nodup⟩, rfl, .inr ⟨h5, hm, .inl rfl⟩⟩
    | false =>
      have hm : j ∉ st.queue := fun h => by have := (hw.inq j pj).2 h; rw [hb] at this; cases this
      refine ⟨_, rfl, ⟨h2, by simp only [List.length_set]; exact hw.inqLen, hw.visLen, ?_, ?_, ?_⟩, rfl, .inr ⟨h5, by simp, .inr rfl⟩⟩
      · intro v pv
        by_cases e : v = j
        · subst e
          simp only [List.getElem?_set_self hlt]
          simp
        · have : idx j ≠ idx v := fun h => e (hi.inj pv pj h.symm)
          simp only [List.getElem?_set_ne this, List.mem_append, List.mem_singleton, e, or_false]
          exact hw.inq v pv
      · intro v hv
        rcases List.mem_append.1 hv with hv | hv
        · exact hw.nodes v hv
        · cases List.mem_singleton.1 hv; exact pj
      · refine List.nodup_append.2 ⟨hw.nodup, by simp, ?_⟩
        intro a ha b hb' e
        cases List.mem_singleton.1 hb'
        subst e
        exact hm ha

theorem spfaEdges_spec (hi : Indexed P idx n) (hix : ∀ v, P v → ix v = .ok (idx v)) {i : V} (pi : P i) : ∀ (l : List (V × Int)) (st : SpfaSt V),
    SpWf P idx n st → (∀ e ∈ l, P e.1 ∧ R i e.1 e.2) → ∃ st' new, spfaEdges ix i l st = .ok st' ∧ SpWf P idx n st' ∧
      st'.visits = st.visits ∧ st'.queue = st.queue ++ new ∧ Bell.Le P idx st'.bell st.bell ∧
      (∀ e ∈ l, ∀ x, st.bell.d idx i = some x → ∃ y, st'.bell.d idx e.1 = some y ∧ y ≤ x + e.2) ∧
      (∀ v, P v → v ∉ st'.queue → st'.bell.d idx v = st.bell.d idx v) ∧
      (∀ v ∈ new, ∃ x, st'.bell.d idx v = some x ∧ ∀ y, st.bell.d idx v = some y → x < y) ∧
      ∀ I, Kept P idx R I → I st.bell → I st'.bell
  | [], st, hw, _ => ⟨st, [], rfl, hw, rfl, by simp, .refl _, (fun _ h => nomatch h), fun _ _ _ => rfl, (fun _ h => nomatch h), fun _ _ h => h⟩
  | (j, w) :: l, st, hw, hR => by
    obtain ⟨pj, hr⟩ := hR _ List.mem_cons_self
    simp only [] at pj hr
    obtain ⟨s1, e1, w1, v1, c1⟩ := spfaEdge_spec hi hix hw pi pj w
    obtain ⟨s2, new, e2, w2, v2, q2, le2, ed2, r2, n2, k2⟩ := spfaEdges_spec hi hix pi l s1 w1 fun e he => hR e (List.mem_cons_of_mem _ he)
    have hrun : spfaEdges ix i ((j, w) :: l) st = .ok s2 := by
      simp only [spfaEdges, e1, bind, Except.bind]
      exact e2
    rcases c1 with ⟨rfl, hst⟩ | ⟨himp, hjq, hq⟩
    · refine ⟨s2, new, hrun, w2, v2, q2, le2, ?_, r2, n2, k2⟩
      intro e he x hx
      rcases List.mem_cons.1 he with rfl | he
      · obtain ⟨y, h1, h2⟩ := hst x hx
        obtain ⟨z, h3, h4⟩ := le2 j pj y h1
        exact ⟨z, h3, by simp only []; omega⟩
      · exact ed2 e he x hx
    · obtain ⟨new1, hn1, hm1⟩ : ∃ new1, s1.queue = st.queue ++ new1 ∧ ∀ v ∈ new1, v = j := by
        rcases hq with hq | hq
        · exact ⟨[], by rw [hq, List.append_nil], (fun _ h => nomatch h)⟩
        · exact ⟨[j], hq, fun v hv => List.mem_singleton.1 hv⟩
      have le1 := himp.le
      obtain ⟨a, g1, g2, g3⟩ := himp.was
      refine ⟨s2, new1 ++ new, hrun, w2, v2.trans v1, by rw [q2, hn1, List.append_assoc], le1.trans le2, ?_, ?_, ?_, fun I hI h =>
        k2 I hI (hI _ _ _ _ _ pi pj hr himp h)⟩
      · intro e he x hx
        rcases List.mem_cons.1 he with rfl | he
        · rw [g1] at hx; cases hx
          obtain ⟨z, h3, h4⟩ := le2 j pj _ g2
          exact ⟨z, h3, h4⟩
        · obtain ⟨z, g4, g5⟩ := le1 i pi x hx
          obtain ⟨y, g6, g7⟩ := ed2 e he z g4
          exact ⟨y, g6, by omega⟩
      · intro v pv hv
        have hne : v ≠ j := fun e => hv (by rw [q2, e]; exact List.mem_append_left _ hjq)
        rw [r2 v pv hv, (himp.rest v pv hne).1]
      · intro v hv
        rcases List.mem_append.1 hv with hv | hv
        · cases hm1 v hv
          obtain ⟨z, h3, h4⟩ := le2 j pj _ g2
          exact ⟨z, h3, fun y hy => by have := g3 y hy; omega⟩
        · have pv := w2.nodes v (by rw [q2]; exact List.mem_append_right _ hv)
          obtain ⟨x, h3, h4⟩ := n2 v hv
          refine ⟨x, h3, fun y hy => ?_⟩
          obtain ⟨z, h5, h6⟩ := le1 v pv y hy
          have := h4 z h5
          omega

/-- The state between two turns of the outer loop. All nodes in the queue after turn `m` of a sweep are `Q1`, those still to be taken out in
this sweep, and `Q2`, those put in during it. -/
structure SpInv (P : V → Prop) (R : V → V → Int → Prop) (idx : V → Nat) (n : Nat) (src : V) (m : Nat) (Q1 Q2 : List V) (st : SpfaSt V) : Prop where
  wf : SpWf P idx n st
  split : st.queue = Q1 ++ Q2
  real : st.bell.Real P R idx src
  stable : ∀ u, P u → u ∉ st.queue → ∀ t w, R u t w → ∀ x, st.bell.d idx u = some x → ∃ y, st.bell.d idx t = some y ∧ y ≤ x + w
  upto : st.bell.Upto R idx src m
  sweep : ∀ u, P u → u ∉ Q1 → ∀ t w, R u t w → ∀ k x, k ≤ m → ZWalk R src u k x → ∃ y, st.bell.d idx t = some y ∧ y ≤ x + w
  visits : ∀ v, P v → ∀ k, st.visits[idx v]? = some k → k ≤ m + 1 ∧ (v ∈ Q1 → k ≤ m)
  short : ¬ NegCycle R src → m < n ∧ (m + 1 = n → Q2 = [])

/-- When a sweep is over, the next begins. -/
theorem SpInv.turn (hR : ∀ u t w, P u → R u t w → P t) {src : V} (hsrc : P src) {m : Nat} {Q1 Q2 : List V} {st : SpfaSt V}
    (h : SpInv P R idx n src m Q1 Q2 st) (hne : st.queue ≠ []) : ∃ m' i q1 q2, SpInv P R idx n src m' (i :: q1) q2 st := by
  cases Q1 with
  | cons i q1 => exact ⟨m, i, q1, Q2, h⟩
  | nil =>
    have hq : st.queue = Q2 := by rw [h.split]; rfl
    cases e : Q2 with
    | nil => exact absurd (hq.trans e) hne
    | cons i q1 =>
      have hup : st.bell.Upto R idx src (m + 1) := by
        intro v k x hk hw
        by_cases hk' : k ≤ m
        · exact h.upto v k x hk' hw
        · cases hw with
          | nil => omega
          | @snoc u _ j' x' w hw he =>
            exact h.sweep u (hw.path.choose_spec.mem hR hsrc).1 (by simp) v w he j' x' (by omega) hw
      refine ⟨m + 1, i, q1, [], ⟨h.wf, by rw [hq, e, List.append_nil], h.real, h.stable, hup, ?_, ?_, ?_⟩⟩
      · intro u pu hu t w hr k x hk hw
        obtain ⟨y, h1, h2⟩ := hup u k x hk hw
        obtain ⟨z, h3, h4⟩ := h.stable u pu (by rw [hq, e]; exact hu) t w hr y h1
        exact ⟨z, h3, by omega⟩
      · intro v pv k hk
        have := (h.visits v pv k hk).1
        exact ⟨by omega, fun _ => this⟩
      · intro hneg
        have := h.short hneg
        refine ⟨?_, fun _ => rfl⟩
        have h1 : m + 1 ≠ n := fun h' => by have := this.2 h'; rw [e] at this; cases this
        omega

theorem sum_visits_lt {n : Nat} : ∀ {l : List Nat} {a k : Nat}, l[a]? = some k → k < n →
    ((l.set a (k + 1)).map (n - ·)).sum < (l.map (n - ·)).sum
  | [], a, k, h, _ => by simp at h
  | x :: l, 0, k, h, hk => by
    simp at h
    subst h
    simp only [List.set_cons_zero, List.map_cons, List.sum_cons]
    omega
  | x :: l, a + 1, k, h, hk => by
    have := sum_visits_lt (l := l) (a := a) (k := k) (by simpa using h) hk
    simp only [List.set_cons_succ, List.map_cons, List.sum_cons]
    omega

/-- What the loop ends with. -/
theorem spfaLoop_spec (hi : Indexed P idx n) (hix : ∀ v, P v → ix v = .ok (idx v)) {ex : V → List (V × Int) → Prop} {out : V → List (V × Int)}
    (hex : ∀ v, P v → ∀ l, ex v l ↔ l = out v) (hout : ∀ v, P v → ∀ e, e ∈ out v ↔ R v e.1 e.2) (hR : ∀ u t w, P u → R u t w → P t)
    {vs : List V} (hvs : ∀ v, P v → v ∈ vs) (hn : vs.length = n) {src : V} (hsrc : P src) (N : Nat) : ∀ {m : Nat} {Q1 Q2 : List V} {st : SpfaSt V},
    (st.visits.map (n - ·)).sum = N → SpInv P R idx n src m Q1 Q2 st →
    ∃ r, SpfaLoop ix ex n st r ∧ (∀ r', SpfaLoop ix ex n st r' → r' = r) ∧ (r = none → NegCycle R src) ∧
      ∀ b, r = some b → b.Len n ∧ (∀ u, P u → ∀ t w, R u t w → ∀ x, b.d idx u = some x → ∃ y, b.d idx t = some y ∧ y ≤ x + w) ∧
        ∀ I, Kept P idx R I → I st.bell → I b := by
  induction N using Nat.strongRecOn with
  | _ N ih =>
    intro m Q1 Q2 st hN hinv
    obtain ⟨bell, queue, inq, visits⟩ := st
    cases queue with
    | nil =>
      refine ⟨some bell, .done, fun r' h => by cases h; rfl, (fun h => nomatch h), fun b hb => ?_⟩
      cases hb
      exact ⟨hinv.wf.len, fun u pu => hinv.stable u pu (by simp), fun _ _ h => h⟩
    | cons i q =>
      obtain ⟨m, i', q1, q2, h⟩ := hinv.turn hR hsrc (by simp)
      have hsp := h.split
      simp only [List.cons_append, List.cons.injEq] at hsp
      obtain ⟨rfl, rfl⟩ := hsp
      have pi : P i := h.wf.nodes i (by simp)
      have hlt := hi.lt pi
      have hlt1 : idx i < inq.length := by rw [h.wf.inqLen]; exact hlt
      have hlt2 : idx i < visits.length := by rw [h.wf.visLen]; exact hlt
      obtain ⟨k, hk⟩ : ∃ k, visits[idx i]? = some k := ⟨_, List.getElem?_eq_getElem hlt2⟩
      by_cases hkn : n ≤ k
      · refine ⟨none, .cycle (hix i pi) hlt1 hk hkn, ?_, fun _ => ?_, (fun _ h => nomatch h)⟩
        · intro r' hr'
          cases hr' with
          | cycle => rfl
          | next g1 _ g3 g4 =>
            rw [hix i pi] at g1; cases g1
            rw [hk] at g3; cases g3
            omega
        · refine Classical.byContradiction fun hneg => ?_
          have h1 := (h.visits i pi k hk).2 (by simp)
          have h2 := (h.short hneg).1
          omega
      · have hnd := h.wf.nodup
        simp only [List.nodup_cons] at hnd
        have w0 : SpWf P idx n ⟨bell, q1 ++ q2, inq.set (idx i) false, visits.set (idx i) (k + 1)⟩ := by
          refine ⟨h.wf.len, by simp only [List.length_set]; exact h.wf.inqLen, by simp only [List.length_set]; exact h.wf.visLen, ?_,
            fun v hv => h.wf.nodes v (List.mem_cons_of_mem _ hv), hnd.2⟩
          intro v pv
          by_cases e : v = i
          · subst e
            simp only [List.getElem?_set_self hlt1]
            simp only [Option.some.injEq, Bool.false_eq_true, false_iff]
            exact hnd.1
          · have hne : idx i ≠ idx v := fun h' => e (hi.inj pv pi h'.symm)
            simp only [List.getElem?_set_ne hne]
            have := h.wf.inq v pv
            simp only [List.mem_cons, e, false_or] at this
            exact this
        obtain ⟨s2, new, e2, w2, v2, qq2, le2, ed2, r2, n2, k2⟩ := spfaEdges_spec (R := R) hi hix pi (out i) _ w0 fun e he =>
          ⟨hR i e.1 e.2 pi ((hout i pi e).1 he), (hout i pi e).1 he⟩
        simp only [] at v2 qq2 le2 ed2 r2 n2 k2
        have hreal := k2 _ real_kept h.real
        have hup2 : s2.bell.Upto R idx src m := by
          intro v j x hj hw
          obtain ⟨y, h1, h2⟩ := h.upto v j x hj hw
          obtain ⟨z, h3, h4⟩ := le2 v (hw.path.choose_spec.mem hR hsrc).1 y h1
          exact ⟨z, h3, by omega⟩
        have hinv' : SpInv P R idx n src m q1 (q2 ++ new) s2 := by
          refine ⟨w2, by rw [qq2, List.append_assoc], hreal, ?_, hup2, ?_, ?_, ?_⟩
          · intro u pu hu t w hr x hx
            rw [r2 u pu hu] at hx
            by_cases e : u = i
            · subst e
              exact ed2 (t, w) ((hout u pu _).2 hr) x hx
            · obtain ⟨y, h1, h2⟩ := h.stable u pu (fun hm => by
                rcases List.mem_cons.1 hm with hm | hm
                · exact e hm
                · exact hu (by rw [qq2]; exact List.mem_append_left _ hm)) t w hr x hx
              obtain ⟨z, h3, h4⟩ := le2 t (hR _ _ _ pu hr) y h1
              exact ⟨z, h3, by omega⟩
          · intro u pu hu t w hr j x hj hw
            by_cases e : u = i
            · subst e
              obtain ⟨y, h1, h2⟩ := h.upto u j x hj hw
              obtain ⟨z, h3, h4⟩ := ed2 (t, w) ((hout u pu _).2 hr) y h1
              exact ⟨z, h3, by simp only [] at h4; omega⟩
            · obtain ⟨y, h1, h2⟩ := h.sweep u pu (fun hm => by
                rcases List.mem_cons.1 hm with hm | hm
                · exact e hm
                · exact hu hm) t w hr j x hj hw
              obtain ⟨z, h3, h4⟩ := le2 t (hR _ _ _ pu hr) y h1
              exact ⟨z, h3, by omega⟩
          · intro v pv j hj
            rw [v2] at hj
            by_cases e : v = i
            · subst e
              rw [List.getElem?_set_self hlt2] at hj
              cases hj
              have := (h.visits v pv k hk).2 (by simp)
              exact ⟨by omega, fun hm => absurd (List.mem_append_left _ hm) hnd.1⟩
            · have hne : idx i ≠ idx v := fun h' => e (hi.inj pv pi h'.symm)
              rw [List.getElem?_set_ne hne] at hj
              have := h.visits v pv j hj
              exact ⟨this.1, fun hm => this.2 (List.mem_cons_of_mem _ hm)⟩
          · intro hneg
            have := h.short hneg
            refine ⟨this.1, fun hm => ?_⟩
            rw [this.2 hm, List.nil_append]
            refine List.eq_nil_iff_forall_not_mem.2 fun v hv => ?_
            obtain ⟨x, h1, h2⟩ := n2 v hv
            have pv := w2.nodes v (by rw [qq2]; exact List.mem_append_right _ hv)
            obtain ⟨j, hw⟩ := hreal v pv x h1
            obtain ⟨j', y, h3, h4, h5⟩ := hw.short hR hvs hsrc hneg
            obtain ⟨z, h6, h7⟩ := h.upto v j' y (by omega) h3
            have := h2 z h6
            omega
        have hdec : (s2.visits.map (n - ·)).sum < N := by
          rw [v2, ← hN]
          exact sum_visits_lt hk (by omega)
        obtain ⟨r, a1, a2, a3, a4⟩ := ih _ hdec rfl hinv'
        refine ⟨r, .next (hix i pi) hlt1 hk (by omega) ((hex i pi _).2 rfl) e2 a1, ?_, a3, fun b hb => ?_⟩
        · intro r' hr'
          cases hr' with
          | cycle g1 _ g3 g4 =>
            rw [hix i pi] at g1; cases g1
            rw [hk] at g3; cases g3
            omega
          | next g1 _ g3 _ g5 g6 g7 =>
            rw [hix i pi] at g1; cases g1
            rw [hk] at g3; cases g3
            rw [(hex i pi _).1 g5, e2] at g6
            cases g6
            exact a2 _ g7
        · obtain ⟨b1, b2, b3⟩ := a4 b hb
          exact ⟨b1, b2, fun I hI h' => b3 I hI (k2 I hI h')⟩

theorem settled_upto (hR : ∀ u t w, P u → R u t w → P t) {st : Bell V}
    (hst : ∀ u, P u → ∀ t w, R u t w → ∀ x, st.d idx u = some x → ∃ y, st.d idx t = some y ∧ y ≤ x + w) {a : V} (pa : P a) {x : Int}
    (hx : st.d idx a = some x) {v : V} {k : Nat} {c : Int} (hw : ZWalk R a v k c) : P v ∧ ∃ y, st.d idx v = some y ∧ y ≤ x + c := by
  induction hw with
  | nil => exact ⟨pa, x, hx, by omega⟩
  | snoc _ he ih =>
    obtain ⟨h1, y, h2, h3⟩ := ih
    obtain ⟨z, h4, h5⟩ := hst _ h1 _ _ he y h2
    exact ⟨hR _ _ _ h1 he, z, h4, by omega⟩

theorem spfa_spec (hi : Indexed P idx n) (hix : ∀ v, P v → ix v = .ok (idx v)) {ex : V → List (V × Int) → Prop} {out : V → List (V × Int)}
    (hex : ∀ v, P v → ∀ l, ex v l ↔ l = out v) (hout : ∀ v, P v → ∀ e, e ∈ out v ↔ R v e.1 e.2) (hR : ∀ u t w, P u → R u t w → P t)
    {vs : List V} (hvs : ∀ v, P v → v ∈ vs) (hn : vs.length = n) {src : V} (hsrc : P src) :
    ∃ r, Spfa ix ex n src r ∧ (∀ r', Spfa ix ex n src r' → r' = r) ∧ BfRight P R idx n src r := by
  have hlt := hi.lt hsrc
  obtain ⟨s0, hs0⟩ : ∃ s0, s0 = (⟨(List.replicate n none).set (idx src) (some 0), List.replicate n none⟩ : Bell V) := ⟨_, rfl⟩
  have hlen0 : s0.Len n := by
    rw [hs0]
    refine ⟨?_, ?_⟩ <;> simp
  have hd0 : ∀ v, P v → ∀ x, s0.d idx v = some x ↔ v = src ∧ x = 0 := by
    intro v pv x
    rw [hs0]
    unfold Bell.d
    by_cases e : v = src
    · subst e
      rw [List.getElem?_set_self (by simpa using hlt)]
      simp [eq_comm]
    · have : idx src ≠ idx v := fun h => e (hi.inj pv hsrc h.symm)
      simp only [List.getElem?_set_ne this]
      rw [List.getElem?_replicate]
      simp [hi.lt pv, e]
  have hp0 : ∀ v, P v → s0.p idx v = none := by
    intro v pv
    rw [hs0]
    unfold Bell.p
    simp only [List.getElem?_replicate, hi.lt pv, if_true]
    rfl
  have hreal0 : s0.Real P R idx src := by
    intro v pv x hx
    obtain ⟨rfl, rfl⟩ := (hd0 v pv x).1 hx
    exact ⟨_, .nil⟩
  have hinv : SpInv P R idx n src 0 [src] [] ⟨s0, [src], (List.replicate n false).set (idx src) true, List.replicate n 0⟩ := by
    refine ⟨⟨hlen0, by simp, by simp, ?_, ?_, by simp⟩, rfl, hreal0, ?_, ?_, ?_, ?_, fun _ => ⟨by omega, fun _ => rfl⟩⟩
    · intro v pv
      simp only [List.mem_singleton]
      by_cases e : v = src
      · subst e
        rw [List.getElem?_set_self (by simpa using hlt)]
        simp
      · have : idx src ≠ idx v := fun h => e (hi.inj pv hsrc h.symm)
        rw [List.getElem?_set_ne this, List.getElem?_replicate]
        simp [hi.lt pv, e]
    · intro v hv
      cases List.mem_singleton.1 hv; exact hsrc
    · intro u pu hu t w _ x hx
      exact absurd ((hd0 u pu x).1 hx).1 (fun e => hu (by simp [e]))
    · intro v k x hk hw
      cases hw with
      | nil => exact ⟨0, (hd0 src hsrc 0).2 ⟨rfl, rfl⟩, Int.le_refl _⟩
      | snoc => omega
    · intro u pu hu t w _ k x hk hw
      cases hw with
      | nil => exact absurd (List.mem_singleton.2 rfl) hu
      | snoc => omega
    · intro v pv k hk
      simp only [List.getElem?_replicate, hi.lt pv, if_true, Option.some.injEq] at hk
      subst hk
      exact ⟨by omega, fun _ => by omega⟩
  obtain ⟨r, h1, h2, h3, h4⟩ := spfaLoop_spec hi hix hex hout hR hvs hn hsrc _ rfl hinv
  refine ⟨r, ⟨idx src, hix src hsrc, hlt, by rw [← hs0]; exact h1⟩, ?_, ?_⟩
  · rintro r' ⟨i, g1, -, g3⟩
    rw [hix src hsrc] at g1; cases g1
    rw [← hs0] at g3
    exact h2 r' g3
  · have key : ∀ st, r = some st → ¬ NegCycle R src ∧ st.Len n ∧ st.Real P R idx src ∧
        ∀ {v k y}, ZWalk R src v k y → ∃ x, st.d idx v = some x ∧ x ≤ y := by
      intro st hr
      obtain ⟨c1, c2, c3⟩ := h4 st hr
      have hreal := c3 _ real_kept hreal0
      obtain ⟨y0, hy0, hy0'⟩ := c3 (fun s => ∃ y, s.d idx src = some y ∧ y ≤ 0) (by
        rintro i j w s s' - - - himp ⟨y, h1, h2⟩
        obtain ⟨z, h3, h4⟩ := himp.le src hsrc y h1
        exact ⟨z, h3, by omega⟩) ⟨0, (hd0 src hsrc 0).2 ⟨rfl, rfl⟩, Int.le_refl _⟩
      refine ⟨?_, c1, hreal, fun hw => ?_⟩
      · rintro ⟨v, k, x, j, y, hw, hc, hlt'⟩
        obtain ⟨pv, z, g1, -⟩ := settled_upto hR c2 hsrc hy0 hw
        obtain ⟨-, z', g2, g3⟩ := settled_upto hR c2 pv g1 hc
        rw [g1] at g2; cases g2
        omega
      · obtain ⟨-, x, g1, g2⟩ := settled_upto hR c2 hsrc hy0 hw
        exact ⟨x, g1, by omega⟩
    refine ⟨⟨h3, fun hneg => ?_⟩, fun st hr => (key st hr).2.1, ?_, ?_, ?_⟩
    · cases hr : r with
      | none => rfl
      | some st => exact absurd hneg (key st hr).1
    · intro s hs v pv x
      obtain ⟨hneg, -, hreal, hbest⟩ := key s hs
      constructor
      · intro hx
        refine ⟨hreal v pv x hx, fun k y hw => ?_⟩
        obtain ⟨z, h1, h2⟩ := hbest hw
        rw [hx] at h1; cases h1; exact h2
      · rintro ⟨⟨k, hw⟩, hmin⟩
        obtain ⟨z, h1, h2⟩ := hbest hw
        obtain ⟨j, hj⟩ := hreal v pv z h1
        have := hmin j z hj
        rw [h1, show z = x by omega]
    · intro s hs v pv
      obtain ⟨hneg, -, hreal, hbest⟩ := key s hs
      constructor
      · intro hx k y hw
        obtain ⟨z, h1, -⟩ := hbest hw
        rw [hx] at h1; cases h1
      · intro hno
        cases hd : s.d idx v with
        | none => rfl
        | some x => obtain ⟨k, hk⟩ := hreal v pv x hd; exact absurd hk (hno k x)
    · intro s hs
      obtain ⟨hneg, -⟩ := key s hs
      refine (h4 s hs).2.2 _ (tree_kept hsrc hneg) ⟨hreal0, ⟨(hd0 src hsrc 0).2 ⟨rfl, rfl⟩, hp0 src hsrc⟩, ?_, fun v pv _ => hp0 v pv,
        fun v pv => ⟨_, .root (hp0 v pv)⟩⟩
      intro v pv hv x hx
      exact absurd ((hd0 v pv x).1 hx).1 hv

/-- The distances are determined. -/
theorem BfRight.dist_eq (hi : Indexed P idx n) {src : V} {r r' : Option (Bell V)} (h : BfRight P R idx n src r) (h' : BfRight P R idx n src r') :
    r.map (·.dist) = r'.map (·.dist) := by
  cases r with
  | none => rw [h'.neg.2 (h.neg.1 rfl)]
  | some st =>
    cases r' with
    | none => cases h.neg.2 (h'.neg.1 rfl)
    | some st' =>
      simp only [Option.map_some, Option.some.injEq]
      refine List.ext_getElem? fun i => ?_
      by_cases hlt : i < n
      · obtain ⟨v, pv, rfl⟩ := hi.onto hlt
        have e : st.d idx v = st'.d idx v := by
          cases hd : st.d idx v with
          | none => exact ((h'.inf _ rfl v pv).2 ((h.inf _ rfl v pv).1 hd)).symm
          | some x => exact ((h'.dist _ rfl v pv x).2 ((h.dist _ rfl v pv x).1 hd)).symm
        have l1 : idx v < st.dist.length := by rw [(h.len _ rfl).1]; exact hlt
        have l2 : idx v < st'.dist.length := by rw [(h'.len _ rfl).1]; exact hlt
        unfold Bell.d at e
        rw [List.getElem?_eq_getElem l1, List.getElem?_eq_getElem l2] at e ⊢
        rw [show st.dist[idx v] = st'.dist[idx v] from e]
      · rw [List.getElem?_eq_none (by rw [(h.len _ rfl).1]; omega), List.getElem?_eq_none (by rw [(h'.len _ rfl).1]; omega)]
end
end LG
