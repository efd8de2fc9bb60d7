import Verif.Model.Cliques
/- Bron and Kerbosch's algorithm lists the maximal cliques of any finite symmetric graph. -/
namespace LG
section
variable {V : Type} {k : CliqueCalls V} {P : V → Prop} {adj : V → V → Prop}

/-- Pairwise adjacent nodes. -/
structure IsClique (P : V → Prop) (adj : V → V → Prop) (l : List V) : Prop where
  nodup : l.Nodup
  node : ∀ c ∈ l, P c
  pair : ∀ a ∈ l, ∀ b ∈ l, a ≠ b → adj a b

/-- Pairwise adjacent nodes to which no node can be added. -/
structure IsMaximal (P : V → Prop) (adj : V → V → Prop) (l : List V) : Prop extends IsClique P adj l where
  maximal : ∀ c, P c → c ∉ l → ∃ a ∈ l, ¬ adj a c

/-- What the proofs need of the graph. -/
structure CliqueGraph (k : CliqueCalls V) (P : V → Prop) (adj : V → V → Prop) : Prop where
  symm : ∀ a b, P a → P b → adj a b → adj b a
  nb : ∀ a, P a → ∃ l, k.nb a l
  one : ∀ a l l', P a → k.nb a l → k.nb a l' → l = l'
  mem : ∀ a l, P a → k.nb a l → ∀ b, P b → (b ∈ l ↔ adj a b)
  test : ∀ a b, P a → P b → ∃ t, k.test a b t
  exact : ∀ a b t, P a → P b → k.test a b t → (t = true ↔ adj a b)

/-- The state of a call: `p` and `x` together are the nodes adjacent to all of the clique `r`. -/
structure BronInv (P : V → Prop) (adj : V → V → Prop) (r p x : List V) : Prop where
  clique : IsClique P adj r
  pn : p.Nodup
  xn : x.Nodup
  apart : ∀ c ∈ p, c ∉ x
  all : ∀ c, (c ∈ p ∨ c ∈ x) ↔ P c ∧ c ∉ r ∧ ∀ a ∈ r, adj a c

/-- What is found: maximal cliques made of `r` and some of `p`. -/
structure FoundBy (P : V → Prop) (adj : V → V → Prop) (r p : List V) (K : List V) : Prop where
  max : IsMaximal P adj K
  sub : ∀ c ∈ r, c ∈ K
  sup : ∀ c ∈ K, c ∈ r ∨ c ∈ p

/-- Does the clique have to meet `todo`? -/
def Meets (o : Option (List V)) (K : List V) : Prop := ∀ todo, o = some todo → ∃ c ∈ todo, c ∈ K

theorem perm_of_mem {l l' : List V} (h : l.Nodup) (h' : l'.Nodup) (e : ∀ c, c ∈ l ↔ c ∈ l') : l.Perm l' :=
  (List.perm_ext_iff_of_nodup h h').2 e

theorem bron_sound (hg : CliqueGraph k P adj) {o : Option (List V)} {r p x : List V} {out : List (List V)} (hb : Bron k o r p x out) :
    BronInv P adj r p x → (∀ todo, o = some todo → todo.Nodup ∧ ∀ c ∈ todo, c ∈ p) →
    (∀ K ∈ out, FoundBy P adj r p K ∧ Meets o K) ∧ out.Pairwise (fun K K' => ¬ K.Perm K') ∧
    ∀ K, FoundBy P adj r p K → Meets o K → ∃ K' ∈ out, K'.Perm K := by
  induction hb with
  | @done r =>
    intro hi _
    refine ⟨fun K hK => ?_, by simp, fun K hK _ => ⟨r, by simp, ?_⟩⟩
    · rw [List.mem_singleton] at hK
      subst hK
      refine ⟨⟨⟨hi.clique, fun c hc hr => ?_⟩, fun _ h => h, fun _ h => .inl h⟩, (fun _ e => nomatch e)⟩
      apply Classical.byContradiction
      intro hall
      have := (hi.all c).2 ⟨hc, hr, fun a ha => Classical.byContradiction fun h => hall ⟨a, ha, h⟩⟩
      simp at this
    · exact perm_of_mem hi.clique.nodup hK.max.nodup fun c => ⟨hK.sub c, fun h => (hK.sup c h).elim id (fun h => nomatch h)⟩
  | @dead r x hx =>
    intro hi _
    refine ⟨(fun K hK => nomatch hK), .nil, fun K hK _ => ?_⟩
    obtain ⟨c, l, rfl⟩ := List.exists_cons_of_ne_nil hx
    obtain ⟨h1, h2, h3⟩ := (hi.all c).1 (.inr (by simp))
    have hsub : ∀ a ∈ K, a ∈ r := fun a ha => (hK.sup a ha).elim id fun h => nomatch h
    obtain ⟨a, h4, h5⟩ := hK.max.maximal c h1 fun h => h2 (hsub c h)
    exact absurd (h3 a (hsub a h4)) h5
  | @call r p x todo u out hp hk ht _ ih =>
    intro hi _
    obtain ⟨h1, h2, h3⟩ := ih hi fun t e => by cases e; exact ⟨ht.1, fun c hc => ((ht.2 c).1 hc).1⟩
    refine ⟨fun K hK => ⟨(h1 K hK).1, (fun _ e => nomatch e)⟩, h2, fun K hK _ => h3 K hK fun t e => ?_⟩
    cases e
    apply Classical.byContradiction
    intro hno
    have hu := (hi.all u).1 (.inl hp.1)
    have hpt : ∀ c ∈ p, c ∈ K → u ≠ c ∧ adj c u := by
      intro c hc hcK
      have hnt : ¬ PivotKeeps k u c true := fun h => hno ⟨c, (ht.2 c).2 ⟨hc, h⟩, hcK⟩
      have hcn := ((hi.all c).1 (.inl hc)).1
      have hne : u ≠ c := fun e => hnt (.inl ⟨e, rfl⟩)
      obtain ⟨t, h4⟩ := hg.test u c hu.1 hcn
      obtain ⟨t', h5⟩ := hg.test c u hcn hu.1
      cases t with
      | false => exact absurd (.inr (.inl ⟨hne, h4, rfl⟩)) hnt
      | true =>
        cases t' with
        | false => exact absurd (.inr (.inr ⟨hne, h4, false, h5, rfl⟩)) hnt
        | true => exact ⟨hne, (hg.exact c u true hcn hu.1 h5).1 rfl⟩
    have huK : u ∉ K := fun h => (hpt u hp.1 h).1 rfl
    obtain ⟨a, h4, h5⟩ := hK.max.maximal u hu.1 huK
    rcases hK.sup a h4 with h6 | h6
    · exact h5 (hu.2.2 a h6)
    · exact h5 (hpt a h6 h4).2
  | last => exact fun _ _ => ⟨(fun K hK => nomatch hK), .nil, fun K _ hm => by obtain ⟨c, h, _⟩ := hm [] rfl; cases h⟩
  | @next r p x r' p' x' p1 x1 ns todo v out out' hn hp1 hr' hp' hx' _ hx1 _ ih ih' =>
    intro hi htodo
    obtain ⟨htn, htp⟩ := htodo _ rfl
    have hvp : v ∈ p := htp v (by simp)
    obtain ⟨hv, hvr, hva⟩ := (hi.all v).1 (.inl hvp)
    have hvx := hi.apart v hvp
    have hrn := hi.clique.node
    -- the inner call
    have i1 : BronInv P adj r' p' x' := by
      refine ⟨⟨hr'.1, fun c hc => ?_, fun a ha b hb hne => ?_⟩, hp'.1, hx'.1, fun c hc hcx => ?_, fun c => ?_⟩
      · rcases (hr'.2 c).1 hc with rfl | h
        · exact hv
        · exact hrn c h
      · rcases (hr'.2 a).1 ha with rfl | ha <;> rcases (hr'.2 b).1 hb with rfl | hb
        · exact absurd rfl hne
        · exact hg.symm _ _ (hrn b hb) hv (hva b hb)
        · exact hva a ha
        · exact hi.clique.pair a ha b hb hne
      · exact hi.apart c ((hp1.2 c).1 ((hp'.2 c).1 hc).1).1 ((hx'.2 c).1 hcx).1
      · have q1 : c ∈ p' ↔ c ∈ p1 ∧ c ∈ ns := hp'.2 c
        have q2 : c ∈ x' ↔ c ∈ x ∧ c ∈ ns := hx'.2 c
        have q3 : c ∈ p1 ↔ c ∈ p ∧ c ≠ v := hp1.2 c
        have q4 : c ∈ r' ↔ c = v ∨ c ∈ r := hr'.2 c
        rw [q1, q2, q3, q4]
        constructor
        · intro h
          have hpx : (c ∈ p ∨ c ∈ x) ∧ c ∈ ns ∧ c ≠ v := by
            rcases h with ⟨⟨h1, h2⟩, h3⟩ | ⟨h1, h3⟩
            · exact ⟨.inl h1, h3, h2⟩
            · exact ⟨.inr h1, h3, fun e => hvx (e ▸ h1)⟩
          obtain ⟨h1, h2, h3⟩ := hpx
          obtain ⟨h4, h5, h6⟩ := (hi.all c).1 h1
          refine ⟨h4, fun h => h.elim h3 h5, fun a ha => ?_⟩
          rcases (hr'.2 a).1 ha with rfl | ha
          · exact (hg.mem _ ns hv hn c h4).1 h2
          · exact h6 a ha
        · rintro ⟨h1, h2, h3⟩
          have h4 : c ∈ ns := (hg.mem v ns hv hn c h1).2 (h3 v ((hr'.2 v).2 (.inl rfl)))
          have h5 := (hi.all c).2 ⟨h1, fun h => h2 (.inr h), fun a ha => h3 a ((hr'.2 a).2 (.inr ha))⟩
          rcases h5 with h5 | h5
          · exact .inl ⟨⟨h5, fun e => h2 (.inl e)⟩, h4⟩
          · exact .inr ⟨h5, h4⟩
    -- the rest of the loop
    have i2 : BronInv P adj r p1 x1 := by
      refine ⟨hi.clique, hp1.1, hx1.1, fun c hc hcx => ?_, fun c => ?_⟩
      · obtain ⟨h1, h2⟩ := (hp1.2 c).1 hc
        exact ((hx1.2 c).1 hcx).elim h2 (hi.apart c h1)
      · have q1 : c ∈ p1 ↔ c ∈ p ∧ c ≠ v := hp1.2 c
        have q2 : c ∈ x1 ↔ c = v ∨ c ∈ x := hx1.2 c
        rw [← hi.all c, q1, q2]
        constructor
        · rintro (⟨h, -⟩ | rfl | h)
          · exact .inl h
          · exact .inl hvp
          · exact .inr h
        · rintro (h | h)
          · by_cases e : c = v
            · exact .inr (.inl e)
            · exact .inl ⟨h, e⟩
          · exact .inr (.inr h)
    obtain ⟨a1, a2, a3⟩ := ih i1 fun _ e => nomatch e
    obtain ⟨b1, b2, b3⟩ := ih' i2 fun t e => by
      cases e
      refine ⟨(List.nodup_cons.1 htn).2, fun c hc => (hp1.2 c).2 ⟨htp c (by simp [hc]), fun e => ?_⟩⟩
      exact (List.nodup_cons.1 htn).1 (e ▸ hc)
    have noV : ∀ K ∈ out', v ∉ K := fun K hK h => by
      rcases (b1 K hK).1.sup v h with h | h
      · exact hvr h
      · exact ((hp1.2 v).1 h).2 rfl
    have hasV : ∀ K ∈ out, v ∈ K := fun K hK => (a1 K hK).1.sub v ((hr'.2 v).2 (.inl rfl))
    refine ⟨fun K hK => ?_, List.pairwise_append.2 ⟨a2, b2, fun K hK K' hK' he => noV K' hK' (he.mem_iff.1 (hasV K hK))⟩, fun K hK hm => ?_⟩
    · rcases List.mem_append.1 hK with hK | hK
      · obtain ⟨h1, -⟩ := a1 K hK
        refine ⟨⟨h1.max, fun c hc => h1.sub c ((hr'.2 c).2 (.inr hc)), fun c hc => ?_⟩, fun t e => ⟨v, by cases e; simp, hasV K hK⟩⟩
        rcases h1.sup c hc with h | h
        · rcases (hr'.2 c).1 h with rfl | h
          · exact .inr hvp
          · exact .inl h
        · exact .inr ((hp1.2 c).1 ((hp'.2 c).1 h).1).1
      · obtain ⟨h1, h2⟩ := b1 K hK
        refine ⟨⟨h1.max, h1.sub, fun c hc => (h1.sup c hc).imp id fun h => ((hp1.2 c).1 h).1⟩, fun t e => ?_⟩
        cases e
        obtain ⟨c, h3, h4⟩ := h2 _ rfl
        exact ⟨c, by simp [h3], h4⟩
    · by_cases hvK : v ∈ K
      · have hF : FoundBy P adj r' p' K := by
          refine ⟨hK.max, fun c hc => ?_, fun c hc => ?_⟩
          · rcases (hr'.2 c).1 hc with rfl | h
            · exact hvK
            · exact hK.sub c h
          · by_cases e : c = v
            · exact .inl ((hr'.2 c).2 (.inl e))
            · rcases hK.sup c hc with h | h
              · exact .inl ((hr'.2 c).2 (.inr h))
              · exact .inr ((hp'.2 c).2 ⟨(hp1.2 c).2 ⟨h, e⟩, (hg.mem v ns hv hn c (hK.max.node c hc)).2
                  (hK.max.pair v hvK c hc fun e' => e e'.symm)⟩)
        obtain ⟨K', h1, h2⟩ := a3 K hF fun _ e => nomatch e
        exact ⟨K', List.mem_append_left _ h1, h2⟩
      · obtain ⟨c, h1, h2⟩ := hm _ rfl
        obtain ⟨K', h3, h4⟩ := b3 K ⟨hK.max, hK.sub, fun c hc => (hK.sup c hc).imp id fun h =>
          (hp1.2 c).2 ⟨h, fun e => hvK (e ▸ hc)⟩⟩ fun t e => ⟨c, by
            cases e
            rcases List.mem_cons.1 h1 with rfl | h
            · exact absurd h2 hvK
            · exact h, h2⟩
        exact ⟨K', List.mem_append_right _ h3, h4⟩

open Classical in
/-- Every call on nodes can be completed, and so can its loop, whatever was done before. -/
theorem bron_completes (hg : CliqueGraph k P adj) : ∀ (n : Nat) (p : List V), p.length ≤ n → p.Nodup → (∀ c ∈ p, P c) →
    (∀ r x, r.Nodup → x.Nodup → ∃ out, Bron k none r p x out) ∧
    ∀ todo r x, todo.Nodup → (∀ c ∈ todo, c ∈ p) → r.Nodup → x.Nodup → ∃ out, Bron k (some todo) r p x out := by
  intro n
  induction n with
  | zero =>
    intro p hp _ _
    have e : p = [] := List.eq_nil_of_length_eq_zero (by omega)
    subst e
    constructor
    · intro r x _ _
      cases x with
      | nil => exact ⟨_, .done⟩
      | cons c x => exact ⟨_, .dead (by simp)⟩
    · intro todo r x _ ht _ _
      cases todo with
      | nil => exact ⟨_, .last⟩
      | cons v todo => exact absurd (ht v (by simp)) (by simp)
  | succ n ih =>
    intro p hp hpn hpP
    have loop : ∀ todo r x, todo.Nodup → (∀ c ∈ todo, c ∈ p) → r.Nodup → x.Nodup → ∃ out, Bron k (some todo) r p x out := by
      intro todo r x htn htp hrn hxn
      cases todo with
      | nil => exact ⟨_, .last⟩
      | cons v todo =>
        have hv := htp v (by simp)
        obtain ⟨ns, hn⟩ := hg.nb v (hpP v hv)
        have hlen : (p.filter fun c => decide (c ≠ v)).length ≤ n := by
          have : (p.filter fun c => decide (c ≠ v)).length < p.length := List.length_filter_lt_length_iff_exists.2 ⟨v, hv, by simp⟩
          omega
        have hsub : ∀ c ∈ p.filter (fun c => decide (c ≠ v)), P c := fun c hc => hpP c ((List.mem_filter.1 hc).1)
        have hr : ∃ r', IsSet r' fun c => c = v ∨ c ∈ r := by
          by_cases h : v ∈ r
          · exact ⟨r, hrn, fun c => ⟨.inr, fun h' => h'.elim (fun e => e ▸ h) id⟩⟩
          · exact ⟨v :: r, List.nodup_cons.2 ⟨h, hrn⟩, fun c => List.mem_cons⟩
        have hx : ∃ x1, IsSet x1 fun c => c = v ∨ c ∈ x := by
          by_cases h : v ∈ x
          · exact ⟨x, hxn, fun c => ⟨.inr, fun h' => h'.elim (fun e => e ▸ h) id⟩⟩
          · exact ⟨v :: x, List.nodup_cons.2 ⟨h, hxn⟩, fun c => List.mem_cons⟩
        obtain ⟨r', hr⟩ := hr
        obtain ⟨x1, hx⟩ := hx
        have hp1n := hpn.filter (fun c => decide (c ≠ v))
        obtain ⟨out, h1⟩ := (ih ((p.filter fun c => decide (c ≠ v)).filter fun c => decide (c ∈ ns))
          (Nat.le_trans (List.length_filter_le _ _) hlen) (hp1n.filter _) fun c hc => hsub c ((List.mem_filter.1 hc).1)).1
            r' (x.filter fun c => decide (c ∈ ns)) hr.1 (hxn.filter _)
        obtain ⟨out', h2⟩ := (ih _ hlen hp1n hsub).2 todo r x1 (List.nodup_cons.1 htn).2 (fun c hc =>
          List.mem_filter.2 ⟨htp c (by simp [hc]), decide_eq_true fun e => (List.nodup_cons.1 htn).1 (e ▸ hc)⟩) hrn hx.1
        exact ⟨_, .next hn ⟨hp1n, fun c => by rw [List.mem_filter, decide_eq_true_eq]⟩ hr ⟨hp1n.filter _, fun c => by rw [List.mem_filter, decide_eq_true_eq]⟩ ⟨hxn.filter _, fun c => by rw [List.mem_filter, decide_eq_true_eq]⟩ h1 hx h2⟩
    refine ⟨fun r x hrn hxn => ?_, loop⟩
    cases hpe : p with
    | nil =>
      cases x with
      | nil => exact ⟨_, .done⟩
      | cons c x => exact ⟨_, .dead (by simp)⟩
    | cons c0 p0 =>
      rw [← hpe]
      have hdeg : ∀ v ∈ p, ∃ l, k.nb v l := fun v hv => hg.nb v (hpP v hv)
      -- some node has most neighbors
      have hmax : ∀ q : List V, q ≠ [] → (∀ v ∈ q, P v) →
          ∃ u ∈ q, ∀ v ∈ q, ∀ l l', k.nb v l → k.nb u l' → l.length ≤ l'.length := by
        intro q
        induction q with
        | nil => exact fun h => absurd rfl h
        | cons c q ihq =>
          intro _ hq
          have hc := hq c (by simp)
          by_cases e : q = []
          · subst e
            refine ⟨c, by simp, fun v hv l l' h1 h2 => ?_⟩
            rw [List.mem_singleton] at hv
            subst hv
            rw [hg.one _ l l' hc h1 h2]
            exact Nat.le_refl _
          · obtain ⟨u, hu, h3⟩ := ihq e fun v hv => hq v (by simp [hv])
            obtain ⟨lc, h4⟩ := hg.nb c hc
            obtain ⟨lu, h5⟩ := hg.nb u (hq u (by simp [hu]))
            by_cases hle : lc.length ≤ lu.length
            · refine ⟨u, by simp [hu], fun v hv l l' h6 h7 => ?_⟩
              rcases List.mem_cons.1 hv with rfl | hv
              · rw [hg.one _ l lc hc h6 h4, hg.one u l' lu (hq u (by simp [hu])) h7 h5]; exact hle
              · exact h3 v hv l l' h6 h7
            · refine ⟨c, by simp, fun v hv l l' h6 h7 => ?_⟩
              rw [hg.one _ l' lc hc h7 h4]
              rcases List.mem_cons.1 hv with rfl | hv
              · rw [hg.one _ l lc hc h6 h4]; exact Nat.le_refl _
              · have := h3 v hv l lu h6 h5
                omega
      obtain ⟨u, hu, hum⟩ := hmax p (by rw [hpe]; simp) hpP
      have hkeep : ∀ v ∈ p, ∃ b, PivotKeeps k u v b := by
        intro v hv
        by_cases e : u = v
        · exact ⟨true, .inl ⟨e, rfl⟩⟩
        · obtain ⟨t, h1⟩ := hg.test u v (hpP u hu) (hpP v hv)
          obtain ⟨t', h2⟩ := hg.test v u (hpP v hv) (hpP u hu)
          cases t with
          | false => exact ⟨true, .inr (.inl ⟨e, h1, rfl⟩)⟩
          | true => exact ⟨!t', .inr (.inr ⟨e, h1, t', h2, rfl⟩)⟩
      have hset : IsSet (p.filter fun v => decide (PivotKeeps k u v true)) fun v => v ∈ p ∧ PivotKeeps k u v true :=
        ⟨hpn.filter _, fun c => by rw [List.mem_filter, decide_eq_true_eq]⟩
      obtain ⟨out, h1⟩ := loop _ r x hset.1 (fun c hc => (List.mem_filter.1 hc).1) hrn hxn
      exact ⟨out, .call ⟨hu, hdeg, hum⟩ hkeep hset h1⟩

end
end LG

namespace LG
section
variable {V : Type} {P : V → Prop} {adj : V → V → Prop}

/-- If every clique is inside one of the cliques `blk i`, none of which is inside another, these are the maximal ones. -/
theorem maximal_iff_cover {I : Type} {keys : List I} {blk : I → List V} (hsym : ∀ a b, P a → P b → adj a b → adj b a)
    (h1 : ∀ i ∈ keys, IsClique P adj (blk i)) (h2 : ∀ K, IsClique P adj K → ∃ i ∈ keys, ∀ c ∈ K, c ∈ blk i)
    (h3 : ∀ i ∈ keys, ∀ j ∈ keys, (∀ c ∈ blk i, c ∈ blk j) → i = j) (K : List V) :
    IsMaximal P adj K ↔ ∃ i ∈ keys, K.Perm (blk i) := by
  constructor
  · intro hK
    obtain ⟨i, hi, hsub⟩ := h2 K hK.toIsClique
    refine ⟨i, hi, perm_of_mem hK.nodup (h1 i hi).nodup fun c => ⟨hsub c, fun hc => Classical.byContradiction fun hn => ?_⟩⟩
    obtain ⟨a, ha, h⟩ := hK.maximal c ((h1 i hi).node c hc) hn
    exact h ((h1 i hi).pair a (hsub a ha) c hc fun e => hn (e ▸ ha))
  · rintro ⟨i, hi, hp⟩
    have hc := h1 i hi
    refine ⟨⟨hp.nodup_iff.2 hc.nodup, fun c h => hc.node c (hp.mem_iff.1 h),
      fun a ha b hb => hc.pair a (hp.mem_iff.1 ha) b (hp.mem_iff.1 hb)⟩, fun c hPc hn => ?_⟩
    apply Classical.byContradiction
    intro hall
    have hadj : ∀ a ∈ blk i, adj a c := fun a ha => Classical.byContradiction fun h => hall ⟨a, hp.mem_iff.2 ha, h⟩
    have hcl : IsClique P adj (c :: blk i) := by
      refine ⟨List.nodup_cons.2 ⟨fun h => hn (hp.mem_iff.2 h), hc.nodup⟩, fun a ha => ?_, fun a ha b hb hne => ?_⟩
      · rcases List.mem_cons.1 ha with rfl | ha
        · exact hPc
        · exact hc.node a ha
      · rcases List.mem_cons.1 ha with ea | ha <;> rcases List.mem_cons.1 hb with eb | hb
        · exact absurd (ea.trans eb.symm) hne
        · exact ea ▸ hsym _ _ (hc.node b hb) hPc (hadj b hb)
        · exact eb ▸ hadj a ha
        · exact hc.pair a ha b hb hne
    obtain ⟨j, hj, hsub⟩ := h2 _ hcl
    have := h3 i hi j hj fun a ha => hsub a (by simp [ha])
    subst this
    exact hn (hp.mem_iff.2 (hsub c (by simp)))

/-- Two lists of the same things up to `Perm`, each once, are equally long. -/
theorem length_of_perms {I : Type} {blk : I → List V} : ∀ {keys : List I} {out : List (List V)}, keys.Nodup →
    (∀ i ∈ keys, ∀ j ∈ keys, (blk i).Perm (blk j) → i = j) → out.Pairwise (fun K K' => ¬ K.Perm K') →
    (∀ K ∈ out, ∃ i ∈ keys, K.Perm (blk i)) → (∀ i ∈ keys, ∃ K ∈ out, K.Perm (blk i)) → out.length = keys.length := by
  intro keys
  induction keys with
  | nil =>
    intro out _ _ _ h _
    cases out with
    | nil => rfl
    | cons K out => obtain ⟨i, hi, _⟩ := h K (by simp); cases hi
  | cons i keys ih =>
    intro out hn hinj hp h1 h2
    obtain ⟨K, hK, hKi⟩ := h2 i (by simp)
    obtain ⟨l1, l2, rfl⟩ := List.append_of_mem hK
    have hsplit := List.pairwise_append.1 hp
    have hcons := List.pairwise_cons.1 hsplit.2.1
    have hnotK : ∀ K' ∈ l1 ++ l2, ¬ K'.Perm K := by
      intro K' hK'
      rcases List.mem_append.1 hK' with h | h
      · exact hsplit.2.2 K' h K (by simp)
      · exact fun hp => hcons.1 K' h hp.symm
    have := ih (out := l1 ++ l2) (List.nodup_cons.1 hn).2 (fun a ha b hb => hinj a (by simp [ha]) b (by simp [hb]))
      (List.pairwise_append.2 ⟨hsplit.1, hcons.2, fun a ha b hb => hsplit.2.2 a ha b (by simp [hb])⟩) (fun K' hK' => ?_) (fun j hj => ?_)
    · simp only [List.length_append, List.length_cons] at this ⊢; omega
    · obtain ⟨j, hj, h⟩ := h1 K' (by
        rcases List.mem_append.1 hK' with h | h
        · exact List.mem_append_left _ h
        · exact List.mem_append_right _ (by simp [h]))
      rcases List.mem_cons.1 hj with rfl | hj
      · exact absurd (h.trans hKi.symm) (hnotK K' hK')
      · exact ⟨j, hj, h⟩
    · obtain ⟨K', hK', h⟩ := h2 j (by simp [hj])
      refine ⟨K', ?_, h⟩
      rcases List.mem_append.1 hK' with hm | hm
      · exact List.mem_append_left _ hm
      · rcases List.mem_cons.1 hm with rfl | hm
        · have := hinj j (by simp [hj]) i (by simp) (h.symm.trans hKi)
          subst this
          exact absurd hj (List.nodup_cons.1 hn).1
        · exact List.mem_append_right _ hm

/-- Numbers below `n` that differ by at most `d` lie in a window of the range. -/
theorem window (f : V → Nat) {d n : Nat} (hd : d < n) (K : List V) (h1 : ∀ c ∈ K, f c < n) (h2 : ∀ a ∈ K, ∀ b ∈ K, f a ≤ f b + d) :
    ∃ i, i + d < n ∧ ∀ c ∈ K, i ≤ f c ∧ f c ≤ i + d := by
  have hmin : K = [] ∨ ∃ a ∈ K, ∀ b ∈ K, f a ≤ f b := by
    clear h1 h2
    induction K with
    | nil => exact .inl rfl
    | cons c K ih =>
      refine .inr ?_
      rcases ih with rfl | ⟨a, ha, h⟩
      · exact ⟨c, by simp, fun b hb => by rw [List.mem_singleton] at hb; rw [hb]; exact Nat.le_refl _⟩
      · by_cases hle : f c ≤ f a
        · refine ⟨c, by simp, fun b hb => ?_⟩
          rcases List.mem_cons.1 hb with rfl | hb
          · exact Nat.le_refl _
          · exact Nat.le_trans hle (h b hb)
        · refine ⟨a, by simp [ha], fun b hb => ?_⟩
          rcases List.mem_cons.1 hb with rfl | hb
          · omega
          · exact h b hb
  rcases hmin with rfl | ⟨a, ha, h⟩
  · exact ⟨0, by omega, fun c hc => nomatch hc⟩
  · refine ⟨min (f a) (n - 1 - d), by omega, fun c hc => ?_⟩
    have := h1 c hc
    have := h2 c hc a ha
    have := h c hc
    omega
end

/-- The pairs `(x, y)` with `x < w` and `y < h`. -/
def grid (w h : Nat) : List (Nat × Nat) := (List.range w).flatMap fun x => (List.range h).map fun y => (x, y)

theorem mem_grid {w h : Nat} {p : Nat × Nat} : p ∈ grid w h ↔ p.1 < w ∧ p.2 < h := by
  obtain ⟨x, y⟩ := p
  simp [grid]

theorem length_grid (w h : Nat) : (grid w h).length = w * h := by
  simp only [grid, List.length_flatMap, List.length_map, List.length_range, List.map_const', List.sum_replicate_nat]

theorem nodup_grid (w h : Nat) : (grid w h).Nodup := by
  unfold grid List.Nodup
  rw [List.pairwise_flatMap]
  refine ⟨fun x _ => ?_, ?_⟩
  · rw [List.pairwise_map]
    exact List.nodup_range.imp fun h e => h (congrArg Prod.snd e)
  · refine List.nodup_range.imp fun h p hp q hq e => ?_
    simp only [List.mem_map] at hp hq
    obtain ⟨_, _, rfl⟩ := hp
    obtain ⟨_, _, rfl⟩ := hq
    exact h (congrArg Prod.fst e)
end LG
