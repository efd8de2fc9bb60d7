import Verif.Props.DominatorsRow
import Verif.Props.LegacyDominators
/- C124 on the deprecated `SquareGraph`: the whole result. -/
namespace LG.Sq
section
variable {N E : Type} {g : G N E} {k : Cfg} {h v : Nat} {c : Contents NodeIx Axis N E}

/-- **C124** for the deprecated graph, the whole result. On a single row or column that is not looped: the next node on the side of the root, and
all from the root on. Otherwise: the root, and nothing but the root and the node itself. -/
theorem c124_legacy_exact (hb : Built k h v g c) (hf : k.Fits h v) {x y x' y' : Nat} (hx : x < h) (hy : y < v) (hx' : x' < h) (hy' : y' < v)
    {post : List NodeIx} {dom : Nat → Option Nat} (hd : Dominating g.rovable ⟨x, y⟩ post dom) :
    immediateDominator ⟨x, y⟩ post dom ⟨x', y'⟩ = (if x' = x ∧ y' = y then none else
      if Thin h v k.loopH k.loopV then some ⟨nextTo x x', nextTo y y'⟩ else some ⟨x, y⟩) ∧
    ∃ l, (∀ l', DominatorsOf ⟨x, y⟩ post dom ⟨x', y'⟩ l' ↔ l' = l) ∧ l.Nodup ∧
      ∀ n, n ∈ l ↔ if Thin h v k.loopH k.loopV then FromTo x n.horizontal x' ∧ FromTo y n.vertical y' else n = ⟨x, y⟩ ∨ n = ⟨x', y'⟩ := by
  have ha : (k.grid h v).Node ⟨x, y⟩ := ⟨hx, hy⟩
  have hn : (k.grid h v).Node ⟨x', y'⟩ := ⟨hx', hy'⟩
  have hg := legacy_gridlike hb hf
  obtain ⟨h1, l, h2, h3, h4, -⟩ := c124_legacy hb hf ha hn hd
  by_cases e0 : x' = x ∧ y' = y
  · obtain ⟨rfl, rfl⟩ := e0
    refine ⟨by rw [if_pos ⟨rfl, rfl⟩, immediateDominator, if_pos rfl], l, h2, h3, fun n => ?_⟩
    have own : n ∈ l ↔ n = ⟨x', y'⟩ := (h4 n).trans ⟨fun h => by simpa using h _ .here, fun e _ h => e ▸ h.last⟩
    rw [own]
    split
    · cases n
      simp only [FromTo, NodeIx.mk.injEq]
      omega
    · exact (or_self _).symm ▸ .rfl
  rw [if_neg e0]
  by_cases hh : v = 1 ∧ k.loopH = false
  · have ht : Thin h v k.loopH k.loopV := .inr hh
    obtain ⟨rfl, hl⟩ := hh
    rw [hl] at hg
    obtain rfl : y = 0 := by omega
    obtain rfl : y' = 0 := by omega
    refine ⟨by rw [if_pos ht]; exact (h1 _).2 (hg.immediately hx hx' (by omega)), l, h2, h3, fun n => ?_⟩
    rw [if_pos ht, h4]
    refine (hg.dominates hx hx' n).trans ?_
    cases n
    simp only [NodeIx.mk.injEq]
    exact ⟨fun ⟨e, e1, e2, e3⟩ => ⟨e2 ▸ e1, by simp only [FromTo]; omega⟩, fun ⟨e1, e2⟩ => ⟨_, e1, rfl, by simp only [FromTo] at e2; omega⟩⟩
  by_cases hw : h = 1 ∧ k.loopV = false
  · have ht : Thin h v k.loopH k.loopV := .inl hw
    obtain ⟨rfl, hl⟩ := hw
    rw [hl] at hg
    obtain rfl : x = 0 := by omega
    obtain rfl : x' = 0 := by omega
    refine ⟨by rw [if_pos ht]; exact (h1 _).2 (hg.swap.immediately hy hy' (by omega)), l, h2, h3, fun n => ?_⟩
    rw [if_pos ht, h4]
    refine (hg.swap.dominates hy hy' n).trans ?_
    cases n
    simp only [NodeIx.mk.injEq]
    exact ⟨fun ⟨e, e1, e3, e2⟩ => ⟨by simp only [FromTo]; omega, e2 ▸ e1⟩, fun ⟨e2, e1⟩ => ⟨_, e1, by simp only [FromTo] at e2; omega, rfl⟩⟩
  have ht : ¬ Thin h v k.loopH k.loopV := fun e => e.elim hw hh
  have hi := c124_legacy_root hb hf (fun e => by cases e1 : k.loopV; exact absurd ⟨e, e1⟩ hw; rfl)
    (fun e => by cases e1 : k.loopH; exact absurd ⟨e, e1⟩ hh; rfl) ha hn (fun e => e0 (by cases e; exact ⟨rfl, rfl⟩)) hd
  refine ⟨by rw [if_neg ht]; exact hi, l, h2, h3, fun n => ?_⟩
  obtain ⟨-, i2, i3⟩ := (h1 _).1 hi
  rw [if_neg ht, h4]
  exact ⟨fun hv => Classical.byCases .inr fun e => .inl (by simpa using i3 n e hv _ .here), fun e => e.elim (fun e => e ▸ i2) fun e _ h => e ▸ h.last⟩
end

/-- A row of four that does not go round: from the first node, the last is reached past the third and the second. -/
example : ∃ (g : G Nat Nat) (post : List NodeIx) (dom : Nat → Option Nat) (l : List NodeIx), Dominating g.rovable ⟨0, 0⟩ post dom ∧
    immediateDominator ⟨0, 0⟩ post dom ⟨3, 0⟩ = some ⟨2, 0⟩ ∧ DominatorsOf ⟨0, 0⟩ post dom ⟨3, 0⟩ l ∧ ⟨1, 0⟩ ∈ l := by
  obtain ⟨g, h1, _⟩ := newWith_ok (N := Nat) (E := Nat) { exCfg with loopH := false, loopV := true } (h := 4) (v := 1) (by decide) (by decide)
    (by decide) (fun u i j => (10 * i + j, u)) (fun u i j a => ((if a = .horizontal then 100 else 200) + 10 * i + j, u)) ()
  have hf : ({ exCfg with loopH := false, loopV := true } : Cfg).Fits 4 1 := ⟨by decide, by decide⟩
  have hb := Built.new h1 (by decide)
  obtain ⟨post, d, f, r, h1, h2, ⟨P, h3⟩, h4⟩ := c124_legacy_runs hb hf (a := ⟨0, 0⟩) ⟨by decide, by decide⟩
  obtain ⟨dom, h5⟩ := h4 P h3
  have hd : Dominating g.rovable ⟨0, 0⟩ post dom := ⟨d, f, P, r, h1, h3, h2, h5⟩
  obtain ⟨q1, l, q2, -, q3⟩ := c124_legacy_exact hb hf (x := 0) (y := 0) (x' := 3) (y' := 0) (by decide) (by decide) (by decide) (by decide) hd
  refine ⟨g, post, dom, l, hd, q1, (q2 l).2 rfl, (q3 _).2 ?_⟩
  rw [if_pos (by decide)]
  simp only [FromTo]
  omega
end LG.Sq
