import Verif.Lemmas.DominatorsPost
import Verif.Props.LegacyScc
import Verif.Props.LegacyCut
import Verif.Props.LegacyArticulation
/- C124 on the deprecated `SquareGraph`: `dominators::simple_fast`. -/
namespace LG.Sq
section
variable {N E : Type} {g : G N E} {k : Cfg} {h v : Nat} {c : Contents NodeIx Axis N E}

theorem dominating_square (hb : Built k h v g c) (hf : k.Fits h v) {a : NodeIx} (ha : (k.grid h v).Node a) :
    (∃ post d f r, PostTo g.rovable g.rovable.neighbors [a] g.rovable.visitMap g.rovable.visitMap post d f ∧ post.length = r + 1 ∧
      (∃ P, DomPreds g.rovable.neighbors post P) ∧
      ∀ P, DomPreds g.rovable.neighbors post P → ∃ dom, DomLoop P r (tset (fun _ => none) r (some r)) dom) ∧
    ∀ post dom, Dominating g.rovable a post dom → post.Nodup ∧ (∀ n, n ∈ post ↔ ∃ l, Way (Walk g · 1 ·) a l n) ∧
      ∀ n ∈ post, (∀ d, immediateDominator a post dom n = some d ↔ ImmediatelyDominates (Walk g · 1 ·) a d n) ∧
        ∃ l, (∀ l', DominatorsOf a post dom n l' ↔ l' = l) ∧ l.Nodup ∧ ∀ e, e ∈ l ↔ Dominates (Walk g · 1 ·) a e n := by
  have hm : ∀ {n}, n ∈ (k.grid h v).nodes ↔ (k.grid h v).Node n := fun {n} => (c45_nodes_exact _).2.1 n
  exact dominating_spec (roams hb hf) (fun hx y => (walk_one hb hf (hm.1 hx)).symm)
    (fun hc hy => hm.2 (c46_neighbors_nodes _ (hm.1 hc) hy).1) (hm.2 ha)

/-- **C124** for the deprecated graph: `simple_fast` returns, in whatever order its sets of predecessors come. -/
theorem c124_legacy_runs (hb : Built k h v g c) (hf : k.Fits h v) {a : NodeIx} (ha : (k.grid h v).Node a) :
    ∃ post d f r, PostTo g.rovable g.rovable.neighbors [a] g.rovable.visitMap g.rovable.visitMap post d f ∧ post.length = r + 1 ∧
      (∃ P, DomPreds g.rovable.neighbors post P) ∧
      ∀ P, DomPreds g.rovable.neighbors post P → ∃ dom, DomLoop P r (tset (fun _ => none) r (some r)) dom :=
  (dominating_square hb hf ha).1

/-- **C124** for the deprecated graph: every node has its immediate dominator, but for the root, and `dominators` lists the nodes on every way to
it: the root, and those without which it cannot be reached. -/
theorem c124_legacy (hb : Built k h v g c) (hf : k.Fits h v) {a n : NodeIx} (ha : (k.grid h v).Node a) (hn : (k.grid h v).Node n)
    {post : List NodeIx} {dom : Nat → Option Nat} (hd : Dominating g.rovable a post dom) :
    (∀ d, immediateDominator a post dom n = some d ↔ ImmediatelyDominates (Walk g · 1 ·) a d n) ∧
      ∃ l, (∀ l', DominatorsOf a post dom n l' ↔ l' = l) ∧ l.Nodup ∧ (∀ e, e ∈ l ↔ Dominates (Walk g · 1 ·) a e n) ∧
        ∀ e, e ≠ a → (e ∈ l ↔ ¬ Ways (Around (Walk g · 1 ·) e) a n) := by
  obtain ⟨-, h1, h2⟩ := (dominating_square hb hf ha).2 post dom hd
  obtain ⟨q1, l, q2, q3, q4⟩ := h2 n ((h1 n).2 (ways_exists hb hf ha hn).way)
  exact ⟨q1, l, q2, q3, q4, fun e e1 => (q4 e).trans (dominates_around e1)⟩

/-- **C124** for the deprecated graph: unless it is a single row or column that is not looped, the root is the immediate dominator of every
other node. -/
theorem c124_legacy_root (hb : Built k h v g c) (hf : k.Fits h v) (h1 : h = 1 → k.loopV = true) (h2 : v = 1 → k.loopH = true) {a n : NodeIx}
    (ha : (k.grid h v).Node a) (hn : (k.grid h v).Node n) (hne : n ≠ a) {post : List NodeIx} {dom : Nat → Option Nat}
    (hd : Dominating g.rovable a post dom) : immediateDominator a post dom n = some a := by
  refine ((c124_legacy hb hf ha hn hd).1 a).2 (immediately_root hne fun e e1 e2 => Classical.byContradiction fun hw => ?_)
  have hway : ∀ {l x}, Way (Walk g · 1 ·) a l x → (k.grid h v).Node x ∧ ∀ y ∈ l, (k.grid h v).Node y := fun {l x} hl => by
    induction hl with
    | here => exact ⟨ha, by simpa using ha⟩
    | step _ hr ih =>
      have := (c46_neighbors_nodes _ ih.1 ((walk_one hb hf ih.1).1 hr)).1
      refine ⟨this, fun z hz => ?_⟩
      rcases List.mem_cons.1 hz with rfl | hz
      · exact this
      · exact ih.2 z hz
  have he : (k.grid h v).Node e := by
    obtain ⟨l, hl⟩ := (ways_exists hb hf ha hn).way
    exact (hway hl).2 e ((dominates_around e1).2 hw l hl)
  have := (c114_legacy_node hb hf he).1 ⟨a, n, ha, hn, fun e' => e1 e'.symm, fun e' => e2 e'.symm, hw⟩
  rcases this with ⟨q1, q2, -⟩ | ⟨q1, q2, -⟩
  · rw [h1 q1] at q2; cases q2
  · rw [h2 q1] at q2; cases q2
end

example : ∃ (g : G Nat Nat) (post : List NodeIx) (dom : Nat → Option Nat) (l : List NodeIx), Dominating g.rovable ⟨0, 0⟩ post dom ∧
    immediateDominator ⟨0, 0⟩ post dom ⟨2, 1⟩ = some ⟨0, 0⟩ ∧ DominatorsOf ⟨0, 0⟩ post dom ⟨2, 1⟩ l ∧
    ∀ e, e ∈ l ↔ Dominates (Walk g · 1 ·) ⟨0, 0⟩ e ⟨2, 1⟩ := by
  obtain ⟨g, c, hb, _⟩ := exGraph exCfg (by decide)
  have hf : exCfg.Fits 3 2 := ⟨by decide, by decide⟩
  have ha : (exCfg.grid 3 2).Node ⟨0, 0⟩ := ⟨by decide, by decide⟩
  have hn : (exCfg.grid 3 2).Node ⟨2, 1⟩ := ⟨by decide, by decide⟩
  obtain ⟨post, d, f, r, h1, h2, ⟨P, h3⟩, h4⟩ := c124_legacy_runs hb hf ha
  obtain ⟨dom, h5⟩ := h4 P h3
  have hd : Dominating g.rovable ⟨0, 0⟩ post dom := ⟨d, f, P, r, h1, h3, h2, h5⟩
  obtain ⟨-, l, q1, -, q3, -⟩ := c124_legacy hb hf ha hn hd
  exact ⟨g, post, dom, l, hd, c124_legacy_root hb hf (by decide) (by decide) ha hn (by decide) hd, (q1 l).2 rfl, q3⟩
end LG.Sq
