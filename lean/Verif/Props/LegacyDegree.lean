import Verif.Props.LegacyRing
import Verif.Props.LegacyEdges
/- C111 on the deprecated `SquareGraph`: number of neighbors and greatest distance. -/
namespace LG.Sq
section
variable {N E : Type} {g : G N E} {k : Cfg} {h v : Nat} {c : Contents NodeIx Axis N E}

/-- On a looped side there are two ways to go, otherwise one for each end that is not reached. -/
def sideDegree (loop : Bool) (n x : Nat) : Nat := if loop then 2 else (if 0 < x then 1 else 0) + if x + 1 < n then 1 else 0
/-- Half the way round on a looped side, otherwise from end to end. -/
def sideSpan (loop : Bool) (n : Nat) : Nat := if loop then n / 2 else n - 1

theorem side_length {loop : Bool} {n x : Nat} (hx : x < n) :
    ((along loop n x (-1)).toList.length + (along loop n x 1).toList.length) = sideDegree loop n x := by
  unfold along sideDegree
  cases loop
  · have e1 : (0 ≤ (x : Int) + -1 ∧ (x : Int) + -1 < n) ↔ 0 < x := by omega
    have e2 : (0 ≤ (x : Int) + 1 ∧ (x : Int) + 1 < n) ↔ x + 1 < n := by omega
    simp only [e1, e2, Bool.false_eq_true, if_false]
    split <;> split <;> rfl
  · simp only [if_true]
    split <;> split <;> rfl

theorem nbrs_degree {n : NodeIx} (hn : (k.grid h v).Node n) :
    ((k.grid h v).nbrs n).length = sideDegree k.loopH h n.horizontal + sideDegree k.loopV v n.vertical := by
  rw [← side_length (loop := k.loopH) (show n.horizontal < h from hn.1), ← side_length (loop := k.loopV) (show n.vertical < v from hn.2)]
  unfold Grid.nbrs Grid.dirs Grid.step
  simp only [List.filterMap_cons, List.filterMap_nil, Cfg.grid]
  cases along k.loopH h n.horizontal (-1) <;> cases along k.loopH h n.horizontal 1 <;> cases along k.loopV v n.vertical (-1) <;>
    cases along k.loopV v n.vertical 1 <;> rfl

/-- **C111** for the deprecated graph: how many items `neighbors(n)` and `edges(n)` yield. On a looped side it is two even if the side has but one
or two nodes: then the same node comes twice. -/
theorem c111_legacy_degree (hb : Built k h v g c) (hf : k.Fits h v) {n : NodeIx} (hn : n.horizontal < h ∧ n.vertical < v) :
    ∃ l rs, Yields (Nbrs.next k) (g.neighbors n) l ∧ Yields (EdgesOf.next g) (g.edges n) rs ∧
      l.length = sideDegree k.loopH h n.horizontal + sideDegree k.loopV v n.vertical ∧
      rs.length = sideDegree k.loopH h n.horizontal + sideDegree k.loopV v n.vertical := by
  have hn : (k.grid h v).Node n := hn
  obtain ⟨rs, h1, h2⟩ := c47_edges hb hf hn
  refine ⟨_, rs, c46_neighbors hb hf hn, h1, nbrs_degree hn, ?_⟩
  have h3 := congrArg List.length (c47_meaning hb hn).1
  rw [List.length_map, nbrs_degree hn] at h3
  rw [← h3]
  have key : ∀ {rs : List (Ref E)} {l}, rs.mapM (Ref.view k) = .ok l → rs.length = l.length := fun {rs} => by
    induction rs with
    | nil => intro l hl; cases hl; rfl
    | cons r rs ih =>
      intro l hl
      rw [List.mapM_cons] at hl
      cases e1 : Ref.view k r with
      | error x => rw [e1] at hl; cases hl
      | ok w =>
        cases e2 : rs.mapM (Ref.view k) with
        | error x => rw [e1, e2] at hl; cases hl
        | ok ws => rw [e1, e2] at hl; cases hl; rw [List.length_cons, List.length_cons, ih e2]
  exact key h2

theorem around_le {loop : Bool} {n i j : Nat} (hi : i < n) (hj : j < n) : around loop n i j ≤ sideSpan loop n := by
  unfold around sideSpan
  cases loop <;> simp <;> omega

theorem around_far {loop : Bool} {n : Nat} (hn : 0 < n) : sideSpan loop n < n ∧ around loop n 0 (sideSpan loop n) = sideSpan loop n := by
  unfold around sideSpan
  cases loop <;> simp <;> omega

/-- **C111** for the deprecated graph: any two nodes are at most so far apart, and some two nodes are. -/
theorem c111_legacy_diameter (hb : Built k h v g c) (hf : k.Fits h v) (hh : 0 < h) (hv : 0 < v) :
    (∀ a b : NodeIx, a.horizontal < h ∧ a.vertical < v → b.horizontal < h ∧ b.vertical < v →
      ∃ m, m ≤ sideSpan k.loopH h + sideSpan k.loopV v ∧ Walk g a m b) ∧
    ∃ a b : NodeIx, (a.horizontal < h ∧ a.vertical < v) ∧ (b.horizontal < h ∧ b.vertical < v) ∧
      ∀ m, Walk g a m b → sideSpan k.loopH h + sideSpan k.loopV v ≤ m := by
  refine ⟨fun a b ha hb' => ⟨_, Nat.add_le_add (around_le ha.1 hb'.1) (around_le ha.2 hb'.2), (c103_shortest hb hf ha hb').1⟩,
    ⟨0, 0⟩, ⟨sideSpan k.loopH h, sideSpan k.loopV v⟩, ⟨hh, hv⟩, ⟨(around_far hh).1, (around_far hv).1⟩, fun m hm => ?_⟩
  have := (c103_shortest hb hf (a := ⟨0, 0⟩) (b := ⟨sideSpan k.loopH h, sideSpan k.loopV v⟩) ⟨hh, hv⟩ ⟨(around_far hh).1, (around_far hv).1⟩).2 m hm
  rwa [ringDist, (around_far hh).2, (around_far hv).2] at this
end

/-- Three columns closed to circles, two rows: a corner has three neighbors, and no two nodes are more than two steps apart. -/
example : ∃ (g : G Nat Nat) (c : Contents NodeIx Axis Nat Nat) (l : List NodeIx), Built exCfg 3 2 g c ∧
    Yields (Nbrs.next exCfg) (g.neighbors ⟨0, 0⟩) l ∧ l.length = 3 ∧ ∃ m, m ≤ 2 ∧ Walk g ⟨0, 0⟩ m ⟨2, 1⟩ := by
  obtain ⟨g, c, hb, _⟩ := exGraph exCfg (by decide)
  have hf : exCfg.Fits 3 2 := ⟨by decide, by decide⟩
  obtain ⟨l, _, h1, _, h2, _⟩ := c111_legacy_degree hb hf (n := ⟨0, 0⟩) ⟨by decide, by decide⟩
  exact ⟨g, c, l, hb, h1, h2, (c111_legacy_diameter hb hf (by decide) (by decide)).1 ⟨0, 0⟩ ⟨2, 1⟩ ⟨by decide, by decide⟩ ⟨by decide, by decide⟩⟩
end LG.Sq
