import Verif.Model.TopoWalk
import Verif.Props.Events
/- C117: the walker `Topo` of petgraph. -/
set_option linter.unusedSectionVars false
namespace LG
section
variable {C M : Type} [DecidableEq C] {T : Rovable C M} {nodes : List C} {Ok : C → Prop} {nb : C → List C} {Vis : M → (C → Bool) → Prop}

theorem topoInit_iff (hT : Roams T nodes Ok nb Vis) : ∀ {ids : List C}, (∀ c ∈ ids, c ∈ nodes) →
    ∀ st, TopoInit T ids st ↔ st = ids.filter (fun c => (nb c).isEmpty)
  | [], _, st => ⟨fun h => by cases h; rfl, fun h => by rw [h]; exact .done⟩
  | c :: cs, hi, st => by
    have hc := hT.incoming (hi c List.mem_cons_self)
    have ih := topoInit_iff hT (ids := cs) fun x h => hi x (List.mem_cons_of_mem _ h)
    constructor
    · intro h
      cases h with
      | keep h1 h2 =>
        have := hT.uniqueI h1 hc
        rw [(ih _).1 h2, List.filter_cons, if_pos (by rw [← this]; rfl)]
      | drop h1 h2 =>
        have := hT.uniqueI h1 hc
        rw [(ih _).1 h2, List.filter_cons, if_neg (by rw [← this]; simp)]
    · intro h
      rw [h, List.filter_cons]
      cases e : nb c with
      | nil => rw [e] at hc; exact .keep hc ((ih _).2 rfl)
      | cons x l => rw [e] at hc; exact .drop hc ((ih _).2 rfl)

theorem topoRun_iff (hT : Roams T nodes Ok nb Vis) : ∀ {st : List C} {o : M} {S : C → Bool}, Vis o S → st.Nodup →
    (∀ c ∈ st, c ∈ nodes ∧ nb c = [] ∧ S c = false) → ∀ l, TopoRun T st o l ↔ l = st
  | [], _, _, _, _, _, l => ⟨fun h => by cases h; rfl, fun h => by rw [h]; exact .done⟩
  | c :: st, o, S, hv, hd, hi, l => by
    obtain ⟨h1, h2, h3⟩ := hi c List.mem_cons_self
    have his := hT.isVisited hv (hT.node_ok h1)
    rw [h3] at his
    obtain ⟨o', h4, h5⟩ := hT.visit hv h1
    have hn := hT.neighbors h1
    rw [h2] at hn
    have ih := topoRun_iff hT h5 (List.nodup_cons.1 hd).2 fun x hx => by
      obtain ⟨q1, q2, q3⟩ := hi x (List.mem_cons_of_mem _ hx)
      refine ⟨q1, q2, ?_⟩
      rw [if_neg (fun (e : x = c) => (List.nodup_cons.1 hd).1 (e ▸ hx)), q3]
    constructor
    · intro h
      cases h with
      | skip h1' _ => rw [his] at h1'; cases h1'
      | next _ h2' h3' h4' h5' =>
        rw [h4] at h2'
        cases h2'
        cases hT.uniqueN h3' hn
        cases h4'
        rw [(ih _).1 h5']
    · intro h
      rw [h]
      exact .next his h4 hn .done ((ih _).2 rfl)

theorem topoWalk_iff (hT : Roams T nodes Ok nb Vis) (l : List C) : TopoWalk T l ↔ l = (nodes.filter (fun c => (nb c).isEmpty)).reverse := by
  have hr := topoRun_iff hT (st := (nodes.filter (fun c => (nb c).isEmpty)).reverse) hT.new
    (by rw [List.nodup_iff_count]; intro a; rw [List.count_reverse]; exact List.nodup_iff_count.1 (hT.nodup.filter _) a)
    (fun c hc => by
      have := List.mem_filter.1 (List.mem_reverse.1 hc)
      exact ⟨this.1, List.isEmpty_iff.1 this.2, rfl⟩) l
  constructor
  · rintro ⟨ids, st, h1, h2, h3⟩
    cases hT.uniqueIds h1 hT.ids
    rw [(topoInit_iff hT (fun _ h => h) st).1 h2] at h3
    exact hr.1 h3
  · exact fun h => ⟨nodes, _, hT.ids, (topoInit_iff hT (fun _ h => h) _).2 rfl, hr.2 h⟩
end

section
variable {C A D N E : Type} [DecidableEq C] [DecidableEq A] [DecidableEq D]
variable {g : Graph C A D N E} {s : Shape C A D} {L : Lat C A D} {rep : C → Prop} {k : Contents C A N E}

/-- `c` can be walked to from a node that a walk leads back to. -/
def BehindCycle (L : Lat C A D) (g : Graph C A D N E) (c : C) : Prop := ∃ a n, L.Node a ∧ InWalk g.s a (n + 1) a ∧ Walkable g a c

/-- What a topological walk has to return: the nodes that no cycle leads to, each once, edges among them leading onwards. -/
def RightWalk (L : Lat C A D) (g : Graph C A D N E) (l : List C) : Prop :=
  l.Nodup ∧ (∀ c, c ∈ l ↔ L.Node c ∧ ¬ BehindCycle L g c) ∧ ∀ l1 l2 a b, l = l1 ++ a :: l2 → InWalk g.s a 1 b → b ∈ l → b ∈ l2

/-- **C117**, for all shapes: `Topo` ends without a fault, and returns the nodes for which `neighbors` yields nothing, the last first. The
full claim is `RightWalk`; see `c117_exact`. -/
theorem c117_walk_partial (hs : Searchable s L rep) (hb : Built s L g k) :
    ∃ l, (∀ l', TopoWalk g.rovable l' ↔ l' = l) ∧ l.Nodup ∧ (∀ c, c ∈ l ↔ L.Node c ∧ Yields (neighborsNext g.s c) 0 []) ∧
      l.reverse.Sublist L.nodes := by
  have hT := hs.roams hb
  refine ⟨_, topoWalk_iff hT, ?_, fun c => ?_, ?_⟩
  · rw [List.nodup_iff_count]; intro a; rw [List.count_reverse]; exact List.nodup_iff_count.1 (hT.nodup.filter _) a
  · rw [List.mem_reverse, List.mem_filter, Lat.mem_nodes, List.isEmpty_iff]
    refine and_congr_right fun hc => ⟨fun h => ?_, fun h => ?_⟩
    · have := hT.neighbors (Lat.mem_nodes.2 hc)
      rw [h] at this
      exact this
    · exact hT.uniqueN (hT.neighbors (Lat.mem_nodes.2 hc)) h
  · rw [List.reverse_reverse]
    exact List.filter_sublist

/-- **C117**, exactly when the result is right: `neighbors` yields nothing for just those nodes that no cycle leads to. -/
theorem c117_exact (hs : Searchable s L rep) (hb : Built s L g k) {l : List C} (h : TopoWalk g.rovable l) :
    RightWalk L g l ↔ ∀ c, L.Node c → (Yields (neighborsNext g.s c) 0 [] ↔ ¬ BehindCycle L g c) := by
  obtain ⟨l', h1, h2, h3, -⟩ := c117_walk_partial hs hb
  cases (h1 l).1 h
  constructor
  · intro hr c hc
    rw [← and_iff_right_of_imp (fun _ => hc) (a := L.Node c) (b := Yields (neighborsNext g.s c) 0 []), ← h3, hr.2.1, and_iff_right hc]
  · intro hr
    refine ⟨h2, fun c => (h3 c).trans (and_congr_right fun hc => hr c hc), fun l1 l2 a b e hw _ => ?_⟩
    obtain ⟨hn, hy⟩ := (h3 a).1 (by rw [e]; simp)
    rw [inWalk_one hs hb hn, mem_within] at hw
    rw [(hs.roams hb).uniqueN ((hs.roams hb).neighbors (Lat.mem_nodes.2 hn)) hy] at hw
    cases hw.1

/-- **C117.** On the shapes that obey the laws the result is right: what is listed has no edge at all, everything else is on a cycle. -/
theorem c117_lawful (hs : Lawful s L rep) (hb : Built s L g k) {l : List C} (h : TopoWalk g.rovable l) : RightWalk L g l := by
  have hT := hs.searchable.roams hb
  refine (c117_exact hs.searchable hb h).2 fun c hc => ⟨fun hy => ?_, fun hno => ?_⟩
  · have hnil : L.nbrs c = [] := hT.uniqueN (hT.neighbors (Lat.mem_nodes.2 hc)) hy
    have hfirst : ∀ {n x}, ¬ InWalk g.s c (n + 1) x := fun hw => by
      obtain ⟨b, hb'⟩ := hw.one
      rw [inWalk_one hs.searchable hb hc, mem_within, hnil] at hb'
      cases hb'.1
    rintro ⟨a, n, ha, hw, hac⟩
    obtain ⟨j, hca⟩ := hs.leads_symm hb ha hac
    cases j with
    | zero => cases hca; exact hfirst hw
    | succ j => exact hfirst hca
  · have hn := hT.neighbors (Lat.mem_nodes.2 hc)
    cases e : L.nbrs c with
    | nil => rw [e] at hn; exact hn
    | cons x r =>
      exfalso
      have hx : x ∈ L.nbrs c := by rw [e]; exact List.mem_cons_self
      obtain ⟨hxn, hback⟩ := nbrs_back hs hc hx
      have h1 := (inWalk_one hs.searchable hb hc).2 (mem_within.2 ⟨hx, Lat.mem_nodes.2 hxn⟩)
      have h2 := (inWalk_one hs.searchable hb hxn).2 (mem_within.2 ⟨hback, Lat.mem_nodes.2 hc⟩)
      rw [inWalk_iff hs.searchable hb hc] at h1
      rw [inWalk_iff hs.searchable hb hxn] at h2
      exact hno ⟨c, 1, hc, (inWalk_iff hs.searchable hb hc).2 (h1.trans h2), 0, .nil⟩

/-- **C117.** On a connected map (C68) of at least two nodes nothing is returned, which is right. -/
theorem c117_single (hs : Single s L rep) (hb : Built s L g k) {a b : C} (ha : L.Node a) (hb' : L.Node b) (hne : a ≠ b) {l : List C}
    (h : TopoWalk g.rovable l) : l = [] ∧ RightWalk L g l := by
  have hss := hs.stored.searchable
  have hT := hss.roams hb
  have hlong : ∀ {c}, L.Node c → ∃ x n, L.Node x ∧ InWalk g.s c (n + 1) x ∧ Walkable g x c := by
    intro c hc
    obtain ⟨x, hx, hcx⟩ : ∃ x, L.Node x ∧ c ≠ x := by
      by_cases e : c = a
      · exact ⟨b, hb', e ▸ hne⟩
      · exact ⟨a, ha, e⟩
    obtain ⟨n, hw⟩ := (c68_connected hs hb hc).1 hx
    cases n with
    | zero => cases hw; exact absurd rfl hcx
    | succ n => exact ⟨x, n, hx, hw, (c68_connected hs hb hx).1 hc⟩
  have hout : ∀ {c}, L.Node c → ¬ Yields (neighborsNext g.s c) 0 [] := fun {c} hc hy => by
    obtain ⟨x, n, -, hw, -⟩ := hlong hc
    obtain ⟨y, hw⟩ := hw.one
    rw [inWalk_one hss hb hc, mem_within] at hw
    rw [hT.uniqueN (hT.neighbors (Lat.mem_nodes.2 hc)) hy] at hw
    cases hw.1
  refine ⟨?_, (c117_exact hss hb h).2 fun c hc => ⟨fun hy => absurd hy (hout hc), fun hno => absurd ?_ hno⟩⟩
  · obtain ⟨l', h1, -, h3, -⟩ := c117_walk_partial hss hb
    cases (h1 l).1 h
    exact List.eq_nil_iff_forall_not_mem.2 fun c hc => hout ((h3 c).1 hc).1 ((h3 c).1 hc).2
  · obtain ⟨x, n, hx, hw, j, hw'⟩ := hlong hc
    rw [inWalk_iff hss hb hc] at hw
    rw [inWalk_iff hss hb hx] at hw'
    have := hw.trans hw'
    rw [Nat.add_right_comm] at this
    exact ⟨c, n + j, hc, (inWalk_iff hss hb hc).2 this, 0, .nil⟩
end

/-- **C117** fails on every map in double coordinates with at least two nodes: some node in the east has no incoming edge, but outgoing
ones, and is never returned. -/
theorem c117_double {m : Machine} {h v : Nat} {N E : Type} {g : Graph DCoord AxisR AxisDR N E} {k : Contents DCoord AxisR N E}
    (hb : Built (dblShape m h v) (dblLat h v) g k) (hh : 2 ≤ h ∧ 1 ≤ v ∨ 1 ≤ h ∧ 2 ≤ v) {l : List DCoord} (hl : TopoWalk g.rovable l) :
    ¬ RightWalk (dblLat h v) g l := by
  have hs := Searchable.double m h v
  have hT := hs.roams hb
  obtain ⟨c, hc, hch, hmiss⟩ := c72_misses hb hh
  rw [c117_exact hs hb hl]
  intro hr
  have hbehind : ¬ BehindCycle (dblLat h v) g c := by
    rintro ⟨a, n, ha, hw, hac⟩
    have ha' := dblLat_node.1 ha
    have hah : h ≤ a.h := Nat.le_of_not_lt fun hlt => hmiss a ha' hlt hac
    obtain ⟨x, d, hxn, hd, hxa⟩ : ∃ x d, InDouble h v x ∧ dblNbr h v a d = some x ∧ Walkable g x a := by
      have hp := (inWalk_iff hs hb ha).1 hw
      have key : ∀ {n b}, Path (inner (dblLat h v)) a (n + 1) b → ∃ x d, InDouble h v x ∧ dblNbr h v a d = some x ∧ ∃ j, Path (inner (dblLat h v)) x j b := by
        intro n
        induction n with
        | zero =>
          intro b hp
          cases hp with
          | @step _ y _ d hp hd =>
            cases hp
            obtain ⟨q1, q2⟩ := inner_nbr.1 hd
            exact ⟨b, d, dblLat_node.1 q2, q1, 0, .nil⟩
        | succ n ih =>
          intro b hp
          cases hp with
          | step hp hd =>
            obtain ⟨x, d', q1, q2, j, q3⟩ := ih hp
            exact ⟨x, d', q1, q2, _, .step q3 hd⟩
      obtain ⟨x, d, q1, q2, j, q3⟩ := key hp
      exact ⟨x, d, q1, q2, j, (inWalk_iff hs hb (dblLat_node.2 q1)).2 q3⟩
    obtain ⟨-, hwest⟩ := (c72_reach hb hxn).1 hxa
    unfold WestOf at hwest
    obtain ⟨r1, r2, r3⟩ := dblNbr_iff.1 hd
    unfold DStep at r1
    cases d <;> simp only [AxisDR.vec, AxisDR.west, Bool.false_eq_true, or_false, or_true] at r1 r3 <;> omega
  have hnil := hT.uniqueN (hT.neighbors (Lat.mem_nodes.2 (dblLat_node.2 hc))) ((hr c (dblLat_node.2 hc)).2 hbehind)
  have hno : ∀ d t, ¬ dblNbr h v c d = some t := fun d t hd => by
    have : t ∈ (dblLat h v).nbrs c := List.mem_filterMap.2 ⟨d, hs.base.dir.dirs_mem _, hd⟩
    rw [hnil] at this
    cases this
  obtain ⟨x, y⟩ := c
  unfold InDouble at hc
  simp only at hc hch
  by_cases hy0 : 1 ≤ y
  · exact hno .SW ⟨x - 1, y - 1⟩ (dblNbr_iff.2 ⟨by unfold DStep; simp only [AxisDR.vec]; omega, by simp only; omega, .inr rfl⟩)
  · by_cases hv : 2 ≤ v
    · exact hno .NW ⟨x - 1, y + 1⟩ (dblNbr_iff.2 ⟨by unfold DStep; simp only [AxisDR.vec]; omega, by simp only; omega, .inr rfl⟩)
    · exact hno .W ⟨x - 2, y⟩ (dblNbr_iff.2 ⟨by unfold DStep; simp only [AxisDR.vec]; omega, by simp only; omega, .inr rfl⟩)

/-- A single square: it is returned. Six squares: nothing is, all of them being on cycles. -/
example : (∃ g : Graph Offset SquareAxis DSquareAxis Unit Unit, TopoWalk g.rovable [⟨0, 0⟩] ∧ RightWalk (squareLat 1 1) g [⟨0, 0⟩]) ∧
    ∃ g : Graph Offset SquareAxis DSquareAxis Nat Nat, Built (squareShape m64 3 2) (squareLat 3 2) g exK ∧ TopoWalk g.rovable [] ∧
      RightWalk (squareLat 3 2) g [] := by
  refine ⟨?_, ?_⟩
  · have hs := Lawful.square m64 1 1
    obtain ⟨g, -, h2⟩ := c57_new_with hs.storable (by decide) (fun (u : Unit) _ => ((), u)) (fun (u : Unit) _ _ => ((), u)) ()
    have hw := (topoWalk_iff (hs.searchable.roams h2) [⟨0, 0⟩]).2 (by decide)
    exact ⟨g, hw, c117_lawful hs h2 hw⟩
  · obtain ⟨g, hb⟩ := exSquare
    have hs := Lawful.square m64 3 2
    obtain ⟨l, h1, -⟩ := c117_walk_partial hs.searchable hb
    obtain ⟨rfl, h2⟩ := c117_single (.sound (.square m64 3 2)) hb (a := ⟨0, 0⟩) (b := ⟨1, 0⟩) ⟨0, 0, by decide, by decide, rfl⟩
      ⟨1, 0, by decide, by decide, rfl⟩ (by decide) ((h1 l).2 rfl)
    exact ⟨g, hb, (h1 _).2 rfl, h2⟩

/-- Three nodes in a column of double coordinates: (0,0) and (0,2) are returned, (1,1), which leads to both, is not. -/
example : ∃ g : Graph DCoord AxisR AxisDR Nat Nat,
    (∃ st, newWith (dblShape m64 1 3) (fun n _ => (n, n + 1)) (fun n _ _ => (n, n + 1)) 0 = .ok (g, st)) ∧
    TopoWalk g.rovable [⟨0, 2⟩, ⟨0, 0⟩] ∧ ¬ RightWalk (dblLat 1 3) g [⟨0, 2⟩, ⟨0, 0⟩] ∧
    ¬ ∀ c, (dblLat 1 3).Node c → (Yields (neighborsNext g.s c) 0 [] ↔ ¬ BehindCycle (dblLat 1 3) g c) := by
  obtain ⟨g, h1, h2⟩ := c57_new_with (.double m64 1 3) (by decide) (fun (n : Nat) _ => (n, n + 1)) (fun (n : Nat) _ _ => (n, n + 1)) 0
  have hw := (topoWalk_iff ((Searchable.double m64 1 3).roams h2) [⟨0, 2⟩, ⟨0, 0⟩]).2 (by decide)
  have hwrong := c117_double h2 (.inr ⟨by decide, by decide⟩) hw
  exact ⟨g, ⟨_, h1⟩, hw, hwrong, fun h => hwrong ((c117_exact (.double m64 1 3) h2 hw).2 h)⟩
end LG
