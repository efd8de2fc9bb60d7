import Verif.Model.General
/- The adjacency lists of petgraph's `Graph`. -/
namespace LG
section
variable {N E : Type} {p p' : PGraph N E}

/-- Following one of the two lists. -/
inductive Chain (edges : List (PEdge E)) (nx : PEdge E → Option Nat) : Option Nat → List (PEdge E) → Prop where
  | nil : Chain edges nx none []
  | cons {i : Nat} {e : PEdge E} {l : List (PEdge E)} : edges[i]? = some e → Chain edges nx (nx e) l → Chain edges nx (some i) (e :: l)

theorem Chain.append {edges more : List (PEdge E)} {nx : PEdge E → Option Nat} {o : Option Nat} {l : List (PEdge E)}
    (h : Chain edges nx o l) : Chain (edges ++ more) nx o l := by
  induction h with
  | nil => exact .nil
  | cons h1 _ ih =>
    refine .cons ?_ ih
    rw [List.getElem?_append_left (List.getElem?_eq_some_iff.1 h1).1]
    exact h1

/-- An edge as it was added. -/
def PEdge.triple (e : PEdge E) : Nat × Nat × E := (e.src, e.dst, e.weight)

/-- What the lists hold after the edges `es` have been added to the nodes `ws`. -/
structure Adj (d : Bool) (ws : List N) (es : List (Nat × Nat × E)) (p : PGraph N E) : Prop where
  directed : p.directed = d
  weights : p.nodes.map PNode.weight = ws
  edges : p.edges.map PEdge.triple = es
  outs : ∀ a n, p.nodes[a]? = some n → ∃ l, Chain p.edges PEdge.nextOut n.out l ∧ l.map PEdge.triple = (es.filter fun e => e.1 == a).reverse
  incs : ∀ a n, p.nodes[a]? = some n → ∃ l, Chain p.edges PEdge.nextIn n.inc l ∧ l.map PEdge.triple = (es.filter fun e => e.2.1 == a).reverse

theorem ofNodes_adj (d : Bool) (ws : List N) : Adj d ws [] (PGraph.ofNodes d ws : PGraph N E) := by
  have key : ∀ (ws : List N) (p : PGraph N E), p.edges = [] → (∀ n ∈ p.nodes, n.out = none ∧ n.inc = none) →
      let q := ws.foldl PGraph.addNode p
      q.directed = p.directed ∧ q.nodes.map PNode.weight = p.nodes.map PNode.weight ++ ws ∧ q.edges = [] ∧
        ∀ n ∈ q.nodes, n.out = none ∧ n.inc = none := by
    intro ws
    induction ws with
    | nil => intro p h1 h2; exact ⟨rfl, (List.append_nil _).symm, h1, h2⟩
    | cons w ws ih =>
      intro p h1 h2
      obtain ⟨h3, h4, h5, h6⟩ := ih (p.addNode w) h1 (by
        intro n hn
        rcases List.mem_append.1 hn with h | h
        · exact h2 n h
        · rw [List.mem_singleton.1 h]; exact ⟨rfl, rfl⟩)
      refine ⟨h3, ?_, h5, h6⟩
      rw [List.foldl_cons, h4]
      simp [PGraph.addNode]
  obtain ⟨h1, h2, h3, h4⟩ := key ws ⟨d, [], []⟩ rfl (by intro n hn; cases hn)
  refine ⟨h1, h2, ?_, fun a n hn => ⟨[], ?_, rfl⟩, fun a n hn => ⟨[], ?_, rfl⟩⟩
  · show List.map _ (PGraph.ofNodes d ws).edges = []
    rw [PGraph.ofNodes, h3]; rfl
  · rw [(h4 n (List.mem_of_getElem? hn)).1]; exact .nil
  · rw [(h4 n (List.mem_of_getElem? hn)).2]; exact .nil

theorem addEdge_adj {d : Bool} {ws : List N} {es : List (Nat × Nat × E)} (hp : Adj d ws es p) {a b : Nat} {w : E} (ha : a < ws.length)
    (hb : b < ws.length) : ∃ q, p.addEdge a b w = .ok q ∧ Adj d ws (es ++ [(a, b, w)]) q := by
  have hlen : p.nodes.length = ws.length := by rw [← hp.weights, List.length_map]
  obtain ⟨an, han⟩ : ∃ n, p.nodes[a]? = some n := ⟨_, List.getElem?_eq_getElem (by omega)⟩
  obtain ⟨bn, hbn⟩ : ∃ n, p.nodes[b]? = some n := ⟨_, List.getElem?_eq_getElem (by omega)⟩
  obtain ⟨hal, hae⟩ := List.getElem?_eq_some_iff.1 han
  obtain ⟨hbl, hbe⟩ := List.getElem?_eq_some_iff.1 hbn
  have hnew : ∀ x : PEdge E, (p.edges ++ [x])[p.edges.length]? = some x := fun x => by simp
  have hfo : ∀ c, ((es ++ [(a, b, w)]).filter fun e => e.1 == c).reverse =
      if a = c then (a, b, w) :: (es.filter fun e => e.1 == c).reverse else (es.filter fun e => e.1 == c).reverse := fun c => by
    by_cases h : a = c <;> simp [List.filter_append, h]
  have hfi : ∀ c, ((es ++ [(a, b, w)]).filter fun e => e.2.1 == c).reverse =
      if b = c then (a, b, w) :: (es.filter fun e => e.2.1 == c).reverse else (es.filter fun e => e.2.1 == c).reverse := fun c => by
    by_cases h : b = c <;> simp [List.filter_append, h]
  -- the weights are untouched
  have hw : ∀ (ns : List (PNode N)) (i : Nat) (n n' : PNode N), ns[i]? = some n → n'.weight = n.weight →
      (ns.set i n').map PNode.weight = ns.map PNode.weight := by
    intro ns i n n' h1 h2
    rw [List.map_set, h2]
    refine List.ext_getElem? fun j => ?_
    by_cases h : i = j
    · subst h
      obtain ⟨h3, h4⟩ := List.getElem?_eq_some_iff.1 h1
      rw [List.getElem?_set_self (by rw [List.length_map]; exact h3), List.getElem?_map, h1]; rfl
    · rw [List.getElem?_set_ne h]
  by_cases hab : a = b
  · subst hab
    rw [han] at hbn; cases hbn
    have he : p.addEdge a a w = .ok { p with
        nodes := p.nodes.set a { an with out := some p.edges.length, inc := some p.edges.length }
        edges := p.edges ++ [⟨w, an.out, an.inc, a, a⟩] } := by
      unfold PGraph.addEdge; rw [han]; exact if_pos rfl
    refine ⟨_, he, ⟨hp.directed, ?_, ?_, fun c n hc => ?_, fun c n hc => ?_⟩⟩
    · exact (hw _ _ an { an with out := some p.edges.length, inc := some p.edges.length } han rfl).trans hp.weights
    · simp [hp.edges, PEdge.triple]
    · rw [hfo]
      by_cases h : a = c
      · subst h
        simp only [List.getElem?_set_self hal, Option.some.injEq] at hc
        subst hc
        obtain ⟨l, h1, h2⟩ := hp.outs a an han
        exact ⟨_, .cons (hnew _) h1.append, by rw [if_pos rfl, List.map_cons, h2]; rfl⟩
      · simp only [List.getElem?_set_ne h] at hc
        obtain ⟨l, h1, h2⟩ := hp.outs c n hc
        exact ⟨l, h1.append, by rw [if_neg h, h2]⟩
    · rw [hfi]
      by_cases h : a = c
      · subst h
        simp only [List.getElem?_set_self hal, Option.some.injEq] at hc
        subst hc
        obtain ⟨l, h1, h2⟩ := hp.incs a an han
        exact ⟨_, .cons (hnew _) h1.append, by rw [if_pos rfl, List.map_cons, h2]; rfl⟩
      · simp only [List.getElem?_set_ne h] at hc
        obtain ⟨l, h1, h2⟩ := hp.incs c n hc
        exact ⟨l, h1.append, by rw [if_neg h, h2]⟩
  · have he : p.addEdge a b w = .ok { p with
        nodes := (p.nodes.set a { an with out := some p.edges.length }).set b { bn with inc := some p.edges.length }
        edges := p.edges ++ [⟨w, an.out, bn.inc, a, b⟩] } := by
      unfold PGraph.addEdge; rw [han, hbn]; exact if_neg hab
    refine ⟨_, he, ⟨hp.directed, ?_, ?_, fun c n hc => ?_, fun c n hc => ?_⟩⟩
    · refine (hw _ b bn { bn with inc := some p.edges.length } ?_ rfl).trans
        ((hw _ _ an { an with out := some p.edges.length } han rfl).trans hp.weights)
      rw [List.getElem?_set_ne hab]; exact hbn
    · simp [hp.edges, PEdge.triple]
    · rw [hfo]
      by_cases hcb : b = c
      · subst hcb
        rw [List.getElem?_set_self (by rw [List.length_set]; exact hbl)] at hc
        cases hc
        obtain ⟨l, h1, h2⟩ := hp.outs b bn hbn
        exact ⟨l, h1.append, by rw [if_neg hab, h2]⟩
      · simp only [List.getElem?_set_ne hcb] at hc
        by_cases h : a = c
        · subst h
          rw [List.getElem?_set_self hal] at hc
          cases hc
          obtain ⟨l, h1, h2⟩ := hp.outs a an han
          exact ⟨_, .cons (hnew _) h1.append, by rw [if_pos rfl, List.map_cons, h2]; rfl⟩
        · rw [List.getElem?_set_ne h] at hc
          obtain ⟨l, h1, h2⟩ := hp.outs c n hc
          exact ⟨l, h1.append, by rw [if_neg h, h2]⟩
    · rw [hfi]
      by_cases hcb : b = c
      · subst hcb
        rw [List.getElem?_set_self (by rw [List.length_set]; exact hbl)] at hc
        cases hc
        obtain ⟨l, h1, h2⟩ := hp.incs b bn hbn
        exact ⟨_, .cons (hnew _) h1.append, by rw [if_pos rfl, List.map_cons, h2]; rfl⟩
      · simp only [List.getElem?_set_ne hcb] at hc
        rw [if_neg hcb]
        by_cases h : a = c
        · subst h
          rw [List.getElem?_set_self hal] at hc
          cases hc
          obtain ⟨l, h1, h2⟩ := hp.incs a an han
          exact ⟨l, h1.append, h2⟩
        · rw [List.getElem?_set_ne h] at hc
          obtain ⟨l, h1, h2⟩ := hp.incs c n hc
          exact ⟨l, h1.append, h2⟩

theorem addEdges_adj {d : Bool} {ws : List N} : ∀ {more es : List (Nat × Nat × E)} {p : PGraph N E}, Adj d ws es p →
    (∀ e ∈ more, e.1 < ws.length ∧ e.2.1 < ws.length) → ∃ q, p.addEdges more = .ok q ∧ Adj d ws (es ++ more) q
  | [], es, p, hp, _ => ⟨p, rfl, by rwa [List.append_nil]⟩
  | (a, b, w) :: more, es, p, hp, hl => by
    obtain ⟨q, h1, h2⟩ := addEdge_adj (w := w) hp (hl _ List.mem_cons_self).1 (hl _ List.mem_cons_self).2
    obtain ⟨q', h3, h4⟩ := addEdges_adj (more := more) h2 fun e he => hl e (List.mem_cons_of_mem _ he)
    refine ⟨q', ?_, by rwa [List.append_assoc] at h4⟩
    show (do let x ← p.addEdge a b w; PGraph.addEdges x more) = _
    rw [h1]; exact h3

/-- An edge outside the nodes there are is refused. -/
theorem addEdge_panics {a b : Nat} {w : E} (h : p.nodes.length ≤ a ∨ p.nodes.length ≤ b) : p.addEdge a b w = .error .panic := by
  unfold PGraph.addEdge
  rcases h with h | h
  · rw [List.getElem?_eq_none h]
  · rw [List.getElem?_eq_none h]
    cases p.nodes[a]? <;> rfl

/-! ### Listing -/

theorem PNext.unique {dir : PDir} {start : Nat} {c : Option Nat × Option Nat} {r r' : Option (PRef E × (Option Nat × Option Nat))}
    (h : PNext p dir start c r) (h' : PNext p dir start c r') : r = r' := by
  induction h with
  | out h1 h2 =>
    cases h' with
    | out h3 h4 => rw [h2] at h4; cases h4; rfl
    | skip h3 => exact absurd (h3 h1) (by rw [h2]; exact fun e => nomatch e)
    | inc h3 => exact absurd (h3 h1) (by rw [h2]; exact fun e => nomatch e)
    | done h3 => exact absurd (h3 h1) (by rw [h2]; exact fun e => nomatch e)
  | skip h1 h2 h3 h4 h5 h6 ih =>
    cases h' with
    | out h7 h8 => exact absurd (h1 h7) (by rw [h8]; exact fun e => nomatch e)
    | skip _ _ h7 _ _ h8 => rw [h3] at h7; cases h7; exact ih h8
    | inc _ _ h7 h8 => rw [h3] at h7; cases h7; exact absurd ⟨h4, h5⟩ h8
    | done _ h7 => exact absurd (h7 h2) (by rw [h3]; exact fun e => nomatch e)
  | inc h1 h2 h3 h4 =>
    cases h' with
    | out h7 h8 => exact absurd (h1 h7) (by rw [h8]; exact fun e => nomatch e)
    | skip _ _ h7 h8 h9 _ => rw [h3] at h7; cases h7; exact absurd ⟨h8, h9⟩ h4
    | inc _ _ h7 _ => rw [h3] at h7; cases h7; rfl
    | done _ h7 => exact absurd (h7 h2) (by rw [h3]; exact fun e => nomatch e)
  | done h1 h2 =>
    cases h' with
    | out h7 h8 => exact absurd (h1 h7) (by rw [h8]; exact fun e => nomatch e)
    | skip _ h6 h7 => exact absurd (h2 h6) (by rw [h7]; exact fun e => nomatch e)
    | inc _ h6 h7 => exact absurd (h2 h6) (by rw [h7]; exact fun e => nomatch e)
    | done => rfl

theorem PAll.unique {dir : PDir} {start : Nat} {c : Option Nat × Option Nat} {l l' : List (PRef E)}
    (h : PAll p dir start c l) (h' : PAll p dir start c l') : l = l' := by
  induction h generalizing l' with
  | nil h1 =>
    cases h' with
    | nil => rfl
    | cons h2 => exact nomatch h1.unique h2
  | cons h1 _ ih =>
    cases h' with
    | nil h2 => exact nomatch h1.unique h2
    | cons h2 h3 => cases h1.unique h2; rw [ih h3]

theorem Chain.edgeAt {nx : PEdge E → Option Nat} {o : Option Nat} {l : List (PEdge E)} (h : Chain p.edges nx o l) :
    p.edgeAt o = l.head? := by
  cases h with
  | nil => rfl
  | cons h1 _ => exact h1

/-- The incoming part. -/
theorem all_inc {dir : PDir} {start : Nat} {o n : Option Nat} {li : List (PEdge E)} (hi : Chain p.edges PEdge.nextIn n li)
    (ho : p.walksOut dir → p.edgeAt o = none) (hw : p.walksIn dir) : PAll p dir start (o, n)
      ((li.filter fun e => !(!p.directed && e.src == start)).map fun e => e.ref (!p.directed && dir == .outgoing)) := by
  induction hi with
  | nil => exact .nil (.done ho fun _ => rfl)
  | @cons i e l h1 _ ih =>
    by_cases h : p.directed = false ∧ e.src = start
    · rw [List.filter_cons_of_neg (by simp [h])]
      generalize (l.filter _).map _ = m at ih
      cases ih with
      | nil h2 => exact .nil (.skip ho hw h1 h.1 h.2 h2)
      | cons h2 h3 => exact .cons (.skip ho hw h1 h.1 h.2 h2) h3
    · rw [List.filter_cons_of_pos (by
        cases hd : p.directed with
        | true => rfl
        | false => simp only [Bool.not_false, Bool.true_and, Bool.not_eq_true', beq_eq_false_iff_ne, ne_eq]
                   exact fun h' => h ⟨hd, h'⟩), List.map_cons]
      exact .cons (.inc ho hw h1 h) ih

/-- The outgoing part. -/
theorem all_out {dir : PDir} {start : Nat} {o n : Option Nat} {lo : List (PEdge E)} {rest : List (PRef E)}
    (hlo : Chain p.edges PEdge.nextOut o lo) (hw : p.walksOut dir) (hr : PAll p dir start (none, n) rest) :
    PAll p dir start (o, n) (lo.map (fun e => e.ref (!p.directed && dir == .incoming)) ++ rest) := by
  induction hlo with
  | nil => exact hr
  | cons h1 _ ih => exact .cons (.out hw h1) ih

/-- **`edges_directed`** of petgraph's `Graph`, after the edges `es` have been added. -/
theorem edgesDirected_spec {d : Bool} {ws : List N} {es : List (Nat × Nat × E)} (hp : Adj d ws es p) {a : Nat} (ha : a < ws.length)
    (dir : PDir) : ∃ l, p.EdgesDirected a dir l ∧ l.map (fun r => (r.source, r.target, r.weight)) =
      match d, dir with
      | true, .outgoing => (es.filter fun e => e.1 == a).reverse
      | true, .incoming => (es.filter fun e => e.2.1 == a).reverse
      | false, .outgoing => (es.filter fun e => e.1 == a).reverse ++
          ((es.filter fun e => e.2.1 == a).reverse.filter fun e => !(e.1 == a)).map fun e => (e.2.1, e.1, e.2.2)
      | false, .incoming => ((es.filter fun e => e.1 == a).reverse.map fun e => (e.2.1, e.1, e.2.2)) ++
          (es.filter fun e => e.2.1 == a).reverse.filter fun e => !(e.1 == a) := by
  have hlen : p.nodes.length = ws.length := by rw [← hp.weights, List.length_map]
  obtain ⟨n, hn⟩ : ∃ n, p.nodes[a]? = some n := ⟨_, List.getElem?_eq_getElem (by omega)⟩
  obtain ⟨lo, h1, h2⟩ := hp.outs a n hn
  obtain ⟨li, h3, h4⟩ := hp.incs a n hn
  unfold PGraph.EdgesDirected
  rw [hn]
  simp only
  have hf : ∀ (f : Nat × Nat × E → Bool), (li.filter fun e => f e.triple).map PEdge.triple = (li.map PEdge.triple).filter f := fun f => by
    rw [List.filter_map]; rfl
  rw [← h2, ← h4]
  cases d with
  | true =>
    have hd := hp.directed
    cases dir with
    | outgoing =>
      refine ⟨_, all_out h1 (.inr rfl) (.nil (.done (fun _ => rfl) fun h => ?_)), ?_⟩
      · rcases h with h | h
        · rw [hd] at h; cases h
        · cases h
      · rw [List.append_nil, List.map_map]
        simp only [hd]
        rfl
    | incoming =>
      refine ⟨_, all_inc h3 (fun h => ?_) (.inr rfl), ?_⟩
      · rcases h with h | h
        · rw [hd] at h; cases h
        · cases h
      · rw [List.map_map, hd]
        simp only [Bool.not_true, Bool.false_and, Bool.not_false]
        rw [List.filter_eq_self.2 fun _ _ => rfl]
        rfl
  | false =>
    have hd := hp.directed
    cases dir with
    | outgoing =>
      refine ⟨_, all_out h1 (.inl hd) (all_inc h3 (fun _ => rfl) (.inl hd)), ?_⟩
      rw [List.map_append, List.map_map, List.map_map, ← hf, List.map_map, hd]
      rfl
    | incoming =>
      refine ⟨_, all_out h1 (.inl hd) (all_inc h3 (fun _ => rfl) (.inl hd)), ?_⟩
      rw [List.map_append, List.map_map, List.map_map, List.map_map, ← hf, hd]
      rfl

/-- What a reference says. -/
def PRef.triple (r : PRef E) : Nat × Nat × E := (r.source, r.target, r.weight)

/-- The same edge from its other end. -/
def swapEnds (e : Nat × Nat × E) : Nat × Nat × E := (e.2.1, e.1, e.2.2)

/-- Both ends are the same node. -/
def isLoop (e : Nat × Nat × E) : Bool := e.1 == e.2.1

theorem filter_perm_split {α : Type} (f : α → Bool) : ∀ l : List α, l.Perm (l.filter f ++ l.filter fun x => !f x)
  | [] => .refl _
  | x :: l => by
    cases h : f x with
    | true =>
      rw [List.filter_cons_of_pos h, List.filter_cons_of_neg (by simp [h])]
      exact (filter_perm_split f l).cons x
    | false =>
      rw [List.filter_cons_of_neg (by simp [h]), List.filter_cons_of_pos (by simp [h])]
      exact ((filter_perm_split f l).cons x).trans List.perm_middle.symm

/-- In an undirected `Graph` each loop is listed once, where listing the edges from both ends has it twice. -/
theorem undirected_spec {ws : List N} {es : List (Nat × Nat × E)} (hp : Adj false ws es p) {a : Nat} (ha : a < ws.length)
    {out : List (Nat × Nat × E)}
    (ho : out.Perm ((es.filter fun e => e.1 == a) ++ (es.filter fun e => e.2.1 == a).map swapEnds)) :
    (∃ l, p.EdgesDirected a .outgoing l ∧ out.Perm (l.map PRef.triple ++ (l.map PRef.triple).filter isLoop)) ∧
    ∃ l, p.EdgesDirected a .incoming l ∧ (out.map swapEnds).Perm (l.map PRef.triple ++ (l.map PRef.triple).filter isLoop) := by
  have hss : ∀ l : List (Nat × Nat × E), (l.map swapEnds).map swapEnds = l := fun l => by
    rw [List.map_map]; exact (List.map_congr_left fun _ _ => rfl).trans (List.map_id _)
  -- the loops among the edges of `a`, and the rest of those that end there
  generalize hfo : (es.filter fun e => e.1 == a) = fo at ho
  generalize hfi : (es.filter fun e => e.2.1 == a) = fi at ho
  have hloops : fi.filter (fun e => e.1 == a) = fo.filter isLoop := by
    rw [← hfo, ← hfi, List.filter_filter, List.filter_filter]
    refine List.filter_congr fun e _ => ?_
    show (e.1 == a && e.2.1 == a) = (e.1 == e.2.1 && e.1 == a)
    rw [Bool.eq_iff_iff, Bool.and_eq_true, Bool.and_eq_true, beq_iff_eq, beq_iff_eq, beq_iff_eq]
    omega
  have hls : (fo.filter isLoop).map swapEnds = fo.filter isLoop := by
    refine (List.map_congr_left fun e he => ?_).trans (List.map_id _)
    have h := eq_of_beq (List.mem_filter.1 he).2
    show (e.2.1, e.1, e.2.2) = e
    rw [← h]
    show (e.1, e.1, e.2.2) = e
    conv => rhs; rw [show e = (e.1, e.2.1, e.2.2) from rfl, ← h]
  have hrest : ((fi.filter fun e => !(e.1 == a)).map swapEnds).filter isLoop = [] := by
    rw [List.filter_eq_nil_iff]
    intro e he
    obtain ⟨x, hx, rfl⟩ := List.mem_map.1 he
    obtain ⟨h1, h2⟩ := List.mem_filter.1 hx
    rw [← hfi] at h1
    have h3 := eq_of_beq (List.mem_filter.1 h1).2
    intro h4
    have h4 : x.2.1 = x.1 := eq_of_beq h4
    rw [← h4, h3] at h2
    simp at h2
  have hsplit : out.Perm (fo.reverse ++ (fi.reverse.filter fun e => !(e.1 == a)).map swapEnds ++ fo.filter isLoop) := by
    refine ho.trans ?_
    rw [List.append_assoc]
    refine (List.reverse_perm _).symm.append ?_
    have h1 := (filter_perm_split (fun e : Nat × Nat × E => e.1 == a) fi).map swapEnds
    rw [List.map_append, hloops, hls] at h1
    refine h1.trans (List.perm_append_comm.trans (List.Perm.append ?_ (.refl _)))
    exact (((List.reverse_perm fi).filter _).map _).symm
  have hfilter : (fo.reverse ++ (fi.reverse.filter fun e => !(e.1 == a)).map swapEnds).filter isLoop = (fo.filter isLoop).reverse := by
    rw [List.filter_append, List.filter_reverse, List.filter_reverse, List.map_reverse, List.filter_reverse, hrest]
    simp
  constructor
  · obtain ⟨l, h1, h2⟩ := edgesDirected_spec hp ha .outgoing
    rw [hfo, hfi] at h2
    refine ⟨l, h1, ?_⟩
    rw [show l.map PRef.triple = _ from h2]
    refine hsplit.trans (.append (.refl _) ?_)
    rw [show ((fo.reverse ++ (fi.reverse.filter fun e => !(e.1 == a)).map fun e => (e.2.1, e.1, e.2.2)).filter isLoop) =
      (fo.filter isLoop).reverse from hfilter]
    exact (List.reverse_perm _).symm
  · obtain ⟨l, h1, h2⟩ := edgesDirected_spec hp ha .incoming
    rw [hfo, hfi] at h2
    refine ⟨l, h1, ?_⟩
    have h2 : l.map PRef.triple = (fo.reverse ++ (fi.reverse.filter fun e => !(e.1 == a)).map swapEnds).map swapEnds := by
      rw [List.map_append, hss]; exact h2
    have h3 : (l.map PRef.triple).filter isLoop = ((fo.reverse ++ (fi.reverse.filter fun e => !(e.1 == a)).map swapEnds).filter isLoop).map swapEnds := by
      rw [h2, List.filter_map]
      congr 1
      refine List.filter_congr fun e _ => ?_
      show (e.2.1 == e.1) = (e.1 == e.2.1)
      rw [Bool.eq_iff_iff, beq_iff_eq, beq_iff_eq]; omega
    rw [h3, h2, ← List.map_append, hfilter]
    exact (hsplit.trans (.append (.refl _) (List.reverse_perm _).symm)).map _
end
end LG
