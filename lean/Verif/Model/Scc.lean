import Verif.Model.Bipartite
/-
Further client programs of petgraph: `visit::DfsPostOrder`, `algo::kosaraju_scc`, `algo::toposort` and
`algo::has_path_connecting`, written against `neighbors`, `neighbors_directed`, `node_identifiers` and the visit map as the two
graph types implement them (lattice_abstract/neighbors.rs:7-86, lattice_abstract/nodes.rs, lattice_abstract/mod.rs:355-413,
square/neighbors.rs:8-113, square/nodes.rs, square/mod.rs:480-512). petgraph itself is not part of /repo; these are its published
algorithms. A call that faults has no rule, so a run existing means that nothing faulted. The top of a stack is the head of the
list.
-/
namespace LG

/-- The methods these programs use, besides those of `Traversable`. `incoming c l`: `neighbors_directed(c, Incoming)` yields `l`;
`nodeIds l`: `node_identifiers()` yields `l`. -/
structure Rovable (C M : Type) extends Traversable C M where
  resetMap : M → M
  incoming : C → List C → Prop
  nodeIds : List C → Prop

/-- Those of `LatticeGraph`. -/
def Graph.rovable {C A D N E : Type} [DecidableEq C] (g : Graph C A D N E) : Rovable C (VisMap C A D) where
  toTraversable := g.traversable
  resetMap := VisMap.reset
  incoming := fun c l => Yields (NeighborsIt.next g.s) (g.neighborsDirected c .incoming) l
  nodeIds := fun l => Yields (nodeIndicesNext g.s) 0 l

/-- Those of the legacy `SquareGraph`. -/
def Sq.G.rovable {N E : Type} (g : Sq.G N E) : Rovable Sq.NodeIx Sq.Vis where
  toTraversable := g.traversable
  resetMap := Sq.Vis.reset
  incoming := fun n l => Yields (Sq.Nbrs.next g.k) (g.neighborsDirected n .incoming) l
  nodeIds := fun l => Yields (Sq.NodeIndices.next g.k) (.new g.horizontalNodeCount g.verticalNodeCount) l

section
variable {C M : Type} (T : Rovable C M) (nb : C → List C → Prop)

/-- `for succ in neighbors(c) { if !discovered.is_visited(&succ) { stack.push(succ) } }`. -/
def pushNew (d : M) : List C → List C → Res (List C)
  | [], st => .ok st
  | c :: l, st => do
    if ← T.isVisited d c then pushNew d l st else pushNew d l (c :: st)

/-- Calling `Dfs::next` until it returns `None`: stack, `discovered`, the nodes returned, `discovered` afterwards. `nb` are the
neighbours of the graph it is given. -/
inductive DfsTo : List C → M → List C → M → Prop where
  | done {d : M} : DfsTo [] d [] d
  | skip {c : C} {st l : List C} {d d' d2 : M} : T.visit d c = .ok (false, d') → DfsTo st d' l d2 → DfsTo (c :: st) d l d2
  | next {c : C} {st st' nbs l : List C} {d d' d2 : M} : T.visit d c = .ok (true, d') → nb c nbs → pushNew T d' nbs st = .ok st' →
    DfsTo st' d' l d2 → DfsTo (c :: st) d (c :: l) d2

/-- Calling `DfsPostOrder::next` until it returns `None`: stack, `discovered`, `finished`, the nodes returned, and the two maps
afterwards. A node stays on the stack until its neighbours are done. -/
inductive PostTo : List C → M → M → List C → M → M → Prop where
  | done {d f : M} : PostTo [] d f [] d f
  | enter {c : C} {st st' nbs out : List C} {d d' f d2 f2 : M} : T.visit d c = .ok (true, d') → nb c nbs →
    pushNew T d' nbs (c :: st) = .ok st' → PostTo st' d' f out d2 f2 → PostTo (c :: st) d f out d2 f2
  | leave {c : C} {st out : List C} {d d' f f' d2 f2 : M} : T.visit d c = .ok (false, d') → T.visit f c = .ok (true, f') →
    PostTo st d' f' out d2 f2 → PostTo (c :: st) d f (c :: out) d2 f2
  | again {c : C} {st out : List C} {d d' f f' d2 f2 : M} : T.visit d c = .ok (false, d') → T.visit f c = .ok (false, f') →
    PostTo st d' f' out d2 f2 → PostTo (c :: st) d f out d2 f2

/-- The first phase of `kosaraju_scc`, over the remaining node identifiers: `Reversed(&g)` answers `neighbors` with
`neighbors_directed(_, Incoming)`. The nodes pushed to `finish_order`, and `discovered` afterwards. -/
inductive FinishAll : List C → M → M → List C → M → Prop where
  | done {d f : M} : FinishAll [] d f [] d
  | seen {i : C} {is fo : List C} {d f d2 : M} : T.isVisited d i = .ok true → FinishAll is d f fo d2 → FinishAll (i :: is) d f fo d2
  | root {i : C} {is out fo : List C} {d f d1 f1 d2 : M} : T.isVisited d i = .ok false → PostTo T nb [i] d f out d1 f1 →
    FinishAll is d1 f1 fo d2 → FinishAll (i :: is) d f (out ++ fo) d2

/-- The second phase: a depth-first search from each node not discovered yet. -/
inductive Groups : List C → M → List (List C) → Prop where
  | done {d : M} : Groups [] d []
  | seen {i : C} {is : List C} {d : M} {gs : List (List C)} : T.isVisited d i = .ok true → Groups is d gs → Groups (i :: is) d gs
  | root {i : C} {is out : List C} {d d1 : M} {gs : List (List C)} : T.isVisited d i = .ok false → DfsTo T nb [i] d out d1 →
    Groups is d1 gs → Groups (i :: is) d (out :: gs)

/-- `kosaraju_scc(g)` ends and returns `sccs`. -/
def Kosaraju (sccs : List (List C)) : Prop :=
  ∃ ids fo d, T.nodeIds ids ∧ FinishAll T T.incoming ids T.visitMap T.visitMap fo d ∧
    Groups T T.neighbors fo.reverse (T.resetMap d) sccs

variable [DecidableEq C]

/-- The loop of `toposort` over the neighbours of `c`: `none` is `return Err(Cycle(c))`. -/
def pushTopo (d : M) (c : C) : List C → List C → Res (Option (List C))
  | [], st => .ok (some st)
  | x :: l, st => do
    if x = c then .ok none
    else if ← T.isVisited d x then pushTopo d c l st else pushTopo d c l (x :: st)

/-- The `while let` loop of the first phase of `toposort`: `.error c` is `return Err(Cycle(c))`, otherwise the nodes pushed to
`finish_stack`, and the two maps. -/
inductive TopoTo : List C → M → M → Except C (List C × M × M) → Prop where
  | done {d f : M} : TopoTo [] d f (.ok ([], d, f))
  | enter {c : C} {st st' nbs : List C} {d d' f : M} {o : Except C (List C × M × M)} : T.visit d c = .ok (true, d') →
    T.neighbors c nbs → pushTopo T d' c nbs (c :: st) = .ok (some st') → TopoTo st' d' f o → TopoTo (c :: st) d f o
  | loop {c : C} {st nbs : List C} {d d' f : M} : T.visit d c = .ok (true, d') →
    T.neighbors c nbs → pushTopo T d' c nbs (c :: st) = .ok none → TopoTo (c :: st) d f (.error c)
  | leave {c : C} {st : List C} {d d' f f' : M} {o : Except C (List C × M × M)} : T.visit d c = .ok (false, d') →
    T.visit f c = .ok (true, f') → TopoTo st d' f' o → TopoTo (c :: st) d f (o.map fun r => (c :: r.1, r.2))
  | again {c : C} {st : List C} {d d' f f' : M} {o : Except C (List C × M × M)} : T.visit d c = .ok (false, d') →
    T.visit f c = .ok (false, f') → TopoTo st d' f' o → TopoTo (c :: st) d f o

/-- The first phase of `toposort`, over the remaining node identifiers: what is pushed to `finish_stack`, and `discovered`. -/
inductive TopoAll : List C → M → M → Except C (List C × M) → Prop where
  | done {d f : M} : TopoAll [] d f (.ok ([], d))
  | seen {i : C} {is : List C} {d f : M} {o : Except C (List C × M)} : T.isVisited d i = .ok true → TopoAll is d f o →
    TopoAll (i :: is) d f o
  | loop {i c : C} {is : List C} {d f : M} : T.isVisited d i = .ok false → TopoTo T [i] d f (.error c) →
    TopoAll (i :: is) d f (.error c)
  | root {i : C} {is out : List C} {d f d1 f1 : M} {o : Except C (List C × M)} : T.isVisited d i = .ok false →
    TopoTo T [i] d f (.ok (out, d1, f1)) → TopoAll is d1 f1 o → TopoAll (i :: is) d f (o.map fun r => (out ++ r.1, r.2))

/-- Calling `Dfs::next` at most twice: the second node returned, if any, and otherwise `discovered` afterwards. `seen` says that
one was returned before. -/
inductive DfsTwice : Bool → List C → M → Except C M → Prop where
  | done {seen : Bool} {d : M} : DfsTwice seen [] d (.ok d)
  | skip {seen : Bool} {c : C} {st : List C} {d d' : M} {o : Except C M} : T.visit d c = .ok (false, d') → DfsTwice seen st d' o →
    DfsTwice seen (c :: st) d o
  | first {c : C} {st st' nbs : List C} {d d' : M} {o : Except C M} : T.visit d c = .ok (true, d') → T.incoming c nbs →
    pushNew T d' nbs st = .ok st' → DfsTwice true st' d' o → DfsTwice false (c :: st) d o
  | second {c : C} {st st' nbs : List C} {d d' : M} : T.visit d c = .ok (true, d') → T.incoming c nbs →
    pushNew T d' nbs st = .ok st' → DfsTwice true (c :: st) d (.error c)

/-- The second phase of `toposort`: a search against the edges from each node of the order; finding two nodes means a cycle. -/
inductive TopoCheck : List C → M → Option C → Prop where
  | done {d : M} : TopoCheck [] d none
  | fine {i : C} {is : List C} {d d1 : M} {o : Option C} : DfsTwice T false [i] d (.ok d1) → TopoCheck is d1 o → TopoCheck (i :: is) d o
  | cycle {i j : C} {is : List C} {d : M} : DfsTwice T false [i] d (.error j) → TopoCheck (i :: is) d (some j)

/-- `toposort(g, None)` ends and returns `Ok` of an order or `Err(Cycle(c))`. -/
inductive Toposort : Except C (List C) → Prop where
  | loop {ids : List C} {c : C} : T.nodeIds ids → TopoAll T ids (T.resetMap T.visitMap) T.visitMap (.error c) → Toposort (.error c)
  | cycle {ids fo : List C} {d : M} {c : C} : T.nodeIds ids → TopoAll T ids (T.resetMap T.visitMap) T.visitMap (.ok (fo, d)) →
    TopoCheck T fo.reverse (T.resetMap d) (some c) → Toposort (.error c)
  | order {ids fo : List C} {d : M} : T.nodeIds ids → TopoAll T ids (T.resetMap T.visitMap) T.visitMap (.ok (fo, d)) →
    TopoCheck T fo.reverse (T.resetMap d) none → Toposort (.ok fo.reverse)

/-- `dfs.iter(g).any(|x| x == b)`: it stops at the first. -/
inductive DfsFinds (b : C) : List C → M → Bool → Prop where
  | done {d : M} : DfsFinds b [] d false
  | skip {c : C} {st : List C} {d d' : M} {r : Bool} : T.visit d c = .ok (false, d') → DfsFinds b st d' r → DfsFinds b (c :: st) d r
  | found {st st' nbs : List C} {d d' : M} : T.visit d b = .ok (true, d') → T.neighbors b nbs → pushNew T d' nbs st = .ok st' →
    DfsFinds b (b :: st) d true
  | next {c : C} {st st' nbs : List C} {d d' : M} {r : Bool} : T.visit d c = .ok (true, d') → T.neighbors c nbs →
    pushNew T d' nbs st = .ok st' → c ≠ b → DfsFinds b st' d' r → DfsFinds b (c :: st) d r

/-- `has_path_connecting(g, a, b, None)` ends and returns `r`. -/
def HasPath (a b : C) (r : Bool) : Prop := DfsFinds T b [a] (T.resetMap T.visitMap) r

end
end LG
