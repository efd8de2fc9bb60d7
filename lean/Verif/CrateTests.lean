import Verif.Model.Square
import Verif.Model.HexAxial
import Verif.Model.HexOffset
import Verif.Model.Astar
import Verif.Model.Defaults
import Verif.Props.Ex
/-
The crate's own tests, run on the model. Nothing here is a proof of a property: each example evaluates the assertions of one test of
/repo, on the values that test uses, with the definitions of `Model/` in the place of the code. The tests are known to pass on the
code, so an example that fails would show a model that is not the code. All run as 64-bit debug builds.
-/
namespace LG.CrateTests

/-- Run an iterator to its end, in at most `n` calls. -/
def drain {α τ : Type} (next : τ → Res (Option α × τ)) : Nat → τ → Res (List α)
  | 0, _ => .error .panic
  | n + 1, st => do
    match ← next st with
    | (none, _) => .ok []
    | (some x, st) => .ok (x :: (← drain next n st))

/-- A test passes if it does not fault and its assertion holds. -/
def passes (r : Res Bool) : Bool := match r with | .ok b => b | .error _ => false

/-- A closure that captures nothing. -/
def pure1 {C N : Type} (f : C → N) : Unit → C → N × Unit := fun u c => (f c, u)
/-- A closure of two arguments that captures nothing. -/
def pure2 {C A E : Type} (f : C → A → E) : Unit → C → A → E × Unit := fun u c a => (f c a, u)

section
variable {C A D N E : Type} [DecidableEq C] [DecidableEq D] [DecidableEq N]

/-- The graph, for pure closures. -/
def graph (s : Shape C A D) (n : C → N) (e : C → A → E) : Res (Graph C A D N E) := do
  .ok (← newWith s (pure1 n) (pure2 e) ()).1

/-- `node_weight(c) == w` for all pairs. -/
def nodeWeightsAre (g : Graph C A D N E) (l : List (C × Option N)) : Res Bool := do
  let ws ← l.mapM fun (c, _) => g.nodeWeight c
  .ok (ws == l.map (·.2))

/-- `for i in 0..node_count() { let x = from_index(i); assert_eq!(Some(&x), node_weight(x)) }`. -/
def weightsAreCoords (g : Graph C A D C E) : Res Bool := do
  let n ← g.s.nodeCount
  let bs ← (List.range n).mapM fun i => do
    let x ← g.fromIndex i
    .ok ((← g.nodeWeight x) == some x)
  .ok (bs.all id)

/-- `neighbors(c)`, collected. -/
def neighbors (g : Graph C A D N E) (c : C) : Res (List C) := drain (neighborsNext g.s c) 20 0

/-- `edges(c)`, collected. -/
def edges (g : Graph C A D N E) (c : C) : Res (List (EdgeRef C D E)) := do drain (edgesNext g) 20 (← g.edgesOf c)
end

/-- The first entry of least key, and the rest. -/
def popMin {V : Type} : List (Nat × V) → Option ((Nat × V) × List (Nat × V))
  | [] => none
  | x :: l =>
    match popMin l with
    | none => some (x, [])
    | some (y, r) => if x.1 ≤ y.1 then some (x, l) else some (y, x :: r)

/-- `reconstruct_path_to`, in at most `n` steps. -/
def rebuild {V : Type} (came : V → Option V) : Nat → V → List V
  | 0, _ => []
  | n + 1, v =>
    match came v with
    | none => [v]
    | some u => rebuild came n u ++ [v]

/-- `astar`, with one of the choices `AstStep` leaves open, in at most the given number of turns. -/
def astar {V : Type} [DecidableEq V] (ex : V → Res (List (V × Nat))) (h : V → Nat) (goal : V → Bool) :
    Nat → Ast V → Res (Option (Nat × List V))
  | 0, _ => .error .panic
  | n + 1, st =>
    match popMin st.heap with
    | none => .ok none
    | some ((f, c), rest) =>
      if goal c then .ok ((st.scores c).map fun s => (s, rebuild st.came 100 c)) else
      if (match st.est c with | some f0 => decide (f0 ≤ f) | none => false) then astar ex h goal n { st with heap := rest } else do
      let l ← ex c
      match st.scores c with
      | some s => astar ex h goal n (astRelax h c s l { st with heap := rest, est := fun x => if x = c then some f else st.est x })
      | none => .error .panic

/-! ### src/lattice_abstract/square.rs, `mod tests` -/

/-- `|x, y| x + 2 * y`. -/
def sum2 (c : Offset) : Nat := c.horizontal + 2 * c.vertical

/-- `gen_test`. square.rs:615-650. -/
example : passes (do
    let g ← graph (squareShape m64 4 3) sum2 (fun c _ => (sum2 c : Int))
    let a ← nodeWeightsAre g [(⟨0, 0⟩, some 0), (⟨0, 1⟩, some 2), (⟨1, 0⟩, some 1), (⟨2, 0⟩, some 2), (⟨3, 0⟩, some 3),
      (⟨4, 0⟩, none), (⟨0, 2⟩, some 4), (⟨0, 3⟩, none)]
    let es ← [((⟨0, 0⟩ : Offset), SquareAxis.X), (⟨0, 2⟩, .X), (⟨0, 2⟩, .Y), (⟨3, 0⟩, .X), (⟨3, 0⟩, .Y)].mapM
      fun (c, x) => g.edgeWeight c x
    .ok (g.s.horizontal == 4 && g.s.vertical == 3 && a && es == [some 0, some 4, none, none, some 3])) = true := by decide +kernel

/-- `node_identifiers`. square.rs:652-675. -/
example : passes (do
    let g ← graph (squareShape m64 4 3) sum2 (fun c _ => (sum2 c : Int))
    let l ← drain (nodeIndicesNext g.s) 20 0
    let is ← l.mapM g.toIndex
    let back ← is.mapM g.fromIndex
    .ok (is == List.range 12 && back == l)) = true := by decide +kernel

/-- `neighbors`. square.rs:677-706. -/
example : passes (do
    let g ← graph (squareShape m64 3 5) sum2 (fun c _ => (sum2 c : Int))
    let ls ← [(⟨0, 0⟩ : Offset), ⟨0, 4⟩, ⟨2, 0⟩, ⟨2, 4⟩, ⟨1, 2⟩].mapM (neighbors g)
    .ok (ls == [[⟨1, 0⟩, ⟨0, 1⟩], [⟨1, 4⟩, ⟨0, 3⟩], [⟨2, 1⟩, ⟨1, 0⟩], [⟨1, 4⟩, ⟨2, 3⟩],
      [⟨2, 2⟩, ⟨1, 3⟩, ⟨0, 2⟩, ⟨1, 1⟩]])) = true := by decide +kernel

/-- `edges`. square.rs:708-740. -/
example : passes (do
    let g ← graph (squareShape m64 3 5) sum2 (fun c _ => (sum2 c : Int))
    let e00 ← edges g ⟨0, 0⟩
    let e11 ← edges g ⟨1, 1⟩
    let e12 ← edges g ⟨1, 2⟩
    .ok (e00.map (·.target) == [⟨1, 0⟩, ⟨0, 1⟩] && e00.map (·.weight) == [0, 0] && e11.map (·.weight) == [3, 3, 2, 1] &&
      e12.map (·.target) == [⟨2, 2⟩, ⟨1, 3⟩, ⟨0, 2⟩, ⟨1, 1⟩])) = true := by decide +kernel

/-- `(x - a).abs() + (y - b).abs()`. -/
def manhattan (a b : Nat) (c : Offset) : Nat := (c.horizontal - a) + (a - c.horizontal) + ((c.vertical - b) + (b - c.vertical))

/-- `astar`. square.rs:742-780. -/
example : passes (do
    let g ← graph (squareShape m64 4 3) sum2 (fun c d => sum2 c * if d = .X then 1 else 3)
    let ex := fun c => do .ok ((← edges g c).map fun e => (e.target, e.weight))
    let x ← astar ex (manhattan 2 1) (· = ⟨2, 1⟩) 100 (astNew (manhattan 2 1) ⟨0, 0⟩)
    let y ← astar ex (manhattan 0 0) (· = ⟨0, 0⟩) 100 (astNew (manhattan 0 0) ⟨2, 1⟩)
    .ok (x == some (5, [⟨0, 0⟩, ⟨0, 1⟩, ⟨1, 1⟩, ⟨2, 1⟩]) && y == some (5, [⟨2, 1⟩, ⟨1, 1⟩, ⟨0, 1⟩, ⟨0, 0⟩]))) = true := by
  decide +kernel

/-! ### src/hex/axial_based/mod.rs, `mod tests` -/

/-- `HexGraphConst<C, (C, AxisR), OddR, 5, 5>`. axial_based/mod.rs:83-90. -/
def hexAxial55 : Res (Graph Axial AxisR AxisDR Axial (Axial × AxisR)) :=
  graph (constHexAxialDefault (hexAxR m64 (isizeTy m64) oddR) 5 5) id (fun n d => (n, d))
/-- `HexGraphConstLoopEW<C, (C, AxisR), OddR, 5, 5>`. axial_based/mod.rs:85-94. -/
def hexAxial55Lew : Res (Graph Axial AxisR AxisDR Axial (Axial × AxisR)) :=
  graph (constHexAxialDefault (hexAxRLew m64 (isizeTy m64) oddR) 5 5) id (fun n d => (n, d))
/-- `HexGraphConst<C, (C, AxisQ), EvenQ, 5, 5>`. axial_based/mod.rs:84-97. -/
def hexAxial55EQ : Res (Graph Axial AxisQ AxisDQ Axial (Axial × AxisQ)) :=
  graph (constHexAxialDefault (hexAxQ m64 (isizeTy m64) evenQ) 5 5) id (fun n d => (n, d))

/-- `gen_oddr`. axial_based/mod.rs:98-106. -/
example : passes (do weightsAreCoords (← hexAxial55)) = true := by decide +kernel
/-- `gen_evenq`. axial_based/mod.rs:107-115. -/
example : passes (do weightsAreCoords (← hexAxial55EQ)) = true := by decide +kernel

/-- The cases of `neighbors_oddr`. axial_based/mod.rs:117-143, and the same in hex2d.rs:136-157. -/
def axialCases : List (Axial × List Axial) :=
  [(⟨0, 0⟩, [⟨0, 1⟩, ⟨1, 0⟩]), (⟨4, 0⟩, [⟨4, 1⟩, ⟨3, 0⟩, ⟨3, 1⟩]),
   (⟨1, 1⟩, [⟨1, 2⟩, ⟨2, 1⟩, ⟨2, 0⟩, ⟨1, 0⟩, ⟨0, 1⟩, ⟨0, 2⟩]), (⟨1, 2⟩, [⟨1, 3⟩, ⟨2, 2⟩, ⟨2, 1⟩, ⟨1, 1⟩, ⟨0, 2⟩, ⟨0, 3⟩])]

example : passes (do
    let g ← hexAxial55
    .ok ((← axialCases.mapM fun x => neighbors g x.1) == axialCases.map (·.2))) = true := by decide +kernel

/-- `neighbors_oddr_lew`. axial_based/mod.rs:145-181. -/
example : passes (do
    let g ← hexAxial55Lew
    let ls ← [(⟨0, 0⟩ : Axial), ⟨4, 0⟩, ⟨1, 1⟩, ⟨1, 2⟩].mapM (neighbors g)
    .ok (ls == [[⟨0, 1⟩, ⟨1, 0⟩, ⟨4, 0⟩, ⟨4, 1⟩], [⟨4, 1⟩, ⟨0, 0⟩, ⟨3, 0⟩, ⟨3, 1⟩],
      [⟨1, 2⟩, ⟨2, 1⟩, ⟨2, 0⟩, ⟨1, 0⟩, ⟨0, 1⟩, ⟨0, 2⟩], [⟨1, 3⟩, ⟨2, 2⟩, ⟨2, 1⟩, ⟨1, 1⟩, ⟨0, 2⟩, ⟨0, 3⟩]])) = true := by
  decide +kernel

/-! ### src/hex/hex2d.rs, `mod tests` -/

/-- The range of `i32`, the integer type of `hex2d::Coordinate` by default. -/
def i32Ty : CoordTy := ⟨-2 ^ 31, 2 ^ 31 - 1⟩

/-- `HexGraphConst<C, (C, AxisR), OddR, (), i32, 5, 5>`. hex2d.rs:120-125. -/
def hex2d55 : Res (Graph Axial AxisR AxisDR Axial (Axial × AxisR)) :=
  graph (constHexAxialDefault (hexAxR m64 i32Ty oddR) 5 5) id (fun n d => (n, d))

/-- `gen_oddr`. hex2d.rs:126-134. -/
example : passes (do weightsAreCoords (← hex2d55)) = true := by decide +kernel

/-- `hex2d::Coordinate::distance`. -/
def hexDistance (a b : Axial) : Nat :=
  ((a.r - b.r).natAbs + (a.q - b.q).natAbs + (a.r - b.r + (a.q - b.q)).natAbs) / 2

/-- `neighbors_oddr`. hex2d.rs:136-167. -/
example : passes (do
    let g ← hex2d55
    let ls ← axialCases.mapM fun x => neighbors g x.1
    .ok (ls == axialCases.map (·.2) && axialCases.all fun x => x.2.all fun c => hexDistance c x.1 == 1)) = true := by decide +kernel

/-! ### src/hex/offset_based/mod.rs, `mod tests` -/

/-- `HexGraphConst<HexOffset, (HexOffset, AxisR), OddR, 5, 5>`. offset_based/mod.rs:43-49. -/
def hexOffset55 : Res (Graph Offset AxisR AxisDR Offset (Offset × AxisR)) :=
  graph (constHexOffsetDefault (hexOffR m64 oddR) 5 5) id (fun n d => (n, d))
/-- `HexGraphConstLoopEW<HexOffset, (HexOffset, AxisR), OddR, 5, 5>`. offset_based/mod.rs:44-54. -/
def hexOffset55Lew : Res (Graph Offset AxisR AxisDR Offset (Offset × AxisR)) :=
  graph (constHexOffsetDefault (hexOffRLew m64 oddR) 5 5) id (fun n d => (n, d))
/-- `DiHexGraphConst<_, _, OddR, H, V>`. offset_based/mod.rs:146-165. -/
def hexOffsetDi (h v : Nat) : Res (Graph Offset AxisDR AxisDR Offset (Option (Offset × AxisDR))) :=
  graph (constHexOffsetDefault (hexOffRDirected m64 (directedMarker oddR)) h v) id (fun n d => some (n, d))

/-- `gen_oddr`. offset_based/mod.rs:56-63. -/
example : passes (do weightsAreCoords (← hexOffset55)) = true := by decide +kernel

/-- `neighbors_oddr`. offset_based/mod.rs:65-92. -/
example : passes (do
    let g ← hexOffset55
    let ls ← [(⟨0, 0⟩ : Offset), ⟨4, 0⟩, ⟨1, 1⟩, ⟨1, 2⟩].mapM (neighbors g)
    .ok (ls == [[⟨0, 1⟩, ⟨1, 0⟩], [⟨4, 1⟩, ⟨3, 0⟩, ⟨3, 1⟩], [⟨2, 2⟩, ⟨2, 1⟩, ⟨2, 0⟩, ⟨1, 0⟩, ⟨0, 1⟩, ⟨1, 2⟩],
      [⟨1, 3⟩, ⟨2, 2⟩, ⟨1, 1⟩, ⟨0, 1⟩, ⟨0, 2⟩, ⟨0, 3⟩]])) = true := by decide +kernel

/-- `edges_oddr`. offset_based/mod.rs:94-107. -/
example : passes (do
    let g ← hexOffset55
    let ls ← [(⟨0, 0⟩ : Offset), ⟨4, 0⟩, ⟨1, 1⟩, ⟨1, 2⟩].mapM (edges g)
    .ok (ls.map (·.map (·.direction)) == [[.NE, .E], [.NE, .W, .NW], [.NE, .E, .SE, .SW, .W, .NW],
      [.NE, .E, .SE, .SW, .W, .NW]])) = true := by decide +kernel

/-- `neighbors_oddr_lew`. offset_based/mod.rs:109-144. -/
example : passes (do
    let g ← hexOffset55Lew
    let ls ← [(⟨0, 0⟩ : Offset), ⟨4, 0⟩, ⟨1, 1⟩, ⟨1, 2⟩].mapM (neighbors g)
    .ok (ls == [[⟨0, 1⟩, ⟨1, 0⟩, ⟨4, 0⟩, ⟨4, 1⟩], [⟨4, 1⟩, ⟨0, 0⟩, ⟨3, 0⟩, ⟨3, 1⟩],
      [⟨2, 2⟩, ⟨2, 1⟩, ⟨2, 0⟩, ⟨1, 0⟩, ⟨0, 1⟩, ⟨1, 2⟩], [⟨1, 3⟩, ⟨2, 2⟩, ⟨1, 1⟩, ⟨0, 1⟩, ⟨0, 2⟩, ⟨0, 3⟩]])) = true := by
  decide +kernel

/-- `gen_oddr_di`. offset_based/mod.rs:146-157. -/
example : passes (do weightsAreCoords (← hexOffsetDi 5 3)) = true := by decide +kernel

/-- `edges_oddr_dir`. offset_based/mod.rs:159-174. -/
example : passes (do
    let g ← hexOffsetDi 5 5
    .ok ((← edges g ⟨0, 0⟩).all (·.source == ⟨0, 0⟩) && (← edges g ⟨1, 1⟩).all (·.source == ⟨1, 1⟩))) = true := by decide +kernel

/-! ### src/square/tests.rs -/
open Sq (NodeIx EdgeIx G Ref Cfg)

/-- `SquareGraph<_, _, u32, S>`, `S` being `(loopH, loopV)`. -/
def cfg (loopH loopV : Bool) : Cfg := ⟨m64, 2 ^ 32, loopH, loopV, by decide, by decide⟩

/-- `new_with(h, v, |x, y| x + 2 * y, |x, y, d| (x + 2 * y) as i32 * if d.is_horizontal() { 1 } else { -1 })`. -/
def legacy (k : Cfg) (h v : Nat) : Res (G Nat Int) := do
  .ok (← Sq.G.newWith k h v (fun u x y => (x + 2 * y, u))
    (fun u x y d => (((x + 2 * y : Nat) : Int) * (if d.isHorizontal then 1 else -1), u)) ()).1

/-- The assertions of `gen`, `gen_loop_h`, `gen_loop_v` and `gen_loop_hv`; the tests differ in the weights of the edges
((0,2), vertical), ((3,0), horizontal) and ((3,1), horizontal), the last being left out in `gen`. -/
def genTest (k : Cfg) (e02 e30 : Option Int) (e31 : Option (Option Int)) : Res Bool := do
  let g ← legacy k 4 3
  .ok (g.horizontalNodeCount == 4 && g.verticalNodeCount == 3 &&
    [(⟨0, 0⟩ : NodeIx), ⟨3, 0⟩, ⟨4, 0⟩, ⟨0, 2⟩, ⟨0, 3⟩].map g.nodeWeight == [some 0, some 3, none, some 4, none] &&
    [(⟨⟨0, 0⟩, .horizontal⟩ : EdgeIx), ⟨⟨0, 2⟩, .horizontal⟩, ⟨⟨0, 2⟩, .vertical⟩, ⟨⟨3, 0⟩, .horizontal⟩, ⟨⟨3, 0⟩, .vertical⟩].map
      g.edgeWeight == [some 0, some 4, e02, e30, some (-3)] &&
    (e31 == none || e31 == some (g.edgeWeight ⟨⟨3, 1⟩, .horizontal⟩)))

/-- `gen`. tests.rs:4-36. -/
example : passes (genTest (cfg false false) none none none) = true := by decide +kernel
/-- `gen_loop_h`. tests.rs:38-74. -/
example : passes (genTest (cfg true false) none (some 3) (some (some 5))) = true := by decide +kernel
/-- `gen_loop_v`. tests.rs:76-115. -/
example : passes (genTest (cfg false true) (some (-4)) none (some none)) = true := by decide +kernel
/-- `gen_loop_hv`. tests.rs:117-156. -/
example : passes (genTest (cfg true true) (some (-4)) (some 3) (some (some 5))) = true := by decide +kernel

/-- `node_identifiers`. tests.rs:158-171. -/
example : passes (do
    let g ← legacy (cfg false false) 3 5
    let l ← drain (Sq.NodeIndices.next g.k) 20 (.new g.horizontalNodeCount g.verticalNodeCount)
    let is ← l.mapM g.toIndex
    let back ← is.mapM g.fromIndex
    .ok (is == List.range 15 && back == l)) = true := by decide +kernel

/-- `neighbors(n)`, collected. -/
def legacyNeighbors (g : G Nat Int) (n : NodeIx) : Res (List NodeIx) := drain (Sq.Nbrs.next g.k) 10 (g.neighbors n)
/-- `edges(n)`, collected. -/
def legacyEdges {N E : Type} (g : G N E) (n : NodeIx) : Res (List (Ref E)) := drain (Sq.EdgesOf.next g) 10 (g.edges n)

/-- `neighbors`. tests.rs:173-196. -/
example : passes (do
    let g ← legacy (cfg false false) 3 5
    let ls ← [(⟨0, 0⟩ : NodeIx), ⟨0, 4⟩, ⟨2, 0⟩, ⟨2, 4⟩, ⟨1, 2⟩].mapM (legacyNeighbors g)
    .ok (ls == [[⟨1, 0⟩, ⟨0, 1⟩], [⟨1, 4⟩, ⟨0, 3⟩], [⟨1, 0⟩, ⟨2, 1⟩], [⟨1, 4⟩, ⟨2, 3⟩],
      [⟨0, 2⟩, ⟨2, 2⟩, ⟨1, 1⟩, ⟨1, 3⟩]])) = true := by decide +kernel

/-- `neighbors_hv`. tests.rs:198-221. -/
example : passes (do
    let g ← legacy (cfg true true) 3 5
    let ls ← [(⟨0, 0⟩ : NodeIx), ⟨0, 4⟩, ⟨2, 0⟩, ⟨2, 4⟩, ⟨1, 2⟩].mapM (legacyNeighbors g)
    .ok (ls == [[⟨2, 0⟩, ⟨1, 0⟩, ⟨0, 4⟩, ⟨0, 1⟩], [⟨2, 4⟩, ⟨1, 4⟩, ⟨0, 3⟩, ⟨0, 0⟩], [⟨1, 0⟩, ⟨0, 0⟩, ⟨2, 4⟩, ⟨2, 1⟩],
      [⟨1, 4⟩, ⟨0, 4⟩, ⟨2, 3⟩, ⟨2, 0⟩], [⟨0, 2⟩, ⟨2, 2⟩, ⟨1, 1⟩, ⟨1, 3⟩]])) = true := by decide +kernel

/-- `edges`. tests.rs:223-247. -/
example : passes (do
    let g ← legacy (cfg false false) 3 5
    let e00 ← legacyEdges g ⟨0, 0⟩
    let e11 ← legacyEdges g ⟨1, 1⟩
    let e12 ← legacyEdges g ⟨1, 2⟩
    .ok ((← e00.mapM (·.target g.k)) == [⟨1, 0⟩, ⟨0, 1⟩] && e00.map (·.weight) == [0, 0] &&
      e11.map (·.weight) == [2, 3, -1, -3] && (← e12.mapM (·.target g.k)) == [⟨0, 2⟩, ⟨2, 2⟩, ⟨1, 1⟩, ⟨1, 3⟩])) = true := by
  decide +kernel

/-- `edges_hv`. tests.rs:249-277. -/
example : passes (do
    let g ← legacy (cfg true true) 3 5
    let e00 ← legacyEdges g ⟨0, 0⟩
    let e11 ← legacyEdges g ⟨1, 1⟩
    let e12 ← legacyEdges g ⟨1, 2⟩
    .ok ((← e00.mapM (·.target g.k)) == [⟨2, 0⟩, ⟨1, 0⟩, ⟨0, 4⟩, ⟨0, 1⟩] && e00.map (·.weight) == [2, 0, -8, 0] &&
      e11.map (·.weight) == [2, 3, -1, -3] && (← e12.mapM (·.target g.k)) == [⟨0, 2⟩, ⟨2, 2⟩, ⟨1, 1⟩, ⟨1, 3⟩])) = true := by
  decide +kernel

/-- `Sq.edgeRefsNext` in at most the given number of calls, in a form the kernel can evaluate. -/
def edgeRefsNextN {N E : Type} (g : G N E) : Nat → Sq.EdgeRefs → Res (Option (Ref E) × Sq.EdgeRefs)
  | 0, _ => .error .ub
  | n + 1, ⟨it, none⟩ =>
    match it.next g.k with
    | .error f => .error f
    | .ok (none, it') => .ok (none, ⟨it', none⟩)
    | .ok (some x, it') =>
      match g.horizontal.get x.horizontal x.vertical with
      | some ew => .ok (some ⟨⟨x, .horizontal⟩, ew, true, g.k.sizeInfo it.hMax it.vMax⟩, ⟨it', some x⟩)
      | none => if it.Advanced it' then edgeRefsNextN g n ⟨it', some x⟩ else .error .diverge
  | n + 1, ⟨it, some x⟩ =>
    match g.vertical.get x.horizontal x.vertical with
    | some ew => .ok (some ⟨⟨x, .vertical⟩, ew, true, g.k.sizeInfo it.hMax it.vMax⟩, ⟨it, none⟩)
    | none => edgeRefsNextN g n ⟨it, none⟩

/-- What it returns, `Sq.edgeRefsNext` returns. -/
theorem edgeRefsNextN_eq {N E : Type} (g : G N E) (n : Nat) (it : Sq.EdgeRefs) {x : Option (Ref E) × Sq.EdgeRefs}
    (h : edgeRefsNextN g n it = .ok x) : Sq.edgeRefsNext g it = .ok x := by
  fun_induction edgeRefsNextN g n it with
  | case1 => cases h
  | _ => rw [Sq.edgeRefsNext]; simp_all

theorem drain_mono {α τ : Type} {f f' : τ → Res (Option α × τ)} (hf : ∀ st x, f st = .ok x → f' st = .ok x) :
    ∀ (n : Nat) (st : τ) {l : List α}, drain f n st = .ok l → drain f' n st = .ok l := by
  intro n
  induction n with
  | zero => intro st l h; cases h
  | succ n ih =>
    intro st l h
    unfold drain at h ⊢
    cases e : f st with
    | error e' => rw [e] at h; cases h
    | ok x =>
      rw [e] at h
      rw [hf st x e]
      obtain ⟨o, st'⟩ := x
      cases o with
      | none => exact h
      | some a =>
        simp only [bind, Except.bind] at h ⊢
        cases e2 : drain f n st' with
        | error e' => rw [e2] at h; cases h
        | ok l' => rw [e2] at h; rw [ih st' e2]; exact h

/-- The assertions of `edge_references` and `edge_references_hv`: the positions of the edges of each axis increase, and there are
`i` and `j` of them. -/
def edgeReferencesTest (g : G Nat Int) (es : List (Ref Int)) (i j : Nat) : Res Bool := do
  let increasing : List Nat → Bool := fun l => (l.zip l.tail).all fun x => decide (x.1 < x.2)
  let h ← (es.filter (·.id.axis == .horizontal)).mapM fun e => g.toIndex e.id.node
  let v ← (es.filter (·.id.axis == .vertical)).mapM fun e => g.toIndex e.id.node
  .ok (increasing h && h.length == i && increasing v && v.length == j)

/-- What to evaluate for the two tests. -/
theorem edgeReferences_of {k : Cfg} {i j : Nat}
    (h : passes (do
      let g ← legacy k 3 5
      let es ← drain (edgeRefsNextN g 3) 50 (Sq.edgeRefsInit g)
      edgeReferencesTest g es i j) = true) :
    passes (do
      let g ← legacy k 3 5
      let es ← drain (Sq.edgeRefsNext g) 50 (Sq.edgeRefsInit g)
      edgeReferencesTest g es i j) = true := by
  cases e : legacy k 3 5 with
  | error f => rw [e] at h; cases h
  | ok g =>
    rw [e] at h
    simp only [bind, Except.bind] at h ⊢
    cases e2 : drain (edgeRefsNextN g 3) 50 (Sq.edgeRefsInit g) with
    | error f => rw [e2] at h; cases h
    | ok es => rw [e2] at h; rw [drain_mono (fun st x => edgeRefsNextN_eq g 3 st) _ _ e2]; exact h

/-- `edge_references`. tests.rs:279-312. -/
example : passes (do
    let g ← legacy (cfg false false) 3 5
    let es ← drain (Sq.edgeRefsNext g) 50 (Sq.edgeRefsInit g)
    edgeReferencesTest g es 10 12) = true := edgeReferences_of (by decide +kernel)

/-- `edge_references_hv`. tests.rs:314-347. -/
example : passes (do
    let g ← legacy (cfg true true) 3 5
    let es ← drain (Sq.edgeRefsNext g) 50 (Sq.edgeRefsInit g)
    edgeReferencesTest g es 15 15) = true := edgeReferences_of (by decide +kernel)

/-- `astar`. tests.rs:349-381. -/
example : passes (do
    let (g, _) ← Sq.G.newWith (cfg false false) 3 4 (fun u _ _ => ((), u))
      (fun u x y d => ((x + 2 * y) * (if d.isHorizontal then 1 else 3), u)) ()
    let ex := fun n => do (← legacyEdges g n).mapM fun e => do return (← e.target g.k, e.weight)
    let h := fun (a b : Nat) (n : NodeIx) => match n.distance g.k a b with | .ok d => d | .error _ => 0
    let x ← astar ex (h 2 1) (·.eqPair (2, 1)) 100 (astNew (h 2 1) ⟨0, 0⟩)
    let y ← astar ex (h 0 0) (·.eqPair (0, 0)) 100 (astNew (h 0 0) ⟨2, 1⟩)
    .ok (x == some (5, [⟨0, 0⟩, ⟨0, 1⟩, ⟨1, 1⟩, ⟨2, 1⟩]) && y == some (5, [⟨2, 1⟩, ⟨1, 1⟩, ⟨0, 1⟩, ⟨0, 0⟩]))) = true := by
  decide +kernel

end LG.CrateTests
