import Verif.Model.Iter
import Verif.Spec
/-
The interface between the generic graph code and the individual shapes: laws of a specification lattice, and what it means
for a model shape to implement it. Both are proved for every sound shape of the crate in `Lemmas/Sound.lean`.
-/
namespace LG

/-- Laws of the direction structure of a specification lattice. -/
structure DirLaws {C A D : Type} (L : Lat C A D) : Prop where
  axes_nodup : L.axes.Nodup
  axes_mem : ∀ a, a ∈ L.axes
  dirs_nodup : L.dirs.Nodup
  dirs_mem : ∀ d, d ∈ L.dirs
  opp_opp : ∀ d, L.opp (L.opp d) = d
  opp_ne : ∀ d, L.opp d ≠ d
  ax_fwd : ∀ a, L.ax (L.fwd a) = a
  fwd_ax : ∀ d, L.fwd (L.ax d) = d ∨ (L.directed = false ∧ L.fwd (L.ax d) = L.opp d)
  dirs_und : L.directed = false → L.dirs = L.axes.map L.fwd ++ L.axes.map fun a => L.opp (L.fwd a)
  dirs_dir : L.directed = true → L.dirs = L.axes.map L.fwd

/-- What storing weights relies on. (The shapes with wrong moves satisfy this but not `LatLaws`.) -/
structure LatBase {C A D : Type} (L : Lat C A D) : Prop where
  dir : DirLaws L
  coord_inj : ∀ {x y x' y'}, x < L.width → y < L.height → x' < L.width → y' < L.height →
    L.coord x y = L.coord x' y' → x = x' ∧ y = y'

/-- Laws a specification lattice should satisfy. -/
structure LatLaws {C A D : Type} (L : Lat C A D) : Prop extends LatBase L where
  nbr_node : ∀ {c d t}, L.Node c → L.nbr c d = some t → L.Node t
  nbr_opp : ∀ {c d t}, L.Node c → L.nbr c d = some t → L.nbr t (L.opp d) = some c

instance {C A D : Type} {L : Lat C A D} : Coe (LatLaws L) (LatBase L) := ⟨LatLaws.toLatBase⟩

/-- The model axis implements the direction structure of `L`. -/
structure AxisImpl {C A D : Type} [DecidableEq D] (ax : Axis A D) (L : Lat C A D) : Prop where
  count : ax.count = L.axes.length
  directed : ax.directed = L.directed
  undirectedCount : ax.undirectedCount = L.dirs.length
  fromIndex : ∀ i (h : i < L.axes.length), ax.fromIndexUnchecked i = .ok L.axes[i]
  toIndex : ∀ a, L.axes[ax.toIndex a]? = some a
  dirFromIndex : ∀ i (h : i < L.dirs.length), ax.dirFromIndexUnchecked i = .ok L.dirs[i]
  dirToIndex : ∀ d, L.dirs[ax.dirToIndex d]? = some d
  foward : ∀ a, ax.foward a = .ok (L.fwd a)
  backward : ∀ a, ax.backward a = .ok (L.opp (L.fwd a))
  fromDirection : ∀ d, ax.fromDirection d = .ok (L.ax d)
  isForward : ∀ d, ax.isForwardDirection d = .ok (decide (L.fwd (L.ax d) = d))
  count_le : L.dirs.length ≤ 8

/-- The model shape `s` implements the lattice `L`; `rep` are the off-lattice coordinates the shape recognises without
overflowing. -/
structure ImplBase {C A D : Type} [DecidableEq D] (s : Shape C A D) (L : Lat C A D) (rep : C → Prop) : Prop where
  axis : AxisImpl s.axis L
  width : s.horizontal = L.width
  height : s.vertical = L.height
  small : L.width * L.height < s.m.half
  width_small : L.width < s.m.half
  height_small : L.height < s.m.half
  toOffset_coord : ∀ {x y}, x < L.width → y < L.height → s.toOffset (L.coord x y) = .ok (some ⟨x, y⟩)
  toOffset_none : ∀ {c}, rep c → ¬ L.Node c → s.toOffset c = .ok none
  toOffsetUnchecked : ∀ {x y}, x < L.width → y < L.height → s.toOffsetUnchecked (L.coord x y) = .ok ⟨x, y⟩
  offsetToCoordinate : ∀ {x y}, x < L.width → y < L.height → s.offsetToCoordinate ⟨x, y⟩ = .ok (L.coord x y)
  move : ∀ {c}, L.Node c → ∀ d, s.moveCoord c d = .ok (L.nbr c d)

/-- Additionally, only nodes have a position, and the adjacency test is the default one. (Not so for double coordinates.) -/
structure Impl {C A D : Type} [DecidableEq C] [DecidableEq D] (s : Shape C A D) (L : Lat C A D) (rep : C → Prop) : Prop
    extends ImplBase s L rep where
  toOffset_some : ∀ {c o}, s.toOffset c = .ok (some o) →
    o.horizontal < L.width ∧ o.vertical < L.height ∧ c = L.coord o.horizontal o.vertical
  isNeighbor : s.isNeighbor = defaultIsNeighbor s.axis s.moveCoord

instance {C A D : Type} [DecidableEq C] [DecidableEq D] {s : Shape C A D} {L : Lat C A D} {rep : C → Prop} :
    Coe (Impl s L rep) (ImplBase s L rep) := ⟨Impl.toImplBase⟩

/-- ndarray accepts the dimensions of the shape. -/
def Constructible {C A D : Type} (s : Shape C A D) : Prop :=
  (if s.horizontal = 0 then 1 else s.horizontal) * (if s.vertical = 0 then 1 else s.vertical) < s.m.half

instance {C A D : Type} (s : Shape C A D) : Decidable (Constructible s) := by unfold Constructible; infer_instance

theorem Constructible.bounds {C A D : Type} {s : Shape C A D} (h : Constructible s) :
    s.horizontal * s.vertical < s.m.half ∧ s.horizontal < s.m.half ∧ s.vertical < s.m.half := by
  unfold Constructible at h
  have := s.m.half_ge
  split at h <;> split at h <;> rename_i h1 h2
  · simp [h1, h2]; omega
  · simp [h1]; omega
  · simp [h2]; omega
  · have a : s.horizontal * 1 ≤ s.horizontal * s.vertical := Nat.mul_le_mul_left _ (by omega)
    have b : 1 * s.vertical ≤ s.horizontal * s.vertical := Nat.mul_le_mul_right _ (by omega)
    omega

theorem Constructible.wordH {C A D : Type} {s : Shape C A D} (h : Constructible s) : s.horizontal < 2 * s.m.half := by
  have := h.bounds; omega
theorem Constructible.wordV {C A D : Type} {s : Shape C A D} (h : Constructible s) : s.vertical < 2 * s.m.half := by
  have := h.bounds; omega

end LG
