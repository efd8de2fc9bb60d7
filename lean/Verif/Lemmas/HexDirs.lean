import Verif.Lemmas.Square
import Verif.Model.HexOffset
/- Direction structure of the hexagonal shapes. -/
namespace LG

theorem hexLatR_dirLaws {C : Type} (w h : Nat) (coord : Nat → Nat → C) (nbr : C → AxisDR → Option C) : DirLaws (hexLatR w h coord nbr) where
  axes_nodup := by simp [hexLatR]
  axes_mem := by intro a; cases a <;> simp [hexLatR]
  dirs_nodup := by simp [hexLatR]
  dirs_mem := by intro a; cases a <;> simp [hexLatR]
  opp_opp := by intro d; cases d <;> rfl
  opp_ne := by intro d; cases d <;> simp [hexLatR, AxisDR.rev]
  ax_fwd := by intro d; cases d <;> rfl
  fwd_ax := by intro d; cases d <;> simp [hexLatR, AxisDR.rev]
  dirs_und := fun _ => rfl
  dirs_dir := by intro h; cases h

theorem axisR_impl {C : Type} (m : Machine) (w h : Nat) (coord : Nat → Nat → C) (nbr : C → AxisDR → Option C) : AxisImpl (axisR m) (hexLatR w h coord nbr) where
  count := rfl
  directed := rfl
  undirectedCount := rfl
  fromIndex := by
    intro i hi
    match i, hi with
    | 0, _ => rfl
    | 1, _ => rfl
    | 2, _ => rfl
    | n + 3, hi => exact absurd hi (by simp [hexLatR])
  toIndex := by intro a; cases a <;> rfl
  dirFromIndex := by
    intro i hi
    match i, hi with
    | 0, _ => rfl
    | 1, _ => rfl
    | 2, _ => rfl
    | 3, _ => rfl
    | 4, _ => rfl
    | 5, _ => rfl
    | n + 6, hi => exact absurd hi (by simp [hexLatR])
  dirToIndex := by intro d; cases d <;> rfl
  foward := by intro d; cases d <;> rfl
  backward := by intro d; cases d <;> rfl
  fromDirection := by intro d; cases d <;> rfl
  isForward := by intro d; cases d <;> rfl
  count_le := by simp [hexLatR]

theorem hexLatDR_dirLaws {C : Type} (w h : Nat) (coord : Nat → Nat → C) (nbr : C → AxisDR → Option C) : DirLaws (hexLatDR w h coord nbr) where
  axes_nodup := by simp [hexLatDR]
  axes_mem := by intro a; cases a <;> simp [hexLatDR]
  dirs_nodup := by simp [hexLatDR]
  dirs_mem := by intro a; cases a <;> simp [hexLatDR]
  opp_opp := by intro d; cases d <;> rfl
  opp_ne := by intro d; cases d <;> simp [hexLatDR, AxisDR.rev]
  ax_fwd := by intro d; cases d <;> rfl
  fwd_ax := by intro d; cases d <;> simp [hexLatDR, AxisDR.rev]
  dirs_und := by intro h; cases h
  dirs_dir := fun _ => rfl

theorem axisDR_impl {C : Type} (m : Machine) (w h : Nat) (coord : Nat → Nat → C) (nbr : C → AxisDR → Option C) : AxisImpl (axisDR m) (hexLatDR w h coord nbr) where
  count := rfl
  directed := rfl
  undirectedCount := rfl
  fromIndex := by
    intro i hi
    match i, hi with
    | 0, _ => rfl
    | 1, _ => rfl
    | 2, _ => rfl
    | 3, _ => rfl
    | 4, _ => rfl
    | 5, _ => rfl
    | n + 6, hi => exact absurd hi (by simp [hexLatDR])
  toIndex := by intro a; cases a <;> rfl
  dirFromIndex := by
    intro i hi
    match i, hi with
    | 0, _ => rfl
    | 1, _ => rfl
    | 2, _ => rfl
    | 3, _ => rfl
    | 4, _ => rfl
    | 5, _ => rfl
    | n + 6, hi => exact absurd hi (by simp [hexLatDR])
  dirToIndex := by intro d; cases d <;> rfl
  foward := by intro d; cases d <;> rfl
  backward := by intro d; cases d <;> rfl
  fromDirection := by intro d; cases d <;> rfl
  isForward := by intro d; cases d <;> rfl
  count_le := by simp [hexLatDR]

theorem hexLatQ_dirLaws {C : Type} (w h : Nat) (coord : Nat → Nat → C) (nbr : C → AxisDQ → Option C) : DirLaws (hexLatQ w h coord nbr) where
  axes_nodup := by simp [hexLatQ]
  axes_mem := by intro a; cases a <;> simp [hexLatQ]
  dirs_nodup := by simp [hexLatQ]
  dirs_mem := by intro a; cases a <;> simp [hexLatQ]
  opp_opp := by intro d; cases d <;> rfl
  opp_ne := by intro d; cases d <;> simp [hexLatQ, AxisDQ.rev]
  ax_fwd := by intro d; cases d <;> rfl
  fwd_ax := by intro d; cases d <;> simp [hexLatQ, AxisDQ.rev]
  dirs_und := fun _ => rfl
  dirs_dir := by intro h; cases h

theorem axisQ_impl {C : Type} (m : Machine) (w h : Nat) (coord : Nat → Nat → C) (nbr : C → AxisDQ → Option C) : AxisImpl (axisQ m) (hexLatQ w h coord nbr) where
  count := rfl
  directed := rfl
  undirectedCount := rfl
  fromIndex := by
    intro i hi
    match i, hi with
    | 0, _ => rfl
    | 1, _ => rfl
    | 2, _ => rfl
    | n + 3, hi => exact absurd hi (by simp [hexLatQ])
  toIndex := by intro a; cases a <;> rfl
  dirFromIndex := by
    intro i hi
    match i, hi with
    | 0, _ => rfl
    | 1, _ => rfl
    | 2, _ => rfl
    | 3, _ => rfl
    | 4, _ => rfl
    | 5, _ => rfl
    | n + 6, hi => exact absurd hi (by simp [hexLatQ])
  dirToIndex := by intro d; cases d <;> rfl
  foward := by intro d; cases d <;> rfl
  backward := by intro d; cases d <;> rfl
  fromDirection := by intro d; cases d <;> rfl
  isForward := by intro d; cases d <;> rfl
  count_le := by simp [hexLatQ]

theorem hexLatDQ_dirLaws {C : Type} (w h : Nat) (coord : Nat → Nat → C) (nbr : C → AxisDQ → Option C) : DirLaws (hexLatDQ w h coord nbr) where
  axes_nodup := by simp [hexLatDQ]
  axes_mem := by intro a; cases a <;> simp [hexLatDQ]
  dirs_nodup := by simp [hexLatDQ]
  dirs_mem := by intro a; cases a <;> simp [hexLatDQ]
  opp_opp := by intro d; cases d <;> rfl
  opp_ne := by intro d; cases d <;> simp [hexLatDQ, AxisDQ.rev]
  ax_fwd := by intro d; cases d <;> rfl
  fwd_ax := by intro d; cases d <;> simp [hexLatDQ, AxisDQ.rev]
  dirs_und := by intro h; cases h
  dirs_dir := fun _ => rfl

theorem axisDQ_impl {C : Type} (m : Machine) (w h : Nat) (coord : Nat → Nat → C) (nbr : C → AxisDQ → Option C) : AxisImpl (axisDQ m) (hexLatDQ w h coord nbr) where
  count := rfl
  directed := rfl
  undirectedCount := rfl
  fromIndex := by
    intro i hi
    match i, hi with
    | 0, _ => rfl
    | 1, _ => rfl
    | 2, _ => rfl
    | 3, _ => rfl
    | 4, _ => rfl
    | 5, _ => rfl
    | n + 6, hi => exact absurd hi (by simp [hexLatDQ])
  toIndex := by intro a; cases a <;> rfl
  dirFromIndex := by
    intro i hi
    match i, hi with
    | 0, _ => rfl
    | 1, _ => rfl
    | 2, _ => rfl
    | 3, _ => rfl
    | 4, _ => rfl
    | 5, _ => rfl
    | n + 6, hi => exact absurd hi (by simp [hexLatDQ])
  dirToIndex := by intro d; cases d <;> rfl
  foward := by intro d; cases d <;> rfl
  backward := by intro d; cases d <;> rfl
  fromDirection := by intro d; cases d <;> rfl
  isForward := by intro d; cases d <;> rfl
  count_le := by simp [hexLatDQ]

end LG
