/- Case for C166: a rotated box of the plane, shifted and turned. -/
import Verif.Props.RoundRBoxSteps
import Verif.Cases.SegSteps

namespace WFMath.Cases
open WFMath Spec Matrix Rounding

/-- The box from the origin to (1, 1), not turned yet. -/
noncomputable def unitRBox : RBox 2 := ⟨⟨![0, 0], true⟩, ⟨![1, 1], true⟩, RotMat.identity⟩

theorem shiftTurn_sound (r : Rounding 53) : ∀ s ∈ shiftTurn' r, s.Sound := by
  intro s hs
  simp only [shiftTurn', List.mem_cons, List.not_mem_nil, or_false] at hs
  rcases hs with rfl | rfl <;> trivial

/-- C166_corners: after a shift and a turn, both rounded, the box has its sizes, and its four corners are within 1/20 of the exact corners carried along by one exact motion. -/
example (r : Rounding 53) : ∃ (S : Matrix (Fin 2) (Fin 2) ℝ) (t : Fin 2 → ℝ), Sᵀ * S = 1 ∧ (Fl.stepRBox r (shiftTurn' r) unitRBox).size = ⟨![1, 1], true⟩ ∧
    ∀ i < 4, ∃ p, Fl.rbCorner r (Fl.stepRBox r (shiftTurn' r) unitRBox) i = some p ∧ len (p.elem - (turnedCorner ![0, 0] ![1, 1] 1 i ᵥ* S + t)) ≤ 1 / 20 := by
  obtain ⟨S, t, hS, k⟩ := C166_corners r (13 * 2 ^ (-52 : ℤ)) 24 (shiftTurn' r) (by norm_num) (by norm_num) (by norm_num) (by norm_num) (shiftTurn_fits r) (shiftTurn_sound r)
  have hl : (shiftTurn' r).length = 2 := by simp [shiftTurn']
  have hI : Stands unitRBox.orient.elem 1 0 := fun v => by
    have : unitRBox.orient.elem = 1 := by ext i j; fin_cases i <;> fin_cases j <;> simp [unitRBox, RotMat.identity]
    rw [this, sub_self]; simp [len]
  obtain ⟨k1, -, k3, -⟩ := k unitRBox 1 0 _ _ (by simp) le_rfl hI (unitSeg_p1 r) rfl (by rw [hl]; norm_num) rfl
  refine ⟨S, t, hS, k1, fun i hi => ?_⟩
  obtain ⟨p, hp, hd⟩ := k3 i hi
  refine ⟨p, hp, hd.trans ?_⟩
  have hs : len unitRBox.size.elem ≤ 2 := (len2 _).trans (by norm_num [unitRBox])
  rw [hl]
  refine (add_le_add (add_le_add le_rfl (mul_le_mul_of_nonneg_left hs (by norm_num))) le_rfl).trans ?_
  norm_num

end WFMath.Cases
