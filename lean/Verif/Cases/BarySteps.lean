/- Cases for C162: the centre of the unit square, shifted and turned. -/
import Verif.Props.RoundBarySteps
import Verif.Cases.BallHistory
import Verif.Cases.SegSteps

namespace WFMath.Cases
open WFMath Spec Matrix Rounding

/-- The library's barycenter of the corners of the unit square is within 2 of the origin. -/
theorem square_bary (r : Rounding 53) : len (Fl.barycenter r unitSquare).elem ≤ 2 := by
  have a := Fl.bary_mean r unitSquare (by simp [unitSquare]) (by simp [unitSquare]) (M := 2) (by norm_num) square_len
  have b : mean (unitSquare.map Pt.elem) = ![1 / 2, 1 / 2] := by
    ext j
    fin_cases j <;> norm_num [mean, unitSquare]
  rw [b] at a
  have c : len ![(1 / 2 : ℝ), 1 / 2] ≤ 1 := (len2 _).trans (by norm_num)
  have d := len_add_le ((Fl.barycenter r unitSquare).elem - ![1 / 2, 1 / 2]) ![1 / 2, 1 / 2]
  rw [sub_add_cancel] at d
  have l : (unitSquare.length : ℝ) = 4 := by norm_num [unitSquare]
  rw [l] at a
  exact d.trans ((add_le_add a c).trans (by norm_num))

/-- C162_barycenter: after a shift and a turn the barycenter of the corners is within 2^-38 of the moved barycenter. -/
example (r : Rounding 53) : eucl (Fl.barycenter r (unitSquare.map (Fl.stepPoint r (shiftTurn' r)))).elem (Fl.stepPoint r (shiftTurn' r) (Fl.barycenter r unitSquare)).elem ≤ 2 ^ (-38 : ℤ) := by
  refine (C162_barycenter r (by norm_num) (shiftTurn' r) (13 * 2 ^ (-52 : ℤ)) 24 (by norm_num) (by norm_num) (shiftTurn_fits r) unitSquare (by simp [unitSquare]) (by simp [unitSquare])
    (fun p hp => shiftTurn_remains r p (square_len p hp)) (shiftTurn_remains r _ (square_bary r))).trans ?_
  have l : (unitSquare.length : ℝ) = 4 := by norm_num [unitSquare]
  have hl : ((shiftTurn' r).length : ℝ) = 2 := by norm_num [shiftTurn']
  rw [l, hl]; norm_num

/-- C162_polygon: after a shift and a turn the centre of the square is within 2^-39 of the moved centre. -/
example (r : Rounding 53) : eucl (Fl.barycenter r (Fl.movePoly r (shiftTurn r) unitSquare)).elem (Fl.movePoint r (shiftTurn r) (Fl.barycenter r unitSquare)).elem ≤ 2 ^ (-39 : ℤ) := by
  refine (C162_polygon r (shiftTurn r) (13 * 2 ^ (-52 : ℤ)) 24 (by norm_num) (by norm_num) (motions_fit r) unitSquare (by simp [unitSquare]) (by simp [unitSquare])
    (fun p hp => shiftTurn_stays r p (square_len p hp)) (shiftTurn_stays r _ (square_bary r))).trans ?_
  have l : (unitSquare.length : ℝ) = 4 := by norm_num [unitSquare]
  have hl : ((shiftTurn r).length : ℝ) = 2 := by norm_num [shiftTurn]
  rw [l, hl]; norm_num

end WFMath.Cases
