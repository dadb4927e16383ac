/- Cases for C152: the triangle with corners at the origin and on two axes, and balls above its first corner. -/
import Verif.Props.RoundBallInter3
import Verif.Cases.BallPolySpace

namespace WFMath.Cases
open WFMath Spec Matrix Rounding

theorem corner_filled : spacePoint threeCorners ![0, 0] ∈ spaceFilled threeCorners :=
  ⟨![0, 0], .inr (corner_boundary (c := ⟨![0, 0], true⟩) (by rw [threeCorners_poly]; simp)), rfl⟩

theorem above_dist : eucl (![0, 0, 1] : Fin 3 → ℝ) threeCorners.orient.origin.elem = 1 := by
  rw [eucl_eq_len]
  simp [threeCorners, len]

/-- A ball of radius 2 with its center at height 1 above the first corner is found to meet the triangle. -/
theorem ball_meets_triangle (r : Rounding 53) (proper : Bool) : Fl.interPolyBallN r threeCorners ⟨⟨![0, 0, 1], true⟩, 2⟩ proper = some true := by
  refine C152_meets r (by norm_num) threeCorners (triangle_axes r) _ (by norm_num) 0 1 (by rw [triangle_square]; simp) triangle_M2 (by norm_num) proper _ corner_filled ?_
  show eucl (spacePoint threeCorners ![0, 0]) ![0, 0, 1] ^ 2 ≤ 2 ^ 2 - meetMargin 2 (eucl ![0, 0, 1] threeCorners.orient.origin.elem) 1 0
  rw [above_dist, triangle_point, eucl_sq, Fin.sum_univ_three]
  unfold meetMargin
  norm_num
  rw [show (![0, 0, 0] : Fin 3 → ℝ) 2 = 0 from rfl, show (![0, 0, 1] : Fin 3 → ℝ) 2 = 1 from rfl]
  norm_num

example (r : Rounding 53) := C152_found r (by norm_num) threeCorners (triangle_axes r) ⟨⟨![0, 0, 1], true⟩, 2⟩ (by norm_num) 0 1 (by rw [triangle_square]; simp) triangle_M2 (by norm_num) true
  (ball_meets_triangle r true)

/-- A ball of radius 1/2 is not: all points of the plane are at distance 1 or more. -/
theorem ball_misses_triangle (r : Rounding 53) (proper : Bool) : Fl.interPolyBallN r threeCorners ⟨⟨![0, 0, 1], true⟩, 1 / 2⟩ proper ≠ some true := by
  intro h
  obtain ⟨x, ⟨z, -, rfl⟩, hx⟩ := C152_found r (by norm_num) threeCorners (triangle_axes r) ⟨⟨![0, 0, 1], true⟩, 1 / 2⟩ (by norm_num) 0 1 (by rw [triangle_square]; simp) triangle_M2
    (by norm_num) proper h
  change eucl (spacePoint threeCorners z) ![0, 0, 1] ^ 2 ≤ (1 / 2) ^ 2 + meetMargin (1 / 2) (eucl ![0, 0, 1] threeCorners.orient.origin.elem) 1 0 at hx
  rw [above_dist, triangle_point, eucl_sq, Fin.sum_univ_three] at hx
  unfold meetMargin at hx
  rw [show (![z 0, z 1, 0] : Fin 3 → ℝ) 2 = 0 from rfl, show (![0, 0, 1] : Fin 3 → ℝ) 2 = 1 from rfl] at hx
  norm_num at hx
  linarith [sq_nonneg (z 0), sq_nonneg (z 1)]

example (r : Rounding 53) := C152_missed r (by norm_num) threeCorners (triangle_axes r) ⟨⟨![0, 0, 1], true⟩, 1 / 2⟩ (by norm_num) 0 1 (by rw [triangle_square]; simp) triangle_M2 (by norm_num)
  false (ball_misses_triangle r false) _ corner_filled
example (r : Rounding 53) := C152_answers r threeCorners rfl ⟨⟨![0, 0, 1], true⟩, 1 / 2⟩

end WFMath.Cases
