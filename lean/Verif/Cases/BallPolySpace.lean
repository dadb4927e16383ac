/- Cases for C151: the triangle with corners at the origin and on two axes, and balls around its first corner. -/
import Verif.Props.RoundBallPoly3
import Verif.Cases.PolyPointSpace

namespace WFMath.Cases
open WFMath Spec Matrix Rounding

theorem triangle_square : threeCorners.orient.ax0.elem ⬝ᵥ threeCorners.orient.ax1.elem = 0 := by
  simp [threeCorners, dotProduct, Fin.sum_univ_three]

theorem triangle_M2 : ∀ q ∈ threeCorners.poly, q.elem 0 ^ 2 + q.elem 1 ^ 2 ≤ 1 ^ 2 := by
  intro c hc
  rw [threeCorners_poly] at hc
  simp only [List.mem_cons, List.not_mem_nil, or_false] at hc
  rcases hc with rfl | rfl | rfl <;> simp

theorem triangle_origin : eucl (0 : Fin 3 → ℝ) threeCorners.orient.origin.elem = 0 := by
  rw [eucl_eq_len]
  simp [threeCorners, len]

/-- A ball of radius 2 around the first corner is found to contain the triangle. -/
theorem triangle_in_ball (r : Rounding 53) (proper : Bool) : Fl.containsBallPolyN r ⟨⟨0, true⟩, 2⟩ threeCorners proper = some true := by
  refine C151_inside r (by norm_num) threeCorners (triangle_axes r) _ 0 1 (by rw [triangle_square]; simp) triangle_M2 (by norm_num) proper fun x hx => ?_
  obtain ⟨q, hq, rfl⟩ := hx
  have h1 : eucl (spacePoint threeCorners q.elem) 0 ^ 2 ≤ 1 := by
    rw [triangle_point, eucl_sq, Fin.sum_univ_three]
    have := triangle_M2 q hq
    simpa using this
  have h2 : (0 : ℝ) ≤ if proper then 0 else epsilon := by split_ifs; exacts [le_rfl, epsilon_pos.le]
  show eucl (spacePoint threeCorners q.elem) 0 ^ 2 < 2 ^ 2 + _ - ballMargin 2 (eucl 0 threeCorners.orient.origin.elem) 1 0
  rw [triangle_origin]
  unfold ballMargin
  norm_num
  linarith

example (r : Rounding 53) := C151_yes r (by norm_num) threeCorners (triangle_axes r) ⟨⟨0, true⟩, 2⟩ 0 1 (by rw [triangle_square]; simp) triangle_M2 (by norm_num) true
  (triangle_in_ball r true)

/-- A ball of radius 1/2 is not: a corner at distance 1 would be in a ball of radius little more than 1/2. -/
theorem triangle_not_in_ball (r : Rounding 53) (proper : Bool) : Fl.containsBallPolyN r ⟨⟨0, true⟩, 1 / 2⟩ threeCorners proper ≠ some true := by
  intro h
  have := C151_yes r (by norm_num) threeCorners (triangle_axes r) ⟨⟨0, true⟩, 1 / 2⟩ 0 1 (by rw [triangle_square]; simp) triangle_M2 (by norm_num) proper h
    (spacePoint threeCorners ![1, 0]) (subset_convexHull ℝ _ ⟨⟨![1, 0], true⟩, by rw [threeCorners_poly]; simp, rfl⟩)
  rw [triangle_point, eucl_sq, Fin.sum_univ_three] at this
  change _ ≤ (1 / 2) ^ 2 + _ + ballMargin (1 / 2) (eucl 0 threeCorners.orient.origin.elem) 1 0 at this
  rw [triangle_origin] at this
  unfold ballMargin at this
  have he2 := epsilon_lt
  norm_num at he2 this
  linarith [sq_nonneg ((![1, 0, 0] : Fin 3 → ℝ) 2)]

example (r : Rounding 53) := C151_no r (by norm_num) threeCorners (triangle_axes r) ⟨⟨0, true⟩, 1 / 2⟩ 0 1 (by rw [triangle_square]; simp) triangle_M2 (by norm_num) false
  (triangle_not_in_ball r false)

end WFMath.Cases
