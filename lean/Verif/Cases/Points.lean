/- Cases of the theorems of Props/Miniball, Props/Point, Props/Polar, Props/PolarPoint, Props/PolyAdd, Props/PolyBall and Props/PolyBox:
their hypotheses hold for concrete objects. -/
import Verif.Cases.Common
import Verif.Props.Miniball
import Verif.Props.Point
import Verif.Props.PolarPoint
import Verif.Props.PolyAdd
import Verif.Props.PolyBox

namespace WFMath.Cases
open WFMath Spec Matrix Miniball

/-! ### Props/Miniball -/

theorem exTriangle_ball : ∃ c : Fin 2 → ℝ, ∀ x ∈ pointSet exTriangle, eucl x c ≤ 5 := ⟨![0, 0], fun x hx => by
  rw [eucl_le_iff (by norm_num)]
  rcases (exTriangle_set x).1 hx with rfl | rfl | rfl <;> simp [Fin.sum_univ_two] <;> norm_num⟩
example := C58_unchecked_partial exTriangle (by simp [exTriangle]) 5 exTriangle_ball exTriangle_spread 8 (by simp [exTriangle])
/-- The triangle with a corner given twice and in the opposite order. -/
theorem exTriangle_rev : pointSet exTriangle = pointSet (exTriangle.reverse ++ exTriangle) := by
  ext x; simp [pointSet]
example := C58_order_partial exTriangle (exTriangle.reverse ++ exTriangle) exTriangle_rev (by simp [exTriangle]) 5 exTriangle_ball exTriangle_spread 64
  (by simp [exTriangle]) (by simp [exTriangle])
example : ∃ b, boundingSphere true 8 exTriangle = some b ∧ ∀ p ∈ exTriangle, eucl p.elem b.center.elem ^ 2 ≤ (1 + epsilon) * b.radius ^ 2 := by
  obtain ⟨b, hb, -⟩ := C58_smallest_partial exTriangle ⟨![0, 0], (exTriangle_set _).2 (by simp), ![4, 0], (exTriangle_set _).2 (by simp), fun h => by
    have := congrFun h 0
    simp at this⟩ 5 exTriangle_ball exTriangle_spread 8 (by simp [exTriangle])
  exact ⟨b, hb, fun p hp => (C58_encloses 8 exTriangle b hb p hp).1⟩

/-! ### Props/Point -/

/-- Three points of the plane. -/
noncomputable def threePts : List (Pt 2) := [⟨![0, 1], true⟩, ⟨![2, -1], true⟩, ⟨![4, 6], true⟩]
example : (Pt.barycenter threePts).elem 0 = 2 := by
  rw [(C30_mean threePts (by simp [threePts]) 0).1]; simp [threePts]; norm_num
example := C30_in_box threePts (by simp [threePts]) 1 (-1) 6 (by simp [threePts]; norm_num)
example : Pt.barycenter threePts = Pt.barycenter threePts.reverse := C30_order _ _ (List.reverse_perm _).symm
example := C30_translate threePts (by simp [threePts]) ⟨![5, 7], true⟩
example := C30_equal_weights threePts 3 (by norm_num) (by simp [threePts])
example : Pt.barycenterW threePts [2, 4, 6] = Pt.barycenterW threePts [1, 2, 3] := by
  have he2 := epsilon_lt
  norm_num at he2
  have := C30_proportional threePts [1, 2, 3] 2 3 (by norm_num) ⟨3, by simp [threePts], by norm_num⟩ (by simp [threePts]; norm_num) (by
    simp [threePts]; norm_num; linarith)
  rw [← this]; norm_num
example := C31_matrix ⟨![1, 2], true⟩ ⟨![5, -1], true⟩ turnA turnA_rotation
example := C31_matrix_distance ⟨![1, 2], true⟩ ⟨![0, 7], true⟩ ⟨![5, -1], true⟩ turnA turnA_rotation
/-- The point (1, 2, 0) with the origin (0, 0, 3) turned by `quatA`. -/
example : ((((⟨![1, 2, 0], true⟩ : Pt 3).toParentQ ⟨![0, 0, 3], true⟩ quatA).toLocalQ ⟨![0, 0, 3], true⟩ quatA).elem = ![1, 2, 0]) := by
  have h1 : RotExact ((⟨![1, 2, 0], true⟩ : Pt 3).sub Pt.origin) quatA := by
    refine quatA_ok fun i => ?_; fin_cases i <;> simp [Pt.sub, Pt.origin] <;> norm_num
  have h3 : RotExact ((⟨![1, 2, 0], true⟩ : Pt 3).sub ⟨![0, 0, 3], true⟩) quatA.inverse := by
    refine quatA_inv_ok fun i => ?_; fin_cases i <;> simp [Pt.sub] <;> norm_num
  refine (C31_quaternion _ _ _ quatA_norm h1 (quatA_inv_ok fun i => ?_) h3 (quatA_ok fun i => ?_)).1
  · rw [quatA_rotate h1]; fin_cases i <;> simp [Pt.sub, Pt.origin] <;> norm_num [abs_of_neg]
  · rw [quatA_unrotate h3]; fin_cases i <;> simp [Pt.sub] <;> norm_num [abs_of_neg]
example := C31_quaternion_error ⟨![1, 2, 3], true⟩ ⟨![0, 7, 1], true⟩ quatB quatB_norm
example := C31_quaternion_distance ⟨![1, 2, 3], true⟩ ⟨![0, 7, 1], true⟩ ⟨![5, 5, 5], true⟩ quatB quatB_norm
example := C32_error ⟨![1, 2, 3], true⟩ ⟨![0, 7, 1], true⟩ (fun h => by simpa using congrFun h 0) (fun h => by simpa using congrFun h 1)

/-! ### Props/Polar, Props/PolarPoint -/

example := C27_spherical_partial ⟨![1, 2, 3], true⟩ (by simp; norm_num)
example := C27_polar_back_partial 2 (1 / 3) (by norm_num)
example := C27_point_polar_partial ⟨![1, 2], true⟩ ⟨![1, 2, 3], true⟩ 2 (1 / 3) (by norm_num)
example := C27_point_spherical_partial ⟨![1, 2, 3], true⟩ (by simp; norm_num)

/-! ### Props/PolyAdd -/

example : ∃ c f, threeCorners.getCorner 2 = some c ∧ c.valid = true ∧ some (⟨0, true⟩ : Pt 3) = some f ∧
    eucl c.elem ![0, 1, 0] ≤ 2 * epsilon + Real.sqrt (epsilon + 2 * epsilon) * eucl ![0, 1, 0] f.elem :=
  (C72_partial epsilon epsilon_pos.le _ _ _ threeCorners_built).2.2 2 ⟨![0, 1, 0], true⟩ rfl
example := C72_basis epsilon epsilon_pos.le _ _ _ threeCorners_built

/-! ### Props/PolyBall, Props/PolyBox -/

/-- The ball of radius 1/4 about the middle of the unit square. -/
noncomputable def ballM : Ball 2 := ⟨⟨![1 / 2, 1 / 2], true⟩, 1 / 4⟩
theorem ballM_far : ∀ c ∈ unitSquare, ¬ Flushed ballM.center c := by
  intro c hc
  apply flushed_far
  · intro i; fin_cases i <;> norm_num [ballM, abs_of_pos]
  · rw [eucl_sq]
    simp only [unitSquare, List.mem_cons, List.not_mem_nil, or_false] at hc
    rcases hc with rfl | rfl | rfl | rfl <;> simp [ballM, Fin.sum_univ_two] <;> norm_num
example := C97_rejects unitSquare ballM (by norm_num [ballM]) ballM_far
end WFMath.Cases
