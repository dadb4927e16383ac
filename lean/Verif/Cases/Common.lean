/- Concrete objects used to show that the hypotheses of the theorems are met. -/
import Verif.Props.RotBox
import Verif.Lemmas.QuatError

namespace WFMath.Cases
open WFMath Spec Matrix

/-- The boxes [0, 2] × [0, 3] and [1, 4] × [1, 2]. -/
noncomputable def boxA : Box 2 := ⟨⟨![0, 0], true⟩, ⟨![2, 3], true⟩⟩
noncomputable def boxB : Box 2 := ⟨⟨![1, 1], true⟩, ⟨![4, 2], true⟩⟩
theorem boxA_solid : Solid boxA := fun i => by fin_cases i <;> simp [boxA]
theorem boxB_solid : Solid boxB := fun i => by fin_cases i <;> simp [boxB] <;> norm_num
theorem boxA_ordered : Ordered boxA := fun i => (boxA_solid i).le
theorem boxB_ordered : Ordered boxB := fun i => (boxB_solid i).le
/-- The balls of radius 2 about (1, 0) and of radius 1 about (3/2, 0). -/
noncomputable def ballA : Ball 2 := ⟨⟨![1, 0], true⟩, 2⟩
noncomputable def ballB : Ball 2 := ⟨⟨![3 / 2, 0], true⟩, 1⟩

/-- The turn of the plane by the angle of the triangle (3, 4, 5), and of space about the second axis by the same angle. -/
noncomputable def turnA : RotMat 2 := ⟨!![3 / 5, 4 / 5; -4 / 5, 3 / 5], false, true, 1⟩
theorem turnA_rotation : IsRotation turnA := by
  constructor
  · ext i j; fin_cases i <;> fin_cases j <;> simp [turnA, Matrix.mul_apply, Fin.sum_univ_two] <;> norm_num
  · simp [turnA, det_fin_two]; norm_num
noncomputable def turnB : RotMat 3 := ⟨!![3 / 5, 0, -4 / 5; 0, 1, 0; 4 / 5, 0, 3 / 5], false, true, 1⟩
theorem turnB_rotation : IsRotation turnB := by
  constructor
  · ext i j; fin_cases i <;> fin_cases j <;> simp [turnB, Matrix.mul_apply, Fin.sum_univ_three] <;> norm_num
  · simp [turnB, det_fin_three]; norm_num
/-- The mirror image of space in the plane of the first two axes. -/
noncomputable def flipC : RotMat 3 := ⟨!![1, 0, 0; 0, 1, 0; 0, 0, -1], true, true, 0⟩
theorem flipC_rotation : IsRotation flipC := by
  constructor
  · ext i j; fin_cases i <;> fin_cases j <;> simp [flipC, Matrix.mul_apply, Fin.sum_univ_three]
  · simp [flipC, det_fin_three]
/-- The quaternion of the turn by twice the angle of the triangle (3, 4, 5) about the first axis, and one about the diagonal. -/
noncomputable def quatA : Quat := ⟨3 / 5, ⟨![4 / 5, 0, 0], true⟩, true, 1⟩
noncomputable def quatB : Quat := ⟨1 / 2, ⟨![1 / 2, 1 / 2, 1 / 2], true⟩, true, 1⟩
theorem quatA_unit : quatA.w ^ 2 + quatA.vec.elem ⬝ᵥ quatA.vec.elem = 1 := by simp [quatA, dotProduct, Fin.sum_univ_three]; norm_num
theorem quatB_unit : quatB.w ^ 2 + quatB.vec.elem ⬝ᵥ quatB.vec.elem = 1 := by simp [quatB, dotProduct, Fin.sum_univ_three]; norm_num

theorem quatA_norm : ‖toH quatA‖ = 1 := normSq_eq_one.1 (by rw [Quaternion.normSq_def']; simp [toH, quatA]; norm_num)
theorem quatB_norm : ‖toH quatB‖ = 1 := normSq_eq_one.1 (by rw [Quaternion.normSq_def']; simp [toH, quatB]; norm_num)

/-- Products that are zero or not tiny are exact. -/
theorem dotExact_big {u v : Vec 3} (hu : ∀ i, |u.elem i| ≤ 10) (h : u.elem ⬝ᵥ v.elem = 0 ∨ 1 / 1000 ≤ |u.elem ⬝ᵥ v.elem|) : DotExact u v := by
  have he2 := epsilon_lt
  have he := epsilon_pos
  norm_num at he2
  refine dotExact_of (h.imp_right fun h => ?_)
  have : min (maxAbs u.elem) (maxAbs v.elem) ≤ 10 := (min_le_left _ _).trans (maxAbs_le (by norm_num) hu)
  nlinarith
theorem crossExact_big {u v : Vec 3} (hu : ∀ i, |u.elem i| ≤ 10)
    (h : ∀ i, (u.elem ⨯₃ v.elem) i = 0 ∨ 1 / 1000 ≤ |(u.elem ⨯₃ v.elem) i|) : CrossExact u v := by
  have he2 := epsilon_lt
  have he := epsilon_pos
  norm_num at he2
  refine crossExact_of fun i => (h i).imp_right fun h => ?_
  have : min (maxAbs u.elem) (maxAbs v.elem) ≤ 10 := (min_le_left _ _).trans (maxAbs_le (by norm_num) hu)
  nlinarith
theorem quatA_exact {v : Vec 3} (h0 : v.elem 0 = 0 ∨ 1 / 100 ≤ |v.elem 0|) (h1 : v.elem 1 = 0 ∨ 1 / 100 ≤ |v.elem 1|)
    (h2 : v.elem 2 = 0 ∨ 1 / 100 ≤ |v.elem 2|) (s : ℝ) (hs : |s| = 4 / 5) (w : ℝ) (a b : Bool) (g : Nat) :
    RotExact v ⟨w, ⟨![s, 0, 0], a⟩, b, g⟩ := by
  have key : ∀ x : ℝ, (x = 0 ∨ 1 / 100 ≤ |x|) → s * x = 0 ∨ 1 / 1000 ≤ |s * x| := by
    rintro x (rfl | h)
    · simp
    · right; rw [abs_mul, hs]; linarith
  have hu : ∀ i, |(![s, 0, 0] : Fin 3 → ℝ) i| ≤ 10 := by
    intro i; fin_cases i <;> simp [hs]; norm_num
  refine ⟨dotExact_big hu ?_, crossExact_big hu fun i => ?_⟩
  · simpa [dotProduct, Fin.sum_univ_three] using key _ h0
  · have k2 := key _ h2
    have k1 := key _ h1
    fin_cases i
    · left; simp [cross_apply]
    · simpa [cross_apply] using k2
    · simpa [cross_apply] using k1
theorem quatA_ok {v : Vec 3} (h : ∀ i, v.elem i = 0 ∨ 1 / 100 ≤ |v.elem i|) : RotExact v quatA :=
  quatA_exact (h 0) (h 1) (h 2) _ (by norm_num) _ _ _ _
theorem quatA_inverse : quatA.inverse = ⟨3 / 5, ⟨![-(4 / 5), 0, 0], true⟩, true, 1⟩ := by
  have : -quatA.vec = ⟨![-(4 / 5), 0, 0], true⟩ := by
    ext i
    · fin_cases i <;> simp [quatA, Vec.neg_elem]
    · rfl
  simp [Quat.inverse, this]; simp [quatA]
theorem quatA_inv_ok {v : Vec 3} (h : ∀ i, v.elem i = 0 ∨ 1 / 100 ≤ |v.elem i|) : RotExact v quatA.inverse := by
  rw [quatA_inverse]
  exact quatA_exact (h 0) (h 1) (h 2) _ (by norm_num) _ _ _ _
/-- The rotation by `quatA`, forward and back. -/
theorem quatA_rotate {v : Vec 3} (h : RotExact v quatA) :
    (v.rotateQ quatA).elem = ![v.elem 0, -7 / 25 * v.elem 1 - 24 / 25 * v.elem 2, 24 / 25 * v.elem 1 - 7 / 25 * v.elem 2] := by
  rw [rotateQ_elem, h.1, h.2]
  funext i
  fin_cases i <;> simp [quatA, dotProduct, Fin.sum_univ_three, cross_apply, vecHead, vecTail] <;> ring
theorem quatA_unrotate {v : Vec 3} (h : RotExact v quatA.inverse) :
    (v.rotateQ quatA.inverse).elem = ![v.elem 0, -7 / 25 * v.elem 1 + 24 / 25 * v.elem 2, -24 / 25 * v.elem 1 - 7 / 25 * v.elem 2] := by
  rw [rotateQ_elem, h.1, h.2]
  funext i
  fin_cases i <;> simp [quatA, Quat.inverse, Vec.neg_elem, dotProduct, Fin.sum_univ_three, cross_apply, vecHead, vecTail] <;> ring

end WFMath.Cases
