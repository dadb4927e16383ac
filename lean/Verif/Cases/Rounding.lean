/- Cases of the theorems about the rounded model (Props/Round*): their hypotheses hold for concrete objects and every rounding. -/
import Verif.Cases.Common
import Verif.Props.RoundBall
import Verif.Props.RoundBary
import Verif.Props.RoundBound
import Verif.Props.RoundCompare
import Verif.Props.RoundMatrix
import Verif.Props.RoundMove
import Verif.Props.RoundQuat
import Verif.Props.RoundVector

namespace WFMath.Cases
open WFMath Spec Matrix

/-- Small whole numbers are doubles. -/
theorem isFl_int (k : ℤ) (h : |k| < 2 ^ 20) : IsFl 53 (k : ℝ) := ⟨k, 0, lt_of_lt_of_le h (by norm_num), by simp⟩
theorem boxA_low (i : Fin 2) : IsFl 53 (boxA.low.elem i) := by fin_cases i <;> simpa [boxA] using isFl_int 0 (by norm_num)
theorem boxA_high (i : Fin 2) : IsFl 53 (boxA.high.elem i) := by
  fin_cases i
  · simpa [boxA] using isFl_int 2 (by norm_num)
  · simpa [boxA] using isFl_int 3 (by norm_num)
noncomputable def fpP : Pt 2 := ⟨![1, 2], true⟩
noncomputable def fpQ : Pt 2 := ⟨![3, -1], true⟩
theorem fpP_fl (i : Fin 2) : IsFl 53 (fpP.elem i) := by
  fin_cases i
  · simpa [fpP] using isFl_int 1 (by norm_num)
  · simpa [fpP] using isFl_int 2 (by norm_num)
theorem fpQ_fl (i : Fin 2) : IsFl 53 (fpQ.elem i) := by
  fin_cases i
  · simpa [fpQ] using isFl_int 3 (by norm_num)
  · simpa [fpQ] using isFl_int (-1) (by norm_num)
noncomputable def fvU : Vec 2 := ⟨![1, 2], true⟩
theorem fvU_fl (i : Fin 2) : IsFl 53 (fvU.elem i) := fpP_fl i
theorem fvU_ne : fvU.elem ≠ 0 := fun h => by have := congrFun h 0; simp [fvU] at this

example (r : Rounding 53) := C119_point r ballA fpP (by norm_num) (by norm_num [ballA])
example (r : Rounding 53) := C119_box r ballA boxA (by norm_num) (by norm_num [ballA]) boxA_ordered true
example (r : Rounding 53) := C119_box_contains r boxA ballB (by norm_num [ballB]) boxA_ordered boxA_low boxA_high
example (r : Rounding 53) := C119_contains_ball r ballA ballB (by norm_num)
example (r : Rounding 53) := C126_single r fpP fpP_fl
example (r : Rounding 53) := C121_ball_box r ballA (by norm_num [ballA])
example (r : Rounding 53) := (C121_sphere_partial r boxA ⟨fpP, fpQ⟩ (by norm_num)).1 boxA_low boxA_high
example (r : Rounding 53) := (C121_sphere_partial r boxA ⟨fpP, fpQ⟩ (by norm_num)).2 fpP_fl fpQ_fl
example (r : Rounding 53) := C114_equal_arrays (n := 2) r (isFl_int 1 (by norm_num))
example (r : Rounding 53) := C114_box r boxA boxB boxA_ordered boxB_ordered fpP

/-- The matrix of the triangle (3, 4, 5), which `Fl.turn35 r` holds rounded to doubles. -/
noncomputable def exact35 : Matrix (Fin 2) (Fin 2) ℝ := Matrix.of ![![3 / 5, 4 / 5], ![-4 / 5, 3 / 5]]
theorem exact35_orth : exact35ᵀ * exact35 = 1 := by
  ext i j; fin_cases i <;> fin_cases j <;> simp [exact35, Matrix.mul_apply, Fin.sum_univ_two] <;> norm_num
theorem stands35 (r : Rounding 53) {δ : ℝ} (h : 2 ^ (-52 : ℤ) ≤ δ) : Stands (Fl.turn35 r).elem exact35 δ := fun v =>
  (Fl.turn35_stands r v).trans (mul_le_mul_of_nonneg_right h (len_nonneg _))
example (r : Rounding 53) (v : Vec 2) := C124_vector r (Fl.turn35 r) exact35 (2 ^ (-52 : ℤ)) (by norm_num) (by norm_num) (by norm_num) exact35_orth (stands35 r le_rfl) v
example (r : Rounding 53) := C124_product r (Fl.turn35 r) (Fl.turn35 r) exact35 exact35 (2 ^ (-52 : ℤ)) (2 ^ (-52 : ℤ)) (by norm_num) (by norm_num) (by norm_num)
  (by norm_num) (by norm_num) exact35_orth exact35_orth (stands35 r le_rfl) (stands35 r le_rfl)
example (r : Rounding 53) := C124_chain (n := 2) r (2 ^ (-52 : ℤ)) (by norm_num) (by norm_num) [(Fl.turn35 r, exact35), (Fl.turn35 r, exact35)]
  (fun p hp => by simp at hp; rw [hp]; exact ⟨exact35_orth, stands35 r le_rfl⟩) (by norm_num)
theorem quatB_near : ‖toH quatB - toH quatB‖ ≤ 0 := by simp
example (r : Rounding 53) (x o : Pt 3) := C125_quaternion r quatB (toH quatB) 0 quatB_norm quatB_near (by norm_num) x o
example (r : Rounding 53) (x p : Pt 2) := C125_about r (Fl.turn35 r) exact35 (13 * 2 ^ (-52 : ℤ)) (by norm_num) exact35_orth (by norm_num) (by norm_num) (stands35 r (by norm_num)) x p
example (r : Rounding 53) := C120_midpoint r fpP fpQ fpP_fl fpQ_fl
example (r : Rounding 53) := C120_between r fpP fpQ fpP_fl fpQ_fl
example (r : Rounding 53) := C122_product r quatA quatB (toH quatA) (toH quatB) 0 0 quatA_norm quatB_norm (by simp) (by simp) (by norm_num) (by norm_num)
example (r : Rounding 53) (v w : Vec 3) := C123_isometry r v w quatB 0 (by rw [quatB_norm]; simp) (by norm_num)
example (r : Rounding 53) := C116_length r fvU (by norm_num)
example (r : Rounding 53) := C116_normalize r fvU 3 (by norm_num) fvU_ne
example (r : Rounding 53) := C116_distance r fpP fpQ (by norm_num)
example (r : Rounding 53) := C117_vector r fvU fvU fvU_fl 3
example (r : Rounding 53) := C118_dot r fvU fvU (by norm_num)

end WFMath.Cases
