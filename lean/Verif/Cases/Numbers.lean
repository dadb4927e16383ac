/- Cases of the theorems of Props/BoundingSphere, Conditional, Const, Corners, GammaFunction, Gauss, IntToString. -/
import Verif.Cases.Common
import Verif.Props.BoxTests
import Verif.Props.BoundingSphere
import Verif.Props.PolyContains
import Verif.Props.Conditional
import Verif.Props.Const
import Verif.Props.Corners
import Verif.Props.Gauss
import Verif.Props.IntToString

namespace WFMath.Cases
open WFMath Spec Matrix Gauss IntToString

/-! ### Props/BoxTests -/

example := C54_overlap boxA boxB boxA_ordered boxB_ordered
example := C54_overlap_proper boxA boxB boxA_ordered boxB_ordered
example := C54_overlap_solid boxA boxB boxA_solid boxB_solid
/-- The box [1, 2] × [1, 2] in the box [0, 2] × [0, 3]. -/
noncomputable def boxC : Box 2 := ⟨⟨![1, 1], true⟩, ⟨![2, 2], true⟩⟩
theorem boxC_ordered : Ordered boxC := fun i => by fin_cases i <;> simp [boxC]
theorem boxC_in : boxSet boxC ⊆ boxSet boxA := fun x hx i => by
  have := hx i
  fin_cases i <;> simp [boxC, boxA] at this ⊢ <;> constructor <;> linarith
example := C54_contains boxA boxC boxC_ordered
example : interBB boxA boxC false = true :=
  C54_contains_intersect boxA boxC boxC_ordered false ((C54_contains boxA boxC boxC_ordered).2.2 boxC_in) boxA_ordered
example (h : containsBB boxC boxB false = true) : containsBB boxA boxB false = true := (C54_trans_partial boxA boxC boxB boxC_ordered boxB_ordered).2.1 boxC_in h

/-! ### Props/BoundingSphere -/

theorem boxA_apart : ¬ Flushed boxA.low boxA.high := by
  have he := epsilon_lt
  norm_num at he
  refine not_flushed (M := 1) (fun i => by fin_cases i <;> simp [boxA]) le_rfl ?_
  rw [eucl_sq]; simp [boxA, Fin.sum_univ_two]; linarith
example := C56_box_partial boxA boxA_ordered boxA_apart
example := C56_segment_partial ⟨boxA.low, boxA.high⟩ boxA_apart
example := C56_rotbox_sloppy_partial ⟨⟨![1, 1], true⟩, ⟨![1, 0], true⟩, turnA⟩ turnA_rotation (by simp [Vec.mag, Vec.sqrMag, Fin.sum_univ_two])
example := C57_dim3 [⟨![0, 0, 0], true⟩, ⟨![1, 0, 3], true⟩, ⟨![0, 5, 1], true⟩] (by simp)

/-! ### Props/Conditional -/

example := Prob.C82_terminates (a := 3) (z := 5 / 2) (by norm_num) (by norm_num) (by norm_num)
example := Prob.C82_rejects (a := 1) (z := 3) (by norm_num)
example := Prob.C95_poisson_low 2 3 (by norm_num)
example := Prob.C95_gaussian_mean (s := 2) (by norm_num) 1

/-! ### Props/Const -/

example : equal (7 / 3) (7 / 3) epsilon = true := C14_refl _ _ epsilon_pos.le
example : equal (5 * 2 ^ (10 : ℤ)) (6 * 2 ^ (10 : ℤ)) epsilon = equal 5 6 epsilon := C14_scale _ _ _ (by norm_num) (by norm_num) _
example := C15_clamp_mem (7 : ℝ) 0 5 (by norm_num)
example : floatClamp (3 : ℝ) 0 5 = 3 := C15_clamp_id _ _ _ (by norm_num) (by norm_num)
example := C15_clamp_nearest 7 0 5 4 (by norm_num) (by norm_num) (by norm_num)

/-! ### Props/Corners -/

/-- Three corners, given by their positions. -/
example (a b c d : Pt 2) := C71_edits [a, b, c] ⟨3, fun j => if j = 0 then a else if j = 1 then b else c⟩
  ⟨rfl, fun j hj => by have hj : j < 3 := hj; interval_cases j <;> simp [Corners.getCorner]⟩ [.add 1 d, .remove 0]

/-! ### Props/GammaFunction -/

example := Prob.C81_partial 2 (by simp [Prob.coeffs]) (by norm_num) (by norm_num)
theorem not_pole (n : ℕ) : (-7 / 2 : ℝ) ≠ -n := fun hn => by
  have h1 : (7 : ℝ) = ((2 * n : ℕ) : ℝ) := by push_cast; linarith
  have h2 : 7 = 2 * n := by exact_mod_cast h1
  omega
example : ∃ r δ, Prob.gamma (-7 / 2) = some r ∧ |δ| ≤ 3 / 2 * 10⁻¹ ^ 10 ∧ r = Real.Gamma (-7 / 2) * Real.exp δ := by
  obtain ⟨s, hs⟩ := Prob.C94_total (z := 1 - -7 / 2) (Or.inl (by norm_num))
  have : ∃ r, Prob.gamma (-7 / 2) = some r := by unfold Prob.gamma; rw [hs, if_neg (by norm_num)]; exact ⟨_, rfl⟩
  obtain ⟨r, hr⟩ := this
  obtain ⟨δ, h1, h2⟩ := Prob.C94_gamma not_pole hr
  exact ⟨r, δ, hr, h1, h2⟩
/-- At 5 the logarithm of the Gamma function is log 24. -/
example := Prob.C94_returns (z := 5) (by
  rw [if_neg (by norm_num), show (5 : ℝ) = (4 : ℕ) + 1 by norm_num, Real.Gamma_nat_eq_factorial]
  have : (1 : ℝ) ≤ Real.log ((Nat.factorial 4 : ℕ) : ℝ) := by
    rw [Real.le_log_iff_exp_le (by positivity)]
    have := Real.exp_one_lt_d9
    norm_num [Nat.factorial]
    linarith
  rw [abs_of_nonneg (by linarith)]; norm_num at this ⊢; linarith)

/-! ### Props/Gauss -/

theorem det_ne : (!![2, 1; 1, 4] : Matrix (Fin 2) (Fin 2) ℝ).det ≠ 0 := by rw [det_fin_two]; simp; norm_num
example := C47_inverse_partial !![2, 1; 1, 4] det_ne
/-- With fine enough limits the matrix (2 1; 1 4) is inverted, and any system with it solved. -/
example : ∃ (L : Limits) (X : Matrix (Fin 2) (Fin 2) ℝ), inverseImpl L !![2, 1; 1, 4] identityArr = some X ∧ !![2, 1; 1, 4] * X = 1 ∧ X * !![2, 1; 1, 4] = 1 := by
  obtain ⟨δ, h0, h⟩ := C47_inverse_partial !![2, 1; 1, 4] det_ne
  obtain ⟨X, hX, -⟩ := h ⟨max (1 / δ) 1, min δ 1, by positivity, by positivity⟩ (min_le_left _ _)
    (by rw [← div_le_iff₀' h0]; exact le_max_left _ _)
  exact ⟨_, X, hX, C47_inverse _ _ _ hX⟩
example (L : Limits) (B X : Matrix (Fin 2) (Fin 2) ℝ) (h : inverseImpl L !![2, 1; 1, 4] B = some X) : !![2, 1; 1, 4] * X = B := C47_solve L _ B X h
example (L : Limits) (B : Matrix (Fin 2) (Fin 2) ℝ) : inverseImpl L !![1, 2; 2, 4] B = none := C47_singular L _ B (by rw [det_fin_two]; simp; norm_num)
example (L : Limits) (B : Matrix (Fin 2) (Fin 2) ℝ) := C47_failure L !![1, 2; 2, 4] B (C47_singular L _ B (by rw [det_fin_two]; simp; norm_num))

/-! ### Props/IntToString -/

example : intToStringU 12#64 ≠ intToStringU 13#64 := fun h => absurd (C01_unsigned_injective _ _ h) (by decide)
example := C02_signed_numeral (-9223372036854775808) (by norm_num) (by norm_num)
example : intToStringS 5 ≠ intToStringS (-5) := fun h => absurd (C02_signed_injective 5 (-5) (by norm_num) (by norm_num) (by norm_num) (by norm_num) h) (by norm_num)

end WFMath.Cases
