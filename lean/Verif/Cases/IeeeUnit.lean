/- Cases that meet the hypotheses of C146. -/
import Verif.Props.IeeeUnit

namespace WFMath.Cases
open Spec Matrix Quaternion
open scoped Quaternion

def quat34 : ℍ[ℝ] := ⟨3, 0, 0, 4⟩

theorem norm_3 : ‖quat34‖ = 5 := by
  have h := Ie.normSq_parts quat34
  simp only [quat34] at h
  norm_num at h
  change ‖quat34‖ ^ 2 = 25 at h
  nlinarith [norm_nonneg quat34]

/-- (3, 0, 0, 4) becomes (3/5, 0, 0, 4/5). -/
example (g : Nearest) : ∃ p : ℍ[ℝ], Ie.qOfComponents g (.num 3) (.num 0) (.num 0) (.num 4) = ⟨.num p.re, ![.num p.imI, .num p.imJ, .num p.imK], true⟩ ∧
    ‖p - (5 : ℝ)⁻¹ • quat34‖ ≤ 2 ^ (-50 : ℤ) := by
  have h := C146_construct_partial g quat34
  rw [norm_3] at h
  exact h ((zpow_le_one_of_nonpos₀ one_le_two (by norm_num)).trans (by norm_num))
    ((by norm_num : (5 : ℝ) ≤ 2 ^ (3 : ℤ)).trans (zpow_le_zpow_right₀ one_le_two (by norm_num)))

/-- (2^600, 1, 0, 0) becomes (0, 0, 0, 0). -/
example (g : Nearest) : Ie.qOfComponents g (.num (2 ^ (600 : ℤ))) (.num 1) (.num 0) (.num 0) = ⟨.num 0, ![.num 0, .num 0, .num 0], true⟩ :=
  C146_large g ![2 ^ (600 : ℤ), 1, 0, 0] 0 (by
    show (2 : ℝ) ^ (512 : ℤ) ≤ |2 ^ (600 : ℤ)|
    rw [abs_of_pos (by positivity)]
    exact zpow_le_zpow_right₀ one_le_two (by norm_num))

/-- (2^-600, 0, 0, 0) becomes (infinity, NaN, NaN, NaN). -/
example (g : Nearest) : Ie.qOfComponents g (.num (2 ^ (-600 : ℤ))) (.num 0) (.num 0) (.num 0) = ⟨.inf false, ![.nan, .nan, .nan], true⟩ := by
  have h := C146_small g ![2 ^ (-600 : ℤ), 0, 0, 0] (fun i => by
    fin_cases i
    · show |(2 : ℝ) ^ (-600 : ℤ)| < 2 ^ (-538 : ℤ)
      rw [abs_of_pos (by positivity)]
      exact zpow_lt_zpow_right₀ one_lt_two (by norm_num)
    all_goals (show |(0 : ℝ)| < 2 ^ (-538 : ℤ); rw [abs_zero]; positivity)) _ fun _ => rfl
  have e : ((2 : ℝ) ^ (-600 : ℤ)) ≠ 0 := by positivity
  have e2 : ¬ ((2 : ℝ) ^ (-600 : ℤ)) < 0 := not_lt.2 (by positivity)
  simp only [Matrix.cons_val, e, e2, if_false, if_true, decide_false] at h
  exact h

/-- A list with a NaN, a list of length 5 and the list of zeros. -/
example (g : Nearest) (q : Ie.DQuat) :
    (Ie.qFromAtlas g q ![.num 1, .nan, .num 0] (.num 1)).valid = false ∧ (Ie.qFromAtlas g q ![.num 0, .num 0, .num 0] (.num 0)).valid = false ∧
    (Ie.qFromAtlas g q ![.num 0, .num 0, .num 4] (.num 3)).valid = true := by
  obtain ⟨h1, h2, h3⟩ := C146_atlas_partial g q
  have he := epsilon_pos
  have he2 := epsilon_lt
  norm_num at he2
  refine ⟨h1 _ _ (Or.inl ⟨1, fun x h => nomatch h⟩), h2 0 (by rw [norm_zero]; exact mul_nonneg he.le (by norm_num)), ?_⟩
  obtain ⟨p, hp, -⟩ := h3 quat34 (by rw [norm_3]; norm_num; linarith) (by rw [norm_3]; exact (by norm_num : (5 : ℝ) ≤ 2 ^ (3 : ℤ)).trans (zpow_le_zpow_right₀ one_le_two (by norm_num)))
  exact congrArg Ie.DQuat.valid hp

/-- A turn about the axis (0, 0, 2). -/
example (g : Nearest) (q : Ie.DQuat) : (Ie.qRotationAxis g q (fun i => .num ((![0, 0, 2] : Fin 3 → ℝ) i)) (.num 0) (.num 1)).valid = true := by
  have he2 := epsilon_lt
  norm_num at he2
  obtain ⟨-, h⟩ := C146_axis_partial g q ![0, 0, 2] 0 1 (by norm_num) 2 (by
    simp only [Fin.sum_univ_three, Matrix.cons_val]
    rw [show (0 : ℝ) ^ 2 + 0 ^ 2 + 2 ^ 2 = 2 ^ 2 by norm_num, Real.sqrt_sq (by norm_num)])
  obtain ⟨t, ht, -⟩ := h (by norm_num; linarith) ((by norm_num : (2 : ℝ) ≤ 2 ^ (1 : ℤ)).trans (zpow_le_zpow_right₀ one_le_two (by norm_num)))
  rw [ht]

/-- About an axis of `2^600`, by a half turn, everything is 0. -/
example (g : Nearest) (q : Ie.DQuat) : Ie.qRotationAxis g q (fun i => .num ((![0, 0, 2 ^ (600 : ℤ)] : Fin 3 → ℝ) i)) (.num 0) (.num 1) = ⟨.num 0, fun _ => .num 0, true⟩ :=
  C146_axis_large g q _ 2 (by
    show (2 : ℝ) ^ (512 : ℤ) ≤ |2 ^ (600 : ℤ)|
    rw [abs_of_pos (by positivity)]
    exact zpow_le_zpow_right₀ one_le_two (by norm_num)) 0 1

end WFMath.Cases
