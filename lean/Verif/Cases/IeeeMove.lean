/- Cases that meet the hypotheses of the theorems C145. -/
import Verif.Props.IeeeFrame
import Verif.Props.IeeeQuat
import Verif.Cases.Poly3Moves

namespace WFMath.Cases
open WFMath Spec Matrix

theorem fin_zpow {e : ℤ} (h : -1074 ≤ e) (h' : e ≤ 1023) : IsFinite (2 ^ e) :=
  Ie.fin_of_le (IsDbl.zpow h) (by rw [abs_of_pos (by positivity)]; exact zpow_le_zpow_right₀ one_le_two h')

theorem fin_max : IsFinite dblMax := ⟨Ie.dblMax_zpow 971 (by norm_num), by
  rw [abs_of_nonneg ((by positivity : (0 : ℝ) ≤ 2 ^ (1023 : ℤ)).trans Ie.pow_le_dblMax)]; exact Ie.dblMax_lt⟩

/-- A very large, a very small and the smallest number. -/
noncomputable def wide : Fin 3 → ℝ := ![2 ^ (1000 : ℤ), 2 ^ (-1074 : ℤ), 2 ^ (-500 : ℤ)]

theorem wide_dbl (i : Fin 3) : IsDbl (wide i) := by
  fin_cases i <;> exact IsDbl.zpow (by norm_num)

theorem wide_le (i : Fin 3) : |wide i| ≤ 2 ^ (1000 : ℤ) := by
  fin_cases i
  · exact (abs_of_pos (by positivity : (0 : ℝ) < 2 ^ (1000 : ℤ))).le
  · exact (abs_of_pos (by positivity : (0 : ℝ) < 2 ^ (-1074 : ℤ))).le.trans (zpow_le_zpow_right₀ one_le_two (by norm_num))
  · exact (abs_of_pos (by positivity : (0 : ℝ) < 2 ^ (-500 : ℤ))).le.trans (zpow_le_zpow_right₀ one_le_two (by norm_num))

theorem wide_fin (i : Fin 3) : IsFinite (wide i) := Ie.fin_of_le (wide_dbl i) ((wide_le i).trans (zpow_le_zpow_right₀ one_le_two (by norm_num)))

/-- The sum of 2^-1074 and 2^-1074 is not lost, and the sum of the largest double with itself is infinite. -/
example (g : Nearest) : (∃ y, Ie.vadd g (nums wide) (nums wide) 1 = .num y ∧ IsFinite y ∧ |y - (wide 1 + wide 1)| ≤ 2 ^ (-53 : ℤ) * |wide 1 + wide 1|) ∧
    Ie.vadd g (nums ![dblMax]) (nums ![dblMax]) 0 = .inf false := by
  refine ⟨(C145_sum g wide wide wide_fin wide_fin 1).1 ?_, ?_⟩
  · refine le_trans ?_ Ie.pow_le_dblMax
    have h : (2 : ℝ) ^ (1022 : ℤ) + 2 ^ (1022 : ℤ) = 2 ^ (1023 : ℤ) := by rw [Ie.two_pow_add]; norm_num
    have h1 : |wide 1| ≤ 2 ^ (1022 : ℤ) := (wide_le 1).trans (zpow_le_zpow_right₀ one_le_two (by norm_num))
    exact (abs_add_le _ _).trans ((add_le_add h1 h1).trans h.le)
  · have hp : (0 : ℝ) < 2 ^ (1023 : ℤ) := by positivity
    have hs : (2 : ℝ) ^ (1024 : ℤ) ≤ dblMax + dblMax := by
      have : (2 : ℝ) ^ (1023 : ℤ) + 2 ^ (1023 : ℤ) = 2 ^ (1024 : ℤ) := by rw [Ie.two_pow_add]; norm_num
      exact this.ge.trans (add_le_add Ie.pow_le_dblMax Ie.pow_le_dblMax)
    have h0 : (0 : ℝ) < dblMax + dblMax := lt_of_lt_of_le (by positivity) hs
    have := (C145_sum g ![dblMax] ![dblMax] (fun i => by fin_cases i; exact fin_max) (fun i => by fin_cases i; exact fin_max) 0).2.2.1 (by
      show _ ≤ |dblMax + dblMax|
      rw [abs_of_pos h0]; exact hs)
    rw [this]
    show Dbl.inf (decide (dblMax + dblMax < 0)) = _
    rw [decide_eq_false (not_lt.2 h0.le)]

/-- The midpoint of the largest double and the smallest double. -/
example (g : Nearest) := C145_midpoint g ![dblMax, 2 ^ (-1074 : ℤ)] ![dblMax, -dblMax] (fun i => by fin_cases i; exacts [fin_max, fin_zpow (by norm_num) (by norm_num)])
  (fun i => by fin_cases i; exacts [fin_max, ⟨fin_max.1.neg, by rw [show (![dblMax, -dblMax] : Fin 2 → ℝ) ((fun i => i) ⟨1, by norm_num⟩) = -dblMax from rfl, abs_neg]; exact fin_max.2⟩])

example (g : Nearest) := C145_rotate g (by norm_num) thirdTurn thirdTurn 0 le_rfl zero_le_one thirdTurn_orth (stands_self _ le_rfl) wide wide_le
example (g : Nearest) := C145_frames g (by norm_num) thirdTurn thirdTurn (2 ^ (-40 : ℤ)) (by norm_num) (by norm_num) thirdTurn_orth (stands_self _ (by norm_num)) wide (-wide)
  wide_dbl (fun i => (wide_dbl i).neg) wide_le (fun i => by rw [Pi.neg_apply, abs_neg]; exact wide_le i)
example (g : Nearest) (i : Fin 3) := C145_box_frames g wide wide wide_dbl wide_dbl i ((wide_le i).trans (zpow_le_zpow_right₀ one_le_two (by norm_num)))
  ((wide_le i).trans (zpow_le_zpow_right₀ one_le_two (by norm_num)))
example (g : Nearest) := C145_rotbox_center g (by norm_num) thirdTurn thirdTurn (2 ^ (-40 : ℤ)) (by norm_num) (by norm_num) thirdTurn_orth (stands_self _ (by norm_num)) wide wide
  wide_dbl wide_dbl wide_le wide_le
example (g : Nearest) := C145_barycenter_partial g wide [wide, wide] (by norm_num) (fun q hq j => by
  simp only [List.mem_cons, List.not_mem_nil, or_false, or_self] at hq
  subst hq; exact ⟨wide_dbl j, wide_le j⟩)

/-- The smallest double halved and doubled, and the largest doubled. -/
example (g : Nearest) : (∃ y, Ie.vscale g (nums wide) (.num (1 / 2)) 1 = .num y ∧ IsFinite y ∧ |y - wide 1 * (1 / 2)| ≤ 2 ^ (-53 : ℤ) * |wide 1 * (1 / 2)| + 2 ^ (-1075 : ℤ)) ∧
    Ie.vdiv g (nums ![dblMax]) (.num (1 / 2)) 0 = .inf false ∧ ∀ y, Ie.vdiv g (nums wide) (.num 0) 0 ≠ .num y := by
  refine ⟨(C145_scale g wide (1 / 2) 1).1 ?_, ?_, (C145_scale g wide 0 0).2.2.2.2 rfl⟩
  · rw [abs_mul]
    refine (mul_le_of_le_one_right (abs_nonneg _) (by norm_num [abs_of_pos])).trans ((wide_le 1).trans ((zpow_le_zpow_right₀ one_le_two (by norm_num)).trans Ie.pow_le_dblMax))
  · have hs : (2 : ℝ) ^ (1024 : ℤ) ≤ dblMax / (1 / 2) := by
      have : (2 : ℝ) ^ (1023 : ℤ) + 2 ^ (1023 : ℤ) = 2 ^ (1024 : ℤ) := by rw [Ie.two_pow_add]; norm_num
      rw [show dblMax / (1 / 2) = dblMax + dblMax by ring]
      exact this.ge.trans (add_le_add Ie.pow_le_dblMax Ie.pow_le_dblMax)
    have h0 : (0 : ℝ) < dblMax / (1 / 2) := lt_of_lt_of_le (by positivity) hs
    have := (C145_scale g ![dblMax] (1 / 2) 0).2.2.2.1 (by norm_num) (by
      show _ ≤ |dblMax / (1 / 2)|
      rw [abs_of_pos h0]; exact hs)
    rw [this]
    show Dbl.inf (decide (dblMax / (1 / 2) < 0)) = _
    rw [decide_eq_false (not_lt.2 h0.le)]

theorem half_dbl : IsDbl (1 / 2 : ℝ) := ⟨1, -1, by norm_num, by norm_num, by norm_num⟩
theorem quatB_dbl (i : Fin 3) : IsDbl (quatB.vec.elem i) := by fin_cases i <;> exact half_dbl

example (g : Nearest) (fe : ℤ) := C145_quaternion g fe quatB (toH quatB) 0 quatB_norm quatB_near (by norm_num) half_dbl quatB_dbl wide wide_dbl wide_le
example (g : Nearest) (fe : ℤ) := C145_quaternion_frames g fe quatB (toH quatB) 0 quatB_norm quatB_near (by norm_num) half_dbl quatB_dbl wide wide wide_dbl wide_dbl wide_le wide_le

theorem wide_le' (i : Fin 3) : |wide i| ≤ 2 ^ (1021 : ℤ) := (wide_le i).trans (zpow_le_zpow_right₀ one_le_two (by norm_num))
example (g : Nearest) := C145_between g wide (-wide) (1 / 4) ⟨1, -2, by norm_num, by norm_num, by norm_num⟩ (by norm_num) (by norm_num) wide_dbl (fun i => (wide_dbl i).neg) wide_le'
  (fun i => by rw [Pi.neg_apply, abs_neg]; exact wide_le' i)

end WFMath.Cases
