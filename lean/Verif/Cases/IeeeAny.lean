/- Cases that meet the hypotheses of the theorems of C142 without a lower limit on the size of the coordinates. -/
import Verif.Props.IeeeAny

namespace WFMath.Cases
open Spec Matrix

theorem tiny_fin : IsFinite ((2 : ℝ) ^ (-1074 : ℤ)) :=
  ⟨IsDbl.zpow (by norm_num), by rw [abs_of_pos (by positivity)]; exact zpow_lt_zpow_right₀ one_lt_two (by norm_num)⟩

theorem one_fin : IsFinite (1 : ℝ) := ⟨by have := IsDbl.zpow (e := 0) (by norm_num); simpa using this, by rw [abs_one]; exact one_lt_zpow₀ one_lt_two (by norm_num)⟩

/-- A vector with an ordinary and the smallest component. -/
noncomputable def mixed : Fin 2 → ℝ := ![1, 2 ^ (-1074 : ℤ)]

theorem mixed_fin (i : Fin 2) : IsFinite (mixed i) := by fin_cases i; exacts [one_fin, tiny_fin]

theorem mixed_le (i : Fin 2) : |mixed i| ≤ 1 := by
  fin_cases i
  · show |(1 : ℝ)| ≤ 1; rw [abs_one]
  · show |(2 : ℝ) ^ (-1074 : ℤ)| ≤ 1
    rw [abs_of_pos (by positivity)]
    exact zpow_le_one_of_nonpos₀ one_le_two (by norm_num)

theorem big_one {e : ℤ} (h : 0 ≤ e) : (1 : ℝ) ≤ 2 ^ e := one_le_zpow₀ one_le_two h

example (g : Nearest) : ∃ m, Ie.mag g (fun i => .num (mixed i)) = .num m :=
  let ⟨m, h, _⟩ := C142_length_partial g (by norm_num) mixed fun i => (mixed_le i).trans (big_one (by norm_num))
  ⟨m, h⟩

example (g : Nearest) (fe : ℤ) : ∃ d, Ie.dist g fe (fun i => .num (mixed i)) (fun i => .num (mixed i)) = .num d :=
  let ⟨d, h, _⟩ := C142_near_partial g fe (by norm_num) mixed mixed (fun i => (mixed_fin i).1) (fun i => (mixed_fin i).1) (fun i => (mixed_le i).trans (big_one (by norm_num)))
    fun i => (mixed_le i).trans (big_one (by norm_num))
  ⟨d, h⟩

example (g : Nearest) (fe : ℤ) : ∃ d, Ie.dot g fe (fun i => .num (mixed i)) (fun i => .num (mixed i)) = .num d :=
  let ⟨d, h, _⟩ := C142_product_partial g fe (by norm_num) mixed mixed (fun i => (mixed_le i).trans (big_one (by norm_num))) fun i => (mixed_le i).trans (big_one (by norm_num))
  ⟨d, h⟩

/-- The smallest double is equal to itself. -/
example (g : Nearest) (fe : ℤ) : Ie.vecEqual g fe ⟨fun i => .num (mixed i), true⟩ ⟨fun i => .num (mixed i), true⟩ (.num epsilon) = true := by
  have he := epsilon_pos
  have he2 := epsilon_lt
  norm_num at he2
  refine (C142_same g fe mixed mixed epsilon mixed_fin mixed_fin he.le (by linarith) true true).1 ?_
  have := (Ie.scaleArr_any g fe (fun i => (mixed_fin i).2) (fun i => (mixed_fin i).2) he.le (by linarith : epsilon ≤ 1 / 4)).2.1
  simp [Vec.isEqualTo, this]

/-- 1 and the smallest double are not. -/
example (g : Nearest) (fe : ℤ) : Ie.equal g fe (.num 1) (.num (2 ^ (-1074 : ℤ))) (.num epsilon) = false := by
  have he := epsilon_pos
  have he2 := epsilon_lt
  norm_num at he2
  by_contra hc
  have h := (C142_number g fe 1 (2 ^ (-1074 : ℤ)) epsilon one_fin tiny_fin he.le (by linarith)).2 (by simpa using hc)
  have t0 : (2 : ℝ) ^ (-1074 : ℤ) ≤ 1 / 8 := (zpow_le_zpow_right₀ one_le_two (by norm_num : (-1074 : ℤ) ≤ -3)).trans (by norm_num)
  have p0 : (0 : ℝ) < 2 ^ (-1074 : ℤ) := by positivity
  have hs : scaleEpsilon 1 (2 ^ (-1074 : ℤ)) epsilon ≤ 1 / 8 := by
    unfold scaleEpsilon ldexp
    rw [if_neg (by rw [abs_one, abs_of_pos p0]; intro h; linarith)]
    have h1 := frexp_lower p0.ne'
    rw [abs_of_pos p0] at h1
    have h2 : (2 : ℝ) ^ frexpExp (2 ^ (-1074 : ℤ)) ≤ 1 := h1.trans (by linarith)
    nlinarith [mul_le_mul_of_nonneg_left h2 he.le]
  have h51 : (2 : ℝ) ^ (-51 : ℤ) ≤ 1 := zpow_le_one_of_nonpos₀ one_le_two (by norm_num)
  have h5 := (le_abs_self _).trans h
  generalize (2 : ℝ) ^ (-1074 : ℤ) = t at *
  have h51' : (0 : ℝ) ≤ 2 ^ (-51 : ℤ) := by positivity
  generalize (2 : ℝ) ^ (-51 : ℤ) = w at *
  nlinarith

/-- Its direction survives. -/
example (g : Nearest) : ∃ w : Fin 2 → ℝ, ∀ i, Ie.normalize g (fun i => .num ((![3, 4] : Fin 2 → ℝ) i)) (.num 1) i = .num (w i) :=
  let ⟨w, h, _⟩ := C142_unit_partial g (by norm_num) ![3, 4] 5 (by
      rw [Fin.sum_univ_two]
      simp only [Matrix.cons_val_zero, Matrix.cons_val_one]
      rw [show (3 : ℝ) ^ 2 + 4 ^ 2 = 5 ^ 2 by norm_num, Real.sqrt_sq (by norm_num)])
    ((zpow_le_one_of_nonpos₀ one_le_two (by norm_num)).trans (by norm_num))
    ((by norm_num : (5 : ℝ) ≤ 2 ^ (3 : ℤ)).trans (zpow_le_zpow_right₀ one_le_two (by norm_num))) 1 (by rw [abs_one]; exact zpow_le_one_of_nonpos₀ one_le_two (by norm_num))
    (by rw [abs_one]; exact big_one (by norm_num))
  ⟨w, h⟩

end WFMath.Cases
