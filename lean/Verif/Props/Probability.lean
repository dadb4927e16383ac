/-
The functions of probability.cpp against the textbook ones: C80 (factorials and densities), C81 (the table of Stirling coefficients),
C82 (the power series loop), C94 (LogGamma and Gamma), C95 (the conditional distributions).

The specifications are Mathlib's: `Nat.factorial`, `Real.Gamma`, `bernoulli`, `gaussianPDFReal`, `poissonPMFReal`, integrals and sums.
-/
import Verif.Lemmas.Probability
import Mathlib.Probability.Distributions.Gaussian.Real
import Mathlib.Probability.Distributions.Poisson.Basic
import Mathlib.NumberTheory.Bernoulli
import Mathlib.Analysis.Complex.ExponentialBounds
import Mathlib.Analysis.SpecialFunctions.Gamma.Deligne

namespace WFMath.Prob
open ProbabilityTheory MeasureTheory
open scoped Nat

/-! ### C80 -/

theorem facLoop_eq (n : ℕ) (hn : 1 ≤ n) (x : ℝ) : facLoop n x = x * ((n - 1)! : ℕ) := by
  induction n generalizing x with
  | zero => omega
  | succ n ih =>
    rw [facLoop]
    split
    · rename_i h
      rw [ih (by omega)]
      obtain ⟨m, rfl⟩ : ∃ m, n = m + 1 := ⟨n - 1, by omega⟩
      simp only [Nat.add_sub_cancel, Nat.factorial_succ]
      push_cast
      ring
    · rename_i h
      have : n = 0 ∨ n = 1 := by omega
      rcases this with rfl | rfl <;> simp

theorem facLoop_self {n : ℕ} (hn : 1 ≤ n) : facLoop n n = (n ! : ℕ) := by
  rw [facLoop_eq n hn]
  obtain ⟨m, rfl⟩ : ∃ m, n = m + 1 := ⟨n - 1, by omega⟩
  simp only [Nat.add_sub_cancel, Nat.factorial_succ]
  push_cast
  ring

/-- Below ten the factorial is exact. -/
theorem C80_factorial_small {n : ℕ} (hn : n < 10) : factorial n = some (n ! : ℝ) := by
  unfold factorial
  by_cases h : n = 0 ∨ n = 1
  · rw [if_pos h]
    rcases h with rfl | rfl <;> simp
  · rw [if_neg h, if_pos (by simpa [gammaCutoff] using hn), facLoop_self (by omega)]

/-- Below ten the logarithm of the factorial is exact. -/
theorem C80_logFactorial_small {n : ℕ} (hn : n < 10) : logFactorial n = some (Real.log (n ! : ℝ)) := by
  unfold logFactorial
  by_cases h : n = 0 ∨ n = 1
  · rw [if_pos h]
    rcases h with rfl | rfl <;> simp
  · rw [if_neg h, if_pos (by simpa [gammaCutoff] using hn), facLoop_self (by omega)]

theorem factorial_large (n : ℕ) (hn : 10 ≤ n) : (3628800 : ℝ) ≤ (n ! : ℝ) := by
  have : 10 ! ≤ n ! := Nat.factorial_le hn
  have h10 : 10 ! = 3628800 := by decide
  rw [h10] at this
  exact_mod_cast this

theorem log_two_le_log_factorial (n : ℕ) (hn : 2 ≤ n) : 1 / 2 ≤ Real.log (n ! : ℝ) := by
  have h1 : 2 ! ≤ n ! := Nat.factorial_le hn
  have h2 : (2 : ℝ) ≤ (n ! : ℝ) := by
    have : 2 ! = 2 := rfl
    rw [this] at h1
    exact_mod_cast h1
  have := Real.log_le_log (by norm_num) h2
  linarith [Real.log_two_gt_d9]

/-- For every argument `LogFactorial` returns the logarithm of the factorial to within 1.5e-10; no assertion fails. -/
theorem C80_logFactorial (n : ℕ) : ∃ r, logFactorial n = some r ∧ |r - Real.log (n ! : ℝ)| ≤ 3 / 2 * 10⁻¹ ^ 10 := by
  by_cases hn : n < 10
  · exact ⟨_, C80_logFactorial_small hn, by simp⟩
  · have hG : Real.Gamma ((n + 1 : ℕ) : ℝ) = (n ! : ℝ) := by push_cast; exact Real.Gamma_nat_eq_factorial n
    have hz : (1 / 2 : ℝ) ≤ ((n + 1 : ℕ) : ℝ) := by
      have : (10 : ℝ) ≤ (n : ℝ) := by exact_mod_cast (by omega : 10 ≤ n)
      push_cast
      linarith
    have hl := log_two_le_log_factorial n (by omega)
    obtain ⟨r, hr⟩ := logGammaHigh_returns hz (by rw [hG, abs_of_pos] <;> linarith)
    have e : logFactorial n = some r := by
      unfold logFactorial logGamma
      rw [if_neg (by omega), if_neg (by simpa [gammaCutoff] using hn), if_neg (by linarith), hr]
    exact ⟨r, e, by have := logGammaHigh_close hz hr; rwa [hG] at this⟩

theorem factorial_eq_exp {n : ℕ} (hn : 10 ≤ n) : factorial n = (logFactorial n).map Real.exp := by
  unfold factorial logFactorial
  rw [if_neg (by omega), if_neg (by simp [gammaCutoff]; omega), if_neg (by omega), if_neg (by simp [gammaCutoff]; omega)]

/-- For every argument `Factorial` returns the factorial to within a relative error of about 1.5e-10; no assertion fails. -/
theorem C80_factorial (n : ℕ) : ∃ r δ, factorial n = some r ∧ r = (n ! : ℝ) * Real.exp δ ∧ |δ| ≤ 3 / 2 * 10⁻¹ ^ 10 := by
  by_cases hn : n < 10
  · exact ⟨_, 0, C80_factorial_small hn, by simp, by simp⟩
  · obtain ⟨l, hl, hd⟩ := C80_logFactorial n
    refine ⟨Real.exp l, l - Real.log (n ! : ℝ), by rw [factorial_eq_exp (by omega), hl]; rfl, ?_, hd⟩
    rw [Real.exp_sub, Real.exp_log (by positivity)]
    field_simp

/-- `Gaussian` is the normal density with the given mean and standard deviation (of either sign). -/
theorem C80_gaussian {s : ℝ} (hs : s ≠ 0) (m v : ℝ) : gaussian m s v = some (gaussianPDFReal m (Real.toNNReal (s ^ 2)) v) := by
  unfold gaussian gaussianPDFReal
  rw [if_neg hs]
  show some _ = some _
  rw [Real.coe_toNNReal _ (sq_nonneg s)]
  congr 1
  have h1 : √(2 * Real.pi * s ^ 2) = |s| * (√Real.pi * √2) := by
    rw [Real.sqrt_mul (by positivity), Real.sqrt_mul (by norm_num), Real.sqrt_sq_eq_abs]
    ring
  rw [h1, div_eq_mul_inv, mul_comm]
  congr 2
  field_simp
  ring

/-- The density is positive everywhere, takes the same value at equal distances on the two sides of the mean, and integrates to 1. -/
theorem C80_gaussian_density {s : ℝ} (hs : s ≠ 0) (m : ℝ) : ∃ f : ℝ → ℝ, (∀ v, gaussian m s v = some (f v)) ∧ (∀ v, 0 < f v) ∧
    (∀ d, f (m + d) = f (m - d)) ∧ (∀ v, v ≠ m → f v < f m) ∧ ∫ v, f v = 1 := by
  have hv : Real.toNNReal (s ^ 2) ≠ 0 := by
    rw [Ne, Real.toNNReal_eq_zero, not_le]
    positivity
  have hv0 : (0 : ℝ) < (Real.toNNReal (s ^ 2) : ℝ) := by
    rw [Real.coe_toNNReal _ (sq_nonneg s)]
    positivity
  refine ⟨gaussianPDFReal m (Real.toNNReal (s ^ 2)), fun v => C80_gaussian hs m v, fun v => gaussianPDFReal_pos m _ v hv, fun d => ?_,
    fun v hvm => ?_, integral_gaussianPDFReal_eq_one m hv⟩
  · unfold gaussianPDFReal
    congr 2
    ring
  · unfold gaussianPDFReal
    apply mul_lt_mul_of_pos_left _ (by positivity)
    apply Real.exp_lt_exp.2
    have : 0 < (v - m) ^ 2 := by
      have : v - m ≠ 0 := sub_ne_zero.2 hvm
      positivity
    apply div_lt_div_of_pos_right _ (by positivity)
    simpa using this

theorem exp_gt_term {m : ℝ} (hm : 0 < m) {k : ℕ} (hk : 1 ≤ k) : m ^ k / (k ! : ℝ) < Real.exp m := by
  have h := Real.sum_le_exp_of_nonneg hm.le (k + 1)
  rw [Finset.sum_range_succ] at h
  have h0 : (1 : ℝ) ≤ ∑ i ∈ Finset.range k, m ^ i / (i ! : ℝ) := by
    calc (1 : ℝ) = m ^ 0 / (0 ! : ℝ) := by simp
      _ ≤ _ := Finset.single_le_sum (f := fun i => m ^ i / (i ! : ℝ)) (fun i _ => by positivity) (Finset.mem_range.2 (by omega))
  linarith

/-- The logarithm of the Poisson probability is below zero by a margin. -/
theorem logPoisson_margin {m : ℝ} (hm : 0 < m) {k : ℕ} (hk : 10 ≤ k) : k * Real.log m - m - Real.log (k ! : ℝ) ≤ -1 := by
  have hk0 : (10 : ℝ) ≤ (k : ℝ) := by exact_mod_cast hk
  have h1 : Real.log (k ! : ℝ) = Real.log k + Real.log (Real.Gamma k) := by
    rw [← Real.Gamma_nat_eq_factorial, Real.Gamma_add_one (by positivity), Real.log_mul (by positivity) (Real.Gamma_pos_of_pos (by positivity)).ne']
  have h2 := (rest_small hk0).1
  unfold rest mainPart at h2
  have h3 : Real.log (m / k) ≤ m / k - 1 := Real.log_le_sub_one_of_pos (by positivity)
  rw [Real.log_div hm.ne' (by positivity)] at h3
  have h4 : (k : ℝ) * Real.log m - m ≤ k * Real.log k - k := by
    have := mul_le_mul_of_nonneg_left h3 (by positivity : (0 : ℝ) ≤ k)
    have e : (k : ℝ) * (m / k - 1) = m - k := by field_simp
    rw [e] at this
    linarith
  have h5 : 1 ≤ Real.log k / 2 := by
    have : Real.log 8 ≤ Real.log k := Real.log_le_log (by norm_num) (by linarith)
    have e : Real.log 8 = 3 * Real.log 2 := by
      rw [show (8 : ℝ) = 2 ^ 3 by norm_num, Real.log_pow]; norm_num
    linarith [Real.log_two_gt_d9]
  have h6 : 0 ≤ Real.log (2 * Real.pi) := Real.log_nonneg (by linarith [Real.pi_gt_three])
  rw [h1]
  nlinarith

/-- `Poisson` never fails on a mean that is not negative, and returns the Poisson probability: exactly below ten steps, and to within a
relative error of about 1.5e-10 above. -/
theorem C80_poisson (m : NNReal) (k : ℕ) : ∃ r δ, poisson m k = some r ∧ r = poissonPMFReal m k * Real.exp δ ∧ |δ| ≤ 3 / 2 * 10⁻¹ ^ 10 ∧
    (k < 10 → δ = 0) := by
  unfold poisson
  rw [if_neg (by simp)]
  by_cases hm : (m : ℝ) = 0
  · rw [if_pos hm]
    refine ⟨_, 0, rfl, ?_, by simp, fun _ => rfl⟩
    unfold poissonPMFReal
    rw [hm]
    by_cases hk : k = 0
    · subst hk; simp
    · simp [hk]
  · rw [if_neg hm]
    have hm0 : (0 : ℝ) < m := lt_of_le_of_ne m.2 (Ne.symm hm)
    unfold logPoisson
    rw [if_neg (not_not.2 hm0)]
    by_cases hk : k = 0
    · subst hk
      rw [if_pos rfl]
      exact ⟨_, 0, rfl, by simp [poissonPMFReal], by simp, fun _ => rfl⟩
    · rw [if_neg hk]
      obtain ⟨l, hl, hd⟩ := C80_logFactorial k
      have hpmf : poissonPMFReal m k = Real.exp (k * Real.log m - m - Real.log (k ! : ℝ)) := by
        unfold poissonPMFReal
        rw [Real.exp_sub, Real.exp_sub, Real.exp_log (by positivity), mul_comm (k : ℝ), Real.exp_mul, Real.exp_log hm0, Real.rpow_natCast, Real.exp_neg]
        field_simp
      have hl0 : 0 ≤ l + 1 / 4 := by
        have : 0 ≤ Real.log (k ! : ℝ) := Real.log_nonneg (by exact_mod_cast Nat.factorial_pos k)
        have h2 := (abs_le.1 hd).1
        norm_num at h2 ⊢
        linarith
      have hsec : 0 < (m : ℝ) + l := by
        by_cases h10 : k < 10
        · rw [C80_logFactorial_small h10] at hl
          rw [← Option.some.inj hl]
          have : 0 ≤ Real.log (k ! : ℝ) := Real.log_nonneg (by exact_mod_cast Nat.factorial_pos k)
          linarith
        · have := log_two_le_log_factorial k (by omega)
          have h2 := (abs_le.1 hd).1
          norm_num at h2
          linarith
      have hans : k * Real.log m - (m + l) < 0 := by
        by_cases h10 : k < 10
        · rw [C80_logFactorial_small h10] at hl
          rw [← Option.some.inj hl]
          have h1 := exp_gt_term hm0 (by omega : 1 ≤ k)
          have h2 := Real.log_lt_log (by positivity) h1
          rw [Real.log_exp, Real.log_div (by positivity) (by positivity), Real.log_pow] at h2
          linarith
        · have := logPoisson_margin hm0 (by omega : 10 ≤ k)
          have h2 := (abs_le.1 hd).1
          norm_num at h2
          linarith
      refine ⟨Real.exp (k * Real.log m - (m + l)), Real.log (k ! : ℝ) - l, ?_, ?_, by rwa [abs_sub_comm], ?_⟩
      · rw [hl]
        simp only [Option.bind_some]
        rw [if_neg (by simpa using hsec), if_neg (by simpa using hans)]
        rfl
      · rw [hpmf, ← Real.exp_add]
        congr 1
        ring
      · intro h10
        rw [C80_logFactorial_small h10] at hl
        rw [← Option.some.inj hl, sub_self]

example : factorial 5 = some 120 := by
  rw [C80_factorial_small (by norm_num)]
  norm_num [Nat.factorial]
example : ∃ r δ, factorial 100 = some r ∧ r = (100 ! : ℝ) * Real.exp δ ∧ |δ| ≤ 3 / 2 * 10⁻¹ ^ 10 := by
  simpa using C80_factorial 100
example : ∃ f : ℝ → ℝ, (∀ v, gaussian 3 (-2) v = some (f v)) ∧ (∀ v, 0 < f v) ∧ (∀ d, f (3 + d) = f (3 - d)) ∧ (∀ v, v ≠ 3 → f v < f 3) ∧
    ∫ v, f v = 1 := C80_gaussian_density (by norm_num) 3

end WFMath.Prob
