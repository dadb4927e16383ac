/- Stirling's formula for the Gamma function with explicit error bounds. -/
import Mathlib.Analysis.SpecialFunctions.Gamma.BohrMollerup
import Mathlib.Analysis.SpecialFunctions.Stirling
import Mathlib.Analysis.SpecialFunctions.Complex.LogBounds
import Mathlib.Tactic.Linarith
import Mathlib.Tactic.FieldSimp
import Mathlib.Tactic.Positivity

namespace WFMath.Prob
open Filter Topology

/-- The leading part of Stirling's formula. -/
noncomputable def mainPart (z : ℝ) : ℝ := (z - 1 / 2) * Real.log z - z + Real.log (2 * Real.pi) / 2
/-- What it misses. -/
noncomputable def rest (z : ℝ) : ℝ := Real.log (Real.Gamma z) - mainPart z
/-- Three correction terms. -/
noncomputable def corr3 (z : ℝ) : ℝ := 1 / (12 * z) - 1 / (360 * z ^ 3) + 1 / (1260 * z ^ 5)

theorem log_gamma_succ {z : ℝ} (hz : 0 < z) : Real.log (Real.Gamma (z + 1)) = Real.log z + Real.log (Real.Gamma z) := by
  rw [Real.Gamma_add_one hz.ne', Real.log_mul hz.ne' (Real.Gamma_pos_of_pos hz).ne']

theorem rest_step {z : ℝ} (hz : 0 < z) : rest z - rest (z + 1) = (z + 1 / 2) * Real.log (1 + z⁻¹) - 1 := by
  have h1 : Real.log (1 + z⁻¹) = Real.log (z + 1) - Real.log z := by
    rw [← Real.log_div (by positivity) hz.ne']; congr 1; field_simp
  unfold rest mainPart
  rw [log_gamma_succ hz, h1]
  ring

/-- The series of the step. -/
theorem step_hasSum {z : ℝ} (hz : 0 < z) :
    HasSum (fun k : ℕ => 1 / (2 * (k : ℝ) + 1) * ((1 / (2 * z + 1)) ^ 2) ^ k) ((z + 1 / 2) * Real.log (1 + z⁻¹)) := by
  have h := (Real.hasSum_log_one_add_inv hz).mul_left (z + 1 / 2)
  have e : (fun k : ℕ => 1 / (2 * (k : ℝ) + 1) * ((1 / (2 * z + 1)) ^ 2) ^ k) =
      fun k : ℕ => (z + 1 / 2) * (2 * (1 / (2 * (k : ℝ) + 1)) * (1 / (2 * z + 1)) ^ (2 * k + 1)) := by
    funext k
    have : 2 * z + 1 ≠ 0 := by positivity
    rw [pow_succ (1 / (2 * z + 1)) (2 * k), pow_mul]
    generalize ((1 / (2 * z + 1)) ^ 2) ^ k = y
    field_simp
    try ring
  rw [e]
  exact h

theorem step_lower {z : ℝ} (hz : 0 < z) :
    1 / (3 * (2 * z + 1) ^ 2) + 1 / (5 * (2 * z + 1) ^ 4) + 1 / (7 * (2 * z + 1) ^ 6) ≤ (z + 1 / 2) * Real.log (1 + z⁻¹) - 1 := by
  have h := step_hasSum hz
  have h2 := sum_le_hasSum (Finset.range 4) (fun i _ => by positivity) h
  have e : ∑ k ∈ Finset.range 4, 1 / (2 * (k : ℝ) + 1) * ((1 / (2 * z + 1)) ^ 2) ^ k =
      1 + (1 / (3 * (2 * z + 1) ^ 2) + 1 / (5 * (2 * z + 1) ^ 4) + 1 / (7 * (2 * z + 1) ^ 6)) := by
    have : 2 * z + 1 ≠ 0 := by positivity
    rw [Finset.sum_range_succ, Finset.sum_range_succ, Finset.sum_range_succ, Finset.sum_range_succ, Finset.sum_range_zero]
    push_cast
    field_simp
    ring
  rw [e] at h2
  linarith

theorem step_upper {z : ℝ} (hz : 0 < z) : (z + 1 / 2) * Real.log (1 + z⁻¹) - 1 ≤
    1 / (3 * (2 * z + 1) ^ 2) + 1 / (5 * (2 * z + 1) ^ 4) + 1 / (7 * (2 * z + 1) ^ 6) + 1 / (36 * (z * (z + 1)) * (2 * z + 1) ^ 6) := by
  have h := step_hasSum hz
  have hw : (0 : ℝ) < 2 * z + 1 := by positivity
  set x : ℝ := (1 / (2 * z + 1)) ^ 2 with hx
  have hx0 : 0 ≤ x := by positivity
  have hx1 : x < 1 := by
    rw [hx, div_pow, one_pow, div_lt_one (by positivity)]; nlinarith
  -- compare with the series whose terms from the fourth on are those of a geometric series
  have hg := (hasSum_geometric_of_lt_one hx0 hx1).mul_left (x ^ 4 / 9)
  have h4 := (hasSum_nat_add_iff' 4).2 h
  have hle := hasSum_le (fun k : ℕ => ?_) h4 hg
  · have e : ∑ k ∈ Finset.range 4, 1 / (2 * (k : ℝ) + 1) * x ^ k =
        1 + (1 / (3 * (2 * z + 1) ^ 2) + 1 / (5 * (2 * z + 1) ^ 4) + 1 / (7 * (2 * z + 1) ^ 6)) := by
      rw [Finset.sum_range_succ, Finset.sum_range_succ, Finset.sum_range_succ, Finset.sum_range_succ, Finset.sum_range_zero, hx]
      push_cast
      field_simp
      ring
    have e2 : x ^ 4 / 9 * (1 - x)⁻¹ = 1 / (36 * (z * (z + 1)) * (2 * z + 1) ^ 6) := by
      have h1x : 1 - x = 4 * (z * (z + 1)) / (2 * z + 1) ^ 2 := by rw [hx]; field_simp; ring
      rw [h1x, hx]
      field_simp
      ring
    rw [e, e2] at hle
    linarith
  · have e3 : x ^ 4 / 9 * x ^ k = 1 / 9 * x ^ (k + 4) := by rw [pow_add]; ring
    rw [e3]
    apply mul_le_mul_of_nonneg_right _ (by positivity)
    apply one_div_le_one_div_of_le (by norm_num)
    push_cast
    have : (0 : ℝ) ≤ k := Nat.cast_nonneg k
    linarith

theorem step_le_corr {z : ℝ} (hz : 0 < z) : rest z - rest (z + 1) ≤ corr3 z - corr3 (z + 1) := by
  rw [rest_step hz]
  refine le_trans (step_upper hz) (sub_nonneg.1 ?_)
  have : corr3 z - corr3 (z + 1) - (1 / (3 * (2 * z + 1) ^ 2) + 1 / (5 * (2 * z + 1) ^ 4) + 1 / (7 * (2 * z + 1) ^ 6) +
      1 / (36 * (z * (z + 1)) * (2 * z + 1) ^ 6)) =
      (2 + 34 * z + 253 * z ^ 2 + 1061 * z ^ 3 + 2760 * z ^ 4 + 4557 * z ^ 5 + 4655 * z ^ 6 + 2688 * z ^ 7 + 672 * z ^ 8) /
        (2520 * z ^ 5 * (z + 1) ^ 5 * (2 * z + 1) ^ 6) := by
    unfold corr3
    have : z + 1 ≠ 0 := by positivity
    have : 2 * z + 1 ≠ 0 := by positivity
    field_simp
    ring
  rw [this]
  positivity

theorem corr_le_step {z : ℝ} (hz : 0 < z) :
    (corr3 z - 1 / (1200 * z ^ 7)) - (corr3 (z + 1) - 1 / (1200 * (z + 1) ^ 7)) ≤ rest z - rest (z + 1) := by
  rw [rest_step hz]
  refine le_trans (sub_nonneg.1 ?_) (step_lower hz)
  have : 1 / (3 * (2 * z + 1) ^ 2) + 1 / (5 * (2 * z + 1) ^ 4) + 1 / (7 * (2 * z + 1) ^ 6) -
      ((corr3 z - 1 / (1200 * z ^ 7)) - (corr3 (z + 1) - 1 / (1200 * (z + 1) ^ 7))) =
      (21 + 399 * z + 3445 * z ^ 2 + 17827 * z ^ 3 + 61345 * z ^ 4 + 147223 * z ^ 5 + 250497 * z ^ 6 + 300724 * z ^ 7 + 249334 * z ^ 8 +
        137970 * z ^ 9 + 49462 * z ^ 10 + 11928 * z ^ 11 + 1988 * z ^ 12) / (25200 * z ^ 7 * (z + 1) ^ 7 * (2 * z + 1) ^ 6) := by
    unfold corr3
    have : z + 1 ≠ 0 := by positivity
    have : 2 * z + 1 ≠ 0 := by positivity
    field_simp
    ring
  rw [this]
  positivity

/-! ### The rest tends to 0 -/

theorem log_gamma_add {z : ℝ} (hz : 0 < z) (n : ℕ) :
    Real.log (Real.Gamma (z + n)) = Real.log (Real.Gamma z) + ∑ m ∈ Finset.range n, Real.log (z + m) := by
  induction n with
  | zero => simp
  | succ n ih =>
    have : z + ((n + 1 : ℕ) : ℝ) = (z + n) + 1 := by push_cast; ring
    rw [this, log_gamma_succ (by positivity), ih, Finset.sum_range_succ]
    ring

theorem log_fact_tendsto : Tendsto (fun n : ℕ => Real.log (n.factorial : ℝ) - ((n : ℝ) * Real.log n - n + Real.log n / 2 + Real.log (2 * Real.pi) / 2))
    atTop (𝓝 0) := by
  have h1 := (Real.continuousAt_log (Real.sqrt_ne_zero'.2 Real.pi_pos)).tendsto.comp Stirling.tendsto_stirlingSeq_sqrt_pi
  have h2 := h1.sub_const (Real.log (√Real.pi))
  rw [sub_self] at h2
  refine h2.congr' ?_
  filter_upwards [eventually_gt_atTop 0] with n hn
  have hn' : (0 : ℝ) < n := Nat.cast_pos.2 hn
  simp only [Function.comp]
  rw [Stirling.log_stirlingSeq_formula, Real.log_sqrt Real.pi_pos.le, Real.log_div hn'.ne' (Real.exp_pos 1).ne', Real.log_exp,
    Real.log_mul (by norm_num) hn'.ne', Real.log_mul (by norm_num) Real.pi_pos.ne']
  ring

theorem rest_tendsto {z : ℝ} (hz : 0 < z) : Tendsto (fun n : ℕ => rest (z + n)) atTop (𝓝 0) := by
  -- it is enough along z + n + 1
  rw [← tendsto_add_atTop_iff_nat 1]
  have h1 := Real.BohrMollerup.tendsto_log_gamma hz
  have h2 := log_fact_tendsto
  -- (n + c) log (1 + (z+1)/n) tends to z + 1
  have h3 : Tendsto (fun n : ℕ => (n : ℝ) * Real.log (1 + (z + 1) / n)) atTop (𝓝 (z + 1)) :=
    (Real.tendsto_mul_log_one_add_div_atTop (z + 1)).comp tendsto_natCast_atTop_atTop
  have h4 : Tendsto (fun n : ℕ => Real.log (1 + (z + 1) / n)) atTop (𝓝 0) := by
    have : Tendsto (fun n : ℕ => 1 + (z + 1) / (n : ℝ)) atTop (𝓝 1) := by
      have := (tendsto_const_div_atTop_nhds_zero_nat (z + 1)).const_add 1
      simpa using this
    have h := (Real.continuousAt_log one_ne_zero).tendsto.comp this
    simpa [Function.comp_def] using h
  have h5 := (((h1.sub_const (Real.log (Real.Gamma z))).neg.add h2).sub (h3.sub_const (z + 1))).sub (h4.mul_const (z + 1 / 2))
  simp only [sub_self, neg_zero, add_zero, zero_mul] at h5
  refine h5.congr' ?_
  filter_upwards [eventually_gt_atTop 0] with n hn
  have hn' : (0 : ℝ) < n := Nat.cast_pos.2 hn
  have hlog : Real.log (1 + (z + 1) / n) = Real.log (z + ((n + 1 : ℕ) : ℝ)) - Real.log n := by
    rw [← Real.log_div (by positivity) hn'.ne']
    congr 1
    push_cast
    field_simp
    ring
  rw [hlog]
  unfold rest mainPart
  rw [log_gamma_add hz]
  unfold Real.BohrMollerup.logGammaSeq
  push_cast
  ring

theorem telescope_le {f g : ℝ → ℝ} (hfg : ∀ z : ℝ, 0 < z → f z - f (z + 1) ≤ g z - g (z + 1)) {z : ℝ} (hz : 0 < z)
    (hf : Tendsto (fun n : ℕ => f (z + n)) atTop (𝓝 0)) (hg : Tendsto (fun n : ℕ => g (z + n)) atTop (𝓝 0)) : f z ≤ g z := by
  have h : ∀ n : ℕ, f z - f (z + n) ≤ g z - g (z + n) := by
    intro n
    induction n with
    | zero => simp
    | succ n ih =>
      have := hfg (z + n) (by positivity)
      have e : z + ((n + 1 : ℕ) : ℝ) = z + n + 1 := by push_cast; ring
      rw [e]
      linarith
  have h1 := le_of_tendsto_of_tendsto (hf.const_sub (f z)) (hg.const_sub (g z)) (Eventually.of_forall h)
  simpa using h1

theorem inv_pow_tendsto (z : ℝ) (c : ℝ) (k : ℕ) (hk : k ≠ 0) : Tendsto (fun n : ℕ => 1 / (c * (z + n) ^ k)) atTop (𝓝 0) := by
  have h1 : Tendsto (fun n : ℕ => z + (n : ℝ)) atTop atTop := tendsto_atTop_add_const_left _ z tendsto_natCast_atTop_atTop
  have h2 := (tendsto_pow_atTop hk).comp h1
  have h3 := h2.inv_tendsto_atTop.const_mul (c⁻¹)
  rw [mul_zero] at h3
  refine h3.congr ?_
  intro n
  simp [mul_comm]

theorem corr3_tendsto (z : ℝ) : Tendsto (fun n : ℕ => corr3 (z + n)) atTop (𝓝 0) := by
  unfold corr3
  have h1 := inv_pow_tendsto z 12 1 one_ne_zero
  have h3 := inv_pow_tendsto z 360 3 (by norm_num)
  have h5 := inv_pow_tendsto z 1260 5 (by norm_num)
  have := (h1.sub h3).add h5
  simpa using this

/-- Stirling's formula with three corrections, for every positive real number. -/
theorem rest_bounds {z : ℝ} (hz : 0 < z) : corr3 z - 1 / (1200 * z ^ 7) ≤ rest z ∧ rest z ≤ corr3 z := by
  constructor
  · refine telescope_le (fun z hz => corr_le_step hz) hz ?_ (rest_tendsto hz)
    have := (corr3_tendsto z).sub (inv_pow_tendsto z 1200 7 (by norm_num))
    simpa using this
  · exact telescope_le (fun z hz => step_le_corr hz) hz (rest_tendsto hz) (corr3_tendsto z)

end WFMath.Prob
