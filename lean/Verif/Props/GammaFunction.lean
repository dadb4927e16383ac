/-
C81: the table of Stirling coefficients. C94: LogGamma and Gamma against Mathlib's Gamma function.
-/
import Verif.Props.Probability

namespace WFMath.Prob
open scoped Nat

/-! ### C81 -/

theorem bern_step (n : ℕ) : bernoulli' n = 1 - ∑ k ∈ Finset.range n, n.choose k / (n - k + 1) * bernoulli' k := bernoulli'_def n

theorem bern_odd (n : ℕ) (h : Odd n) (h1 : 1 < n) : bernoulli' n = 0 := bernoulli'_eq_zero_of_odd h h1

theorem bern6 : bernoulli' 6 = 1 / 42 := by
  rw [bern_step]
  simp [Finset.sum_range_succ, bern_odd 5 (by decide) (by norm_num), Nat.choose]
  norm_num
theorem bern8 : bernoulli' 8 = -1 / 30 := by
  rw [bern_step]
  simp [Finset.sum_range_succ, bern_odd 5 (by decide) (by norm_num), bern_odd 7 (by decide) (by norm_num), bern6, Nat.choose]
  norm_num
theorem bern10 : bernoulli' 10 = 5 / 66 := by
  rw [bern_step]
  simp [Finset.sum_range_succ, bern_odd 5 (by decide) (by norm_num), bern_odd 7 (by decide) (by norm_num), bern_odd 9 (by decide) (by norm_num),
    bern6, bern8, Nat.choose]
  norm_num
theorem bern12 : bernoulli' 12 = -691 / 2730 := by
  rw [bern_step]
  simp [Finset.sum_range_succ, bern_odd 5 (by decide) (by norm_num), bern_odd 7 (by decide) (by norm_num), bern_odd 9 (by decide) (by norm_num),
    bern_odd 11 (by decide) (by norm_num), bern6, bern8, bern10, Nat.choose]
  norm_num
theorem bern14 : bernoulli' 14 = 7 / 6 := by
  rw [bern_step]
  simp [Finset.sum_range_succ, bern_odd 5 (by decide) (by norm_num), bern_odd 7 (by decide) (by norm_num), bern_odd 9 (by decide) (by norm_num),
    bern_odd 11 (by decide) (by norm_num), bern_odd 13 (by decide) (by norm_num), bern6, bern8, bern10, bern12, Nat.choose]
  norm_num
theorem bern16 : bernoulli' 16 = -3617 / 510 := by
  rw [bern_step]
  simp [Finset.sum_range_succ, bern_odd 5 (by decide) (by norm_num), bern_odd 7 (by decide) (by norm_num), bern_odd 9 (by decide) (by norm_num),
    bern_odd 11 (by decide) (by norm_num), bern_odd 13 (by decide) (by norm_num), bern_odd 15 (by decide) (by norm_num), bern6, bern8, bern10, bern12,
    bern14, Nat.choose]
  norm_num
theorem bern18 : bernoulli' 18 = 43867 / 798 := by
  rw [bern_step]
  simp [Finset.sum_range_succ, bern_odd 5 (by decide) (by norm_num), bern_odd 7 (by decide) (by norm_num), bern_odd 9 (by decide) (by norm_num),
    bern_odd 11 (by decide) (by norm_num), bern_odd 13 (by decide) (by norm_num), bern_odd 15 (by decide) (by norm_num),
    bern_odd 17 (by decide) (by norm_num), bern6, bern8, bern10, bern12, bern14, bern16, Nat.choose]
  norm_num
theorem bern20 : bernoulli' 20 = -174611 / 330 := by
  rw [bern_step]
  simp [Finset.sum_range_succ, bern_odd 5 (by decide) (by norm_num), bern_odd 7 (by decide) (by norm_num), bern_odd 9 (by decide) (by norm_num),
    bern_odd 11 (by decide) (by norm_num), bern_odd 13 (by decide) (by norm_num), bern_odd 15 (by decide) (by norm_num),
    bern_odd 17 (by decide) (by norm_num), bern_odd 19 (by decide) (by norm_num), bern6, bern8, bern10, bern12, bern14, bern16, bern18, Nat.choose]
  norm_num
theorem bern22 : bernoulli' 22 = 854513 / 138 := by
  rw [bern_step]
  simp [Finset.sum_range_succ, bern_odd 5 (by decide) (by norm_num), bern_odd 7 (by decide) (by norm_num), bern_odd 9 (by decide) (by norm_num),
    bern_odd 11 (by decide) (by norm_num), bern_odd 13 (by decide) (by norm_num), bern_odd 15 (by decide) (by norm_num),
    bern_odd 17 (by decide) (by norm_num), bern_odd 19 (by decide) (by norm_num), bern_odd 21 (by decide) (by norm_num), bern6, bern8, bern10, bern12,
    bern14, bern16, bern18, bern20, Nat.choose]
  norm_num

/-- The coefficient of `1 / z ^ (2 i + 1)` in Stirling's series. -/
def stirlingCoeff (i : ℕ) : ℚ := bernoulli (2 * i + 2) / ((2 * i + 1) * (2 * i + 2))

theorem stirlingCoeff_eq (i : ℕ) : stirlingCoeff i = bernoulli' (2 * i + 2) / ((2 * i + 1) * (2 * i + 2)) := by
  rw [stirlingCoeff, bernoulli_eq_bernoulli'_of_ne_one (by omega)]

/-- The full claim: every entry of the table is the Bernoulli coefficient. It is false: see `C81_false`. -/
def C81_claim : Prop := ∀ i, ∀ h : i < coeffs.length, coeffs[i] = (stirlingCoeff i : ℝ)

/-- Nine of the eleven entries are right. Missing: entries 3 and 9, which are wrong. -/
theorem C81_partial : ∀ i, ∀ h : i < coeffs.length, i ≠ 3 → i ≠ 9 → coeffs[i] = (stirlingCoeff i : ℝ) := by
  intro i h h3 h9
  rw [coeffs_length] at h
  rw [stirlingCoeff_eq]
  interval_cases i
  · simp [coeffs]; norm_num
  · simp [coeffs]; norm_num
  · simp [coeffs, bern6]; norm_num
  · exact absurd rfl h3
  · simp [coeffs, bern10]; norm_num
  · simp [coeffs, bern12]; norm_num
  · simp [coeffs, bern14]; norm_num
  · simp [coeffs, bern16]; norm_num
  · simp [coeffs, bern18]; norm_num
  · exact absurd rfl h9
  · simp [coeffs, bern22]; norm_num

/-- The two wrong entries: -1/1620 stands for -1/1680, and -174661/125400 for -174611/125400. -/
theorem C81_false : (stirlingCoeff 3 = -1 / 1680 ∧ coeffs[3]? = some (-1 / 1620 : ℝ)) ∧
    (stirlingCoeff 9 = -174611 / 125400 ∧ coeffs[9]? = some (-174661 / 125400 : ℝ)) ∧ ¬ C81_claim := by
  refine ⟨⟨?_, rfl⟩, ⟨?_, rfl⟩, ?_⟩
  · rw [stirlingCoeff_eq]; norm_num [bern8]
  · rw [stirlingCoeff_eq]; norm_num [bern20]
  · intro h
    have := h 3 (by simp [coeffs])
    rw [stirlingCoeff_eq] at this
    simp [coeffs, bern8] at this
    norm_num at this

/-! ### C94 -/

/-- Wherever it returns, away from the poles, `LogGamma` is the logarithm of the absolute value of the Gamma function to within 1.5e-10. -/
theorem C94_accuracy {z r : ℝ} (hz : ∀ n : ℕ, z ≠ -n) (h : logGamma z = some r) : |r - Real.log (|Real.Gamma z|)| ≤ 3 / 2 * 10⁻¹ ^ 10 := by
  unfold logGamma at h
  rw [Real.log_abs]
  split at h
  · rename_i hlt
    obtain ⟨l, hl, rfl⟩ := Option.map_eq_some_iff.1 h
    have h1 := logGammaHigh_close (by linarith : (1 : ℝ) / 2 ≤ 1 - z) hl
    have hr := Real.Gamma_mul_Gamma_one_sub z
    have hG : Real.Gamma z ≠ 0 := Real.Gamma_ne_zero hz
    have hG1 : 0 < Real.Gamma (1 - z) := Real.Gamma_pos_of_pos (by linarith)
    have hs : Real.sin (Real.pi * z) ≠ 0 := by
      intro h0
      rw [h0, div_zero] at hr
      exact mul_ne_zero hG hG1.ne' hr
    have h2 := congrArg Real.log hr
    rw [Real.log_mul hG hG1.ne', Real.log_div Real.pi_ne_zero hs] at h2
    rw [Real.log_abs]
    have : Real.log Real.pi - l - Real.log (Real.sin (Real.pi * z)) - Real.log (Real.Gamma z) = -(l - Real.log (Real.Gamma (1 - z))) := by linarith
    rwa [this, abs_neg]
  · rename_i hge
    exact logGammaHigh_close (by linarith) h

/-- Wherever it returns, away from the poles, `Gamma` is the Gamma function to within a relative error of about 1.5e-10, sign included. -/
theorem C94_gamma {z r : ℝ} (hz : ∀ n : ℕ, z ≠ -n) (h : gamma z = some r) : ∃ δ, |δ| ≤ 3 / 2 * 10⁻¹ ^ 10 ∧ r = Real.Gamma z * Real.exp δ := by
  unfold gamma at h
  split at h
  · rename_i hge
    obtain ⟨l, hl, rfl⟩ := Option.map_eq_some_iff.1 h
    refine ⟨_, C94_accuracy hz hl, ?_⟩
    have hG : 0 < Real.Gamma z := Real.Gamma_pos_of_pos (by linarith)
    rw [Real.log_abs, Real.exp_sub, Real.exp_log hG]
    field_simp
  · rename_i hlt
    obtain ⟨l, hl, rfl⟩ := Option.map_eq_some_iff.1 h
    have hn : ∀ n : ℕ, 1 - z ≠ -n := by
      intro n hn
      have : (0 : ℝ) ≤ n := n.cast_nonneg
      linarith
    have hG1 : 0 < Real.Gamma (1 - z) := Real.Gamma_pos_of_pos (by linarith)
    refine ⟨-(l - Real.log |Real.Gamma (1 - z)|), by rw [abs_neg]; exact C94_accuracy hn hl, ?_⟩
    have hr := Real.Gamma_mul_Gamma_one_sub z
    have : Real.Gamma z = Real.pi / Real.sin (Real.pi * z) / Real.Gamma (1 - z) := by rw [← hr]; field_simp
    rw [Real.log_abs, this, neg_sub, Real.exp_sub, Real.exp_log hG1, Real.exp_neg]
    field_simp

theorem gamma_ge_two {z : ℝ} (hz : 3 ≤ z) : 2 ≤ Real.Gamma z := by
  have h := Real.Gamma_strictMonoOn_Ici.monotoneOn (by norm_num : (3 : ℝ) ∈ Set.Ici 2) (show z ∈ Set.Ici 2 by simp; linarith) hz
  have h3 : Real.Gamma 3 = 2 := by
    have := Real.Gamma_nat_eq_factorial 2
    rw [show ((2 : ℕ) : ℝ) + 1 = 3 by norm_num] at this
    rw [this]
    rfl
  linarith

/-- `LogGamma` returns unless the logarithm it computes at `max z (1 - z)` is within 0.02 of zero. -/
theorem C94_returns {z : ℝ} (h : 1 / 50 ≤ |Real.log (Real.Gamma (if z < 1 / 2 then 1 - z else z))|) : ∃ r, logGamma z = some r := by
  unfold logGamma
  split at h
  · rename_i hlt
    obtain ⟨r, hr⟩ := logGammaHigh_returns (by linarith : (1 : ℝ) / 2 ≤ 1 - z) h
    rw [if_pos hlt, hr]
    exact ⟨_, rfl⟩
  · rename_i hge
    obtain ⟨r, hr⟩ := logGammaHigh_returns (by linarith) h
    rw [if_neg hge, hr]
    exact ⟨_, rfl⟩

theorem log_gamma_large {z : ℝ} (hz : 3 ≤ z) : 1 / 50 ≤ |Real.log (Real.Gamma z)| := by
  have h1 := Real.log_le_log (by norm_num) (gamma_ge_two hz)
  have h2 := Real.log_two_gt_d9
  rw [abs_of_pos (by linarith)]
  linarith

/-- `LogGamma` returns for every argument from 3 up and from -2 down. -/
theorem C94_total {z : ℝ} (h : 3 ≤ z ∨ z ≤ -2) : ∃ r, logGamma z = some r := by
  apply C94_returns
  rcases h with h | h
  · rw [if_neg (by linarith)]
    exact log_gamma_large h
  · rw [if_pos (by linarith)]
    exact log_gamma_large (by linarith)

/-- It is exact at the four arguments it treats specially. -/
theorem C94_special : logGamma (1 / 2) = some (Real.log (Real.Gamma (1 / 2))) ∧ logGamma 1 = some (Real.log (Real.Gamma 1)) ∧
    logGamma 2 = some (Real.log (Real.Gamma 2)) := by
  refine ⟨?_, ?_, ?_⟩
  · unfold logGamma logGammaHigh
    rw [if_neg (by norm_num), if_pos rfl, Real.Gamma_one_half_eq, Real.log_sqrt Real.pi_pos.le]
  · unfold logGamma logGammaHigh
    rw [if_neg (by norm_num), if_neg (by norm_num), if_pos (Or.inl rfl), Real.Gamma_one, Real.log_one]
  · unfold logGamma logGammaHigh
    rw [if_neg (by norm_num), if_neg (by norm_num), if_pos (Or.inr rfl), Real.Gamma_two, Real.log_one]

/-- The leading part of the formula as `LogGamma` computes it for arguments between 2 and 3. -/
noncomputable def lead (z : ℝ) : ℝ := stirling (z + (8 : ℕ)) (∑ m ∈ Finset.range 8, Real.log (z + m))

theorem shift_eight {z : ℝ} (h2 : 2 < z) (h3 : z < 3) : (shiftLoop z 1).1 = z + (8 : ℕ) ∧ Real.log |(shiftLoop z 1).2| = ∑ m ∈ Finset.range 8, Real.log (z + m) := by
  obtain ⟨n, e1, e2, h10, hn⟩ := shiftLoop_spec z 1
  have : n = 8 := by
    rcases hn with rfl | hn
    · norm_num at h10; linarith
    · have a : (7 : ℝ) < n := by linarith
      have b : (n : ℝ) < 9 := by linarith
      have a' : 7 < n := by exact_mod_cast a
      have b' : n < 9 := by exact_mod_cast b
      omega
  subst this
  exact ⟨e1, by rw [e2, log_shift (by linarith)]⟩

theorem coeff_big (i : ℕ) (h : i < coeffs.length) : 1 / 1620 ≤ |coeffs[i]| := by
  rw [coeffs_length] at h
  interval_cases i <;> (simp only [coeffs, List.getElem_cons_zero, List.getElem_cons_succ]; norm_num [abs_div])

theorem power_big {w : ℝ} (h0 : 0 < w) (h : w ≤ 11) (i : ℕ) (hi : i < 11) : (1 / 11 : ℝ) ^ 21 ≤ 1 / w * (1 / w * (1 / w)) ^ i := by
  have e : 1 / w * (1 / w * (1 / w)) ^ i = (1 / w) ^ (2 * i + 1) := by rw [← sq, ← pow_mul]; ring
  rw [e]
  have h1 : (1 : ℝ) / 11 ≤ 1 / w := one_div_le_one_div_of_le h0 h
  calc (1 / 11 : ℝ) ^ 21 ≤ (1 / 11) ^ (2 * i + 1) := pow_le_pow_of_le_one (by norm_num) (by norm_num) (by omega)
    _ ≤ _ := pow_le_pow_left₀ (by norm_num) h1 _

theorem lead_none {z : ℝ} (h2 : 2 < z) (h3 : z < 3) (hs : |lead z| * machEps ≤ 1 / 1620 * (1 / 11) ^ 21) : logGamma z = none := by
  obtain ⟨e1, e2⟩ := shift_eight h2 h3
  unfold logGamma logGammaHigh
  rw [if_neg (by linarith), if_neg (by intro h; linarith), if_neg (by rintro (h | h) <;> linarith), if_pos (by norm_num [gammaCutoff]; linarith),
    e1, e2]
  unfold logGammaEnd
  show corrLoop _ (|lead z| * machEps) _ _ _ = none
  rw [corrLoop_none]
  intro i hi
  refine hs.trans ?_
  have hw : (0 : ℝ) < z + (8 : ℕ) := by positivity
  rw [abs_mul, abs_of_pos (by positivity : 0 < 1 / (z + (8 : ℕ)) * (1 / (z + (8 : ℕ)) * (1 / (z + (8 : ℕ)))) ^ i)]
  exact mul_le_mul (coeff_big i hi) (power_big hw (by push_cast; linarith) i (by rwa [coeffs_length] at hi)) (by positivity) (abs_nonneg _)

theorem lead_continuous : ContinuousOn lead (Set.Icc 2 3) := by
  unfold lead stirling
  have h : ∀ m : ℕ, ContinuousOn (fun z : ℝ => Real.log (z + m)) (Set.Icc 2 3) := fun m => by
    apply ContinuousOn.log
    · fun_prop
    · intro x hx
      have := hx.1
      positivity
  have hsum : ContinuousOn (fun z : ℝ => ∑ m ∈ Finset.range 8, Real.log (z + m)) (Set.Icc 2 3) := continuousOn_finset_sum _ fun m _ => h m
  have h8 := h 8
  fun_prop

/-- Between 2 and 3 there is a whole interval of arguments on which `LogGamma` fails its assertion: the leading part of the formula is so
close to zero there that no correction term is small compared with it. -/
theorem C94_false : ∃ a b : ℝ, 2 < a ∧ a < b ∧ b < 3 ∧ ∀ z, a < z → z < b → logGamma z = none ∧ gamma z = none := by
  have hv2 : lead 2 < 0 := by
    have h := stirling_eq (by norm_num : (0 : ℝ) < 2) 8
    unfold lead
    rw [h, Real.Gamma_two, Real.log_one]
    have := (rest_bounds (by norm_num : (0 : ℝ) < 2 + (8 : ℕ))).1
    unfold corr3 at this
    norm_num at this ⊢
    linarith
  have hv3 : 0 < lead 3 := by
    have h := stirling_eq (by norm_num : (0 : ℝ) < 3) 8
    unfold lead
    rw [h]
    have h1 := (rest_small (by norm_num : (10 : ℝ) ≤ 3 + (8 : ℕ))).2
    have h2 := Real.log_le_log (by norm_num) (gamma_ge_two (le_refl (3 : ℝ)))
    have h4 := Real.log_two_gt_d9
    generalize rest (3 + ((8 : ℕ) : ℝ)) = x at h1 ⊢
    linarith
  obtain ⟨c, hc, hc0⟩ := intermediate_value_Icc (by norm_num : (2 : ℝ) ≤ 3) lead_continuous ⟨hv2.le, hv3.le⟩
  have hc2 : 2 < c := lt_of_le_of_ne hc.1 (by rintro rfl; linarith)
  have hc3 : c < 3 := lt_of_le_of_ne hc.2 (by rintro rfl; linarith)
  have hcont : ContinuousAt lead c := lead_continuous.continuousAt (Icc_mem_nhds hc2 hc3)
  obtain ⟨d, hd, hnear⟩ := Metric.continuousAt_iff.1 hcont (1 / 1620 * (1 / 11) ^ 21 / machEps) (by unfold machEps; positivity)
  refine ⟨max (c - d) ((c + 2) / 2), min (c + d) ((c + 3) / 2), lt_max_of_lt_right (by linarith), ?_, min_lt_of_right_lt (by linarith), ?_⟩
  · exact (max_lt (by linarith) (by linarith)).trans (lt_min (by linarith : c < c + d) (by linarith))
  · intro z hza hzb
    have h1 := (le_max_left _ _).trans_lt hza
    have h2 := (le_max_right _ _).trans_lt hza
    have h3 := hzb.trans_le (min_le_left _ _)
    have h4 := hzb.trans_le (min_le_right _ _)
    have h5 := hnear (x := z) (by rw [Real.dist_eq, abs_lt]; constructor <;> linarith)
    rw [hc0, Real.dist_eq, sub_zero, lt_div_iff₀ (by unfold machEps; positivity)] at h5
    have h6 := lead_none (by linarith) (by linarith) h5.le
    exact ⟨h6, by unfold gamma; rw [if_pos (by linarith), h6]; rfl⟩

example : ∃ r, logGamma (-7 / 2) = some r ∧ |r - Real.log (|Real.Gamma (-7 / 2)|)| ≤ 3 / 2 * 10⁻¹ ^ 10 := by
  obtain ⟨r, hr⟩ := C94_total (z := -7 / 2) (Or.inr (by norm_num))
  refine ⟨r, hr, C94_accuracy (fun n hn => ?_) hr⟩
  have h1 : (7 : ℝ) = ((2 * n : ℕ) : ℝ) := by push_cast; linarith
  have h2 : 7 = 2 * n := by exact_mod_cast h1
  omega

end WFMath.Prob
