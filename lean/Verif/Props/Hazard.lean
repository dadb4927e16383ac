/-
C95: the conditional distributions away from the mean.
-/
import Verif.Props.Continued

namespace WFMath.Prob
open ProbabilityTheory MeasureTheory
open scoped Nat

/-! ### Gaussian -/

/-- The probability above a value above the mean, by the integral of the continued fraction. -/
theorem upper_tail {m s v : ℝ} (hs : 0 < s) (hv : m < v) : upper m s v =
    gaussianPDFReal m (Real.toNNReal (s ^ 2)) v * (v - m) / 2 * tailInt (1 / 2) (((v - m) / s) * ((v - m) / s) / 2) 0 := by
  have hd : 0 < (v - m) / s := div_pos (by linarith) hs
  set d := (v - m) / s with hdd
  have hvm : v - m = s * d := by rw [hdd]; field_simp
  have hz : 0 < d * d / 2 := by positivity
  set g := gaussianPDFReal m (Real.toNNReal (s ^ 2)) with hg
  have hgv : ∀ x, g x = (√(2 * Real.pi * s ^ 2))⁻¹ * Real.exp (-(x - m) ^ 2 / (2 * s ^ 2)) := by
    intro x
    rw [hg]
    unfold gaussianPDFReal
    rw [Real.coe_toNNReal _ (sq_nonneg s)]
  let f : ℝ → ℝ := fun t => m + s * d * √(1 + t)
  let f' : ℝ → ℝ := fun t => s * d * (1 / (2 * √(1 + t)))
  have hcomp : ∀ t, 0 ≤ t → (g ∘ f) t * f' t = g v * (v - m) / 2 * tailFun (1 / 2) (d * d / 2) 0 t := by
    intro t ht
    have hp : 0 < 1 + t := by linarith
    have hsq : √(1 + t) ^ 2 = 1 + t := Real.sq_sqrt hp.le
    show g (m + s * d * √(1 + t)) * (s * d * (1 / (2 * √(1 + t)))) = _
    rw [hgv, hgv, hvm, add_sub_cancel_left, mul_pow (s * d), hsq]
    have e1 : (1 + t) ^ ((1 : ℝ) / 2 - 1 - ((0 : ℕ) : ℝ)) = (√(1 + t))⁻¹ := by
      rw [show (1 : ℝ) / 2 - 1 - ((0 : ℕ) : ℝ) = -(1 / 2) by norm_num, Real.rpow_neg hp.le, ← Real.sqrt_eq_rpow]
    have e2 : Real.exp (-((s * d) ^ 2 * (1 + t)) / (2 * s ^ 2)) = Real.exp (-(s * d) ^ 2 / (2 * s ^ 2)) * Real.exp (-(d * d / 2) * t) := by
      rw [← Real.exp_add]
      congr 1
      field_simp
      ring
    unfold tailFun
    rw [e1, e2, pow_zero, mul_one]
    field_simp
  have hint : IntegrableOn (fun t => (g ∘ f) t * f' t) (Set.Ici 0) := by
    rw [integrableOn_Ici_iff_integrableOn_Ioi]
    refine ((tailFun_int (a := 1 / 2) hz 0).const_mul (g v * (v - m) / 2)).congr ?_
    filter_upwards [ae_restrict_mem measurableSet_Ioi] with t ht
    exact (hcomp t (le_of_lt ht)).symm
  have hgc : Continuous g := by
    have : g = fun x => (√(2 * Real.pi * s ^ 2))⁻¹ * Real.exp (-(x - m) ^ 2 / (2 * s ^ 2)) := funext hgv
    rw [this]; fun_prop
  have hft : Filter.Tendsto f Filter.atTop Filter.atTop := by
    refine Filter.tendsto_atTop_add_const_left _ m (Filter.Tendsto.const_mul_atTop (by positivity) ?_)
    exact Real.tendsto_sqrt_atTop.comp (Filter.tendsto_atTop_add_const_left _ 1 Filter.tendsto_id)
  have hder : ∀ x ∈ Set.Ioi (0 : ℝ), HasDerivWithinAt f (f' x) (Set.Ioi x) x := fun x hx => by
    have hx : 0 < x := hx
    have := ((((hasDerivAt_id x).const_add 1).sqrt (show (1 : ℝ) + x ≠ 0 by positivity)).const_mul (s * d)).const_add m
    exact this.hasDerivWithinAt
  have h := integral_comp_mul_deriv_Ioi (f := f) (f' := f') (g := g) (a := 0) (by fun_prop) hft hder hgc.continuousOn
    (integrable_gaussianPDFReal m _).integrableOn hint
  have hf0 : f 0 = v := by
    show m + s * d * √(1 + 0) = v
    rw [add_zero, Real.sqrt_one, mul_one, ← hvm]; ring
  rw [hf0] at h
  unfold upper
  rw [← h]
  rw [setIntegral_congr_fun measurableSet_Ioi (fun t ht => hcomp t (le_of_lt ht)), integral_const_mul]
  rfl

theorem upper_reflect {s : ℝ} (hs : s ≠ 0) (m v : ℝ) : upper m s v + upper m s (2 * m - v) = 1 := by
  have hv : Real.toNNReal (s ^ 2) ≠ 0 := by
    rw [Ne, Real.toNNReal_eq_zero, not_le]
    positivity
  set f := gaussianPDFReal m (Real.toNNReal (s ^ 2)) with hf
  have hint : Integrable f := integrable_gaussianPDFReal m _
  have h1 : ∫ x, f x = 1 := integral_gaussianPDFReal_eq_one m hv
  have hsplit : (∫ x in Set.Iic v, f x) + ∫ x in Set.Ioi v, f x = ∫ x, f x := intervalIntegral.integral_Iic_add_Ioi hint.integrableOn hint.integrableOn
  have hsym : ∫ x in Set.Iic v, f x = ∫ x in Set.Ioi (2 * m - v), f x := by
    have e := (volume.measurePreserving_sub_left (2 * m)).setIntegral_preimage_emb (Homeomorph.subLeft (2 * m)).measurableEmbedding f (Set.Ioi (2 * m - v))
    have hp : (fun x => 2 * m - x) ⁻¹' Set.Ioi (2 * m - v) = Set.Iio v := by
      ext x
      simp only [Set.mem_preimage, Set.mem_Ioi, Set.mem_Iio]
      constructor <;> intro h <;> linarith
    rw [hp] at e
    rw [integral_Iic_eq_integral_Iio, ← e]
    congr 1
    funext x
    rw [hf]
    unfold gaussianPDFReal
    congr 2
    ring
  unfold upper
  linarith

theorem upper_half {s : ℝ} (hs : s ≠ 0) {m v : ℝ} (hv : m ≤ v) : upper m s v ≤ 1 / 2 := by
  rw [← upper_mean hs m]
  exact setIntegral_mono_set (integrable_gaussianPDFReal m _).integrableOn (Filter.Eventually.of_forall fun x => gaussianPDFReal_nonneg m _ x)
    (Set.Ioi_subset_Ioi hv).eventuallyLE

/-- What the code computes for the complementary error function beyond the square root of 3. -/
theorem incGammaC_half {z : ℝ} (hz : z ≥ 3 / 2) : ∃ r, incGammaFrac (1 / 2) z = some r ∧ 0 < r ∧ r ≤ tailInt (1 / 2) z 0 ∧
    tailInt (1 / 2) z 0 * (1 - 41 * machEps) ≤ r ∧ incGammaC (1 / 2) z = some (r * (√z * Real.exp (-z) / √Real.pi)) := by
  obtain ⟨r, h1, h2, h3, h4⟩ := frac_half hz
  refine ⟨r, h1, h2, h3, h4, ?_⟩
  have hz0 : 0 < z := by linarith
  have hlog : logGamma (1 / 2) = some (Real.log Real.pi / 2) := by
    unfold logGamma logGammaHigh
    rw [if_neg (by norm_num), if_pos rfl]
  unfold incGammaC
  rw [if_neg (by push Not; constructor <;> linarith), if_neg (by norm_num), if_neg hz0.ne', if_neg (by linarith)]
  unfold incGammaHigh
  rw [hlog, h1]
  simp only [Option.bind_some, Option.map_some]
  congr 2
  rw [show 1 / 2 * Real.log z - z - Real.log Real.pi / 2 = Real.log z / 2 + -z - Real.log Real.pi / 2 by ring, Real.exp_sub, Real.exp_add, ← Real.log_sqrt hz0.le,
    ← Real.log_sqrt Real.pi_pos.le, Real.exp_log (Real.sqrt_pos.2 hz0), Real.exp_log (Real.sqrt_pos.2 Real.pi_pos)]

/-- At least the square root of 3 deviations above or below the mean `GaussianConditional` is the density divided by the probability of a value above,
to within 42 machine epsilons. -/
theorem C95_gaussian_tail {m s v : ℝ} (hs : 0 < s) (hv : √3 * s ≤ |v - m|) : ∃ r, gaussianConditional m s v = some r ∧
    |r * upper m s v - gaussianPDFReal m (Real.toNNReal (s ^ 2)) v| ≤ 42 * machEps * gaussianPDFReal m (Real.toNNReal (s ^ 2)) v := by
  have h3 : (0 : ℝ) < √3 := Real.sqrt_pos.2 (by norm_num)
  have h33 : √3 * √3 = 3 := Real.mul_self_sqrt (by norm_num)
  have hm0 : 0 < machEps := by unfold machEps; positivity
  have hm1 : machEps ≤ 1 / 2 ^ 20 := by unfold machEps; norm_num
  norm_num at hm1
  set d := (v - m) / s with hdd
  have hvm : v - m = s * d := by rw [hdd]; field_simp
  have hd : √3 ≤ |d| := by rw [hdd, abs_div, abs_of_pos hs, le_div_iff₀ hs]; exact hv
  have hz : d * d / 2 ≥ 3 / 2 := by
    have := mul_self_le_mul_self h3.le hd
    rw [abs_mul_abs_self] at this
    linarith
  have hp : 0 < gaussianPDFReal m (Real.toNNReal (s ^ 2)) v := by
    apply gaussianPDFReal_pos
    rw [Ne, Real.toNNReal_eq_zero, not_le]
    positivity
  obtain ⟨q, q1, q2, q3, q4, q5⟩ := incGammaC_half hz
  have hV := tailInt_pos (a := 1 / 2) (by linarith : 0 < d * d / 2) 0
  -- the code's value for the complementary error function, in terms of the density
  have herf : √(d * d / 2) * Real.exp (-(d * d / 2)) / √Real.pi = gaussianPDFReal m (Real.toNNReal (s ^ 2)) v * |v - m| := by
    unfold gaussianPDFReal
    rw [Real.coe_toNNReal _ (sq_nonneg s), hvm, abs_mul, abs_of_pos hs]
    have e1 : √(d * d / 2) = |d| / √2 := by rw [Real.sqrt_div (mul_self_nonneg d), Real.sqrt_mul_self_eq_abs]
    have e2 : √(2 * Real.pi * s ^ 2) = s * (√Real.pi * √2) := by
      rw [Real.sqrt_mul (by positivity), Real.sqrt_mul (by norm_num), Real.sqrt_sq hs.le]; ring
    have e3 : -(s * d) ^ 2 / (2 * s ^ 2) = -(d * d / 2) := by field_simp
    have hpi : 0 < √Real.pi := Real.sqrt_pos.2 Real.pi_pos
    have h2 : 0 < √(2 : ℝ) := Real.sqrt_pos.2 (by norm_num)
    rw [e1, e2, e3]
    field_simp
  unfold gaussianConditional
  rw [if_neg hs.ne']
  simp only [← hdd]
  rw [q1, q5, C80_gaussian hs.ne', herf]
  simp only [Option.bind_some, Option.map_some]
  generalize hP : gaussianPDFReal m (Real.toNNReal (s ^ 2)) v = P at *
  generalize hVV : tailInt (1 / 2) (d * d / 2) 0 = V at *
  rcases le_or_gt 0 d with h0 | h0
  · -- above the mean
    rw [abs_of_nonneg h0] at hd
    have hd0 : 0 < d := lt_of_lt_of_le h3 hd
    have hvm0 : 0 < v - m := by rw [hvm]; positivity
    have hup := upper_tail hs (by linarith : m < v)
    rw [hP, ← hdd, hVV] at hup
    rw [abs_of_pos hvm0]
    have fin : |2 / ((v - m) * q) * upper m s v - P| ≤ 42 * machEps * P := by
      rw [hup]
      have e : 2 / ((v - m) * q) * (P * (v - m) / 2 * V) - P = P * ((V - q) / q) := by field_simp
      rw [e, abs_mul, abs_of_pos hp, abs_of_nonneg (div_nonneg (by linarith) q2.le), mul_comm (42 * machEps) P]
      apply mul_le_mul_of_nonneg_left _ hp.le
      rw [div_le_iff₀ q2]
      have k1 : V - q ≤ 41 * machEps * V := by linarith
      have k2 : V ≤ 42 / 41 * q := by nlinarith
      have := mul_le_mul_of_nonneg_left k2 (by positivity : 0 ≤ 41 * machEps)
      linarith
    split_ifs
    · refine ⟨_, rfl, ?_⟩
      have : P / (q * (P * (v - m)) / 2) = 2 / ((v - m) * q) := by field_simp
      rw [this]
      exact fin
    · exact ⟨_, rfl, fin⟩
  · -- below the mean
    have hvm0 : v - m < 0 := by rw [hvm]; nlinarith
    rw [if_pos (by linarith), if_neg (by linarith)]
    refine ⟨_, rfl, ?_⟩
    have hup := upper_tail (v := 2 * m - v) hs (by linarith : m < 2 * m - v)
    have hz' : ((2 * m - v - m) / s) * ((2 * m - v - m) / s) / 2 = d * d / 2 := by rw [hdd]; field_simp; ring
    have hP' : gaussianPDFReal m (Real.toNNReal (s ^ 2)) (2 * m - v) = P := by
      rw [← hP]; unfold gaussianPDFReal; congr 2; ring
    rw [hz', hP', hVV] at hup
    have hrefl := upper_reflect hs.ne' m v
    have hhalf := upper_half hs.ne' (by linarith : m ≤ 2 * m - v)
    rw [abs_of_neg hvm0]
    generalize upper m s v = u at *
    generalize upper m s (2 * m - v) = w at *
    have hx : 0 < P * -(v - m) / 2 := by have : 0 < -(v - m) := by linarith
                                         positivity
    have hw : w = P * -(v - m) / 2 * V := by rw [hup]; ring
    have hn : q * (P * -(v - m)) / 2 = P * -(v - m) / 2 * q := by ring
    rw [hn]
    generalize P * -(v - m) / 2 = x at *
    have hu : u = 1 - x * V := by linarith
    have a1 : x * q ≤ x * V := mul_le_mul_of_nonneg_left q3 hx.le
    have a2 : x * V - x * q ≤ 41 * machEps * (x * V) := by nlinarith
    have hpos : 0 < 1 - x * q := by linarith
    have e : P / (1 - x * q) * u - P = -(P * ((x * V - x * q) / (1 - x * q))) := by rw [hu]; field_simp; ring
    rw [e, abs_neg, abs_mul, abs_of_pos hp, abs_of_nonneg (div_nonneg (by linarith) hpos.le), mul_comm (42 * machEps) P]
    apply mul_le_mul_of_nonneg_left _ hp.le
    rw [div_le_iff₀ hpos]
    nlinarith

/-- Two deviations above the mean are enough. -/
example : ∃ r, gaussianConditional 0 1 2 = some r ∧ |r * upper 0 1 2 - gaussianPDFReal 0 (Real.toNNReal (1 ^ 2)) 2| ≤
    42 * machEps * gaussianPDFReal 0 (Real.toNNReal (1 ^ 2)) 2 :=
  C95_gaussian_tail one_pos (by
    rw [mul_one, sub_zero, abs_of_pos (by norm_num : (0 : ℝ) < 2), Real.sqrt_le_left (by norm_num)]; norm_num)

/-! ### Poisson -/

/-- From one whole `a` to the next. -/
theorem tailInt_next {z : ℝ} (hz : 0 < z) (a : ℝ) : z * tailInt (a + 1) z 0 = 1 + a * tailInt a z 0 := by
  have h := tailInt_zero (a := a + 1) hz
  have hs : tailInt a z 0 = tailInt (a + 1) z 0 - tailInt (a + 1) z 1 := by
    unfold tailInt
    rw [← integral_sub (tailFun_int hz 0) (tailFun_int hz 1)]
    apply setIntegral_congr_fun measurableSet_Ioi
    intro t ht
    have hp : (0 : ℝ) < 1 + t := by have : (0 : ℝ) < t := ht
                                    linarith
    unfold tailFun
    simp only
    rw [show a + 1 - 1 - ((0 : ℕ) : ℝ) = a - 1 + 1 by push_cast; ring, show a + 1 - 1 - ((1 : ℕ) : ℝ) = a - 1 by push_cast; ring, show a - 1 - ((0 : ℕ) : ℝ) = a - 1 by push_cast; ring,
      Real.rpow_add hp, Real.rpow_one, pow_zero, pow_one]
    ring
  rw [hs]
  linarith

theorem tailInt_nat {z : ℝ} (hz : 0 < z) (K : ℕ) : tailInt ((K + 1 : ℕ) : ℝ) z 0 * z ^ (K + 1) / (K ! : ℝ) = ∑ j ∈ Finset.range (K + 1), z ^ j / (j ! : ℝ) := by
  induction K with
  | zero =>
    have h := tailInt_next hz 0
    simp only [zero_add, zero_mul, add_zero] at h
    simp only [zero_add, Nat.cast_one, pow_one, Nat.factorial_zero, div_one, Finset.range_one, Finset.sum_singleton, pow_zero]
    linarith
  | succ K ih =>
    rw [Finset.sum_range_succ, ← ih]
    have h := tailInt_next hz ((K + 1 : ℕ) : ℝ)
    rw [show ((K + 1 : ℕ) : ℝ) + 1 = ((K + 1 + 1 : ℕ) : ℝ) by push_cast; ring] at h
    have hK : (0 : ℝ) < (K ! : ℝ) := by positivity
    have hf : ((K + 1) ! : ℝ) = (K + 1) * (K ! : ℝ) := by rw [Nat.factorial_succ]; push_cast; ring
    rw [hf, pow_succ z (K + 1)]
    push_cast at h ⊢
    field_simp
    linear_combination h

theorem factorial_pair {m : ℝ} : ∀ (j i : ℕ), (i : ℝ) + j + 1 ≤ m → ((i + 2 * j + 1) ! : ℝ) ≤ m ^ (2 * j + 1) * (i ! : ℝ)
  | 0, i, h => by
    rw [mul_zero, add_zero, Nat.factorial_succ]
    push_cast at h ⊢
    rw [pow_one]
    exact mul_le_mul_of_nonneg_right (by linarith) (by positivity)
  | j + 1, i, h => by
    push_cast at h
    have hi : (0 : ℝ) ≤ i := by positivity
    have hj : (0 : ℝ) ≤ j := by positivity
    have ih := factorial_pair (m := m) j (i + 1) (by push_cast; linarith)
    rw [show i + 2 * (j + 1) + 1 = (i + 1 + 2 * j + 1) + 1 by ring, Nat.factorial_succ, show 2 * (j + 1) + 1 = (2 * j + 1) + 2 by ring, pow_add]
    rw [Nat.factorial_succ i] at ih
    push_cast at ih ⊢
    have hm : 0 ≤ m := by linarith
    have h1 : ((i : ℝ) + 1 + 2 * j + 1 + 1) * (i + 1) ≤ m ^ 2 := by nlinarith
    have h2 : (0 : ℝ) ≤ m ^ (2 * j + 1) * (i ! : ℝ) := by positivity
    calc ((i : ℝ) + 1 + 2 * j + 1 + 1) * ((i + 1 + 2 * j + 1) ! : ℝ)
        ≤ ((i : ℝ) + 1 + 2 * j + 1 + 1) * (m ^ (2 * j + 1) * ((i + 1) * (i ! : ℝ))) := mul_le_mul_of_nonneg_left ih (by positivity)
      _ = (m ^ (2 * j + 1) * (i ! : ℝ)) * (((i : ℝ) + 1 + 2 * j + 1 + 1) * (i + 1)) := by ring
      _ ≤ (m ^ (2 * j + 1) * (i ! : ℝ)) * m ^ 2 := mul_le_mul_of_nonneg_left h1 h2
      _ = _ := by ring

/-- With a mean of at least `K`, fewer than `K` events are at most as likely as at least `K`. -/
theorem poisson_median (m : NNReal) {K : ℕ} (hm : (K : ℝ) ≤ m) : ∑ j ∈ Finset.range K, poissonPMFReal m j ≤ ∑' j, poissonPMFReal m (K + j) := by
  have hsum : Summable (fun j => poissonPMFReal m (K + j)) := by
    have := (hasSum_one_poissonMeasure m).summable
    simpa [add_comm] using (summable_nat_add_iff (f := fun j => poissonPMFReal m j) K).2 this
  have h1 : ∑ j ∈ Finset.range K, poissonPMFReal m j ≤ ∑ j ∈ Finset.range K, poissonPMFReal m (K + j) := by
    rw [← Finset.sum_range_reflect]
    apply Finset.sum_le_sum
    intro j hj
    have hj := Finset.mem_range.1 hj
    obtain ⟨i, rfl⟩ : ∃ i, K = i + j + 1 := ⟨K - j - 1, by omega⟩
    rw [show i + j + 1 - 1 - j = i by omega, show i + j + 1 + j = i + 2 * j + 1 by omega]
    have h := factorial_pair (m := m) j i (by push_cast at hm; linarith)
    unfold poissonPMFReal
    rw [div_le_div_iff₀ (by positivity) (by positivity), show i + 2 * j + 1 = i + (2 * j + 1) by ring, pow_add]
    rw [show i + 2 * j + 1 = i + (2 * j + 1) by ring] at h
    have h0 : 0 ≤ Real.exp (-(m : ℝ)) * (m : ℝ) ^ i := by positivity
    have := mul_le_mul_of_nonneg_left h h0
    calc _ ≤ _ := this
      _ = _ := by ring
  exact h1.trans (hsum.sum_le_tsum _ fun j _ => poissonPMFReal_nonneg)

/-- For a mean above `step + 1`, `PoissonConditional` is the probability of exactly `step` events given at least `step`, to within a relative error of a
thousand-millionth. -/
theorem C95_poisson_high (m : NNReal) (k : ℕ) (hk : 1 ≤ k) (hm : (k : ℝ) + 1 < m) : ∃ r, poissonConditional m k = some r ∧
    |r * ∑' j, poissonPMFReal m (k + j) - poissonPMFReal m k| ≤ 1 / 10 ^ 9 * poissonPMFReal m k := by
  have hk0 : (1 : ℝ) ≤ k := by exact_mod_cast hk
  have hm0 : (0 : ℝ) < m := by linarith
  have hme : machEps ≤ 1 / 10 ^ 12 := by unfold machEps; norm_num
  have hme0 : 0 < machEps := by unfold machEps; positivity
  have hp : 0 < poissonPMFReal m k := poissonPMFReal_pos (by exact_mod_cast hm0)
  obtain ⟨p, δ1, hp1, hp2, hp3, -⟩ := C80_poisson m k
  obtain ⟨q, hq1, hq2⟩ := frac_nat hk (by linarith : (m : ℝ) ≥ k + 1)
  have hlg : ∃ l, logGamma (k : ℝ) = some l := by
    by_cases h3 : 3 ≤ k
    · exact C94_total (Or.inl (by exact_mod_cast h3))
    · have : k = 1 ∨ k = 2 := by omega
      rcases this with rfl | rfl
      · exact ⟨_, by rw [Nat.cast_one]; exact C94_special.2.1⟩
      · exact ⟨_, by rw [Nat.cast_ofNat]; exact C94_special.2.2⟩
  obtain ⟨l, hl⟩ := hlg
  have hl2 := C94_accuracy (z := (k : ℝ)) (fun n => by have : (0 : ℝ) ≤ n := by positivity
                                                       linarith) hl
  have hG : Real.Gamma (k : ℝ) = ((k - 1) ! : ℝ) := by
    obtain ⟨i, rfl⟩ : ∃ i, k = i + 1 := ⟨k - 1, by omega⟩
    rw [Nat.add_sub_cancel]; push_cast; exact Real.Gamma_nat_eq_factorial i
  rw [hG, abs_of_pos (by positivity : (0 : ℝ) < ((k - 1) ! : ℝ))] at hl2
  -- the probability of fewer than `k` events
  generalize hQ : ∑ j ∈ Finset.range k, poissonPMFReal m j = Q
  have hQV : Q = tailInt k m 0 * (Real.exp (k * Real.log m - m) / ((k - 1) ! : ℝ)) := by
    obtain ⟨i, rfl⟩ : ∃ i, k = i + 1 := ⟨k - 1, by omega⟩
    rw [← hQ, Nat.add_sub_cancel]
    have h := tailInt_nat hm0 i
    have : ∑ j ∈ Finset.range (i + 1), poissonPMFReal m j = Real.exp (-m) * ∑ j ∈ Finset.range (i + 1), (m : ℝ) ^ j / (j ! : ℝ) := by
      rw [Finset.mul_sum]
      apply Finset.sum_congr rfl
      intro j _
      unfold poissonPMFReal
      ring
    rw [this, ← h, Real.exp_sub, Real.exp_nat_mul, Real.exp_log hm0, Real.exp_neg]
    field_simp
  have htot : Q + ∑' j, poissonPMFReal m (k + j) = 1 := by
    have hs : HasSum (fun j => poissonPMFReal m j) 1 := hasSum_one_poissonMeasure m
    rw [← hs.tsum_eq, ← hs.summable.sum_add_tsum_nat_add k, hQ]
    simp only [add_comm]
  have hmed := poisson_median m (by linarith : (k : ℝ) ≤ m)
  rw [hQ] at hmed
  have hQ0 : 0 ≤ Q := by rw [← hQ]; exact Finset.sum_nonneg fun j _ => poissonPMFReal_nonneg
  generalize ∑' j, poissonPMFReal m (k + j) = T at *
  generalize hδ2 : Real.log ((k - 1) ! : ℝ) - l = δ2 at *
  have hδ2' : |δ2| ≤ 3 / 2 * 10⁻¹ ^ 10 := by rw [← hδ2, abs_sub_comm]; exact hl2
  have hexp : Real.exp (k * Real.log m - m - l) = Real.exp (k * Real.log m - m) / ((k - 1) ! : ℝ) * Real.exp δ2 := by
    rw [← hδ2, Real.exp_sub (Real.log _), Real.exp_log (by positivity), Real.exp_sub _ l]
    field_simp
  have hcode : poissonConditional m k = some (p / (1 - q * (Real.exp (k * Real.log m - m) / ((k - 1) ! : ℝ) * Real.exp δ2))) := by
    unfold poissonConditional
    rw [if_neg (by push Not; exact hm0.le), if_neg hm0.ne', if_neg (by omega), if_pos hm, hp1]
    unfold incGamma
    rw [if_neg (by push Not; constructor <;> linarith), if_neg (by linarith), if_neg hm0.ne', if_pos hm]
    unfold incGammaHigh
    rw [hl, hq1]
    simp only [Option.bind_some, Option.map_some]
    rw [hexp]
  refine ⟨_, hcode, ?_⟩
  have hw : 0 < Real.exp (k * Real.log m - m) / ((k - 1) ! : ℝ) := by positivity
  generalize Real.exp (k * Real.log m - m) / ((k - 1) ! : ℝ) = w at *
  have hV := tailInt_pos (a := k) hm0 0
  generalize tailInt (k : ℝ) m 0 = V at *
  have hδ2e : |Real.exp δ2 - 1| ≤ 2 * |δ2| := Real.abs_exp_sub_one_le (by norm_num at hδ2'; linarith)
  have hδ1e : |Real.exp δ1 - 1| ≤ 2 * |δ1| := Real.abs_exp_sub_one_le (by norm_num at hp3; linarith)
  have g2 : |Real.exp δ2 - 1| ≤ 3 / 10 ^ 10 := by norm_num at hδ2' ⊢; linarith
  have g1 : |Real.exp δ1 - 1| ≤ 3 / 10 ^ 10 := by norm_num at hp3 ⊢; linarith
  generalize Real.exp δ2 = e2 at *
  generalize Real.exp δ1 = e1 at *
  -- the error of the probability of fewer than `k` events
  have hgerr : |q * (w * e2) - Q| ≤ 31 / 10 ^ 11 * Q := by
    have hqV : |q * w - Q| ≤ 2 * machEps * Q := by
      rw [hQV, ← sub_mul, abs_mul, abs_of_pos hw, ← mul_assoc]
      exact mul_le_mul_of_nonneg_right hq2 hw.le
    have e : q * (w * e2) - Q = (q * w - Q) * e2 + Q * (e2 - 1) := by ring
    rw [e]
    refine (abs_add_le _ _).trans ?_
    rw [abs_mul, abs_mul, abs_of_nonneg hQ0]
    have he2 : |e2| ≤ 2 := by
      have := abs_le.1 g2
      rw [abs_le]; constructor <;> linarith [this.1, this.2]
    have s1 : |q * w - Q| * |e2| ≤ (2 * machEps * Q) * 2 := mul_le_mul hqV he2 (abs_nonneg _) (by positivity)
    have s2 : Q * |e2 - 1| ≤ Q * (3 / 10 ^ 10) := mul_le_mul_of_nonneg_left g2 hQ0
    have s3 : machEps * Q ≤ 1 / 10 ^ 12 * Q := mul_le_mul_of_nonneg_right hme hQ0
    linarith
  generalize q * (w * e2) = x at *
  have hT : 1 / 2 ≤ T := by linarith
  obtain ⟨x1, x2⟩ := abs_le.1 hgerr
  have hgT : |1 - x - T| ≤ 31 / 10 ^ 11 * T := by
    rw [show 1 - x - T = -(x - Q) by linarith, abs_neg]
    exact hgerr.trans (mul_le_mul_of_nonneg_left hmed (by norm_num))
  have hg0 : (1 - 31 / 10 ^ 11) * T ≤ 1 - x := by linarith [(abs_le.1 hgT).1]
  have hg00 : 0 < 1 - x := lt_of_lt_of_le (by positivity) hg0
  rw [hp2]
  generalize poissonPMFReal m k = P at *
  have e : P * e1 / (1 - x) * T - P = P * ((e1 - 1) * T - (1 - x - T)) / (1 - x) := by field_simp; ring
  rw [e, abs_div, abs_of_pos hg00, abs_mul, abs_of_pos hp, div_le_iff₀ hg00]
  have b1 : |(e1 - 1) * T - (1 - x - T)| ≤ 3 / 10 ^ 10 * T + 31 / 10 ^ 11 * T := by
    refine (abs_sub _ _).trans (add_le_add ?_ hgT)
    rw [abs_mul, abs_of_pos (by linarith : 0 < T)]
    exact mul_le_mul_of_nonneg_right g1 (by linarith)
  have b2 : 3 / 10 ^ 10 * T + 31 / 10 ^ 11 * T ≤ 1 / 10 ^ 9 * (1 - x) := by
    have := mul_le_mul_of_nonneg_left hg0 (by norm_num : (0 : ℝ) ≤ 1 / 10 ^ 9)
    nlinarith
  calc P * |(e1 - 1) * T - (1 - x - T)| ≤ P * (1 / 10 ^ 9 * (1 - x)) := mul_le_mul_of_nonneg_left (b1.trans b2) hp.le
    _ = _ := by ring

example : ∃ r, poissonConditional (10 : NNReal) 3 = some r ∧ |r * ∑' j, poissonPMFReal 10 (3 + j) - poissonPMFReal 10 3| ≤ 1 / 10 ^ 9 * poissonPMFReal 10 3 :=
  C95_poisson_high 10 3 (by norm_num) (by norm_num)

/-- For every mean and every step `PoissonConditional` returns the probability of exactly `step` events divided by that of at least `step`: the relative
error is at most a thousand-millionth plus the machine epsilon times the mean. -/
theorem C95_poisson (m : NNReal) (k : ℕ) : ∃ r, poissonConditional m k = some r ∧
    |r * ∑' j, poissonPMFReal m (k + j) - poissonPMFReal m k| ≤ (1 / 10 ^ 9 + machEps * m) * poissonPMFReal m k := by
  have hme0 : 0 < machEps := by unfold machEps; positivity
  have hP : 0 ≤ poissonPMFReal m k := poissonPMFReal_nonneg
  have hm0 : (0 : ℝ) ≤ m := m.2
  rcases le_or_gt (m : ℝ) (k + 1) with h | h
  · obtain ⟨r, h1, h2, h3⟩ := C95_poisson_low m k h
    refine ⟨r, h1, ?_⟩
    rw [abs_of_nonneg (by linarith)]
    nlinarith
  · rcases Nat.eq_zero_or_pos k with rfl | hk
    · refine ⟨Real.exp (-m), ?_, ?_⟩
      · unfold poissonConditional
        push_cast at h
        rw [if_neg (by push Not; exact hm0), if_neg (by linarith), if_pos rfl]
      · have hsum1 : ∑' j, poissonPMFReal m j = 1 := (hasSum_one_poissonMeasure m).tsum_eq
        simp only [zero_add]
        rw [hsum1]
        have : poissonPMFReal m 0 = Real.exp (-m) := by unfold poissonPMFReal; simp
        rw [this, mul_one, sub_self, abs_zero]
        positivity
    · obtain ⟨r, h1, h2⟩ := C95_poisson_high m k hk h
      refine ⟨r, h1, h2.trans (mul_le_mul_of_nonneg_right ?_ hP)⟩
      have : 0 ≤ machEps * m := mul_nonneg hme0.le hm0
      linarith

example : ∃ r, poissonConditional (5 / 2 : NNReal) 2 = some r ∧
    |r * ∑' j, poissonPMFReal (5 / 2) (2 + j) - poissonPMFReal (5 / 2) 2| ≤ (1 / 10 ^ 9 + machEps * (5 / 2 : NNReal)) * poissonPMFReal (5 / 2) 2 := C95_poisson (5 / 2) 2

end WFMath.Prob
