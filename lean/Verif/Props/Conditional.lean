/-
C82: the power series of the incomplete Gamma function. C95: the conditional distributions.
-/
import Verif.Props.GammaFunction
import Mathlib.Analysis.SpecificLimits.Normed
import Mathlib.MeasureTheory.Integral.Gamma

namespace WFMath.Prob
open ProbabilityTheory MeasureTheory
open scoped Nat

/-! ### C82 -/

/-- The `k`-th term of the power series: `z ^ k / ((a + 1) (a + 2) ... (a + k))`. -/
noncomputable def serTerm (a z : ℝ) (k : ℕ) : ℝ := z ^ k / ∏ j ∈ Finset.range k, (a + j + 1)
/-- The sum of the terms up to and including the `n`-th. -/
noncomputable def serSum (a z : ℝ) (n : ℕ) : ℝ := ∑ k ∈ Finset.range (n + 1), serTerm a z k

theorem eventually_of {α : Type} {f : ℕ → Option α} (h : ∃ k, (f k).isSome) : ∃ k r, eventually f = some r ∧ f k = some r := by
  classical
  have hs := Nat.find_spec h
  obtain ⟨r, hr⟩ := Option.isSome_iff_exists.1 hs
  exact ⟨Nat.find h, r, by unfold eventually; rw [dif_pos h]; convert hr, hr⟩

section
variable {a z : ℝ}

theorem serTerm_zero : serTerm a z 0 = 1 := by simp [serTerm]
theorem serTerm_succ (ha : 0 < a) (k : ℕ) : serTerm a z (k + 1) = serTerm a z k * (z / (a + k + 1)) := by
  have : a + k + 1 ≠ 0 := by positivity
  have h2 : ∏ j ∈ Finset.range k, (a + j + 1) ≠ 0 := (Finset.prod_pos fun j _ => by positivity).ne'
  rw [serTerm, serTerm, Finset.prod_range_succ, pow_succ]
  field_simp
theorem serTerm_pos (ha : 0 < a) (hz : 0 < z) (k : ℕ) : 0 < serTerm a z k := by
  have : 0 < ∏ j ∈ Finset.range k, (a + j + 1) := Finset.prod_pos fun j _ => by positivity
  unfold serTerm
  positivity
theorem serSum_succ (n : ℕ) : serSum a z (n + 1) = serSum a z n + serTerm a z (n + 1) := by
  rw [serSum, Finset.sum_range_succ]; rfl
theorem serSum_ge (ha : 0 < a) (hz : 0 < z) (n : ℕ) : 1 ≤ serSum a z n := by
  induction n with
  | zero => simp [serSum, serTerm_zero]
  | succ n ih => rw [serSum_succ]; linarith [serTerm_pos ha hz (n + 1)]

theorem serTerm_le (ha : 0 < a) (hz : 0 < z) (k : ℕ) : serTerm a z k ≤ z ^ k / (k ! : ℝ) := by
  unfold serTerm
  apply div_le_div_of_nonneg_left (by positivity) (by positivity)
  rw [← Finset.prod_range_add_one_eq_factorial]
  push_cast
  exact Finset.prod_le_prod (fun j _ => by positivity) fun j _ => by linarith

theorem serTerm_tendsto (ha : 0 < a) (hz : 0 < z) : Filter.Tendsto (serTerm a z) Filter.atTop (nhds 0) :=
  squeeze_zero (fun k => (serTerm_pos ha hz k).le) (serTerm_le ha hz) (FloorSemiring.tendsto_pow_div_factorial_atTop z)

theorem seriesLoop_some (ha : 0 < a) (hz : 0 < z) (k : ℕ) : ∀ i r, seriesLoop z k (serTerm a z i) (a + i) (serSum a z i) = some r →
    ∃ N, i ≤ N ∧ r = serSum a z N ∧ serTerm a z N ≤ machEps * serSum a z N ∧
      ∀ m, i ≤ m → m < N → machEps * serSum a z m < serTerm a z m := by
  induction k with
  | zero => intro i r h; simp [seriesLoop] at h
  | succ k ih =>
    intro i r h
    have hS : 0 < serSum a z i := by linarith [serSum_ge ha hz i]
    have hT := serTerm_pos ha hz i
    have habs : |serTerm a z i / serSum a z i| = serTerm a z i / serSum a z i := abs_of_pos (by positivity)
    rw [seriesLoop, habs] at h
    split at h
    · rename_i hgt
      have e1 : a + (i : ℝ) + 1 = a + ((i + 1 : ℕ) : ℝ) := by push_cast; ring
      have e2 : serTerm a z i * (z / (a + i + 1)) = serTerm a z (i + 1) := (serTerm_succ ha i).symm
      simp only [e2] at h
      rw [e1, ← serSum_succ] at h
      obtain ⟨N, h1, h2, h3, h4⟩ := ih _ _ h
      refine ⟨N, by omega, h2, h3, fun m hm hmN => ?_⟩
      rcases Nat.lt_or_ge i m with hlt | hge
      · exact h4 m hlt hmN
      · obtain rfl : m = i := by omega
        exact (lt_div_iff₀ hS).1 hgt
    · rename_i hle
      refine ⟨i, le_rfl, (Option.some.inj h).symm, ?_, fun m h1 h2 => by omega⟩
      exact (div_le_iff₀ hS).1 (not_lt.1 hle)

theorem seriesLoop_stops (ha : 0 < a) (hz : 0 < z) (d : ℕ) : ∀ i, serTerm a z (i + d) ≤ machEps →
    (seriesLoop z (d + 1) (serTerm a z i) (a + i) (serSum a z i)).isSome := by
  induction d with
  | zero =>
    intro i h
    have hS := serSum_ge ha hz i
    have hT := serTerm_pos ha hz i
    rw [seriesLoop, if_neg]
    · rfl
    · rw [abs_of_pos (by positivity), gt_iff_lt, not_lt, div_le_iff₀ (by linarith)]
      have : 0 < machEps := by unfold machEps; positivity
      have h' : serTerm a z i ≤ machEps := by simpa using h
      nlinarith
  | succ d ih =>
    intro i h
    rw [seriesLoop]
    split
    · have e1 : a + (i : ℝ) + 1 = a + ((i + 1 : ℕ) : ℝ) := by push_cast; ring
      have e2 : serTerm a z i * (z / (a + i + 1)) = serTerm a z (i + 1) := (serTerm_succ ha i).symm
      simp only [e2]
      rw [e1, ← serSum_succ]
      exact ih (i + 1) (by rwa [show i + 1 + d = i + (d + 1) by omega])
    · rfl

/-- The loop ends for every admissible argument. Its result is the sum of the power series up to the first term that is at most the
machine epsilon times the sum so far. -/
theorem C82_terminates (ha : 0 < a) (hz : 0 < z) (hza : z ≤ a + 1) : ∃ N, incGammaSeries a z = some (serSum a z N) ∧ 1 ≤ N ∧
    serTerm a z N ≤ machEps * serSum a z N ∧ ∀ m < N, machEps * serSum a z m < serTerm a z m := by
  obtain ⟨n, hn⟩ := ((serTerm_tendsto ha hz).eventually (ge_mem_nhds (by unfold machEps; positivity : (0 : ℝ) < machEps))).exists
  have hstop : ∃ k, (seriesLoop z k 1 a 1).isSome := by
    refine ⟨n + 1, ?_⟩
    have := seriesLoop_stops ha hz n 0 (by simpa using hn)
    simpa [serSum, serTerm_zero] using this
  obtain ⟨k, r, h1, h2⟩ := eventually_of hstop
  have h3 : seriesLoop z k (serTerm a z 0) (a + (0 : ℕ)) (serSum a z 0) = some r := by simpa [serSum, serTerm_zero] using h2
  obtain ⟨N, -, e, h5, h6⟩ := seriesLoop_some ha hz k 0 r h3
  refine ⟨N, ?_, ?_, h5, fun m hm => h6 m (Nat.zero_le _) hm⟩
  · unfold incGammaSeries
    rw [if_neg (not_not.2 ⟨hza, hz, ha⟩), h1, e]
  · rcases Nat.eq_zero_or_pos N with rfl | h
    · rw [serSum, Finset.sum_range_one, serTerm_zero] at h5
      unfold machEps at h5
      norm_num at h5
    · exact h

/-- Outside the admissible arguments the assertion fails. -/
theorem C82_rejects (h : ¬ (0 < a ∧ 0 < z ∧ z ≤ a + 1)) : incGammaSeries a z = none := by
  unfold incGammaSeries
  rw [if_pos]
  rintro ⟨h1, h2, h3⟩
  exact h ⟨h3, h2, h1⟩

theorem serTerm_tail (ha : 0 < a) (hz : 0 < z) (N i : ℕ) : serTerm a z (N + i) ≤ serTerm a z N * (z / (a + N + 1)) ^ i := by
  induction i with
  | zero => simp
  | succ i ih =>
    rw [← add_assoc, serTerm_succ ha, pow_succ, ← mul_assoc]
    apply mul_le_mul ih _ (by positivity) (by have := serTerm_pos ha hz N; positivity)
    apply div_le_div_of_nonneg_left hz.le (by positivity)
    push_cast
    linarith [(Nat.cast_nonneg i : (0 : ℝ) ≤ i)]

theorem serTerm_summable (ha : 0 < a) (hz : 0 < z) : Summable (serTerm a z) :=
  Summable.of_nonneg_of_le (fun k => (serTerm_pos ha hz k).le) (serTerm_le ha hz) (Real.summable_pow_div_factorial z)

/-- What is cut off is at most the machine epsilon times `z / N` of the result, where `N ≥ 1` is the number of rounds. -/
theorem C82_accuracy (ha : 0 < a) (hz : 0 < z) (hza : z ≤ a + 1) : ∃ s, incGammaSeries a z = some s ∧ 1 ≤ s ∧
    s ≤ ∑' k, serTerm a z k ∧ ∑' k, serTerm a z k ≤ s * (1 + machEps * z) := by
  obtain ⟨N, h1, hN, h2, -⟩ := C82_terminates ha hz hza
  have hsum := serTerm_summable ha hz
  have hN1 : (1 : ℝ) ≤ N := by exact_mod_cast hN
  refine ⟨_, h1, serSum_ge ha hz N, hsum.sum_le_tsum _ fun k _ => (serTerm_pos ha hz k).le, ?_⟩
  rw [← hsum.sum_add_tsum_nat_add (N + 1)]
  have hr0 : 0 ≤ z / (a + N + 1) := by positivity
  have hr1 : z / (a + N + 1) < 1 := by rw [div_lt_one (by positivity)]; linarith
  have hg := summable_geometric_of_lt_one hr0 hr1
  have hle : ∑' i, serTerm a z (i + (N + 1)) ≤ ∑' i : ℕ, serTerm a z N * (z / (a + N + 1)) * (z / (a + N + 1)) ^ i := by
    apply Summable.tsum_le_tsum _ ((summable_nat_add_iff (N + 1)).2 hsum) (hg.mul_left _)
    intro i
    have := serTerm_tail ha hz N (i + 1)
    rw [show i + (N + 1) = N + (i + 1) by omega]
    calc _ ≤ _ := this
      _ = _ := by ring
  rw [tsum_mul_left, tsum_geometric_of_lt_one hr0 hr1] at hle
  have hT := serTerm_pos ha hz N
  have e : serTerm a z N * (z / (a + N + 1)) * (1 - z / (a + N + 1))⁻¹ = serTerm a z N * (z / (a + N + 1 - z)) := by
    have : a + N + 1 - z ≠ 0 := by linarith
    have h3 : 1 - z / (a + N + 1) ≠ 0 := by linarith
    field_simp
  rw [e] at hle
  have h4 : z / (a + N + 1 - z) ≤ z := div_le_self hz.le (by linarith)
  have h5 : serTerm a z N * (z / (a + N + 1 - z)) ≤ machEps * serSum a z N * z := by
    have hS := serSum_ge ha hz N
    have : 0 ≤ machEps := by unfold machEps; positivity
    have hd : 0 < a + N + 1 - z := by linarith
    exact mul_le_mul h2 h4 (div_nonneg hz.le hd.le) (mul_nonneg this (by linarith))
  show serSum a z N + _ ≤ _
  linarith

end

example : ∃ s, incGammaSeries 3 (5 / 2) = some s ∧ 1 ≤ s ∧ s ≤ ∑' k, serTerm 3 (5 / 2) k ∧
    ∑' k, serTerm 3 (5 / 2) k ≤ s * (1 + machEps * (5 / 2)) := C82_accuracy (by norm_num) (by norm_num) (by norm_num)

/-! ### C95: Poisson -/

theorem pmf_shift (m : NNReal) (hm : 0 < m) (k j : ℕ) (hk : 1 ≤ k) : poissonPMFReal m (k + j) = poissonPMFReal m k * serTerm k m j := by
  induction j with
  | zero => simp [serTerm_zero]
  | succ j ih =>
    have hk0 : (0 : ℝ) < k := by exact_mod_cast hk
    rw [serTerm_succ hk0, ← mul_assoc, ← ih]
    unfold poissonPMFReal
    rw [← add_assoc, Nat.factorial_succ, pow_succ]
    push_cast
    have : ((k : ℝ) + j + 1) ≠ 0 := by positivity
    field_simp

/-- For a mean of at most `step + 1`, `PoissonConditional` is the probability of exactly `step` events given at least `step`, to within a
relative error of the machine epsilon times the mean. -/
theorem C95_poisson_low (m : NNReal) (k : ℕ) (hm : (m : ℝ) ≤ k + 1) : ∃ r, poissonConditional m k = some r ∧
    poissonPMFReal m k ≤ r * ∑' j, poissonPMFReal m (k + j) ∧
    r * ∑' j, poissonPMFReal m (k + j) ≤ poissonPMFReal m k * (1 + machEps * m) := by
  have hsum1 : ∑' j, poissonPMFReal m j = 1 := (hasSum_one_poissonMeasure m).tsum_eq
  have hmach : 0 < machEps := by unfold machEps; positivity
  unfold poissonConditional
  rw [if_neg (by simp)]
  by_cases hm0 : (m : ℝ) = 0
  · rw [if_pos hm0]
    refine ⟨_, rfl, ?_⟩
    have hmz : m = 0 := by exact_mod_cast hm0
    subst hmz
    by_cases hk : k = 0
    · subst hk
      simp only [Nat.zero_add, hsum1, if_pos]
      simp [poissonPMFReal]
    · rw [if_neg hk]
      simp [poissonPMFReal, hk]
  · have hmp : (0 : ℝ) < m := lt_of_le_of_ne m.2 (Ne.symm hm0)
    rw [if_neg hm0]
    by_cases hk : k = 0
    · subst hk
      rw [if_pos rfl]
      refine ⟨_, rfl, ?_⟩
      simp only [Nat.zero_add, hsum1]
      have : poissonPMFReal m 0 = Real.exp (-m) := by simp [poissonPMFReal]
      rw [this]
      have h1 := Real.exp_pos (-(m : ℝ))
      constructor
      · linarith
      · have : 0 ≤ Real.exp (-(m : ℝ)) * (machEps * m) := by positivity
        linarith
    · have hk0 : (0 : ℝ) < k := by exact_mod_cast (by omega : 0 < k)
      rw [if_neg hk, if_neg (by linarith)]
      obtain ⟨s, hs, h1, h2, h3⟩ := C82_accuracy hk0 hmp hm
      rw [hs]
      refine ⟨_, rfl, ?_⟩
      have hfun : (fun j => poissonPMFReal m (k + j)) = fun j => poissonPMFReal m k * serTerm k m j :=
        funext fun j => pmf_shift m (by exact_mod_cast hmp) k j (by omega)
      rw [hfun, tsum_mul_left]
      have hp : 0 < poissonPMFReal m k := poissonPMFReal_pos (by exact_mod_cast hmp)
      have hs0 : 0 < s := by linarith
      show _ ≤ 1 / s * _ ∧ 1 / s * _ ≤ _
      constructor
      · rw [one_div, inv_mul_eq_div, le_div_iff₀ hs0]
        exact mul_le_mul_of_nonneg_left h2 hp.le
      · rw [one_div, inv_mul_eq_div, div_le_iff₀ hs0]
        calc _ ≤ poissonPMFReal m k * (s * (1 + machEps * m)) := mul_le_mul_of_nonneg_left h3 hp.le
          _ = _ := by ring

/-! ### C95: Gaussian -/

/-- The probability that a normally distributed variable is above `v`. -/
noncomputable def upper (m s v : ℝ) : ℝ := ∫ x in Set.Ioi v, gaussianPDFReal m (Real.toNNReal (s ^ 2)) x

theorem upper_mean {s : ℝ} (hs : s ≠ 0) (m : ℝ) : upper m s m = 1 / 2 := by
  have hv : Real.toNNReal (s ^ 2) ≠ 0 := by
    rw [Ne, Real.toNNReal_eq_zero, not_le]
    positivity
  set f := gaussianPDFReal m (Real.toNNReal (s ^ 2)) with hf
  have hint : Integrable f := integrable_gaussianPDFReal m _
  have h1 : ∫ x, f x = 1 := integral_gaussianPDFReal_eq_one m hv
  have hsplit : (∫ x in Set.Iic m, f x) + ∫ x in Set.Ioi m, f x = ∫ x, f x := intervalIntegral.integral_Iic_add_Ioi hint.integrableOn hint.integrableOn
  have hsym : ∫ x in Set.Iic m, f x = ∫ x in Set.Ioi m, f x := by
    have e := (volume.measurePreserving_sub_left (2 * m)).setIntegral_preimage_emb (Homeomorph.subLeft (2 * m)).measurableEmbedding f (Set.Ioi m)
    have hp : (fun x => 2 * m - x) ⁻¹' Set.Ioi m = Set.Iio m := by
      ext x
      simp only [Set.mem_preimage, Set.mem_Ioi, Set.mem_Iio]
      constructor <;> intro h <;> linarith
    rw [hp] at e
    rw [integral_Iic_eq_integral_Iio, ← e]
    congr 1
    funext x
    rw [hf]
    unfold gaussianPDFReal
    congr 2
    ring
  unfold upper
  linarith

/-- At the mean `GaussianConditional` is right: the density divided by the probability of a value above. -/
theorem C95_gaussian_mean {s : ℝ} (hs : s ≠ 0) (m : ℝ) :
    gaussianConditional m s m = some (gaussianPDFReal m (Real.toNNReal (s ^ 2)) m / upper m s m) := by
  unfold gaussianConditional
  rw [if_neg hs]
  simp only [sub_self, zero_div, mul_zero]
  rw [if_pos (by unfold machEps; positivity)]
  unfold incGammaC
  rw [if_neg (by norm_num), if_neg (by norm_num), if_pos rfl, C80_gaussian hs, upper_mean hs]
  norm_num

theorem half_series : ∃ s, incGammaSeries (1 / 2) (1 / 2) = some s ∧ 1 ≤ s ∧ s ≤ 1.4112 := by
  obtain ⟨s, h, h1, h2, -⟩ := C82_accuracy (by norm_num : (0 : ℝ) < 1 / 2) (by norm_num : (0 : ℝ) < 1 / 2) (by norm_num)
  refine ⟨s, h, h1, h2.trans ?_⟩
  have hsum := serTerm_summable (a := 1 / 2) (z := 1 / 2) (by norm_num) (by norm_num)
  rw [← hsum.sum_add_tsum_nat_add 2]
  have t0 : serTerm (1 / 2) (1 / 2) 0 = 1 := serTerm_zero
  have t1 : serTerm (1 / 2) (1 / 2) 1 = 1 / 3 := by rw [serTerm_succ (by norm_num), t0]; norm_num
  have t2 : serTerm (1 / 2) (1 / 2) 2 = 1 / 15 := by rw [serTerm_succ (by norm_num), t1]; norm_num
  have hg : HasSum (fun i : ℕ => (1 / 15 : ℝ) * (1 / 7) ^ i) (1 / 15 * (1 - 1 / 7)⁻¹) :=
    (hasSum_geometric_of_lt_one (by norm_num) (by norm_num)).mul_left _
  have hle : ∑' i, serTerm (1 / 2) (1 / 2) (i + 2) ≤ 1 / 15 * (1 - 1 / 7)⁻¹ := by
    rw [← hg.tsum_eq]
    apply Summable.tsum_le_tsum _ ((summable_nat_add_iff 2).2 hsum) hg.summable
    intro i
    have := serTerm_tail (a := 1 / 2) (z := 1 / 2) (by norm_num) (by norm_num) 2 i
    rw [add_comm i 2]
    rw [t2] at this
    norm_num at this ⊢
    exact this
  rw [Finset.sum_range_succ, Finset.sum_range_one, t0, t1]
  norm_num at hle ⊢
  linarith

theorem upper_one_le : upper 0 1 1 ≤ 1 / 2 - 5 / 6 * (√(2 * Real.pi))⁻¹ := by
  have hm := upper_mean (one_ne_zero : (1 : ℝ) ≠ 0) 0
  unfold upper at hm ⊢
  set f := gaussianPDFReal 0 (Real.toNNReal (1 ^ 2)) with hf
  have hfx : ∀ x, f x = (√(2 * Real.pi))⁻¹ * Real.exp (-x ^ 2 / 2) := by
    intro x
    rw [hf]
    unfold gaussianPDFReal
    simp
  have hint : Integrable f := integrable_gaussianPDFReal 0 _
  have hsplit : (∫ x in (0 : ℝ)..1, f x) + ∫ x in Set.Ioi 1, f x = ∫ x in Set.Ioi 0, f x := by
    rw [intervalIntegral.integral_of_le (by norm_num), ← setIntegral_union _ measurableSet_Ioi hint.integrableOn hint.integrableOn,
      Set.Ioc_union_Ioi_eq_Ioi (by norm_num)]
    exact Set.Ioc_disjoint_Ioi le_rfl
  have hlow : ∫ x in (0 : ℝ)..1, (√(2 * Real.pi))⁻¹ * (1 - x ^ 2 / 2) ≤ ∫ x in (0 : ℝ)..1, f x := by
    apply intervalIntegral.integral_mono_on (by norm_num) (by apply Continuous.intervalIntegrable; fun_prop) hint.intervalIntegrable
    intro x _
    rw [hfx]
    apply mul_le_mul_of_nonneg_left _ (by positivity)
    have := Real.add_one_le_exp (-x ^ 2 / 2)
    linarith
  have hval : ∫ x in (0 : ℝ)..1, (√(2 * Real.pi))⁻¹ * (1 - x ^ 2 / 2) = 5 / 6 * (√(2 * Real.pi))⁻¹ := by
    rw [intervalIntegral.integral_const_mul, intervalIntegral.integral_sub (by simp) (by apply Continuous.intervalIntegrable; fun_prop)]
    simp only [intervalIntegral.integral_const, intervalIntegral.integral_div, integral_pow]
    norm_num
    ring
  linarith

/-- One standard deviation above the mean `GaussianConditional` is wrong: it returns less than 4/5 of the density divided by the
probability of a value above (about 1.107 instead of 1.525). -/
theorem C95_gaussian_false : ∃ r, gaussianConditional 0 1 1 = some r ∧
    r < 4 / 5 * (gaussianPDFReal 0 (Real.toNNReal (1 ^ 2)) 1 / upper 0 1 1) := by
  obtain ⟨s, hs, h1, h2⟩ := half_series
  set q : ℝ := (√(2 * Real.pi))⁻¹ with hq
  have hlog : logGamma (1 / 2) = some (Real.log Real.pi / 2) := by
    unfold logGamma logGammaHigh
    rw [if_neg (by norm_num), if_pos rfl]
  have hpre : Real.exp (1 / 2 * (Real.log (1 / 2) + 1) - 1 / 2 - Real.log Real.pi / 2) = q := by
    have e : 1 / 2 * (Real.log (1 / 2) + 1) - 1 / 2 - Real.log Real.pi / 2 = Real.log q := by
      rw [hq, Real.log_inv, Real.log_sqrt (by positivity), Real.log_mul (by norm_num) Real.pi_ne_zero, one_div, Real.log_inv]
      ring
    rw [e, Real.exp_log (by positivity)]
  have hlow : incGammaLow (1 / 2) (1 / 2) = some (s * q) := by
    unfold incGammaLow
    rw [hlog, hs]
    simp only [Option.bind_some, Option.map_some]
    rw [hpre]
  have hcode : gaussianConditional 0 1 1 = some (gaussianPDFReal 0 (Real.toNNReal (1 ^ 2)) 1 / ((1 - s * q) / 2)) := by
    have h3 : (1 : ℝ) < √3 + 10 * machEps := by
      have : (1 : ℝ) < √3 := by rw [Real.lt_sqrt (by norm_num)]; norm_num
      have : 0 < machEps := by unfold machEps; positivity
      linarith
    have hI : incGammaC (1 / 2) (1 / 2) = some (1 - s * q) := by
      unfold incGammaC
      rw [if_neg (by norm_num), if_neg (by norm_num), if_neg (by norm_num), if_pos (by norm_num), hlow]
      rfl
    unfold gaussianConditional
    rw [if_neg one_ne_zero]
    simp only [sub_zero, div_one, mul_one]
    rw [if_pos h3, hI, C80_gaussian one_ne_zero]
    simp
  refine ⟨_, hcode, ?_⟩
  have hq1 : 0.398 < q := by
    rw [hq, lt_inv_comm₀ (by norm_num) (by positivity), Real.sqrt_lt' (by norm_num)]
    have := Real.pi_lt_d2
    norm_num at this ⊢
    linarith
  have hq2 : q < 0.41 := by
    rw [hq, inv_lt_comm₀ (by positivity) (by norm_num), Real.lt_sqrt (by norm_num)]
    have := Real.pi_gt_d2
    norm_num at this ⊢
    linarith
  have hup := upper_one_le
  rw [← hq] at hup
  have hpos : 0 < upper 0 1 1 := by
    unfold upper
    rw [setIntegral_pos_iff_support_of_nonneg_ae]
    · have : Function.support (gaussianPDFReal 0 (Real.toNNReal (1 ^ 2))) = Set.univ := by
        ext x
        simp only [Function.mem_support, Set.mem_univ, iff_true]
        exact (gaussianPDFReal_pos 0 _ x (by simp)).ne'
      rw [this, Set.univ_inter]
      simp
    · exact Filter.Eventually.of_forall fun x => gaussianPDFReal_nonneg 0 _ x
    · exact (integrable_gaussianPDFReal 0 _).integrableOn
  have hp : 0 < gaussianPDFReal 0 (Real.toNNReal (1 ^ 2)) 1 := gaussianPDFReal_pos 0 _ 1 (by simp)
  generalize upper 0 1 1 = u at hup hpos ⊢
  generalize gaussianPDFReal 0 (Real.toNNReal (1 ^ 2)) 1 = p at hp ⊢
  have hd : 0 < (1 - s * q) / 2 := by nlinarith
  rw [← mul_div_assoc, div_lt_div_iff₀ hd hpos]
  have : u < 4 / 5 * ((1 - s * q) / 2) := by nlinarith
  nlinarith

end WFMath.Prob
