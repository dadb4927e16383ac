/-
C95: the continued fraction of the incomplete Gamma function, and with it the conditional distributions away from the mean.
-/
import Verif.Props.Conditional
import Mathlib.Analysis.SpecialFunctions.ImproperIntegrals
import Mathlib.MeasureTheory.Integral.IntegralEqImproper
import Mathlib.MeasureTheory.Integral.ExpDecay

namespace WFMath.Prob
open ProbabilityTheory MeasureTheory
open scoped Nat

/-! ### The loop computes the convergents -/

/-- The numerators of the convergents. -/
noncomputable def fracA (a z : ℝ) : ℕ → ℝ
  | 0 => 0
  | 1 => 1
  | k + 2 => (z + 2 * (k + 1) + 1 - a) * fracA a z (k + 1) + (k + 1) * (a - (k + 1)) * fracA a z k

/-- The denominators of the convergents. -/
noncomputable def fracB (a z : ℝ) : ℕ → ℝ
  | 0 => 1
  | 1 => z + 1 - a
  | k + 2 => (z + 2 * (k + 1) + 1 - a) * fracB a z (k + 1) + (k + 1) * (a - (k + 1)) * fracB a z k

section
variable {a z : ℝ}

/-- The variables before round `k`, counted from 0. -/
noncomputable def fracSt (a z : ℝ) (k : ℕ) : FracState :=
  ⟨fracA a z k / fracB a z (k + 1), fracB a z k / fracB a z (k + 1), fracA a z (k + 1) / fracB a z (k + 1), 1, k + 1, z + 2 * k + 1 - a, false⟩

/-- The loop ends in round `k`. -/
def FracStop (a z : ℝ) (k : ℕ) : Prop :=
  |fracA a z (k + 2) / fracB a z (k + 2) - fracA a z (k + 1) / fracB a z (k + 1)| < fracA a z (k + 1) / fracB a z (k + 1) * machEps

/-- The convergents up to this one are between 0 and 1, with positive denominators. -/
def FracOk (a z : ℝ) (N : ℕ) : Prop := ∀ k ≤ N, 0 < fracB a z k ∧ 0 ≤ fracA a z k ∧ fracA a z k ≤ fracB a z k

theorem fracStart_eq (h : z ≥ a + 1) : fracStart a z = fracSt a z 0 := by
  have hm : minDouble ≤ 1 := by unfold minDouble; exact pow_le_one₀ (by norm_num) (by norm_num)
  have h2 : minDouble * 1000 < 2 := by
    have : minDouble ≤ 2⁻¹ ^ 20 := by unfold minDouble; exact pow_le_pow_of_le_one (by norm_num) (by norm_num) (by norm_num)
    norm_num at this
    linarith
  unfold fracStart fracSt
  simp only
  rw [if_neg (by rw [abs_of_pos (by linarith)]; linarith)]
  simp [fracA, fracB]

theorem fracStep_eq {k : ℕ} (h1 : 0 < fracB a z (k + 1)) (hA1 : 0 ≤ fracA a z (k + 1)) (h2 : 0 < fracB a z (k + 2)) (hA : 0 ≤ fracA a z (k + 2)) (hAB : fracA a z (k + 2) ≤ fracB a z (k + 2)) :
    (FracStop a z k → fracStep a (fracSt a z k) = .inl (fracA a z (k + 2) / fracB a z (k + 2))) ∧
    (¬ FracStop a z k → fracStep a (fracSt a z k) = .inr (fracSt a z (k + 1))) := by
  have hm : minDouble * 1000 < 1 := by
    have : minDouble ≤ 2⁻¹ ^ 20 := by unfold minDouble; exact pow_le_pow_of_le_one (by norm_num) (by norm_num) (by norm_num)
    norm_num at this
    linarith
  have hm0 : 0 < minDouble * 1000 := by unfold minDouble; positivity
  have eA : (z + 2 * k + 1 - a + 2) * (fracA a z (k + 1) / fracB a z (k + 1)) + ((k : ℝ) + 1) * (a - (k + 1)) * (fracA a z k / fracB a z (k + 1)) =
      fracA a z (k + 2) / fracB a z (k + 1) := by
    rw [show fracA a z (k + 2) = (z + 2 * (k + 1) + 1 - a) * fracA a z (k + 1) + (k + 1) * (a - (k + 1)) * fracA a z k from rfl]
    field_simp
    ring
  have eB : (z + 2 * k + 1 - a + 2) * 1 + ((k : ℝ) + 1) * (a - (k + 1)) * (fracB a z k / fracB a z (k + 1)) =
      fracB a z (k + 2) / fracB a z (k + 1) := by
    rw [show fracB a z (k + 2) = (z + 2 * (k + 1) + 1 - a) * fracB a z (k + 1) + (k + 1) * (a - (k + 1)) * fracB a z k from rfl]
    field_simp
    ring
  have hz : ¬ (|fracB a z (k + 2) / fracB a z (k + 1)| ≤ |fracA a z (k + 2) / fracB a z (k + 1)| * (minDouble * 1000)) := by
    rw [not_le, abs_of_pos (div_pos h2 h1), abs_of_nonneg (div_nonneg hA h1.le), div_mul_eq_mul_div]
    apply div_lt_div_of_pos_right _ h1
    nlinarith
  have ratio : ∀ x, x / fracB a z (k + 1) / (fracB a z (k + 2) / fracB a z (k + 1)) = x / fracB a z (k + 2) := fun x => by field_simp
  unfold fracStep fracSt
  simp only [eA, eB, hz, decide_false, Bool.false_eq_true, if_false, true_and, ratio]
  have habs : |fracA a z (k + 1) / fracB a z (k + 1)| = fracA a z (k + 1) / fracB a z (k + 1) := abs_of_nonneg (by positivity)
  rw [habs]
  unfold FracStop
  constructor
  · intro h
    rw [if_pos h]
  · intro h
    rw [if_neg h]
    congr 1
    simp only [FracState.mk.injEq, and_true, true_and]
    refine ⟨?_, ?_, ?_⟩
    · rw [show fracB a z (k + 1 + 1) = fracB a z (k + 2) from rfl]; field_simp
    · push_cast; ring
    · push_cast; ring

theorem fracLoop_some {N : ℕ} (hok : FracOk a z (N + 2)) (hN : FracStop a z N) : ∀ m k, k + m = N → ∃ j, k ≤ j ∧ j ≤ N ∧ FracStop a z j ∧
    fracLoop a (m + 1) (fracSt a z k) = some (fracA a z (j + 2) / fracB a z (j + 2)) := by
  intro m
  induction m with
  | zero =>
    intro k hk
    obtain rfl : k = N := by omega
    refine ⟨k, le_rfl, le_rfl, hN, ?_⟩
    have h1 := hok (k + 1) (by omega)
    have h2 := hok (k + 2) (by omega)
    rw [fracLoop, (fracStep_eq h1.1 h1.2.1 h2.1 h2.2.1 h2.2.2).1 hN]
  | succ m ih =>
    intro k hk
    have h1 := hok (k + 1) (by omega)
    have h2 := hok (k + 2) (by omega)
    have hs := fracStep_eq h1.1 h1.2.1 h2.1 h2.2.1 h2.2.2
    by_cases hst : FracStop a z k
    · exact ⟨k, le_rfl, by omega, hst, by rw [fracLoop, hs.1 hst]⟩
    · obtain ⟨j, j1, j2, j3, j4⟩ := ih (k + 1) (by omega)
      exact ⟨j, by omega, j2, j3, by rw [fracLoop, hs.2 hst]; exact j4⟩

/-- Once the loop has ended, more rounds change nothing. -/
theorem fracLoop_mono (a : ℝ) : ∀ m s r, fracLoop a m s = some r → fracLoop a (m + 1) s = some r
  | 0, s, r, h => by simp [fracLoop] at h
  | m + 1, s, r, h => by
    rw [fracLoop] at h ⊢
    cases hs : fracStep a s with
    | inl x => rw [hs] at h; exact h
    | inr s' => rw [hs] at h; exact fracLoop_mono a m s' r h

theorem eventually_mono {α : Type} {f : ℕ → Option α} (hm : ∀ k r, f k = some r → f (k + 1) = some r) {k : ℕ} {r : α} (h : f k = some r) : eventually f = some r := by
  obtain ⟨k', r', e, h'⟩ := eventually_of (f := f) ⟨k, by rw [h]; rfl⟩
  have up : ∀ m n r, m ≤ n → f m = some r → f n = some r := by
    intro m n r hmn hr
    induction n, hmn using Nat.le_induction with
    | base => exact hr
    | succ n _ ih => exact hm n r ih
  have h1 := up k (max k k') r (le_max_left _ _) h
  have h2 := up k' (max k k') r' (le_max_right _ _) h'
  rw [h1, Option.some.injEq] at h2
  rw [e, h2]

/-- The continued fraction loop ends, at the latest in the given round, with a convergent that differs from the one before by less than the machine epsilon. -/
theorem incGammaFrac_some {N : ℕ} (ha : 0 < a) (hz : z ≥ a + 1) (hok : FracOk a z (N + 2)) (hN : FracStop a z N) : ∃ j ≤ N, FracStop a z j ∧
    incGammaFrac a z = some (fracA a z (j + 2) / fracB a z (j + 2)) := by
  obtain ⟨j, -, j2, j3, j4⟩ := fracLoop_some hok hN N 0 (by omega)
  refine ⟨j, j2, j3, ?_⟩
  unfold incGammaFrac
  rw [if_neg (by push Not; exact ⟨hz, ha⟩), fracStart_eq hz]
  exact eventually_mono (f := fun k => fracLoop a k (fracSt a z 0)) (fun k r h => fracLoop_mono a k _ r h) j4

/-! ### The integrals behind the continued fraction -/

/-- The integrand. -/
noncomputable def tailFun (a z : ℝ) (k : ℕ) (t : ℝ) : ℝ := Real.exp (-z * t) * t ^ k * (1 + t) ^ (a - 1 - k)
/-- Its integral; for `k = 0` this is `e ^ z z ^ (-a)` times the upper incomplete Gamma function. -/
noncomputable def tailInt (a z : ℝ) (k : ℕ) : ℝ := ∫ t in Set.Ioi 0, tailFun a z k t

theorem tailFun_pos {k : ℕ} {t : ℝ} (ht : 0 < t) : 0 < tailFun a z k t := by
  unfold tailFun; positivity

theorem tailFun_cont (k : ℕ) : ContinuousOn (tailFun a z k) (Set.Ici 0) := by
  unfold tailFun
  refine ContinuousOn.mul (by fun_prop) (ContinuousOn.rpow_const (by fun_prop) fun t ht => Or.inl ?_)
  have : (0 : ℝ) ≤ t := ht
  positivity

theorem tailFun_bigO (hz : 0 < z) (k : ℕ) : tailFun a z k =O[Filter.atTop] fun t => Real.exp (-(z / 2) * t) := by
  have h1 : (fun t : ℝ => (1 + t) ^ (a - 1)) =O[Filter.atTop] fun t => Real.exp (z / 2 * (1 + t)) :=
    ((isLittleO_rpow_exp_pos_mul_atTop (a - 1) (by positivity : 0 < z / 2)).comp_tendsto (Filter.tendsto_atTop_add_const_left _ 1 Filter.tendsto_id)).isBigO
  have h2 : (fun t : ℝ => Real.exp (-z * t) * (1 + t) ^ (a - 1)) =O[Filter.atTop] fun t => Real.exp (-z * t) * Real.exp (z / 2 * (1 + t)) :=
    (Asymptotics.isBigO_refl _ _).mul h1
  have h3 : tailFun a z k =O[Filter.atTop] fun t : ℝ => Real.exp (-z * t) * (1 + t) ^ (a - 1) := by
    apply Asymptotics.IsBigO.of_bound 1
    filter_upwards [Filter.eventually_gt_atTop 0] with t ht
    have hp : 0 < 1 + t := by linarith
    rw [Real.norm_of_nonneg (tailFun_pos ht).le, Real.norm_of_nonneg (by positivity), one_mul]
    unfold tailFun
    rw [Real.rpow_sub hp, Real.rpow_natCast, mul_assoc]
    apply mul_le_mul_of_nonneg_left _ (Real.exp_pos _).le
    rw [mul_div_assoc', div_le_iff₀ (by positivity), mul_comm]
    exact mul_le_mul_of_nonneg_left (pow_le_pow_left₀ ht.le (by linarith) k) (by positivity)
  refine h3.trans (h2.trans ?_)
  have : (fun t : ℝ => Real.exp (-z * t) * Real.exp (z / 2 * (1 + t))) = fun t => Real.exp (z / 2) * Real.exp (-(z / 2) * t) := by
    funext t
    rw [← Real.exp_add, ← Real.exp_add]
    congr 1
    ring
  rw [this]
  exact (Asymptotics.isBigO_refl _ _).const_mul_left _

theorem tailFun_int (hz : 0 < z) (k : ℕ) : IntegrableOn (tailFun a z k) (Set.Ioi 0) :=
  integrable_of_isBigO_exp_neg (by positivity : 0 < z / 2) (tailFun_cont k) (tailFun_bigO hz k)

theorem tailFun_tendsto (hz : 0 < z) (k : ℕ) : Filter.Tendsto (tailFun a z k) Filter.atTop (nhds 0) := by
  refine (tailFun_bigO hz k).trans_tendsto ?_
  have : Filter.Tendsto (fun t : ℝ => -(z / 2) * t) Filter.atTop Filter.atBot :=
    Filter.tendsto_id.const_mul_atTop_of_neg (by linarith)
  exact Real.tendsto_exp_atBot.comp this

theorem tailInt_pos (hz : 0 < z) (k : ℕ) : 0 < tailInt a z k := by
  unfold tailInt
  rw [setIntegral_pos_iff_support_of_nonneg_ae ?_ (tailFun_int hz k)]
  · have : Function.support (tailFun a z k) ∩ Set.Ioi 0 = Set.Ioi 0 := by
      ext t
      simp only [Set.mem_inter_iff, Function.mem_support, Set.mem_Ioi, and_iff_right_iff_imp]
      exact fun ht => (tailFun_pos ht).ne'
    rw [this, Real.volume_Ioi]
    exact ENNReal.zero_lt_top
  · filter_upwards [ae_restrict_mem measurableSet_Ioi] with t ht
    exact (tailFun_pos ht).le

theorem tailFun_succ {t : ℝ} (ht : 0 < t) (k : ℕ) : tailFun a z k t * t = tailFun a z (k + 1) t * (1 + t) := by
  have hp : 0 < 1 + t := by linarith
  unfold tailFun
  rw [show a - 1 - (k : ℝ) = a - 1 - ((k + 1 : ℕ) : ℝ) + 1 by push_cast; ring, Real.rpow_add hp, Real.rpow_one, pow_succ]
  ring

theorem tailInt_le (hz : 0 < z) (k : ℕ) : tailInt a z (k + 1) ≤ tailInt a z k := by
  apply setIntegral_mono_on (tailFun_int hz _) (tailFun_int hz _) measurableSet_Ioi
  intro t ht
  have ht : 0 < t := ht
  have h := tailFun_succ (a := a) (z := z) ht k
  have h1 := tailFun_pos (a := a) (z := z) (k := k) ht
  have h2 := tailFun_pos (a := a) (z := z) (k := k + 1) ht
  nlinarith

theorem tailFun_deriv {t : ℝ} (ht : 0 < t) (k : ℕ) : HasDerivAt (tailFun a z k)
    (-(z + 2 * k + 1 - a) * tailFun a z k t + (k * (Real.exp (-z * t) * t ^ (k - 1) * (1 + t) ^ (a - k)) + (k + 1 - a) * tailFun a z (k + 1) t)) t := by
  have hp : 0 < 1 + t := by linarith
  have d1 : HasDerivAt (fun t => Real.exp (-z * t)) (Real.exp (-z * t) * -z) t := by
    simpa using ((hasDerivAt_id t).const_mul (-z)).exp
  have d2 : HasDerivAt (fun t : ℝ => t ^ k) (k * t ^ (k - 1)) t := hasDerivAt_pow k t
  have d3 : HasDerivAt (fun t : ℝ => (1 + t) ^ (a - 1 - k)) ((a - 1 - k) * (1 + t) ^ (a - 1 - k - 1)) t := by
    have := ((hasDerivAt_id t).const_add 1).rpow_const (p := a - 1 - k) (Or.inl hp.ne')
    simpa using this
  have := (d1.mul d2).mul d3
  refine this.congr_deriv ?_
  unfold tailFun
  rw [show a - (k : ℝ) = a - 1 - ((k + 1 : ℕ) : ℝ) + 1 + 1 by push_cast; ring, show a - 1 - (k : ℝ) - 1 = a - 1 - ((k + 1 : ℕ) : ℝ) by push_cast; ring,
    show a - 1 - (k : ℝ) = a - 1 - ((k + 1 : ℕ) : ℝ) + 1 by push_cast; ring]
  simp only [Real.rpow_add hp, Real.rpow_one]
  generalize (1 + t) ^ (a - 1 - ((k + 1 : ℕ) : ℝ)) = X
  rcases k with _ | k
  · simp; ring
  · simp only [Pi.mul_apply, Nat.add_sub_cancel]; push_cast; ring

theorem tailInt_zero (hz : 0 < z) : (z + 1 - a) * tailInt a z 0 - (1 - a) * tailInt a z 1 = 1 := by
  have hd : ∀ t ∈ Set.Ioi (0 : ℝ), HasDerivAt (tailFun a z 0) (-(z + 1 - a) * tailFun a z 0 t + (1 - a) * tailFun a z 1 t) t := fun t ht => by
    refine (tailFun_deriv (a := a) (z := z) ht 0).congr_deriv ?_
    simp
  have hi : IntegrableOn (fun t => -(z + 1 - a) * tailFun a z 0 t + (1 - a) * tailFun a z 1 t) (Set.Ioi 0) :=
    ((tailFun_int hz 0).const_mul _).add ((tailFun_int hz 1).const_mul _)
  have h := integral_Ioi_of_hasDerivAt_of_tendsto ((tailFun_cont 0).continuousWithinAt (by simp)) hd hi (tailFun_tendsto hz 0)
  rw [integral_add ((tailFun_int hz 0).const_mul _) ((tailFun_int hz 1).const_mul _), integral_const_mul, integral_const_mul] at h
  have h0 : tailFun a z 0 0 = 1 := by simp [tailFun]
  rw [h0] at h
  unfold tailInt
  linarith

theorem tailInt_succ (hz : 0 < z) (k : ℕ) : (z + 2 * (k + 1) + 1 - a) * tailInt a z (k + 1) = (k + 1) * tailInt a z k + (k + 2 - a) * tailInt a z (k + 2) := by
  have hd : ∀ t ∈ Set.Ioi (0 : ℝ), HasDerivAt (tailFun a z (k + 1))
      (-(z + 2 * (k + 1) + 1 - a) * tailFun a z (k + 1) t + ((k + 1) * tailFun a z k t + (k + 2 - a) * tailFun a z (k + 2) t)) t := fun t ht => by
    refine (tailFun_deriv (a := a) (z := z) ht (k + 1)).congr_deriv ?_
    have : Real.exp (-z * t) * t ^ (k + 1 - 1) * (1 + t) ^ (a - ((k + 1 : ℕ) : ℝ)) = tailFun a z k t := by
      unfold tailFun; rw [Nat.add_sub_cancel]; congr 2; push_cast; ring
    rw [this]
    push_cast
    ring
  have i1 := (tailFun_int (a := a) hz (k + 1)).const_mul (-(z + 2 * (k + 1) + 1 - a))
  have i2 := (tailFun_int (a := a) hz k).const_mul ((k : ℝ) + 1)
  have i3 := (tailFun_int (a := a) hz (k + 2)).const_mul ((k : ℝ) + 2 - a)
  have h := integral_Ioi_of_hasDerivAt_of_tendsto ((tailFun_cont (k + 1)).continuousWithinAt (by simp)) hd (i1.add (i2.add i3)) (tailFun_tendsto hz (k + 1))
  have i4 : Integrable (fun x => ((k : ℝ) + 1) * tailFun a z k x + ((k : ℝ) + 2 - a) * tailFun a z (k + 2) x) (volume.restrict (Set.Ioi 0)) := i2.add i3
  rw [integral_add i1 i4, integral_add i2 i3, integral_const_mul, integral_const_mul, integral_const_mul] at h
  have h0 : tailFun a z (k + 1) 0 = 0 := by simp [tailFun]
  rw [h0] at h
  unfold tailInt
  linarith

/-! ### The error of a convergent -/

/-- The product of `1 - a`, `2 - a`, ..., `k - a`. -/
noncomputable def fracD (a : ℝ) (k : ℕ) : ℝ := ∏ j ∈ Finset.range k, ((j : ℝ) + 1 - a)

theorem fracD_succ (k : ℕ) : fracD a (k + 1) = fracD a k * (k + 1 - a) := Finset.prod_range_succ _ _

theorem frac_error (hz : 0 < z) : ∀ k, tailInt a z 0 * fracB a z k - fracA a z k = fracD a k * tailInt a z k
  | 0 => by simp [fracA, fracB, fracD]
  | 1 => by
    rw [fracD_succ]
    simp only [fracA, fracB, fracD, Finset.prod_range_zero]
    push_cast
    linear_combination tailInt_zero (a := a) hz
  | k + 2 => by
    have e0 := frac_error hz k
    have e1 := frac_error hz (k + 1)
    rw [fracA, fracB]
    rw [fracD_succ] at e1
    rw [fracD_succ, fracD_succ]
    have := tailInt_succ (a := a) hz k
    push_cast
    linear_combination (z + 2 * (k + 1) + 1 - a) * e1 + ((k : ℝ) + 1) * (a - (k + 1)) * e0 + fracD a k * (k + 1 - a) * this

theorem frac_diff : ∀ k, fracA a z (k + 1) * fracB a z k - fracA a z k * fracB a z (k + 1) = (k ! : ℝ) * fracD a k
  | 0 => by simp [fracA, fracB, fracD]
  | k + 1 => by
    have e := frac_diff k
    rw [fracD_succ, Nat.factorial_succ, show k + 1 + 1 = k + 2 from rfl, fracA, fracB]
    push_cast
    linear_combination ((k : ℝ) + 1) * (k + 1 - a) * e

/-! ### Whole `a` -/

theorem fracB_pos_nat {K : ℕ} (hz : z ≥ K + 1) : ∀ k ≤ K + 1, 0 < fracB K z k ∧ 0 ≤ fracA K z k ∧ (1 ≤ k → 0 < fracA K z k) ∧ fracA K z k ≤ fracB K z k
  | 0, _ => by simp [fracA, fracB]
  | 1, _ => by simp only [fracA, fracB]; refine ⟨by linarith, by norm_num, by norm_num, by linarith⟩
  | k + 2, hk => by
    obtain ⟨b0, a0, -, c0⟩ := fracB_pos_nat hz k (by omega)
    obtain ⟨b1, a1, a1', c1⟩ := fracB_pos_nat hz (k + 1) (by omega)
    have hkK : (k : ℝ) + 1 ≤ K := by exact_mod_cast (by omega : k + 1 ≤ K)
    have hk0 : (0 : ℝ) ≤ k := by positivity
    have p1 : 0 < z + 2 * (k + 1) + 1 - (K : ℝ) := by linarith
    have p2 : 0 ≤ ((k : ℝ) + 1) * (K - (k + 1)) := mul_nonneg (by positivity) (by linarith)
    rw [fracA, fracB]
    have m1 := mul_pos p1 (a1' (by omega))
    have m2 := mul_nonneg p2 a0
    refine ⟨add_pos_of_pos_of_nonneg (mul_pos p1 b1) (mul_nonneg p2 b0.le), by linarith, fun _ => by linarith, ?_⟩
    exact add_le_add (mul_le_mul_of_nonneg_left c1 p1.le) (mul_le_mul_of_nonneg_left c0 p2)

theorem fracD_nat {K k : ℕ} (hK : 1 ≤ K) (h : K ≤ k) : fracD K k = 0 := by
  unfold fracD
  apply Finset.prod_eq_zero (Finset.mem_range.2 (by omega : K - 1 < k))
  rw [Nat.cast_sub hK]
  push_cast
  ring

/-- For whole `a` the loop ends, with a relative error of at most two machine epsilons. -/
theorem frac_nat {K : ℕ} (hK : 1 ≤ K) (hz : z ≥ K + 1) : ∃ r, incGammaFrac K z = some r ∧ |r - tailInt K z 0| ≤ 2 * machEps * tailInt K z 0 := by
  have hz0 : 0 < z := by have : (0 : ℝ) ≤ K := by positivity
                         linarith
  have hm0 : 0 < machEps := by unfold machEps; positivity
  have hm1 : machEps ≤ 1 / 2 := by unfold machEps; norm_num
  have hok := fracB_pos_nat hz
  have hstop : FracStop K z (K - 1) := by
    have e := frac_diff (a := K) (z := z) K
    rw [fracD_nat hK le_rfl, mul_zero] at e
    obtain ⟨b0, -, a0, -⟩ := hok K (by omega)
    obtain ⟨b1, -, a1, -⟩ := hok (K + 1) (by omega)
    unfold FracStop
    rw [show K - 1 + 2 = K + 1 by omega, show K - 1 + 1 = K by omega]
    have : fracA K z (K + 1) / fracB K z (K + 1) = fracA K z K / fracB K z K := by
      rw [div_eq_div_iff b1.ne' b0.ne']; linarith
    rw [this, sub_self, abs_zero]
    exact mul_pos (div_pos (a0 hK) b0) hm0
  obtain ⟨j, hj, hs, hr⟩ := incGammaFrac_some (N := K - 1) (by exact_mod_cast hK) hz
    (fun k hk => ⟨(hok k (by omega)).1, (hok k (by omega)).2.1, (hok k (by omega)).2.2.2⟩) hstop
  refine ⟨_, hr, ?_⟩
  obtain ⟨b1, a1, -, -⟩ := hok (j + 1) (by omega)
  obtain ⟨b2, a2, -, -⟩ := hok (j + 2) (by omega)
  have e1 := frac_error (a := K) hz0 (j + 1)
  have e2 := frac_error (a := K) hz0 (j + 2)
  have v1 := tailInt_pos (a := K) hz0 (j + 1)
  have v2 := tailInt_pos (a := K) hz0 (j + 2)
  have x1 : tailInt K z 0 - fracA K z (j + 1) / fracB K z (j + 1) = fracD K (j + 1) * (tailInt K z (j + 1) / fracB K z (j + 1)) := by
    field_simp; linarith
  have x2 : tailInt K z 0 - fracA K z (j + 2) / fracB K z (j + 2) = fracD K (j + 1) * (j + 2 - K) * (tailInt K z (j + 2) / fracB K z (j + 2)) := by
    rw [show j + 2 = j + 1 + 1 from rfl, fracD_succ] at e2
    push_cast at e2
    field_simp
    linear_combination e2
  have hsgn : (tailInt K z 0 - fracA K z (j + 1) / fracB K z (j + 1)) * (tailInt K z 0 - fracA K z (j + 2) / fracB K z (j + 2)) ≤ 0 := by
    rw [x1, x2]
    by_cases hjK : K ≤ j + 1
    · rw [fracD_nat hK hjK]; simp
    · have : (j : ℝ) + 2 ≤ K := by exact_mod_cast (by omega : j + 2 ≤ K)
      rw [show fracD K (j + 1) * (tailInt K z (j + 1) / fracB K z (j + 1)) * (fracD K (j + 1) * (j + 2 - K) * (tailInt K z (j + 2) / fracB K z (j + 2))) =
        (j + 2 - K) * ((fracD K (j + 1) * fracD K (j + 1)) * ((tailInt K z (j + 1) / fracB K z (j + 1)) * (tailInt K z (j + 2) / fracB K z (j + 2)))) by ring]
      exact mul_nonpos_of_nonpos_of_nonneg (by linarith) (mul_nonneg (mul_self_nonneg _) (by positivity))
  unfold FracStop at hs
  have c0 : 0 ≤ fracA K z (j + 1) / fracB K z (j + 1) := div_nonneg a1 b1.le
  have hV := tailInt_pos (a := K) hz0 0
  generalize fracA K z (j + 1) / fracB K z (j + 1) = c1 at *
  generalize fracA K z (j + 2) / fracB K z (j + 2) = c2 at *
  generalize tailInt K z 0 = V at *
  obtain ⟨l1, l2⟩ := abs_lt.1 hs
  have : |c2 - V| ≤ c1 * machEps ∧ |c1 - V| ≤ c1 * machEps := by
    rcases le_total V c1 with h | h
    · have h' : c2 ≤ V ∨ c1 = V := by
        rcases eq_or_lt_of_le h with h | h
        · right; exact h.symm
        · left; by_contra hc; push Not at hc; nlinarith
      rcases h' with h' | rfl
      · constructor <;> rw [abs_le] <;> constructor <;> linarith
      · rw [sub_self, abs_zero]; exact ⟨hs.le, by positivity⟩
    · have h' : V ≤ c2 ∨ c1 = V := by
        rcases eq_or_lt_of_le h with h | h
        · right; exact h
        · left; by_contra hc; push Not at hc; nlinarith
      rcases h' with h' | rfl
      · constructor <;> rw [abs_le] <;> constructor <;> linarith
      · rw [sub_self, abs_zero]; exact ⟨hs.le, by positivity⟩
  have h2 : c1 ≤ 2 * V := by
    have := (abs_le.1 this.2).2
    nlinarith
  nlinarith [this.1]

/-! ### `a` between 0 and 1 -/

theorem fracD_pos (ha1 : a < 1) (k : ℕ) : 0 < fracD a k :=
  Finset.prod_pos fun j _ => by have : (0 : ℝ) ≤ j := by positivity
                                linarith

theorem fracB_grows (ha1 : a < 1) (ha : 0 < a) (hz : z ≥ a + 1) : ∀ k, 0 < fracB a z k ∧ (k + 1 + z - a) * fracB a z k ≤ fracB a z (k + 1)
  | 0 => by simp only [fracB]; refine ⟨by norm_num, by push_cast; linarith⟩
  | k + 1 => by
    obtain ⟨h0, h1⟩ := fracB_grows ha1 ha hz k
    have hk : (0 : ℝ) ≤ k := by positivity
    have h2 : 0 < fracB a z (k + 1) := lt_of_lt_of_le (mul_pos (by linarith) h0) h1
    refine ⟨h2, ?_⟩
    rw [show k + 1 + 1 = k + 2 from rfl, fracB]
    push_cast
    have h3 : (k + 1 - a) * ((k + 1 + z - a) * fracB a z k) ≤ (k + 1 - a) * fracB a z (k + 1) := mul_le_mul_of_nonneg_left h1 (by linarith)
    have h4 : (k + 1) * fracB a z k ≤ (k + 1 + z - a) * fracB a z k := mul_le_mul_of_nonneg_right (by linarith) h0.le
    have h5 : (k + 1 - a) * ((k + 1) * fracB a z k) ≤ (k + 1 - a) * fracB a z (k + 1) :=
      (mul_le_mul_of_nonneg_left h4 (by linarith)).trans h3
    nlinarith

theorem tailInt_le_one (ha1 : a < 1) (ha : 0 < a) (hz : z ≥ a + 1) : tailInt a z 0 ≤ 1 := by
  have h := tailInt_zero (a := a) (by linarith : 0 < z)
  have h1 := tailInt_le (a := a) (by linarith : 0 < z) 0
  have h0 := tailInt_pos (a := a) (by linarith : 0 < z) 0
  nlinarith

theorem fracA_bounds (ha1 : a < 1) (ha : 0 < a) (hz : z ≥ a + 1) (k : ℕ) : 0 ≤ fracA a z k ∧ fracA a z k < tailInt a z 0 * fracB a z k := by
  have hz0 : 0 < z := by linarith
  constructor
  · induction k with
    | zero => simp [fracA]
    | succ k ih =>
      have e := frac_diff (a := a) (z := z) k
      have h1 := (fracB_grows ha1 ha hz k).1
      have h2 := (fracB_grows ha1 ha hz (k + 1)).1
      have hd := fracD_pos ha1 k
      have : 0 ≤ fracA a z (k + 1) * fracB a z k := by
        have h3 := mul_nonneg ih h2.le
        have h4 : 0 < (k ! : ℝ) * fracD a k := by positivity
        linarith
      exact nonneg_of_mul_nonneg_left this h1
  · have e := frac_error (a := a) hz0 k
    have := mul_pos (fracD_pos ha1 k) (tailInt_pos (a := a) hz0 k)
    linarith

/-- For `a` between 0 and 1 the loop, if it ends by round `N`, gives a value that is too low by less than `(N + 2) / z` machine epsilons. -/
theorem frac_low {N : ℕ} (ha1 : a < 1) (ha : 0 < a) (hz : z ≥ a + 1) (hN : FracStop a z N) : ∃ r, incGammaFrac a z = some r ∧ 0 < r ∧ r ≤ tailInt a z 0 ∧
    tailInt a z 0 - r ≤ machEps * tailInt a z 0 * ((N + 2 - a) / z) := by
  have hz0 : 0 < z := by linarith
  have hm0 : 0 < machEps := by unfold machEps; positivity
  have hV := tailInt_pos (a := a) hz0 0
  have hok : FracOk a z (N + 2) := fun k _ => by
    have h1 := (fracB_grows ha1 ha hz k).1
    obtain ⟨h2, h3⟩ := fracA_bounds ha1 ha hz k
    exact ⟨h1, h2, h3.le.trans (by have := tailInt_le_one ha1 ha hz; nlinarith)⟩
  obtain ⟨j, hj, hs, hr⟩ := incGammaFrac_some ha hz hok hN
  have b1 := (fracB_grows ha1 ha hz (j + 1)).1
  have b2 := (fracB_grows ha1 ha hz (j + 2)).1
  have bg := (fracB_grows ha1 ha hz (j + 1)).2
  obtain ⟨a1, a1'⟩ := fracA_bounds ha1 ha hz (j + 1)
  obtain ⟨a2, a2'⟩ := fracA_bounds ha1 ha hz (j + 2)
  have e1 := frac_error (a := a) hz0 (j + 1)
  have e2 := frac_error (a := a) hz0 (j + 2)
  have v1 := tailInt_pos (a := a) hz0 (j + 1)
  have v2 := tailInt_pos (a := a) hz0 (j + 2)
  have vle := tailInt_le (a := a) hz0 (j + 1)
  have d1 := fracD_pos ha1 (j + 1)
  rw [show j + 1 + 1 = j + 2 from rfl] at bg vle
  have hj0 : (0 : ℝ) ≤ j := by positivity
  refine ⟨_, hr, ?_, by rw [div_le_iff₀ b2]; exact a2'.le, ?_⟩
  · have e := frac_diff (a := a) (z := z) (j + 1)
    have : 0 < fracA a z (j + 2) * fracB a z (j + 1) := by
      have h3 := mul_nonneg a1 b2.le
      have h4 : 0 < ((j + 1) ! : ℝ) * fracD a (j + 1) := by positivity
      rw [show j + 1 + 1 = j + 2 from rfl] at e
      linarith
    exact div_pos (pos_of_mul_pos_left this b1.le) b2
  · unfold FracStop at hs
    have x1 : tailInt a z 0 - fracA a z (j + 1) / fracB a z (j + 1) = fracD a (j + 1) * tailInt a z (j + 1) / fracB a z (j + 1) := by
      field_simp; linarith
    have x2 : tailInt a z 0 - fracA a z (j + 2) / fracB a z (j + 2) = fracD a (j + 1) * (j + 2 - a) * tailInt a z (j + 2) / fracB a z (j + 2) := by
      rw [show j + 2 = j + 1 + 1 from rfl, fracD_succ] at e2
      push_cast at e2
      field_simp
      linear_combination e2
    have key : (tailInt a z 0 - fracA a z (j + 2) / fracB a z (j + 2)) * (j + 2 + z - a) ≤ (tailInt a z 0 - fracA a z (j + 1) / fracB a z (j + 1)) * (j + 2 - a) := by
      rw [x1, x2]
      push_cast at bg
      have p : 0 < (j : ℝ) + 2 + z - a := by linarith
      rw [div_mul_eq_mul_div, div_mul_eq_mul_div, div_le_div_iff₀ b2 b1]
      have q1 : 0 ≤ fracD a (j + 1) * (j + 2 - a) := mul_nonneg d1.le (by linarith)
      calc fracD a (j + 1) * (j + 2 - a) * tailInt a z (j + 2) * (j + 2 + z - a) * fracB a z (j + 1)
          = (fracD a (j + 1) * (j + 2 - a)) * (tailInt a z (j + 2) * ((j + 1 + 1 + z - a) * fracB a z (j + 1))) := by ring
        _ ≤ (fracD a (j + 1) * (j + 2 - a)) * (tailInt a z (j + 1) * fracB a z (j + 2)) :=
            mul_le_mul_of_nonneg_left (mul_le_mul vle bg (mul_nonneg (by linarith) b1.le) v1.le) q1
        _ = _ := by ring
    have c1V : fracA a z (j + 1) / fracB a z (j + 1) ≤ tailInt a z 0 := by rw [div_le_iff₀ b1]; exact a1'.le
    have hjN : (j : ℝ) ≤ N := by exact_mod_cast hj
    generalize fracA a z (j + 1) / fracB a z (j + 1) = c1 at *
    generalize fracA a z (j + 2) / fracB a z (j + 2) = c2 at *
    generalize tailInt a z 0 = V at *
    have l2 := (abs_lt.1 hs).2
    have k1 : (V - c2) * z ≤ (c2 - c1) * (j + 2 - a) := by linarith
    have k2 : (c2 - c1) * (j + 2 - a) ≤ (V * machEps) * (N + 2 - a) :=
      mul_le_mul (by nlinarith) (by linarith) (by linarith) (by positivity)
    rw [mul_div_assoc', le_div_iff₀ hz0]
    linarith

/-! ### `a = 1/2` -/

/-- A larger `z` makes the numerators and denominators larger. -/
theorem rec_mono {p p0 q x y : ℕ → ℝ} (hp : ∀ k, p0 k ≤ p k) (hq : ∀ k, 0 ≤ q k) (hx : ∀ k, x (k + 2) = p k * x (k + 1) - q k * x k)
    (hy : ∀ k, y (k + 2) = p0 k * y (k + 1) - q k * y k) (hx0 : ∀ k, 0 < x (k + 1)) (hy0 : ∀ k, 0 < y (k + 1)) (h0 : y 1 * x 0 ≤ x 1 * y 0) (h1 : y 1 ≤ x 1) :
    ∀ k, y (k + 1) ≤ x (k + 1) := by
  have hr : ∀ k, y (k + 1) * x k ≤ x (k + 1) * y k := by
    intro k
    induction k with
    | zero => exact h0
    | succ k ih =>
      rw [show k + 1 + 1 = k + 2 from rfl, hx, hy]
      have := mul_le_mul_of_nonneg_right (hp k) (mul_pos (hx0 k) (hy0 k)).le
      have := mul_le_mul_of_nonneg_left ih (hq k)
      nlinarith
  intro k
  induction k with
  | zero => exact h1
  | succ k ih =>
    have h := hr (k + 1)
    have hx' := hx0 k
    have hy' := hy0 k
    have hy2 := hy0 (k + 1)
    by_contra hc
    push Not at hc
    have : x (k + 1 + 1) * y (k + 1) < y (k + 1 + 1) * x (k + 1) :=
      (mul_lt_mul_of_pos_right hc hy').trans_le (mul_le_mul_of_nonneg_left ih hy2.le)
    linarith

/-- The numerators (from 0, 2) and denominators (from 1, 4) for `a = 1/2` and `z = 3/2`, times `2 ^ k`. -/
def halfSeq (s : ℤ × ℤ) : ℕ → ℤ × ℤ
  | 0 => s
  | k + 1 => ((halfSeq s k).2, (4 * k + 8) * (halfSeq s k).2 - (k + 1) * (4 * k + 2) * (halfSeq s k).1)

theorem halfSeq_A : ∀ k, ((halfSeq (0, 2) k).1 : ℝ) = 2 ^ k * fracA (1 / 2) (3 / 2) k ∧ ((halfSeq (0, 2) k).2 : ℝ) = 2 ^ (k + 1) * fracA (1 / 2) (3 / 2) (k + 1)
  | 0 => by simp [halfSeq, fracA]
  | k + 1 => by
    obtain ⟨h1, h2⟩ := halfSeq_A k
    refine ⟨h2, ?_⟩
    rw [halfSeq, show k + 1 + 1 = k + 2 from rfl, fracA]
    push_cast
    rw [h1, h2]
    ring

theorem halfSeq_B : ∀ k, ((halfSeq (1, 4) k).1 : ℝ) = 2 ^ k * fracB (1 / 2) (3 / 2) k ∧ ((halfSeq (1, 4) k).2 : ℝ) = 2 ^ (k + 1) * fracB (1 / 2) (3 / 2) (k + 1)
  | 0 => by simp only [halfSeq, fracB]; norm_num
  | k + 1 => by
    obtain ⟨h1, h2⟩ := halfSeq_B k
    refine ⟨h2, ?_⟩
    rw [halfSeq, show k + 1 + 1 = k + 2 from rfl, fracB]
    push_cast
    rw [h1, h2]
    ring

theorem fracD_half (k : ℕ) : 2 ^ k * fracD (1 / 2) k = ((∏ j ∈ Finset.range k, (2 * j + 1) : ℕ) : ℝ) := by
  unfold fracD
  push_cast
  rw [show (2 : ℝ) ^ k = ∏ _j ∈ Finset.range k, (2 : ℝ) by simp, ← Finset.prod_mul_distrib]
  apply Finset.prod_congr rfl
  intro j _
  ring

theorem half_stop_of {k : ℕ} (hz : z ≥ 3 / 2) (hnum : ((k + 1) ! : ℝ) * fracD (1 / 2) (k + 1) < machEps * (fracA (1 / 2) (3 / 2) (k + 1) * fracB (1 / 2) (3 / 2) (k + 2))) :
    FracStop (1 / 2) z k := by
  have hz1 : z ≥ 1 / 2 + 1 := by linarith
  have hz2 : (3 / 2 : ℝ) ≥ 1 / 2 + 1 := by norm_num
  have ha1 : (1 / 2 : ℝ) < 1 := by norm_num
  have ha : (0 : ℝ) < 1 / 2 := by norm_num
  have Bp : ∀ z : ℝ, z ≥ 1 / 2 + 1 → ∀ k, 0 < fracB (1 / 2) z k := fun z h k => (fracB_grows ha1 ha h k).1
  have Ap : ∀ z : ℝ, z ≥ 1 / 2 + 1 → ∀ k, 0 < fracA (1 / 2) z (k + 1) := fun z h k => by
    have e := frac_diff (a := 1 / 2) (z := z) k
    have h3 := mul_nonneg (fracA_bounds ha1 ha h k).1 (Bp z h (k + 1)).le
    have h4 : 0 < (k ! : ℝ) * fracD (1 / 2) k := mul_pos (by positivity) (fracD_pos ha1 k)
    exact pos_of_mul_pos_left (show 0 < fracA (1 / 2) z (k + 1) * fracB (1 / 2) z k by linarith) (Bp z h k).le
  have mA : fracA (1 / 2) (3 / 2) (k + 1) ≤ fracA (1 / 2) z (k + 1) :=
    rec_mono (p := fun k => z + 2 * (k + 1) + 1 - 1 / 2) (p0 := fun k => 3 / 2 + 2 * (k + 1) + 1 - 1 / 2) (q := fun k => -((k + 1) * (1 / 2 - (k + 1))))
      (fun k => by linarith) (fun k => by have : (0 : ℝ) ≤ k := by positivity
                                          nlinarith) (fun k => by rw [fracA]; ring) (fun k => by rw [fracA]; ring) (Ap z hz1) (Ap _ hz2)
      (by simp [fracA]) (by simp [fracA]) k
  have mB : fracB (1 / 2) (3 / 2) (k + 2) ≤ fracB (1 / 2) z (k + 2) :=
    rec_mono (p := fun k => z + 2 * (k + 1) + 1 - 1 / 2) (p0 := fun k => 3 / 2 + 2 * (k + 1) + 1 - 1 / 2) (q := fun k => -((k + 1) * (1 / 2 - (k + 1))))
      (fun k => by linarith) (fun k => by have : (0 : ℝ) ≤ k := by positivity
                                          nlinarith) (fun k => by rw [fracB]; ring) (fun k => by rw [fracB]; ring) (fun k => Bp z hz1 _) (fun k => Bp _ hz2 _)
      (by simp only [fracB]; linarith) (by simp only [fracB]; linarith) (k + 1)
  have e := frac_diff (a := 1 / 2) (z := z) (k + 1)
  have b0 := Bp z hz1 (k + 1)
  have b1 := Bp z hz1 (k + 2)
  have a0 := Ap z hz1 k
  have hd : 0 < ((k + 1) ! : ℝ) * fracD (1 / 2) (k + 1) := mul_pos (by positivity) (fracD_pos ha1 (k + 1))
  have hm0 : 0 < machEps := by unfold machEps; positivity
  have : machEps * (fracA (1 / 2) (3 / 2) (k + 1) * fracB (1 / 2) (3 / 2) (k + 2)) ≤ machEps * (fracA (1 / 2) z (k + 1) * fracB (1 / 2) z (k + 2)) :=
    mul_le_mul_of_nonneg_left (mul_le_mul mA mB (Bp _ hz2 (k + 2)).le a0.le) hm0.le
  have h2 := mul_lt_mul_of_pos_right (hnum.trans_le this) b0
  unfold FracStop
  rw [div_sub_div _ _ b1.ne' b0.ne', show fracA (1 / 2) z (k + 2) * fracB (1 / 2) z (k + 1) - fracB (1 / 2) z (k + 2) * fracA (1 / 2) z (k + 1) =
    ((k + 1) ! : ℝ) * fracD (1 / 2) (k + 1) by rw [← e]; ring, abs_of_pos (by positivity), div_mul_eq_mul_div, div_lt_div_iff₀ (by positivity) b0]
  nlinarith

theorem half_scale {f d x y X Y D : ℝ} (hX : X = 2 ^ 60 * x) (hY : Y = 2 ^ 61 * y) (hD : 2 ^ 60 * d = D) (h : f * D * (2 ^ 61 * 2 ^ 52) < X * Y) : f * d < machEps * (x * y) := by
  rw [hX, hY, ← hD] at h
  unfold machEps
  rw [inv_pow, inv_mul_eq_div, lt_div_iff₀ (by positivity)]
  have hp : (0 : ℝ) < 2 ^ 60 * 2 ^ 61 := by positivity
  nlinarith

theorem half_stop (hz : z ≥ 3 / 2) : FracStop (1 / 2) z 59 := by
  apply half_stop_of hz
  have hI : (60 ! : ℤ) * ((∏ j ∈ Finset.range 60, (2 * j + 1) : ℕ) : ℤ) * (2 ^ 61 * 2 ^ 52) < (halfSeq (0, 2) 60).1 * (halfSeq (1, 4) 61).1 := by
    decide +kernel
  have hR : (60 ! : ℝ) * ((∏ j ∈ Finset.range 60, (2 * j + 1) : ℕ) : ℝ) * (2 ^ 61 * 2 ^ 52) < ((halfSeq (0, 2) 60).1 : ℝ) * ((halfSeq (1, 4) 61).1 : ℝ) := by
    exact_mod_cast hI
  exact half_scale (halfSeq_A 60).1 (halfSeq_B 61).1 (fracD_half 60) hR

/-- For `a = 1/2` the loop ends within sixty rounds, with a value that is too low by at most 41 machine epsilons. -/
theorem frac_half (hz : z ≥ 3 / 2) : ∃ r, incGammaFrac (1 / 2) z = some r ∧ 0 < r ∧ r ≤ tailInt (1 / 2) z 0 ∧
    tailInt (1 / 2) z 0 * (1 - 41 * machEps) ≤ r := by
  obtain ⟨r, h1, h2, h3, h4⟩ := frac_low (a := 1 / 2) (by norm_num) (by norm_num) (by linarith) (half_stop hz)
  refine ⟨r, h1, h2, h3, ?_⟩
  have hm0 : 0 < machEps := by unfold machEps; positivity
  have hV := tailInt_pos (a := 1 / 2) (by linarith : 0 < z) 0
  have : (((59 : ℕ) : ℝ) + 2 - 1 / 2) / z ≤ 41 := by rw [div_le_iff₀ (by linarith)]; push_cast; linarith
  have := mul_le_mul_of_nonneg_left this (mul_pos hm0 hV).le
  linarith

end
end WFMath.Prob

