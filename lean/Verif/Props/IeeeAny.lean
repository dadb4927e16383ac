/- Property theorems C142, continued: lengths, distances, scalar products and comparisons of doubles without a lower limit on their size. -/
import Verif.Lemmas.IeeeAny
import Verif.Lemmas.Len

namespace WFMath
open Spec Matrix
open WFMath.Spec.Rounding (u)
variable {n : Nat}

/-- C142, lengths: for components up to 2^500 in absolute value, however small, `mag` is a finite number with the error of C116 plus 2^-526.
Missing: larger components, see `C142_large`. -/
theorem C142_length_partial (g : Nearest) (hn : n ≤ 2 ^ 20) (v : Fin n → ℝ) (hv : ∀ i, |v i| ≤ 2 ^ (500 : ℤ)) :
    ∃ m, Ie.mag g (fun i => .num (v i)) = .num m ∧ 0 ≤ m ∧
      |m - Real.sqrt (∑ i, v i ^ 2)| ≤ (n + 2) * 2 ^ (-52 : ℤ) * Real.sqrt (∑ i, v i ^ 2) + 2 ^ (-526 : ℤ) := by
  obtain ⟨r, hr⟩ := g.extends_
  obtain ⟨s, T, h1, h2, h3, h4, h5, h6⟩ := Ie.sqrMag_any hr hn v hv
  unfold Ie.mag
  rw [h1]
  exact Ie.root_any hr hn h2 h3 (Finset.sum_nonneg fun i _ => sq_nonneg _) h4 h5 h6

/-- C142, distances: for doubles as coordinates up to 2^499 in absolute value, however small, `Distance` is a finite number with the error of C116 plus 2^-520, or is cut off to 0
where C116 allows it, up to 2^-1050 in the square.
Missing: larger coordinates, see `C142_distant`. -/
theorem C142_near_partial (g : Nearest) (fe : ℤ) (hn : n ≤ 2 ^ 20) (p q : Fin n → ℝ) (dp : ∀ i, IsDbl (p i)) (dq : ∀ i, IsDbl (q i))
    (hp : ∀ i, |p i| ≤ 2 ^ (499 : ℤ)) (hq : ∀ i, |q i| ≤ 2 ^ (499 : ℤ)) :
    ∃ d, Ie.dist g fe (fun i => .num (p i)) (fun i => .num (q i)) = .num d ∧
      (|d - eucl p q| ≤ (n + 4) * 2 ^ (-52 : ℤ) * eucl p q + 2 ^ (-520 : ℤ) ∨
        (d = 0 ∧ eucl p q ^ 2 ≤ (1 + (n + 4) * 2 ^ (-52 : ℤ)) * scaleEpsilonArr p q epsilon + 2 ^ (-1050 : ℤ))) := by
  obtain ⟨r, hr⟩ := g.extends_
  have hu0 : 0 < u 53 := Rounding.u_pos
  have hus : u 53 ≤ 1 / 1000000 := by rw [Fl.u53]; norm_num
  have e52 : (2 : ℝ) ^ (-52 : ℤ) = 2 * u 53 := by rw [Fl.u53]; norm_num
  have hd : ∀ i, |p i - q i| ≤ 2 ^ (500 : ℤ) := fun i => by
    refine (abs_sub _ _).trans ?_
    rw [show (500 : ℤ) = 1 + 499 by norm_num, zpow_add₀ two_ne_zero, zpow_one]
    exact (add_le_add (hp i) (hq i)).trans (le_of_eq (two_mul _).symm)
  have hs := fun i => Ie.sub_num2 hr (dp i) (dq i) ((hd i).trans (zpow_le_zpow_right₀ one_le_two (by norm_num)))
  have hb : ∀ i, |r (p i - q i)| ≤ 2 ^ (500 : ℤ) := fun i => by
    have e : g (p i - q i) = r (p i - q i) := by have := Ie.add_eq hr (dp i) (dq i).neg; rwa [← sub_eq_add_neg] at this
    rw [← e]; exact g.abs_le_dbl (IsDbl.zpow (by norm_num)) (hd i)
  obtain ⟨s, T, h1, h2, h3, h4, h5, h6⟩ := Ie.sqrMag_any hr hn (fun i => r (p i - q i)) hb
  have S0 : 0 ≤ ∑ i, r (p i - q i) ^ 2 := Finset.sum_nonneg fun i _ => sq_nonneg _
  obtain ⟨m, m1, m0, m2⟩ := Ie.root_any hr hn h2 h3 S0 h4 h5 h6
  have hc : Close 53 2 (∑ i, r (p i - q i) ^ 2) (∑ i, (p i - q i) ^ 2) := Close.sum Fl.pos53 _ (fun i => by
    have h := Close.round_self Fl.pos53 r (p i - q i)
    rw [sq, sq]; exact h.mul Fl.pos53 h) fun i => sq_nonneg _
  have he : Real.sqrt (∑ i, (p i - q i) ^ 2) = eucl p q := rfl
  have hc1 : Close 53 1 (Real.sqrt (∑ i, r (p i - q i) ^ 2)) (eucl p q) := by rw [← he]; exact Close.sqrt_two Fl.pos53 hc
  have he0 : 0 ≤ eucl p q := Real.sqrt_nonneg _
  have lt1 : ∀ x : ℝ, |x| ≤ 2 ^ (499 : ℤ) → |x| < 2 ^ (1024 : ℤ) := fun x h => h.trans_lt (zpow_lt_zpow_right₀ one_lt_two (by norm_num))
  have hee := epsilon_lt
  norm_num at hee
  obtain ⟨t1, t2, t3⟩ := Ie.scaleArr_any g fe (fun i => lt1 _ (hp i)) (fun i => lt1 _ (hq i)) epsilon_pos.le (by linarith : epsilon ≤ 1 / 4)
  have s0 : 0 ≤ s := h5.nonneg Fl.pos53 h3
  have hsum : Ie.sum g (fun i => Dbl.mul g (Dbl.sub g (.num (p i)) (.num (q i))) (Dbl.sub g (.num (p i)) (.num (q i)))) = .num s := by
    rw [← h1]; unfold Ie.sqrMag; congr 1; funext i; rw [(hs i).1]
  have hn' : (n : ℝ) ≤ 2 ^ 20 := by exact_mod_cast hn
  have n0 : (0 : ℝ) ≤ n := Nat.cast_nonneg n
  have hnu : (n : ℝ) * u 53 ≤ 1 / 1000000 := by
    refine (mul_le_mul_of_nonneg_right hn' hu0.le).trans ?_
    rw [Fl.u53]; norm_num
  unfold Ie.dist Ie.sqDist
  simp only [hsum, t1, Dbl.abs, abs_of_nonneg s0, Dbl.le, decide_eq_true_eq]
  split_ifs with hcut
  · refine ⟨m, m1, Or.inl ?_⟩
    have k1 := Fl.Close_err' hc1 (by norm_num)
    rw [abs_of_nonneg he0] at k1
    rw [e52] at k1 m2 ⊢
    have k2 := abs_sub_le m (Real.sqrt (∑ i, r (p i - q i) ^ 2)) (eucl p q)
    have z : (2 : ℝ) ^ (-526 : ℤ) ≤ 2 ^ (-520 : ℤ) := zpow_le_zpow_right₀ one_le_two (by norm_num)
    clear t3 m1 h6 h4 hd hb hs lt1 hp hq
    generalize (2 : ℝ) ^ (-526 : ℤ) = ζ at *
    generalize (2 : ℝ) ^ (-520 : ℤ) = ξ at *
    generalize Real.sqrt (∑ i, r (p i - q i) ^ 2) = L at *
    generalize eucl p q = E at *
    push_cast at k1
    have k3 := (_root_.abs_le.1 k1).2
    have k4 : ((n : ℝ) + 2) * (2 * u 53) * L ≤ (n + 2) * (2 * u 53) * (E + 1 * (2 * u 53) * E) := mul_le_mul_of_nonneg_left (by linarith) (by positivity)
    have k5 := mul_le_mul_of_nonneg_right hnu (by positivity : 0 ≤ u 53 * E)
    have k6 := mul_le_mul_of_nonneg_right hus (by positivity : 0 ≤ u 53 * E)
    nlinarith
  · refine ⟨0, Ie.sqrt_zero, Or.inr ⟨rfl, ?_⟩⟩
    have e2 : eucl p q ^ 2 = ∑ i, (p i - q i) ^ 2 := Real.sq_sqrt (Finset.sum_nonneg fun i _ => sq_nonneg _)
    rw [e2]
    have c1 := Fl.Close_err' (hc.symm Fl.pos53) (by norm_num)
    have c2 := Fl.Close_err' (h5.symm Fl.pos53) (by omega)
    rw [abs_of_nonneg S0] at c1
    rw [abs_of_nonneg s0] at c2
    have k1 := (_root_.abs_le.1 (Ie.rnd_any g (scaleEpsilonArr p q epsilon))).2
    rw [abs_of_nonneg t2] at k1
    have hz : (n : ℝ) * 2 ^ (-1075 : ℤ) ≤ 1 / 8 * 2 ^ (-1050 : ℤ) ∧ (2 : ℝ) ^ (-1075 : ℤ) ≤ 1 / 8 * 2 ^ (-1050 : ℤ) := by
      have e8 : (1 / 8 : ℝ) * 2 ^ (-1050 : ℤ) = 2 ^ (-1053 : ℤ) := by rw [show (1 / 8 : ℝ) = 2 ^ (-3 : ℤ) by norm_num, ← zpow_add₀ two_ne_zero]; norm_num
      rw [e8]
      refine ⟨(mul_le_mul_of_nonneg_right hn' (by positivity)).trans ?_, zpow_le_zpow_right₀ one_le_two (by norm_num)⟩
      rw [show (2 : ℝ) ^ 20 = 2 ^ (20 : ℤ) by norm_num, ← zpow_add₀ two_ne_zero]
      exact zpow_le_zpow_right₀ one_le_two (by norm_num)
    obtain ⟨z1, z2⟩ := hz
    have z0 : (0 : ℝ) < 2 ^ (-1050 : ℤ) := by positivity
    rw [e52] at c1 c2 ⊢
    have hcut' := not_le.1 hcut
    have h6' := (_root_.abs_le.1 h6).1
    push_cast at c1
    have c1' := (_root_.abs_le.1 c1).2
    have c2' := (_root_.abs_le.1 c2).2
    clear t3 m1 h6 h4 hd hb hs lt1 hp hq c1 c2 m2 hcut
    generalize (2 : ℝ) ^ (-1050 : ℤ) = ζ at *
    generalize (2 : ℝ) ^ (-1075 : ℤ) = η at *
    generalize scaleEpsilonArr p q epsilon = δ at *
    generalize ∑ i, r (p i - q i) ^ 2 = A at *
    generalize ∑ i, (p i - q i) ^ 2 = E at *
    generalize g δ = γ at *
    generalize u 53 = w at *
    generalize (n : ℝ) = N at *
    -- δ' = (1 + w) δ + ζ/8 bounds the sum
    have a1 : s ≤ (1 + w) * δ + 1 / 8 * ζ := by linarith
    have a2 : T ≤ (1 + N * (2 * w)) * ((1 + w) * δ + 1 / 8 * ζ) := by
      have : (1 + N * (2 * w)) * s ≤ (1 + N * (2 * w)) * ((1 + w) * δ + 1 / 8 * ζ) := mul_le_mul_of_nonneg_left a1 (by positivity)
      linarith
    have a3 : A * (1 - w) ≤ T + 1 / 8 * ζ := by linarith
    have a4 : E ≤ (1 + 4 * w) * A := by linarith
    have b1 : (1 + 4 * w) ≤ (1 - w) * (1 + 5 * w + 8 * w ^ 2) := by nlinarith [mul_nonneg hu0.le (sq_nonneg w), mul_le_mul_of_nonneg_right hus (sq_nonneg w)]
    have a5 : E ≤ (1 + 5 * w + 8 * w ^ 2) * (T + 1 / 8 * ζ) := by
      have := mul_le_mul_of_nonneg_right b1 S0
      have := mul_le_mul_of_nonneg_left a3 (by positivity : 0 ≤ 1 + 5 * w + 8 * w ^ 2)
      linarith
    have b2 : (1 + 5 * w + 8 * w ^ 2) * ((1 + N * (2 * w)) * (1 + w)) ≤ 1 + (N + 4) * (2 * w) := by
      have q1 := mul_nonneg n0 hu0.le
      have q2 := mul_nonneg q1 hu0.le
      have q3 := mul_le_mul_of_nonneg_right hnu hu0.le
      have q4 := mul_le_mul_of_nonneg_right hus hu0.le
      have q5 := mul_le_mul_of_nonneg_right hus q2
      have q6 := mul_le_mul_of_nonneg_right hus (mul_nonneg hu0.le hu0.le)
      have q7 := mul_le_mul_of_nonneg_right hus (mul_nonneg hu0.le q2)
      nlinarith
    have b3 : (1 + 5 * w + 8 * w ^ 2) * (1 + N * (2 * w)) ≤ 2 ∧ 1 + 5 * w + 8 * w ^ 2 ≤ 2 := by
      have q4 := mul_le_mul_of_nonneg_right hus hu0.le
      have q3 : 1 + 5 * w + 8 * w ^ 2 ≤ 3 / 2 := by nlinarith
      refine ⟨?_, by linarith⟩
      have q1 := mul_nonneg n0 hu0.le
      nlinarith
    have a6 := mul_le_mul_of_nonneg_left a2 (by positivity : 0 ≤ 1 + 5 * w + 8 * w ^ 2)
    have a7 := mul_le_mul_of_nonneg_right b2 t2
    have a8 := mul_le_mul_of_nonneg_right b3.1 z0.le
    have a9 := mul_le_mul_of_nonneg_right b3.2 z0.le
    have f1 : (1 + 5 * w + 8 * w ^ 2) * ((1 + N * (2 * w)) * ((1 + w) * δ + 1 / 8 * ζ)) =
      (1 + 5 * w + 8 * w ^ 2) * ((1 + N * (2 * w)) * (1 + w)) * δ + 1 / 8 * ((1 + 5 * w + 8 * w ^ 2) * (1 + N * (2 * w)) * ζ) := by ring
    rw [f1] at a6
    have f2 : (1 + 5 * w + 8 * w ^ 2) * (T + 1 / 8 * ζ) = (1 + 5 * w + 8 * w ^ 2) * T + 1 / 8 * ((1 + 5 * w + 8 * w ^ 2) * ζ) := by ring
    rw [f2] at a5
    linarith

/-- C142, comparison of vectors or points: for all finite doubles and every tolerance up to 1/4, `isEqualTo` accepts what exact arithmetic accepts, and what it accepts differs
in no coordinate by more than the tolerance scaled by the smaller of the two, a unit in the last place of it and the smallest double. -/
theorem C142_same (g : Nearest) (fe : ℤ) (x y : Fin n → ℝ) (eps : ℝ) (fx : ∀ i, IsFinite (x i)) (fy : ∀ i, IsFinite (y i)) (h0 : 0 ≤ eps) (h1 : eps ≤ 1 / 4) (a b : Bool) :
    ((Vec.mk x a).isEqualTo ⟨y, b⟩ eps = true → Ie.vecEqual g fe ⟨fun i => .num (x i), a⟩ ⟨fun i => .num (y i), b⟩ (.num eps) = true) ∧
    (Ie.vecEqual g fe ⟨fun i => .num (x i), a⟩ ⟨fun i => .num (y i), b⟩ (.num eps) = true →
      a = true ∧ b = true ∧ ∀ i, |x i - y i| ≤ (1 + 2 ^ (-51 : ℤ)) * scaleEpsilonArr x y eps + 2 ^ (-1074 : ℤ)) := by
  obtain ⟨r, hr⟩ := g.extends_
  obtain ⟨t1, t2, t3⟩ := Ie.scaleArr_any g fe (fun i => (fx i).2) (fun i => (fy i).2) h0 h1
  have hc := fun i => Ie.cmp_any hr (fx i).1 (fy i).1 t2 t3
  unfold Ie.vecEqual Vec.isEqualTo
  simp only [t1]
  cases a <;> cases b <;> simp only [Bool.not_true, Bool.not_false, Bool.or_true, Bool.or_false, if_true, Bool.false_eq_true, if_false, false_imp_iff, true_and,
    List.all_eq_true, List.mem_finRange, forall_const, imp_self, and_self, Bool.not_eq_true', decide_eq_false_iff_not, not_lt, gt_iff_lt]
  refine ⟨fun h i => ?_, fun h i => (hc i).2 (h i)⟩
  obtain ⟨c, c1, c2⟩ := (hc i).1 (h i)
  rw [c1]
  exact decide_eq_false (not_lt.2 c2)

/-- C142, comparison of numbers: the same for `Equal` of two finite doubles. -/
theorem C142_number (g : Nearest) (fe : ℤ) (x y eps : ℝ) (fx : IsFinite x) (fy : IsFinite y) (h0 : 0 ≤ eps) (h1 : eps ≤ 1 / 4) :
    (equal x y eps = true → Ie.equal g fe (.num x) (.num y) (.num eps) = true) ∧
    (Ie.equal g fe (.num x) (.num y) (.num eps) = true → |x - y| ≤ (1 + 2 ^ (-51 : ℤ)) * scaleEpsilon x y eps + 2 ^ (-1074 : ℤ)) := by
  obtain ⟨r, hr⟩ := g.extends_
  obtain ⟨t1, t2, t3⟩ := Ie.scaleEps_any g fe fx.2 fy.2 h0 h1
  obtain ⟨c1, c2⟩ := Ie.cmp_any hr fx.1 fy.1 t2 t3
  unfold Ie.equal equal
  rw [t1]
  refine ⟨fun h => ?_, fun h => c2 ?_⟩
  · obtain ⟨a, a1, a2⟩ := c1 (of_decide_eq_true h)
    rw [a1]
    exact decide_eq_true a2
  · rw [Ie.sub_num] at h ⊢
    unfold Dbl.round at h ⊢
    split_ifs at h ⊢
    · simpa [Dbl.le, Dbl.lt, Dbl.abs] using h
    · simp [Dbl.le, Dbl.abs] at h

/-- C142, scalar products: for components up to 2^500 in absolute value, however small, `Dot` is a finite number with the error of C118 plus `n 2^-1074`, or it is cut off to 0
where C118 allows it, up to the same amount.
Missing: larger components. -/
theorem C142_product_partial (g : Nearest) (fe : ℤ) (hn : n ≤ 2 ^ 20) (v w : Fin n → ℝ) (hv : ∀ i, |v i| ≤ 2 ^ (500 : ℤ)) (hw : ∀ i, |w i| ≤ 2 ^ (500 : ℤ)) :
    ∃ d, Ie.dot g fe (fun i => .num (v i)) (fun i => .num (w i)) = .num d ∧
      (|d - ∑ i, v i * w i| ≤ (n + 1) * 2 ^ (-52 : ℤ) * ∑ i, |v i * w i| + n * 2 ^ (-1074 : ℤ) ∨
        (d = 0 ∧ |∑ i, v i * w i| ≤
          (n + 1) * 2 ^ (-52 : ℤ) * ∑ i, |v i * w i| + (1 + 2 ^ (-53 : ℤ)) * (2 * epsilon * min (maxAbs v) (maxAbs w)) + (n + 1) * 2 ^ (-1074 : ℤ))) := by
  obtain ⟨r, hr⟩ := g.extends_
  have hu0 : 0 < u 53 := Rounding.u_pos
  have lt1 : ∀ x : ℝ, |x| ≤ 2 ^ (500 : ℤ) → |x| < 2 ^ (1024 : ℤ) := fun x h => h.trans_lt (zpow_lt_zpow_right₀ one_lt_two (by norm_num))
  have hee := epsilon_lt
  norm_num at hee
  obtain ⟨t1, t2, -⟩ := Ie.scaleArr_any g fe (fun i => lt1 _ (hv i)) (fun i => lt1 _ (hw i)) epsilon_pos.le (by linarith : epsilon ≤ 1 / 4)
  obtain ⟨y, y1, y2⟩ := Ie.inner_any hr hn v w hv hw
  have z0 : (0 : ℝ) ≤ n * 2 ^ (-1074 : ℤ) := by positivity
  have z1 : (0 : ℝ) ≤ (n + 1) * 2 ^ (-52 : ℤ) := by positivity
  unfold Ie.dot
  simp only [y1, t1, Dbl.abs, Dbl.le, decide_eq_true_eq]
  split_ifs with hc
  · exact ⟨y, rfl, Or.inl y2⟩
  · refine ⟨0, rfl, ?_⟩
    by_cases h1 : v = 0
    · left; subst h1; simp only [Pi.zero_apply, zero_mul, Finset.sum_const_zero, sub_self, abs_zero, mul_zero, zero_add]; exact z0
    by_cases h2 : w = 0
    · left; subst h2; simp only [Pi.zero_apply, mul_zero, Finset.sum_const_zero, sub_self, abs_zero, zero_add]; exact z0
    right
    refine ⟨rfl, ?_⟩
    have k1 := scaleEpsilonArr_le epsilon_pos.le h1 h2
    have k2 := abs_sub_abs_le_abs_sub (∑ i, v i * w i) y
    rw [abs_sub_comm _ y] at k2
    have k3 := (_root_.abs_le.1 (Ie.rnd_any g (scaleEpsilonArr v w epsilon))).2
    rw [abs_of_nonneg t2] at k3
    have e53 : (2 : ℝ) ^ (-53 : ℤ) = u 53 := Fl.u53.symm
    have k4 := mul_le_mul_of_nonneg_left k1 hu0.le
    have z : (2 : ℝ) ^ (-1075 : ℤ) ≤ 2 ^ (-1074 : ℤ) := zpow_le_zpow_right₀ one_le_two (by norm_num)
    rw [e53]
    have hc' := not_le.1 hc
    clear hv hw lt1 t1 y1 hc
    generalize (2 : ℝ) ^ (-1075 : ℤ) = η at *
    generalize (2 : ℝ) ^ (-1074 : ℤ) = ζ at *
    generalize (2 : ℝ) ^ (-52 : ℤ) = ω at *
    generalize ∑ i, |v i * w i| = A at *
    generalize ∑ i, v i * w i = B at *
    generalize scaleEpsilonArr v w epsilon = δ at *
    generalize 2 * epsilon * min (maxAbs v) (maxAbs w) = κ at *
    linarith

/-- C142, normalising: for vectors of length between 2^-450 and 2^500, however small some components are, and a wanted length between 2^-400 and 2^400, `normalize` gives finite
numbers, with the errors of C116 plus 2^-1075 in each component.
Missing: other lengths, see `C142_large` and `C142_small`. -/
theorem C142_unit_partial (g : Nearest) (hn : n ≤ 2 ^ 20) (v : Fin n → ℝ) (L : ℝ) (hL : L = Real.sqrt (∑ i, v i ^ 2)) (h0 : 2 ^ (-450 : ℤ) ≤ L) (h1 : L ≤ 2 ^ (500 : ℤ))
    (norm : ℝ) (hN : 2 ^ (-400 : ℤ) ≤ |norm|) (hN1 : |norm| ≤ 2 ^ (400 : ℤ)) :
    ∃ w : Fin n → ℝ, (∀ i, Ie.normalize g (fun i => .num (v i)) (.num norm) i = .num (w i)) ∧
      ∀ i, |w i - v i * (norm / L)| ≤ (n + 5) * 2 ^ (-52 : ℤ) * |v i * (norm / L)| + 2 ^ (-1075 : ℤ) := by
  obtain ⟨r, hr⟩ := g.extends_
  have hu0 : 0 < u 53 := Rounding.u_pos
  have hus : u 53 ≤ 1 / 1000000 := by rw [Fl.u53]; norm_num
  have e52 : (2 : ℝ) ^ (-52 : ℤ) = 2 * u 53 := by rw [Fl.u53]; norm_num
  have L0 : 0 < L := lt_of_lt_of_le (by positivity) h0
  have hn' : (n : ℝ) ≤ 2 ^ 20 := by exact_mod_cast hn
  have n0 : (0 : ℝ) ≤ n := Nat.cast_nonneg n
  have hnu : ((n : ℝ) + 3) * u 53 ≤ 1 / 10000000 := by
    refine (mul_le_mul_of_nonneg_right (by linarith : (n : ℝ) + 3 ≤ 2 ^ 20 + 3) hu0.le).trans ?_
    rw [Fl.u53]; norm_num
  have vL : ∀ i, |v i| ≤ L := fun i => by
    rw [hL]; exact Real.abs_le_sqrt (Finset.single_le_sum (f := fun i => v i ^ 2) (fun j _ => sq_nonneg _) (Finset.mem_univ i))
  obtain ⟨m, m1, -, m2⟩ := C142_length_partial g hn v fun i => (vL i).trans h1
  rw [← hL] at m2
  have m3 : |m - L| ≤ (n + 3) * (2 * u 53) * L := by
    have : (2 : ℝ) ^ (-526 : ℤ) ≤ 2 * u 53 * L := by
      rw [← e52]
      refine le_trans ?_ (mul_le_mul_of_nonneg_left h0 (by positivity))
      rw [← zpow_add₀ two_ne_zero]
      exact zpow_le_zpow_right₀ one_le_two (by norm_num)
    rw [e52] at m2
    clear h0 h1 hN hN1
    generalize (2 : ℝ) ^ (-526 : ℤ) = ζ at *
    linarith
  have m3' := _root_.abs_le.1 m3
  have hρ : (n + 3) * (2 * u 53) * L ≤ 1 / 1000000 * L := mul_le_mul_of_nonneg_right (by linarith) L0.le
  have mlo : 1 / 2 * L ≤ m := by linarith
  have mhi : m ≤ 2 * L := by linarith
  have m0 : 0 < m := by linarith
  have N0 : norm ≠ 0 := by rintro rfl; rw [abs_zero] at hN; exact absurd hN (not_le.2 (by positivity))
  have hq : Nrm (-1022) 1023 (norm / m) := by
    right
    rw [abs_div, abs_of_pos m0]
    constructor
    · rw [le_div_iff₀ m0]
      refine (mul_le_mul_of_nonneg_left (mhi.trans (mul_le_mul_of_nonneg_left h1 (by norm_num))) (by positivity)).trans (le_trans ?_ hN)
      rw [show (2 : ℝ) * 2 ^ (500 : ℤ) = 2 ^ (501 : ℤ) by rw [← zpow_one_add₀ two_ne_zero]; norm_num, ← zpow_add₀ two_ne_zero]
      exact zpow_le_zpow_right₀ one_le_two (by norm_num)
    · rw [div_le_iff₀ m0]
      refine hN1.trans (le_trans ?_ (mul_le_mul_of_nonneg_left ((mul_le_mul_of_nonneg_left h0 (by norm_num)).trans mlo) (by positivity)))
      rw [show (1 / 2 : ℝ) * 2 ^ (-450 : ℤ) = 2 ^ (-451 : ℤ) by rw [show (1 / 2 : ℝ) = 2 ^ (-1 : ℤ) by norm_num, ← zpow_add₀ two_ne_zero]; norm_num, ← zpow_add₀ two_ne_zero]
      exact zpow_le_zpow_right₀ one_le_two (by norm_num)
  have hd : Dbl.div g (.num norm) (.num m) = .num (r (norm / m)) := by
    show (if m = 0 then _ else Dbl.round g (norm / m)) = _
    rw [if_neg m0.ne']
    exact Ie.round_num hr hq
  -- the quotient
  have q1 : |norm / m - norm / L| ≤ ((n + 3) * (2 * u 53) + u 53 / 10) * |norm / L| := by
    have e : norm / m - norm / L = (norm / L) * ((L - m) / m) := by field_simp
    rw [e, abs_mul, mul_comm, abs_div, abs_of_pos m0]
    refine mul_le_mul_of_nonneg_right ?_ (abs_nonneg _)
    rw [div_le_iff₀ m0, abs_sub_comm]
    have a1 : ((n : ℝ) + 3) * (2 * u 53) * L ≤ ((n + 3) * (2 * u 53) + u 53 / 10) * (L - (n + 3) * (2 * u 53) * L) := by
      have b1 := mul_le_mul_of_nonneg_right hnu (by positivity : 0 ≤ u 53 * L)
      have b2 : (((n : ℝ) + 3) * u 53) * (((n + 3) * u 53) * L) ≤ u 53 / 1000 * L := by
        have : ((n : ℝ) + 3) * (((n + 3) * u 53)) ≤ 1 / 1000 := by
          have c1 : (n : ℝ) + 3 ≤ 2 ^ 20 + 3 := by linarith
          have c2 : ((n : ℝ) + 3) * u 53 ≤ (2 ^ 20 + 3) * u 53 := mul_le_mul_of_nonneg_right c1 hu0.le
          refine (mul_le_mul c1 c2 (by positivity) (by norm_num)).trans ?_
          rw [Fl.u53]; norm_num
        have := mul_le_mul_of_nonneg_right this (by positivity : 0 ≤ u 53 * L)
        linarith
      nlinarith
    exact m3.trans (a1.trans (mul_le_mul_of_nonneg_left (by linarith) (by positivity)))
  have q2 := r.err Fl.pos53 (norm / m)
  have P0 : 0 ≤ |norm / L| := abs_nonneg _
  have hκ : ((n : ℝ) + 3) * (2 * u 53) + u 53 / 10 ≤ 1 / 1000000 := by linarith
  have q3 : |norm / m| ≤ 1001 / 1000 * |norm / L| := by
    have := abs_sub_abs_le_abs_sub (norm / m) (norm / L)
    have := mul_le_mul_of_nonneg_right hκ P0
    linarith
  have q4 : |r (norm / m) - norm / L| ≤ ((n + 3) * (2 * u 53) + 12 / 10 * u 53) * |norm / L| := by
    have := abs_sub_le (r (norm / m)) (norm / m) (norm / L)
    have := mul_le_mul_of_nonneg_left q3 hu0.le
    have := mul_nonneg hu0.le P0
    linarith
  have q5 : ∀ i, |v i * r (norm / m) - v i * (norm / L)| ≤ ((n + 3) * (2 * u 53) + 12 / 10 * u 53) * |v i * (norm / L)| := fun i => by
    rw [← mul_sub, abs_mul, abs_mul]
    have := mul_le_mul_of_nonneg_left q4 (abs_nonneg (v i))
    linarith
  have q6 : ∀ i, |v i * r (norm / m)| ≤ 1001 / 1000 * |v i * (norm / L)| := fun i => by
    have h1 := abs_sub_abs_le_abs_sub (v i * r (norm / m)) (v i * (norm / L))
    have h2 := mul_le_mul_of_nonneg_right (by linarith : ((n : ℝ) + 3) * (2 * u 53) + 12 / 10 * u 53 ≤ 1 / 1000) (abs_nonneg (v i * (norm / L)))
    linarith [q5 i]
  have q7 : ∀ i, |v i * (norm / L)| ≤ 2 ^ (400 : ℤ) := fun i => by
    rw [abs_mul, abs_div, abs_of_pos L0, mul_div_assoc', div_le_iff₀ L0, mul_comm]
    exact mul_le_mul hN1 (vL i) (abs_nonneg _) (by positivity)
  refine ⟨fun i => g (v i * r (norm / m)), fun i => ?_, fun i => ?_⟩
  · unfold Ie.normalize
    rw [m1, hd]
    refine Ie.round_of_le ((q6 i).trans ?_)
    refine (mul_le_mul_of_nonneg_left (q7 i) (by norm_num)).trans ?_
    rw [show (1023 : ℤ) = 623 + 400 by norm_num, zpow_add₀ two_ne_zero]
    refine mul_le_mul_of_nonneg_right ?_ (by positivity)
    exact (by norm_num : (1001 / 1000 : ℝ) ≤ 2 ^ (1 : ℤ)).trans (zpow_le_zpow_right₀ one_le_two (by norm_num))
  · have k1 := Ie.rnd_any g (v i * r (norm / m))
    have k2 := abs_sub_le (g (v i * r (norm / m))) (v i * r (norm / m)) (v i * (norm / L))
    have k3 := mul_le_mul_of_nonneg_left (q6 i) hu0.le
    have k4 := mul_nonneg hu0.le (abs_nonneg (v i * (norm / L)))
    have k5 := q5 i
    rw [e52]
    clear q7 hN hN1 h0 h1 m2 hq
    generalize (2 : ℝ) ^ (-1075 : ℤ) = η at *
    generalize |v i * (norm / L)| = P at *
    linarith

end WFMath
