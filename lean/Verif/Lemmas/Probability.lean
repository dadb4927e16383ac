/- Lemmas about the loops of the Gamma function code, and its accuracy. -/
import Verif.Model.Probability
import Verif.Lemmas.Stirling
import Mathlib.Analysis.Real.Pi.Bounds

namespace WFMath.Prob

/-! ### The shift loop -/

theorem shiftLoop_spec (z shift : ℝ) : ∃ n : ℕ, (shiftLoop z shift).1 = z + n ∧ (shiftLoop z shift).2 = shift * ∏ m ∈ Finset.range n, (z + m) ∧
    10 ≤ z + n ∧ (n = 0 ∨ z + n < 11) := by
  induction z, shift using shiftLoop.induct with
  | case1 z shift h ih =>
    obtain ⟨n, h1, h2, h3, h4⟩ := ih
    rw [shiftLoop, dif_pos h]
    have h' : z < 10 := by simpa [gammaCutoff] using h
    refine ⟨n + 1, ?_, ?_, ?_, ?_⟩
    · rw [h1]; push_cast; ring
    · rw [h2, Finset.prod_range_succ']
      have : ∏ m ∈ Finset.range n, (z + 1 + (m : ℝ)) = ∏ m ∈ Finset.range n, (z + ((m + 1 : ℕ) : ℝ)) := by
        apply Finset.prod_congr rfl
        intro m _; push_cast; ring
      rw [this]
      push_cast
      ring
    · push_cast; linarith
    · right
      push_cast
      rcases h4 with rfl | h4
      · push_cast at h3 ⊢; linarith
      · linarith
  | case2 z shift h =>
    rw [shiftLoop, dif_neg h]
    have h' : 10 ≤ z := by simpa [gammaCutoff] using h
    exact ⟨0, by simp, by simp, by simpa using h', Or.inl rfl⟩

theorem log_shift {z : ℝ} (hz : 0 < z) (n : ℕ) : Real.log |1 * ∏ m ∈ Finset.range n, (z + (m : ℝ))| = ∑ m ∈ Finset.range n, Real.log (z + m) := by
  have hpos : ∀ m ∈ Finset.range n, z + (m : ℝ) ≠ 0 := fun m _ => by positivity
  rw [one_mul, abs_of_pos (Finset.prod_pos fun m _ => by positivity), Real.log_prod hpos]

theorem stirling_eq {z : ℝ} (hz : 0 < z) (n : ℕ) :
    stirling (z + n) (∑ m ∈ Finset.range n, Real.log (z + m)) = Real.log (Real.Gamma z) - rest (z + n) := by
  unfold stirling rest mainPart
  rw [log_gamma_add hz, Real.log_mul (by norm_num) Real.pi_pos.ne']
  ring

/-! ### The correction loop -/

theorem corrLoop_some {zm2 small : ℝ} (cs : List ℝ) {zp ans r : ℝ} (h : corrLoop zm2 small cs zp ans = some r) :
    ∃ N, ∃ hN : N < cs.length, r = ans + ∑ i ∈ Finset.range (N + 1), (cs.getD i 0) * (zp * zm2 ^ i) ∧ |cs[N] * (zp * zm2 ^ N)| < small := by
  induction cs generalizing zp ans with
  | nil => simp [corrLoop] at h
  | cons c cs ih =>
    rw [corrLoop] at h
    split at h
    · rename_i hlt
      refine ⟨0, by simp, ?_, by simpa using hlt⟩
      rw [← Option.some.inj h]; simp
    · obtain ⟨N, hN, h1, h2⟩ := ih h
      refine ⟨N + 1, by simpa using hN, ?_, ?_⟩
      · rw [h1, Finset.sum_range_succ' _ (N + 1)]
        simp only [List.getD_cons_succ, List.getD_cons_zero, pow_zero, mul_one, pow_succ]
        have : ∀ i, cs.getD i 0 * (zp * zm2 * zm2 ^ i) = cs.getD i 0 * (zp * (zm2 ^ i * zm2)) := fun i => by ring
        simp only [this]
        ring
      · simp only [List.getElem_cons_succ]
        have : zp * zm2 ^ (N + 1) = zp * zm2 * zm2 ^ N := by ring
        rw [this]; exact h2

theorem corrLoop_none {zm2 small : ℝ} (cs : List ℝ) {zp ans : ℝ} :
    corrLoop zm2 small cs zp ans = none ↔ ∀ i, ∀ h : i < cs.length, small ≤ |cs[i] * (zp * zm2 ^ i)| := by
  induction cs generalizing zp ans with
  | nil => simp [corrLoop]
  | cons c cs ih =>
    rw [corrLoop]
    split
    · rename_i hlt
      constructor
      · intro h; exact absurd h (by simp)
      · intro h
        have := h 0 (by simp)
        simp at this
        rw [abs_mul] at hlt
        linarith
    · rename_i hlt
      rw [ih]
      constructor
      · intro h i hi
        cases i with
        | zero => simpa using hlt
        | succ i =>
          have := h i (by simpa using hi)
          simp only [List.getElem_cons_succ]
          have e : zp * zm2 ^ (i + 1) = zp * zm2 * zm2 ^ i := by ring
          rw [e]; exact this
      · intro h i hi
        have := h (i + 1) (by simpa using hi)
        simp only [List.getElem_cons_succ] at this
        have e : zp * zm2 ^ (i + 1) = zp * zm2 * zm2 ^ i := by ring
        rw [e] at this; exact this

/-! ### Accuracy -/

/-- The size of the leading part. -/
theorem stirling_size {z : ℝ} (hz : 1 / 2 ≤ z) {n : ℕ} (h10 : 10 ≤ z + n) (hn : n = 0 ∨ z + n < 11) :
    |stirling (z + n) (∑ m ∈ Finset.range n, Real.log (z + m))| ≤ 10 * (z + n) ^ 2 := by
  set w := z + n with hw
  have hlw0 : 0 ≤ Real.log w := Real.log_nonneg (by linarith)
  have hlw : Real.log w ≤ w - 1 := Real.log_le_sub_one_of_pos (by linarith)
  have hc0 : 0 ≤ (Real.log Real.pi + Real.log 2) / 2 := by
    have h1 := Real.log_nonneg (by linarith [Real.pi_gt_three] : (1 : ℝ) ≤ Real.pi)
    have h2 := Real.log_nonneg (by norm_num : (1 : ℝ) ≤ 2)
    linarith
  have hc : (Real.log Real.pi + Real.log 2) / 2 ≤ 2 := by
    have h1 := Real.log_le_sub_one_of_pos Real.pi_pos
    have h2 := Real.log_le_sub_one_of_pos (by norm_num : (0 : ℝ) < 2)
    have h3 := Real.pi_lt_d2
    linarith
  have hs : |∑ m ∈ Finset.range n, Real.log (z + m)| ≤ 110 := by
    rcases hn with rfl | hn
    · simp
    · have hn10 : n ≤ 10 := by
        by_contra hc
        have : (11 : ℝ) ≤ n := by exact_mod_cast (by omega : 11 ≤ n)
        linarith
      have h1 := Finset.abs_sum_le_sum_abs (fun m : ℕ => Real.log (z + m)) (Finset.range n)
      have h2 : ∑ m ∈ Finset.range n, |Real.log (z + m)| ≤ ∑ _m ∈ Finset.range n, (10 : ℝ) := by
        apply Finset.sum_le_sum
        intro m hm
        have hm' : (m : ℝ) ≤ n := by exact_mod_cast (Finset.mem_range.1 hm).le
        have hm0 : (0 : ℝ) ≤ m := Nat.cast_nonneg m
        have hp : 0 < z + m := by linarith
        rw [abs_le]
        constructor
        · have := Real.one_sub_inv_le_log_of_pos hp
          have h3 : (z + m)⁻¹ ≤ 2 := by
            rw [inv_le_comm₀ hp (by norm_num)]; linarith
          linarith
        · have := Real.log_le_sub_one_of_pos hp
          linarith
      rw [Finset.sum_const, Finset.card_range, nsmul_eq_mul] at h2
      have : (n : ℝ) ≤ 10 := by exact_mod_cast hn10
      linarith
  rw [abs_le] at hs ⊢
  have h3 := mul_le_mul_of_nonneg_left hlw (by linarith : 0 ≤ w - 1 / 2)
  have h4 := mul_nonneg (by linarith : 0 ≤ w - 1 / 2) hlw0
  unfold stirling
  constructor <;> nlinarith

theorem coeffs_length : coeffs.length = 11 := rfl

/-- Wherever the loop stops, the corrections added differ little from the exact ones. -/
theorem corr_close {w small : ℝ} (hw : 10 ≤ w) (hs : small ≤ 10 * w ^ 2 * machEps) {N : ℕ} (hN : N < coeffs.length)
    (hlt : |coeffs[N] * (1 / w * (1 / w * (1 / w)) ^ N)| < small) :
    |∑ i ∈ Finset.range (N + 1), (coeffs.getD i 0) * (1 / w * (1 / w * (1 / w)) ^ i) - rest w| ≤ 3 / 2 * 10⁻¹ ^ 10 := by
  obtain ⟨hl, hu⟩ := rest_bounds (by linarith : 0 < w)
  set x : ℝ := 1 / w with hx
  have hw0 : 0 < w := by linarith
  have hx0 : 0 < x := by positivity
  have hx1 : x ≤ 1 / 10 := one_div_le_one_div_of_le (by norm_num) hw
  have hwx : w = 1 / x := by rw [hx]; simp
  have hcorr : corr3 w = x / 12 - x ^ 3 / 360 + x ^ 5 / 1260 := by
    unfold corr3; rw [hwx]; field_simp
  have h7 : 1 / (1200 * w ^ 7) = x ^ 7 / 1200 := by rw [hwx]; field_simp
  rw [h7, hcorr] at hl
  rw [hcorr] at hu
  have hp : ∀ k : ℕ, 0 ≤ x ^ k ∧ x ^ k ≤ (1 / 10) ^ k := fun k => ⟨by positivity, pow_le_pow_left₀ hx0.le hx1 k⟩
  have hsm : small * x ^ 2 ≤ 10 * machEps := by
    have : 10 * w ^ 2 * machEps * x ^ 2 = 10 * machEps := by rw [hx]; field_simp
    rw [← this]
    exact mul_le_mul_of_nonneg_right hs (by positivity)
  have hme : machEps = 1 / 4503599627370496 := by unfold machEps; norm_num
  have p3 := hp 3; have p5 := hp 5; have p7 := hp 7; have p9 := hp 9; have p11 := hp 11; have p13 := hp 13; have p15 := hp 15
  have p17 := hp 17; have p19 := hp 19; have p21 := hp 21
  norm_num at p3 p5 p7 p9 p11 p13 p15 p17 p19 p21
  have p53 : x ^ 5 ≤ x ^ 3 := pow_le_pow_of_le_one hx0.le (by linarith) (by norm_num)
  have p75 : x ^ 7 ≤ x ^ 5 := pow_le_pow_of_le_one hx0.le (by linarith) (by norm_num)
  have hgoal : (3 / 2 * 10⁻¹ ^ 10 : ℝ) = 3 / 20000000000 := by norm_num
  rw [hgoal, abs_le]
  rw [coeffs_length] at hN
  have hsum : ∀ i : ℕ, 1 / w * (1 / w * (1 / w)) ^ i = x ^ (2 * i + 1) := fun i => by rw [← hx, pow_succ, pow_mul]; ring
  have hxx : ∀ i : ℕ, x * (x * x) ^ i = x ^ (2 * i + 1) := fun i => by rw [pow_succ, pow_mul]; ring
  have key : ∀ c : ℝ, |c * x ^ (2 * N + 1)| < small → |c| * x ^ (2 * N + 3) < 10 * machEps := by
    intro c h
    rw [abs_mul, abs_of_pos (by positivity : 0 < x ^ (2 * N + 1))] at h
    have : |c| * x ^ (2 * N + 3) = |c| * x ^ (2 * N + 1) * x ^ 2 := by ring
    rw [this]
    exact lt_of_lt_of_le (mul_lt_mul_of_pos_right h (by positivity)) hsm
  simp only [hxx] at hlt ⊢
  have hk := key _ hlt
  clear key hlt
  rw [hme] at hk
  interval_cases N <;> simp only [Finset.sum_range_succ, Finset.sum_range_zero, coeffs, List.getD_cons_succ, List.getD_cons_zero, List.getElem_cons_zero,
    List.getElem_cons_succ] at hk ⊢ <;> norm_num at hk ⊢
  all_goals (constructor <;> linarith)

/-- `LogGamma` above 0.5: what it returns is close to the logarithm of the Gamma function. -/
theorem logGammaHigh_close {z r : ℝ} (hz : 1 / 2 ≤ z) (h : logGammaHigh z = some r) : |r - Real.log (Real.Gamma z)| ≤ 3 / 2 * 10⁻¹ ^ 10 := by
  have hz0 : 0 < z := by linarith
  have main : ∀ n : ℕ, 10 ≤ z + n → (n = 0 ∨ z + n < 11) → logGammaEnd (z + n) (∑ m ∈ Finset.range n, Real.log (z + m)) = some r →
      |r - Real.log (Real.Gamma z)| ≤ 3 / 2 * 10⁻¹ ^ 10 := by
    intro n h10 hn h
    unfold logGammaEnd at h
    obtain ⟨N, hN, h1, h2⟩ := corrLoop_some _ h
    have hs := stirling_size hz h10 hn
    have h3 := corr_close h10 (mul_le_mul_of_nonneg_right hs (by unfold machEps; positivity)) hN h2
    rw [h1, stirling_eq hz0]
    convert h3 using 2
    ring
  unfold logGammaHigh at h
  split at h
  · rename_i h1
    rw [← Option.some.inj h, h1, Real.Gamma_one_half_eq, Real.log_sqrt Real.pi_pos.le, sub_self, abs_zero]
    positivity
  · split at h
    · rename_i _ h1
      rw [← Option.some.inj h]
      rcases h1 with rfl | rfl
      · rw [Real.Gamma_one, Real.log_one, sub_self, abs_zero]; positivity
      · rw [Real.Gamma_two, Real.log_one, sub_self, abs_zero]; positivity
    · split at h
      · obtain ⟨n, e1, e2, h10, hn⟩ := shiftLoop_spec z 1
        rw [e1, e2, log_shift hz0] at h
        exact main n h10 hn h
      · rename_i h10
        have h10' : 10 ≤ z := by simpa [gammaCutoff] using h10
        apply main 0 (by simpa using h10') (Or.inl rfl)
        simpa using h

theorem rest_small {w : ℝ} (hw : 10 ≤ w) : 0 ≤ rest w ∧ rest w ≤ 1 / 120 := by
  obtain ⟨hl, hu⟩ := rest_bounds (by linarith : 0 < w)
  set x : ℝ := 1 / w with hx
  have hx0 : 0 < x := by positivity
  have hx1 : x ≤ 1 / 10 := one_div_le_one_div_of_le (by norm_num) hw
  have hwx : w = 1 / x := by rw [hx]; simp
  have hcorr : corr3 w = x / 12 - x ^ 3 / 360 + x ^ 5 / 1260 := by
    unfold corr3; rw [hwx]; field_simp
  have h7 : 1 / (1200 * w ^ 7) = x ^ 7 / 1200 := by rw [hwx]; field_simp
  rw [h7, hcorr] at hl
  rw [hcorr] at hu
  have p3 : x ^ 3 ≤ x := by
    calc x ^ 3 ≤ x ^ 1 := pow_le_pow_of_le_one hx0.le (by linarith) (by norm_num)
      _ = x := pow_one x
  have p5 : x ^ 5 ≤ x ^ 3 := pow_le_pow_of_le_one hx0.le (by linarith) (by norm_num)
  have p7 : x ^ 7 ≤ x ^ 5 := pow_le_pow_of_le_one hx0.le (by linarith) (by norm_num)
  have q5 : 0 ≤ x ^ 5 := by positivity
  constructor <;> linarith

/-- `LogGamma` above 0.5 returns when the value is not near 0. -/
theorem logGammaHigh_returns {z : ℝ} (hz : 1 / 2 ≤ z) (h : 1 / 50 ≤ |Real.log (Real.Gamma z)|) : ∃ r, logGammaHigh z = some r := by
  have hz0 : 0 < z := by linarith
  have main : ∀ n : ℕ, 10 ≤ z + n → ∃ r, logGammaEnd (z + n) (∑ m ∈ Finset.range n, Real.log (z + m)) = some r := by
    intro n h10
    rw [← Option.ne_none_iff_exists']
    intro hnone
    unfold logGammaEnd at hnone
    have h1 := (corrLoop_none _).1 hnone 10 (by rw [coeffs_length]; norm_num)
    rw [stirling_eq hz0] at h1
    obtain ⟨r0, r1⟩ := rest_small h10
    have h2 : 1 / 100 ≤ |Real.log (Real.Gamma z) - rest (z + n)| := by
      have := abs_sub_abs_le_abs_sub (Real.log (Real.Gamma z)) (rest (z + n))
      rw [abs_of_nonneg r0] at this
      linarith
    have hx1 : 1 / (z + n) ≤ 1 / 10 := one_div_le_one_div_of_le (by norm_num) h10
    have hx0 : 0 < 1 / (z + n) := by apply one_div_pos.2; linarith
    have h3 : 1 / (z + ↑n) * (1 / (z + ↑n) * (1 / (z + ↑n))) ^ 10 = (1 / (z + n)) ^ 21 := by ring
    have h4 := pow_le_pow_left₀ hx0.le hx1 21
    have h5 : coeffs[10]'(by rw [coeffs_length]; norm_num) = 854513 / 63756 := rfl
    rw [h3, h5, abs_of_pos (mul_pos (by norm_num) (pow_pos hx0 21))] at h1
    have hme : machEps = 1 / 4503599627370496 := by unfold machEps; norm_num
    rw [hme] at h1
    generalize (1 / (z + (n : ℝ))) ^ 21 = y at h1 h4
    norm_num at h4
    linarith
  unfold logGammaHigh
  split
  · exact ⟨_, rfl⟩
  · split
    · exact ⟨_, rfl⟩
    · split
      · obtain ⟨n, e1, e2, h10, hn⟩ := shiftLoop_spec z 1
        rw [e1, e2, log_shift hz0]
        exact main n h10
      · rename_i h10
        have h10' : 10 ≤ z := by simpa [gammaCutoff] using h10
        have := main 0 (by simpa using h10')
        simpa using this

end WFMath.Prob
