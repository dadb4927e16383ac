/- The sign of the determinant of an array of doubles (rotmatrix.cpp 258-300): right in the plane, and in space as long as the leading minors are not small. -/
import Verif.Lemmas.RoundSetVals

namespace WFMath.Fl
open Spec Matrix Gauss Rounding
variable {n : Nat}

theorem sign_of_near {x y e : ℝ} (h : |x - y| ≤ e) (he : e < |y|) : SignType.sign x = SignType.sign y := by
  have h1 := _root_.abs_le.1 h
  rcases lt_trichotomy y 0 with hy | hy | hy
  · rw [abs_of_neg hy] at he; rw [sign_neg hy, sign_neg (by linarith)]
  · rw [hy, abs_zero] at he; linarith [(abs_nonneg _).trans h]
  · rw [abs_of_pos hy] at he; rw [sign_pos hy, sign_pos (by linarith)]

theorem sign_rnd (r : Rounding 53) (x : ℝ) : SignType.sign (r x) = SignType.sign x := by
  by_cases hx : x = 0
  · rw [hx, r.zero]
  · refine sign_of_near (r.err pos53 x) ?_
    have hu : u 53 ≤ 1 / 1000 := by rw [u53]; norm_num
    nlinarith [abs_pos.2 hx]

theorem minval_le (r : Rounding 53) (hn : n ≤ 50) (m : Matrix (Fin n) (Fin n) ℝ) (i : Fin n) (h : ∀ j, |m j i| ≤ 2) : minval r doubleLimits m i ≤ 2 ^ (-200 : ℤ) := by
  by_contra hc
  rw [not_le] at hc
  unfold minval at hc
  dsimp only at hc
  split at hc
  · have : doubleLimits.minD ≤ 2 ^ (-200 : ℤ) := by
      show (2 : ℝ) ^ (-1022 : ℤ) ≤ _
      exact zpow_le_zpow_right₀ (by norm_num) (by norm_num)
    linarith
  · have hs : sum r (fun j => r (m j i * m j i)) ≤ 2 ^ (100 : ℤ) := by
      have h1 := sum_err r (k := 1) (f := fun k => r (m k i * m k i)) (g := fun k => m k i * m k i) (fun k => Close.round_self pos53 r _)
      have h2 := gam_le (k := 1 + n) (by omega)
      have h3 : ∑ k, |m k i * m k i| ≤ n * 4 := by
        have : ∀ k ∈ Finset.univ, |m k i * m k i| ≤ 4 := fun k _ => by
          rw [abs_mul]; nlinarith [abs_nonneg (m k i), h k]
        have := Finset.sum_le_card_nsmul _ _ _ this
        simpa using this
      have h4 : ∑ k, m k i * m k i ≤ n * 4 := (Finset.sum_le_sum fun k _ => le_abs_self _).trans h3
      have h5 : (n : ℝ) ≤ 50 := by exact_mod_cast hn
      have h6 : gam (1 + n) ≤ 1 := by
        refine h2.trans ?_
        push_cast
        norm_num
        linarith
      have h7 := mul_le_mul h6 h3 (Finset.sum_nonneg fun _ _ => abs_nonneg _) zero_le_one
      have h8 := (_root_.abs_le.1 h1).2
      norm_num
      linarith
    refine absurd hc (not_lt.2 (r.le_fl (IsFl.zpow pos53 _) ?_))
    have hmax : (2 : ℝ) ^ (1023 : ℤ) ≤ doubleLimits.maxD := by
      show _ ≤ (2 - 2 ^ (-52 : ℤ)) * (2 : ℝ) ^ (1023 : ℤ)
      refine le_mul_of_one_le_left (by positivity) ?_
      norm_num
    rw [div_le_iff₀ doubleLimits.maxD_pos]
    calc _ ≤ (2 : ℝ) ^ (100 : ℤ) := hs
      _ ≤ 2 ^ ((-200 : ℤ) + 1023) := zpow_le_zpow_right₀ (by norm_num) (by norm_num)
      _ = 2 ^ (-200 : ℤ) * 2 ^ (1023 : ℤ) := zpow_add₀ (by norm_num) _ _
      _ ≤ 2 ^ (-200 : ℤ) * doubleLimits.maxD := mul_le_mul_of_nonneg_left hmax (by positivity)

theorem sq_ge (r : Rounding 53) {x : ℝ} (h : (2 : ℝ) ^ (-100 : ℤ) ≤ |x|) : (2 : ℝ) ^ (-200 : ℤ) ≤ r (x * x) := by
  refine r.fl_le (IsFl.zpow pos53 _) ?_
  have : (2 : ℝ) ^ (-200 : ℤ) = 2 ^ (-100 : ℤ) * 2 ^ (-100 : ℤ) := by rw [← zpow_add₀ (by norm_num)]; norm_num
  rw [this, ← abs_mul_abs_self x]
  exact mul_self_le_mul_self (by positivity) h

theorem clear_entry (r : Rounding 53) (W : Matrix (Fin n) (Fin n) ℝ) (hW : ∀ i j, IsFl 53 (W i j)) {i k l : Fin n} (hk : k > i) (hl : l > i) :
    detClear r i W k l = r (W k l - r (W i l * r (W k i / W i i))) := by
  unfold detClear
  simp only [hk, hl.ne', if_true, if_false, hl, and_true]
  by_cases h : r (W k i / W i i) = 0
  · rw [if_neg (not_not.2 h), h, mul_zero, r.zero, sub_zero, r.of_fl (hW k l)]
  · rw [if_pos h]

theorem clear_above (r : Rounding 53) (W : Matrix (Fin n) (Fin n) ℝ) {i k : Fin n} (hk : ¬ k > i) (l : Fin n) : detClear r i W k l = W k l := by
  unfold detClear
  rw [if_neg hk]

theorem det_two_eq (r : Rounding 53) (V W : Matrix (Fin 2) (Fin 2) ℝ) (h : detPivot r doubleLimits 0 V = some W) (hW : ∀ i j, IsFl 53 (W i j)) :
    SignType.sign (determinantImpl r doubleLimits V) = SignType.sign (W 0 0) * SignType.sign (W 1 1 - r (W 0 1 * r (W 1 0 / W 0 0))) := by
  unfold determinantImpl
  rw [show (List.finRange 2).filter (fun i => decide (i.val + 1 < 2)) = [0] from rfl]
  simp only [detForward, h, Option.bind_some, show List.finRange 2 = [0, 1] from rfl, List.map, List.foldl, one_mul]
  rw [clear_above r W (by decide), clear_entry r W hW (by decide) (by decide), sign_rnd, sign_mul, sign_rnd, sign_rnd]

theorem quotient_near (r : Rounding 53) (b c a : ℝ) : |r (b * r (c / a)) - b * c / a| ≤ 41 / 10 * u 53 * |b * c / a| := by
  have h := ((Close.refl pos53 0 b).mul pos53 (Close.round_self pos53 r (c / a))).round pos53 r
  have h1 := Close_err h
  rw [← mul_div_assoc] at h1
  exact h1.trans (mul_le_mul_of_nonneg_right (gam_four (by norm_num)) (abs_nonneg _))

/-- In the plane the sign is right for every array near an orthogonal one. -/
theorem det_plane (r : Rounding 53) {V : Matrix (Fin 2) (Fin 2) ℝ} (hV : ∀ i j, IsFl 53 (V i j)) (hμ : ∀ i j, |V i j| ≤ 101 / 100) (hdet : 97 / 100 ≤ |V.det|) :
    SignType.sign (determinantImpl r doubleLimits V) = SignType.sign V.det := by
  have hu0 : 0 < u 53 := u_pos
  have hu : u 53 ≤ 1 / 1000 := by rw [u53]; norm_num
  rw [det_fin_two] at hdet ⊢
  have hbc : |V 0 1 * V 1 0| ≤ 103 / 100 := by
    rw [abs_mul]; nlinarith [hμ 0 1, hμ 1 0, abs_nonneg (V 0 1), abs_nonneg (V 1 0)]
  by_cases hp : r (V 0 0 * V 0 0) < minval r doubleLimits V 0
  · have ha : |V 0 0| < 2 ^ (-100 : ℤ) := by
      by_contra hc
      exact pivot_ok r (by norm_num) V 0 (fun j => (hμ j 0).trans (by norm_num)) (not_lt.1 hc) hp
    have ha' : |V 0 0| ≤ 1 / 1000 := ha.le.trans (by norm_num)
    have had : |V 0 0 * V 1 1| ≤ 2 / 1000 := by
      rw [abs_mul]; nlinarith [hμ 1 1, abs_nonneg (V 0 0), abs_nonneg (V 1 1)]
    have hbc' : 96 / 100 ≤ |V 0 1 * V 1 0| := by
      have := abs_sub (V 0 0 * V 1 1) (V 0 1 * V 1 0)
      linarith
    have hb : 9 / 10 ≤ |V 0 1| := by
      rw [abs_mul] at hbc'; nlinarith [hμ 1 0, abs_nonneg (V 0 1), abs_nonneg (V 1 0)]
    have hc : 9 / 10 ≤ |V 1 0| := by
      rw [abs_mul] at hbc'; nlinarith [hμ 0 1, abs_nonneg (V 0 1), abs_nonneg (V 1 0)]
    have hf : findRow r doubleLimits V 0 = some 1 := by
      unfold findRow
      have h1 : decide (r (V 1 0 * V 1 0) ≥ minval r doubleLimits V 0) = true := by
        rw [decide_eq_true_eq]
        exact (minval_le r (by norm_num) V 0 fun j => (hμ j 0).trans (by norm_num)).trans (sq_ge r (le_trans (by norm_num) hc))
      rw [show List.finRange 2 = [0, 1] from rfl]
      simp [h1]
    have hpv : detPivot r doubleLimits 0 V = some (Matrix.of ![![V 1 0, r (V 0 1 + V 1 1)], ![V 1 0, V 1 1]]) := by
      unfold detPivot
      rw [if_pos hp, hf]
      refine congrArg some (Matrix.ext fun k l => ?_)
      fin_cases k <;> fin_cases l <;> simp
    rw [det_two_eq r V _ hpv (fun i j => by fin_cases i <;> fin_cases j <;> first | exact hV _ _ | exact r.isFl _)]
    have hc0 : V 1 0 ≠ 0 := fun h => by rw [h, abs_zero] at hc; linarith
    have e1 : r (V 1 0 / V 1 0) = 1 := by rw [div_self hc0, r.of_fl (IsFl.one pos53)]
    simp only [Matrix.of_apply, Matrix.cons_val_zero, Matrix.cons_val_one, e1, mul_one, r.of_fl (r.isFl _)]
    have s1 : SignType.sign (V 1 1 - r (V 0 1 + V 1 1)) = SignType.sign (-V 0 1) := by
      refine sign_of_near (e := 1 / 100) ?_ (by rw [abs_neg]; linarith)
      have h1 := r.err pos53 (V 0 1 + V 1 1)
      have h2 : |V 0 1 + V 1 1| ≤ 3 := (abs_add_le _ _).trans (by linarith [hμ 0 1, hμ 1 1])
      rw [show V 1 1 - r (V 0 1 + V 1 1) - -V 0 1 = -(r (V 0 1 + V 1 1) - (V 0 1 + V 1 1)) by ring, abs_neg]
      nlinarith [abs_nonneg (V 0 1 + V 1 1)]
    rw [s1, ← sign_mul]
    refine (sign_of_near (e := 2 / 1000) ?_ ?_).symm
    · rw [show V 0 0 * V 1 1 - V 0 1 * V 1 0 - V 1 0 * -V 0 1 = V 0 0 * V 1 1 by ring]; exact had
    · rw [mul_neg, abs_neg, mul_comm]; linarith
  · have hpv : detPivot r doubleLimits 0 V = some V := by unfold detPivot; rw [if_neg hp]
    rw [det_two_eq r V V hpv hV]
    have ha : V 0 0 ≠ 0 := fun h => by
      apply hp
      rw [h, mul_zero, r.zero]
      unfold minval
      dsimp only
      have := doubleLimits.minD_pos
      split <;> linarith
    have s1 : SignType.sign (V 1 1 - r (V 0 1 * r (V 1 0 / V 0 0))) = SignType.sign ((V 0 0 * V 1 1 - V 0 1 * V 1 0) / V 0 0) := by
      refine sign_of_near (e := 41 / 10 * u 53 * |V 0 1 * V 1 0 / V 0 0|) ?_ ?_
      · rw [show V 1 1 - r (V 0 1 * r (V 1 0 / V 0 0)) - (V 0 0 * V 1 1 - V 0 1 * V 1 0) / V 0 0 = -(r (V 0 1 * r (V 1 0 / V 0 0)) - V 0 1 * V 1 0 / V 0 0) by field_simp; ring, abs_neg]
        exact quotient_near r _ _ _
      · rw [abs_div, abs_div, ← mul_div_assoc]
        have := abs_pos.2 ha
        gcongr
        nlinarith [abs_nonneg (V 0 1 * V 1 0)]
    rw [s1, ← sign_mul, mul_div_cancel₀ _ ha]

theorem clear_isFl (r : Rounding 53) {W : Matrix (Fin n) (Fin n) ℝ} (hW : ∀ i j, IsFl 53 (W i j)) (i k l : Fin n) : IsFl 53 (detClear r i W k l) := by
  unfold detClear
  dsimp only
  split_ifs
  · exact IsFl.zero
  · exact r.isFl _
  · exact hW _ _
  · exact hW _ _

theorem abs_div_le {x e X P : ℝ} (hP : 0 < P) (hx : |x| ≤ X) (he : 98 / 100 / P ≤ |e|) : |x / e| ≤ 103 / 100 * X * P := by
  have hX := (abs_nonneg _).trans hx
  have he0 : 0 < |e| := lt_of_lt_of_le (by positivity) he
  rw [abs_div, div_le_iff₀ he0]
  rw [div_le_iff₀ hP] at he
  nlinarith [mul_nonneg hX hP.le]

theorem det_space_margin (r : Rounding 53) {a e f h i e0 f0 h0 i0 P : ℝ} (hP : 1 ≤ P) (hP' : P ≤ 256) (he : |e - e0| ≤ 44 / 10 * (u 53 * P)) (hf : |f - f0| ≤ 44 / 10 * (u 53 * P))
    (hh : |h - h0| ≤ 44 / 10 * (u 53 * P)) (hi : |i - i0| ≤ 44 / 10 * (u 53 * P)) (le0 : 99 / 100 / P ≤ |e0|) (lf0 : |f0| ≤ 103 / 100 * P) (lh0 : |h0| ≤ 103 / 100 * P)
    (hae : |a * e0| ≤ 103 / 100) (ha : a ≠ 0) (hD : 97 / 100 ≤ |a * (e0 * i0 - f0 * h0)|) :
    SignType.sign a * SignType.sign e * SignType.sign (i - r (f * r (h / e))) = SignType.sign (a * (e0 * i0 - f0 * h0)) := by
  have hu0 : 0 < u 53 := u_pos
  have hu : u 53 ≤ 1 / 2 ^ 53 := by rw [u53]; norm_num
  have hP0 : 0 < P := by linarith
  have hE : u 53 * P ≤ 1 / 2 ^ 45 := by
    have := mul_le_mul hu hP' hP0.le (by norm_num); norm_num at this ⊢; linarith
  have hE0 : 0 < u 53 * P := mul_pos hu0 hP0
  have hE2 : u 53 * P ≤ 1 / 1000 / P := by
    rw [le_div_iff₀ hP0]
    have := mul_le_mul hE hP' hP0.le (by norm_num); norm_num at this ⊢; linarith
  have e0n : e0 ≠ 0 := fun hz => by rw [hz, abs_zero] at le0; have : 0 < 99 / 100 / P := by positivity
                                    linarith
  have hinv : 1 / 1000 / P * 10 = 1 / 100 / P := by ring
  have hinv' : 99 / 100 / P = 98 / 100 / P + 1 / 100 / P := by ring
  have hip : 0 < 1 / 1000 / P := by positivity
  have le1 : 98 / 100 / P ≤ |e| := by
    have := abs_sub_abs_le_abs_sub e0 e
    rw [abs_sub_comm] at this
    linarith
  have en : e ≠ 0 := fun hz => by rw [hz, abs_zero] at le1; have : 0 < 98 / 100 / P := by positivity
                                  linarith
  have s1 : SignType.sign e = SignType.sign e0 := sign_of_near he (by linarith [hip, show (0 : ℝ) < 98 / 100 / P by positivity])
  have lf : |f| ≤ 104 / 100 * P := by
    have := abs_sub_abs_le_abs_sub f f0
    nlinarith
  have lh : |h| ≤ 104 / 100 * P := by
    have := abs_sub_abs_le_abs_sub h h0
    nlinarith
  have q1 := quotient_near r f h e
  have q2 : |f * h / e| ≤ 112 / 100 * P ^ 3 := by
    have : |f * h| ≤ 10816 / 10000 * P ^ 2 := by
      rw [abs_mul]
      calc |f| * |h| ≤ (104 / 100 * P) * (104 / 100 * P) := mul_le_mul lf lh (abs_nonneg _) (by positivity)
        _ = _ := by ring
    refine (abs_div_le hP0 this le1).trans ?_
    have : 0 < P ^ 3 := by positivity
    nlinarith
  have q3 : |f * h / e - f0 * h0 / e0| ≤ 16 * (u 53 * P ^ 5) := by
    have e1 : f * h / e - f0 * h0 / e0 = (f - f0) * (h / e) + f0 * ((h - h0) / e) + f0 * (h0 * ((e0 - e) / (e * e0))) := by
      field_simp
      ring
    have a1 : |(f - f0) * (h / e)| ≤ 48 / 10 * (u 53 * P ^ 3) := by
      rw [abs_mul]
      calc |f - f0| * |h / e| ≤ 44 / 10 * (u 53 * P) * (103 / 100 * (104 / 100 * P) * P) := mul_le_mul hf (abs_div_le hP0 lh le1) (abs_nonneg _) (by positivity)
        _ = 44 / 10 * (103 / 100) * (104 / 100) * (u 53 * P ^ 3) := by ring
        _ ≤ _ := mul_le_mul_of_nonneg_right (by norm_num) (by positivity)
    have a2 : |f0 * ((h - h0) / e)| ≤ 48 / 10 * (u 53 * P ^ 3) := by
      rw [abs_mul]
      calc |f0| * |(h - h0) / e| ≤ 103 / 100 * P * (103 / 100 * (44 / 10 * (u 53 * P)) * P) := mul_le_mul lf0 (abs_div_le hP0 hh le1) (abs_nonneg _) (by positivity)
        _ = 103 / 100 * (103 / 100) * (44 / 10) * (u 53 * P ^ 3) := by ring
        _ ≤ _ := mul_le_mul_of_nonneg_right (by norm_num) (by positivity)
    have a3 : |f0 * (h0 * ((e0 - e) / (e * e0)))| ≤ 51 / 10 * (u 53 * P ^ 5) := by
      have b1 : |(e0 - e) / (e * e0)| ≤ 103 / 100 * (103 / 100 * (44 / 10 * (u 53 * P)) * P) * P := by
        rw [← div_div]
        refine abs_div_le hP0 (abs_div_le hP0 (by rw [abs_sub_comm]; exact he) le1) (le_trans ?_ le0)
        gcongr; norm_num
      rw [abs_mul, abs_mul]
      calc |f0| * (|h0| * |(e0 - e) / (e * e0)|) ≤ 103 / 100 * P * (103 / 100 * P * (103 / 100 * (103 / 100 * (44 / 10 * (u 53 * P)) * P) * P)) :=
            mul_le_mul lf0 (mul_le_mul lh0 b1 (abs_nonneg _) (by positivity)) (by positivity) (by positivity)
        _ = (103 / 100) * (103 / 100) * (103 / 100) * (103 / 100) * (44 / 10) * (u 53 * P ^ 5) := by ring
        _ ≤ _ := mul_le_mul_of_nonneg_right (by norm_num) (by positivity)
    have h35 : u 53 * P ^ 3 ≤ u 53 * P ^ 5 := mul_le_mul_of_nonneg_left (pow_le_pow_right₀ hP (by norm_num)) hu0.le
    rw [e1]
    refine (abs_add_three _ _ _).trans ?_
    have : 0 ≤ u 53 * P ^ 5 := by positivity
    linarith
  have h15 : u 53 * P ≤ u 53 * P ^ 5 := mul_le_mul_of_nonneg_left (le_self_pow₀ hP (by norm_num)) hu0.le
  have h35 : u 53 * P ^ 3 ≤ u 53 * P ^ 5 := mul_le_mul_of_nonneg_left (pow_le_pow_right₀ hP (by norm_num)) hu0.le
  have h5 : u 53 * P ^ 5 ≤ 1 / 8192 := by
    have : P ^ 5 ≤ 2 ^ 40 := (pow_le_pow_left₀ hP0.le hP' 5).trans (by norm_num)
    have := mul_le_mul hu this (by positivity) (by norm_num)
    norm_num at this ⊢; linarith
  have s2 : SignType.sign (i - r (f * r (h / e))) = SignType.sign (i0 - f0 * h0 / e0) := by
    refine sign_of_near (e := 1 / 100) ?_ ?_
    · have e2 : i - r (f * r (h / e)) - (i0 - f0 * h0 / e0) = (i - i0) + -(r (f * r (h / e)) - f * h / e) + -(f * h / e - f0 * h0 / e0) := by ring
      rw [e2]
      refine (abs_add_three _ _ _).trans ?_
      rw [abs_neg, abs_neg]
      have := mul_le_mul_of_nonneg_left q2 (show 0 ≤ 41 / 10 * u 53 by positivity)
      linarith
    · have e3 : a * (e0 * i0 - f0 * h0) = (a * e0) * (i0 - f0 * h0 / e0) := by field_simp
      rw [e3, abs_mul] at hD
      nlinarith [abs_nonneg (i0 - f0 * h0 / e0)]
  rw [s1, s2, ← sign_mul, ← sign_mul]
  congr 1
  field_simp

/-- In space the sign is right as long as the leading minors are not small. -/
theorem det_space (r : Rounding 53) {V : Matrix (Fin 3) (Fin 3) ℝ} (hV : ∀ i j, IsFl 53 (V i j)) (hμ : ∀ i j, |V i j| ≤ 101 / 100)
    (hN : ∀ k c, |V k c * V 0 0 - V 0 c * V k 0| ≤ 103 / 100) (hdet : 97 / 100 ≤ |V.det|) {P : ℝ} (hP : 1 ≤ P) (hP' : P ≤ 256) (h0 : 1 / P ≤ |V 0 0|)
    (hm : 1 / P ≤ |V 1 1 * V 0 0 - V 0 1 * V 1 0|) :
    SignType.sign (determinantImpl r doubleLimits V) = SignType.sign V.det := by
  have hP0 : 0 < P := by linarith
  have hsmall : (2 : ℝ) ^ (-100 : ℤ) ≤ 1 / P := by
    rw [le_div_iff₀ hP0]
    refine (mul_le_mul_of_nonneg_left hP' (by positivity)).trans ?_
    norm_num
  have ha : V 0 0 ≠ 0 := fun h => by rw [h, abs_zero] at h0; have : 0 < 1 / P := by positivity
                                     linarith
  have row : ∀ k c : Fin 3, c ≠ 0 → k ≠ 0 → |r (V k c - r (V 0 c * r (V k 0 / V 0 0))) - (V k c * V 0 0 - V 0 c * V k 0) / V 0 0| ≤ 44 / 10 * (u 53 * P) := fun k c hc hk => by
    have := (next_row r (M := Vᵀ) 0 c (fun i j => hμ j i) hP h0 (D := fun k => if k = 0 then 1 else r (Vᵀ 0 k / Vᵀ 0 0))
      (A := fun k => if k = 0 then 0 else r (Vᵀ c k - r ((if k = 0 then 1 else r (Vᵀ 0 k / Vᵀ 0 0)) * Vᵀ c 0))) (fun _ => rfl) (fun _ => rfl)).2.2 k hk
    simp only [if_neg hk, Matrix.transpose_apply] at this
    rw [mul_comm (V 0 c) (r _), mul_comm (V 0 c) (V k 0)]
    exact this
  set W := detClear r 0 V with hWdef
  have hW : ∀ i j, IsFl 53 (W i j) := clear_isFl r hV 0
  have en : ∀ k c : Fin 3, k > 0 → c > 0 → W k c = r (V k c - r (V 0 c * r (V k 0 / V 0 0))) := fun k c hk hc => clear_entry r V hV hk hc
  have near : ∀ k c : Fin 3, k > 0 → c > 0 → |W k c - (V k c * V 0 0 - V 0 c * V k 0) / V 0 0| ≤ 44 / 10 * (u 53 * P) := fun k c hk hc => by
    rw [en k c hk hc]; exact row k c hc.ne' hk.ne'
  have hE : 44 / 10 * (u 53 * P) ≤ 1 / 1000 / P := by
    have hu : u 53 ≤ 1 / 2 ^ 53 := by rw [u53]; norm_num
    rw [le_div_iff₀ hP0]
    have h1 := mul_le_mul hu (mul_le_mul hP' hP' hP0.le (by norm_num)) (by positivity) (by norm_num)
    norm_num at h1
    nlinarith
  have big : ∀ x, |x| ≤ 103 / 100 → |x / V 0 0| ≤ 103 / 100 * P := fun x hx => (le_of_inv hP0 h0 x).trans (by nlinarith)
  have le0 : 99 / 100 / P ≤ |(V 1 1 * V 0 0 - V 0 1 * V 1 0) / V 0 0| := by
    rw [abs_div, le_div_iff₀ (abs_pos.2 ha)]
    refine le_trans ?_ hm
    rw [div_mul_eq_mul_div, div_le_div_iff_of_pos_right hP0]
    have := hμ 0 0
    linarith
  have leP : (1 : ℝ) / 1000 / P ≤ 1 := by
    rw [div_le_one hP0]; linarith
  have wbig : ∀ k : Fin 3, |W k 1| ≤ 2 ^ (100 : ℤ) := fun k => by
    by_cases hk : k > 0
    · have h1 := near k 1 hk (by decide)
      have h2 := big _ (hN k 1)
      have h3 := abs_sub_abs_le_abs_sub (W k 1) ((V k 1 * V 0 0 - V 0 1 * V k 0) / V 0 0)
      have : |W k 1| ≤ 300 := by linarith
      exact this.trans (by norm_num)
    · rw [hWdef, clear_above r V hk]
      exact (hμ k 1).trans (by norm_num)
  have p0 : detPivot r doubleLimits 0 V = some V := by
    unfold detPivot
    rw [if_neg]
    exact pivot_ok r (by norm_num) V 0 (fun j => (hμ j 0).trans (by norm_num)) (hsmall.trans h0)
  have p1 : detPivot r doubleLimits 1 W = some W := by
    unfold detPivot
    rw [if_neg]
    refine pivot_ok r (by norm_num) W 1 wbig ?_
    have h1 := near 1 1 (by decide) (by decide)
    have h3 := abs_sub_abs_le_abs_sub ((V 1 1 * V 0 0 - V 0 1 * V 1 0) / V 0 0) (W 1 1)
    rw [abs_sub_comm] at h3
    have h4 : 99 / 100 / P - 1 / 1000 / P = 989 / 1000 * (1 / P) := by ring
    have h5 : 1 / 2 * (1 / P) ≤ |W 1 1| := by
      have : 0 < 1 / P := by positivity
      linarith
    refine le_trans ?_ h5
    rw [mul_one_div, le_div_iff₀ hP0]
    refine (mul_le_mul_of_nonneg_left hP' (by positivity)).trans ?_
    norm_num
  unfold determinantImpl
  rw [show (List.finRange 3).filter (fun i => decide (i.val + 1 < 3)) = [0, 1] from rfl]
  simp only [detForward, p0, ← hWdef, p1, Option.bind_some, show List.finRange 3 = [0, 1, 2] from rfl, List.map, List.foldl, one_mul]
  rw [clear_above r W (i := 1) (k := 0) (by decide), clear_above r W (i := 1) (k := 1) (by decide), clear_entry r W hW (i := 1) (k := 2) (l := 2) (by decide) (by decide),
    sign_rnd, sign_mul, sign_rnd, sign_rnd, sign_mul, sign_rnd]
  have w00 : W 0 0 = V 0 0 := clear_above r V (by decide) _
  rw [w00]
  have key := det_space_margin r (a := V 0 0) hP hP' (near 1 1 (by decide) (by decide)) (near 1 2 (by decide) (by decide)) (near 2 1 (by decide) (by decide))
    (near 2 2 (by decide) (by decide)) le0 (big _ (hN 1 2)) (big _ (hN 2 1)) (by rw [mul_div_cancel₀ _ ha]; exact hN 1 1) ha
    (by
      refine hdet.trans (le_of_eq (congrArg _ ?_))
      rw [det_fin_three]
      field_simp
      ring)
  rw [key]
  congr 1
  rw [det_fin_three]
  field_simp
  ring

end WFMath.Fl
