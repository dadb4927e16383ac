/- Lemmas for C137: the residual of the computed inverse in space. -/
import Verif.Lemmas.RoundNormTwo

namespace WFMath
open Spec Matrix Gauss
variable {n : Nat}

namespace Fl
open Rounding

theorem scale_sum {β T : ℝ} (hβ : 0 ≤ β) (hT : 0 < T) : (1 + u 53) * β / T ≤ 1001 / 1000 * β / T := by
  have hu : u 53 ≤ 1 / 1000 := by rw [u53]; norm_num
  gcongr
  linarith

theorem clear_sum {β : ℝ} (hβ : 0 ≤ β) : (1 + 21 / 10 * u 53) * β ≤ 1001 / 1000 * β := by
  have hu : u 53 ≤ 1 / 10000 := by rw [u53]; norm_num
  gcongr
  linarith

set_option maxHeartbeats 1000000 in
/-- Inverting in space: the residual. -/
theorem space_residual (r : Rounding 53) {M : Matrix (Fin 3) (Fin 3) ℝ} (hM : ∀ i j, IsFl 53 (M i j)) (hμ : ∀ i j, |M i j| ≤ 101 / 100)
    (hN : ∀ k c, |M k c * M 0 0 - M 0 c * M k 0| ≤ 103 / 100) (hdet : 97 / 100 ≤ |M.det|) {P : ℝ} (hP : 1 ≤ P) (hP' : P ≤ 64) (h0 : 1 / P ≤ |M 0 0|)
    (hm : 1 / P ≤ |M 1 1 * M 0 0 - M 0 1 * M 1 0|) :
    ∃ X, inverseImpl r doubleLimits M identityArr = some X ∧ ∀ i j, |(X * M - 1) i j| ≤ 140 * (u 53 * P ^ 5) := by
  have hu0 : 0 < u 53 := u_pos
  have hP0 : 0 < P := by linarith
  have hu : u 53 ≤ 1 / 2 ^ 53 := by rw [u53]; norm_num
  have m1 : 0 < u 53 * P := mul_pos hu0 hP0
  have step : ∀ k : ℕ, u 53 * P ^ k ≤ u 53 * P ^ (k + 1) := fun k => mul_le_mul_of_nonneg_left (pow_le_pow_right₀ hP (by omega)) hu0.le
  have pstep : ∀ k : ℕ, P ^ k ≤ P ^ (k + 1) := fun k => pow_le_pow_right₀ hP (by omega)
  have p1 : P ≤ P ^ 2 := by have := pstep 1; simpa using this
  have p2 := pstep 2
  have p3 := pstep 3
  have p4 := pstep 4
  have q1 : u 53 * P ≤ u 53 * P ^ 2 := by have := step 1; simpa using this
  have q2 := step 2
  have q3 := step 3
  have q4 := step 4
  have big : u 53 * P ^ 4 ≤ 1 / 2 ^ 29 := by
    calc u 53 * P ^ 4 ≤ 1 / 2 ^ 53 * 64 ^ 4 := mul_le_mul hu (pow_le_pow_left₀ hP0.le hP' 4) (by positivity) (by positivity)
      _ = _ := by norm_num
  norm_num only at p1 p2 p3 p4 q1 q2 q3 q4
  have h00 : 0 < |M 0 0| := lt_of_lt_of_le (by positivity) h0
  have ha : M 0 0 ≠ 0 := abs_pos.1 h00
  set N : Fin 3 → Fin 3 → ℝ := fun k c => M k c * M 0 0 - M 0 c * M k 0 with hNdef
  have hN0 : N 1 1 ≠ 0 := by
    intro h
    have h' : M 1 1 * M 0 0 - M 0 1 * M 1 0 = 0 := h
    rw [h', abs_zero] at hm
    have : 0 < 1 / P := by positivity
    linarith
  set F : Fin 3 → Fin 3 → ℝ := fun k c => N k c / M 0 0 with hF
  have hFle : ∀ k c, |F k c| ≤ 103 / 100 * P := fun k c => (le_of_inv hP0 h0 _).trans (mul_le_mul_of_nonneg_right (hN k c) hP0.le)
  set b := r (M 0 1 / M 0 0) with hb
  set c := r (M 0 2 / M 0 0) with hc
  set e := r (M 1 1 - r (b * M 1 0)) with he
  set f := r (M 1 2 - r (c * M 1 0)) with hf
  set h := r (M 2 1 - r (b * M 2 0)) with hh
  set i := r (M 2 2 - r (c * M 2 0)) with hi
  set f' := r (f / e) with hf'
  set i' := r (i - r (f' * h)) with hi'
  set B0 : Fin 3 → ℝ := fun l => r (identityArr 0 l / M 0 0) with hB0
  set B1 : Fin 3 → ℝ := fun l => r (identityArr 1 l - r (B0 l * M 1 0)) with hB1
  set B2 : Fin 3 → ℝ := fun l => r (identityArr 2 l - r (B0 l * M 2 0)) with hB2
  set C1 : Fin 3 → ℝ := fun l => r (B1 l / e) with hC1
  set C2 : Fin 3 → ℝ := fun l => r (B2 l - r (C1 l * h)) with hC2
  set D2 : Fin 3 → ℝ := fun l => r (C2 l / i') with hD2
  set D1 : Fin 3 → ℝ := fun l => r (C1 l - r (D2 l * f')) with hD1
  set D0 : Fin 3 → ℝ := fun l => r (B0 l - r (D2 l * c)) with hD0
  set E0 : Fin 3 → ℝ := fun l => r (D0 l - r (D1 l * b)) with hE0
  have hD : ∀ x, (![1, b, c] : Fin 3 → ℝ) x = if x = 0 then 1 else r (M 0 x / M 0 0) := by intro x; fin_cases x <;> simp [hb, hc]
  have hA1 : ∀ x, (![0, e, f] : Fin 3 → ℝ) x = if x = 0 then 0 else r (M 1 x - r ((![1, b, c] : Fin 3 → ℝ) x * M 1 0)) := by intro x; fin_cases x <;> simp [he, hf]
  have hA2 : ∀ x, (![0, h, i] : Fin 3 → ℝ) x = if x = 0 then 0 else r (M 2 x - r ((![1, b, c] : Fin 3 → ℝ) x * M 2 0)) := by intro x; fin_cases x <;> simp [hh, hi]
  obtain ⟨g1, g2, g3⟩ := first_row r 0 hμ hP h0 hD
  obtain ⟨k1, k2, k3⟩ := next_row r 0 1 hμ hP h0 hD hA1
  obtain ⟨l1, l2, l3⟩ := next_row r 0 2 hμ hP h0 hD hA2
  have hbP : |b| ≤ 102 / 100 * P := g3 1
  have hcP : |c| ≤ 102 / 100 * P := g3 2
  have he1 : |e - F 1 1| ≤ 44 / 10 * (u 53 * P) := k3 1 (by decide)
  have hf1 : |f - F 1 2| ≤ 44 / 10 * (u 53 * P) := k3 2 (by decide)
  have hh1 : |h - F 2 1| ≤ 44 / 10 * (u 53 * P) := l3 1 (by decide)
  have hi1 : |i - F 2 2| ≤ 44 / 10 * (u 53 * P) := l3 2 (by decide)
  have near : ∀ {x y : ℝ}, |x - y| ≤ 44 / 10 * (u 53 * P) → |y| ≤ 103 / 100 * P → |x| ≤ 104 / 100 * P := by
    intro x y h1 h2
    have := abs_sub_abs_le_abs_sub x y
    linarith
  have heP := near he1 (hFle 1 1)
  have hfP := near hf1 (hFle 1 2)
  have hhP := near hh1 (hFle 2 1)
  have hiP := near hi1 (hFle 2 2)
  -- the second pivot
  have heL : 98 / 100 / P ≤ |e| := by
    have h1 : 99 / 100 / P ≤ |F 1 1| := by
      show _ ≤ |N 1 1 / M 0 0|
      rw [abs_div, le_div_iff₀ h00]
      have : 99 / 100 / P * |M 0 0| ≤ 1 / P := by
        rw [div_mul_eq_mul_div]
        refine div_le_div_of_nonneg_right ?_ hP0.le
        linarith [hμ 0 0]
      exact this.trans hm
    have h2 := abs_sub_abs_le_abs_sub (F 1 1) e
    rw [abs_sub_comm] at h2
    have h3 : 44 / 10 * (u 53 * P) ≤ 1 / 100 / P := by
      rw [le_div_iff₀ hP0]
      linarith
    have h4 : (99 / 100 / P : ℝ) = 98 / 100 / P + 1 / 100 / P := by ring
    linarith
  have he0 : 0 < |e| := lt_of_lt_of_le (by positivity) heL
  have hen : e ≠ 0 := abs_pos.1 he0
  have heDiv : ∀ {x X : ℝ}, |x| ≤ X → |x / e| ≤ X * P * (1021 / 1000) := by
    intro x X hx
    have hX : 0 ≤ X := (abs_nonneg x).trans hx
    rw [abs_div, div_le_iff₀ he0]
    have : X * P * (1021 / 1000) * (98 / 100 / P) ≤ X * P * (1021 / 1000) * |e| := mul_le_mul_of_nonneg_left heL (by positivity)
    refine hx.trans (le_trans ?_ this)
    have e1 : X * P * (1021 / 1000) * (98 / 100 / P) = X * (1021 / 1000 * (98 / 100)) := by field_simp
    rw [e1]
    linarith
  -- the ratio right of the second pivot
  set G := N 1 2 / N 1 1 with hG
  have hGP : |G| ≤ 103 / 100 * P := (le_of_inv hP0 hm _).trans (mul_le_mul_of_nonneg_right (hN 1 2) hP0.le)
  have hFG : F 1 2 = G * F 1 1 := by
    simp only [hF, hG]
    field_simp
  have hratio : |f / e - G| ≤ 92 / 10 * (u 53 * P ^ 3) := by
    have e1 : f / e - G = ((f - F 1 2) - G * (e - F 1 1)) / e := by
      rw [hFG]; field_simp; ring
    rw [e1]
    have h1 : |(f - F 1 2) - G * (e - F 1 1)| ≤ 44 / 10 * (u 53 * P) + 103 / 100 * P * (44 / 10 * (u 53 * P)) := by
      refine (abs_sub _ _).trans (add_le_add hf1 ?_)
      rw [abs_mul]
      exact mul_le_mul hGP he1 (abs_nonneg _) (by positivity)
    refine (heDiv h1).trans ?_
    linarith
  have hfe : |f / e| ≤ 1035 / 1000 * P := by
    have := abs_sub_abs_le_abs_sub (f / e) G
    have h1 : u 53 * P ^ 3 ≤ 1 / 2 ^ 29 := q3.trans big
    linarith
  have hf'P : |f'| ≤ 104 / 100 * P := by
    have := rnd_le r hfe
    linarith
  have hf'G : |f' - G| ≤ 103 / 10 * (u 53 * P ^ 3) := by
    have h1 := (r.err pos53 (f / e)).trans (mul_le_mul_of_nonneg_left hfe hu0.le)
    have h2 := abs_sub_le f' (f / e) G
    have h3 : |f' - f / e| ≤ u 53 * (1035 / 1000 * P) := h1
    linarith
  -- the third pivot
  have hf'h : |f' * h| ≤ 104 / 100 * P * (104 / 100 * P) := by
    rw [abs_mul]
    exact mul_le_mul hf'P hhP (abs_nonneg _) (by positivity)
  have hI : F 2 2 - G * F 2 1 = M.det / N 1 1 := by
    rw [Matrix.det_fin_three]
    simp only [hF, hG]
    field_simp
    simp only [hNdef]
    ring
  have hIL : 94 / 100 ≤ |F 2 2 - G * F 2 1| := by
    rw [hI, abs_div, le_div_iff₀ (abs_pos.2 hN0)]
    have : |N 1 1| ≤ 103 / 100 := hN 1 1
    linarith
  have hcombI : |i' - (i - f' * h)| ≤ u 53 * (104 / 100 * P + 21 / 10 * (104 / 100 * P * (104 / 100 * P))) :=
    (comb_err r _ _ _).trans (mul_le_mul_of_nonneg_left (by linarith) hu0.le)
  have hi'L : 93 / 100 ≤ |i'| := by
    have h2 : |f' * h - G * F 2 1| ≤ 103 / 10 * (u 53 * P ^ 3) * (104 / 100 * P) + 103 / 100 * P * (44 / 10 * (u 53 * P)) := by
      have e1 : f' * h - G * F 2 1 = (f' - G) * h + G * (h - F 2 1) := by ring
      rw [e1]
      refine (abs_add_le _ _).trans (add_le_add ?_ ?_)
      · rw [abs_mul]; exact mul_le_mul hf'G hhP (abs_nonneg _) (by positivity)
      · rw [abs_mul]; exact mul_le_mul hGP hh1 (abs_nonneg _) (by positivity)
    have h3 : |i' - (F 2 2 - G * F 2 1)| ≤ 24 * (u 53 * P ^ 4) := by
      have e1 : i' - (F 2 2 - G * F 2 1) = (i' - (i - f' * h)) + (i - F 2 2) - (f' * h - G * F 2 1) := by ring
      rw [e1]
      refine (abs_sub _ _).trans ((add_le_add ((abs_add_le _ _).trans (add_le_add hcombI hi1)) h2).trans ?_)
      linarith
    have h4 := abs_sub_abs_le_abs_sub (F 2 2 - G * F 2 1) i'
    rw [abs_sub_comm (F 2 2 - G * F 2 1) i'] at h4
    linarith
  have hi'n : i' ≠ 0 := by intro h; rw [h, abs_zero] at hi'L; norm_num at hi'L
  have bound : ∀ {x : ℝ}, |x| ≤ 104 / 100 * P → |x| ≤ 2 ^ (100 : ℤ) := by
    intro x hx
    have : |x| ≤ 100 := by linarith
    exact this.trans (by norm_num)
  refine ⟨_, inverse_space r doubleLimits M hM b c e f h i f' i' B0 B1 B2 C1 C2 D2 D1 D0 E0 rfl rfl rfl rfl rfl rfl rfl rfl rfl rfl rfl rfl rfl rfl rfl rfl rfl ?_ ?_ ?_, ?_⟩
  · refine pivot_ok r (by norm_num) M 0 (fun j => (hμ j 0).trans (by norm_num)) (le_trans ?_ h0)
    rw [le_div_iff₀ hP0]
    calc (2 : ℝ) ^ (-100 : ℤ) * P ≤ 2 ^ (-100 : ℤ) * 64 := mul_le_mul_of_nonneg_left hP' (by positivity)
      _ ≤ 1 := by norm_num
  · intro x y
    have := pivot_ok r (by norm_num) (Matrix.of ![![1, b, c], ![x, e, f], ![y, h, i]]) 1 (fun j => by
      fin_cases j
      · exact bound (hbP.trans (by linarith))
      · exact bound heP
      · exact bound hhP) (le_trans (by
        rw [le_div_iff₀ hP0]
        calc (2 : ℝ) ^ (-100 : ℤ) * P ≤ 2 ^ (-100 : ℤ) * 64 := mul_le_mul_of_nonneg_left hP' (by positivity)
          _ ≤ 98 / 100 := by norm_num) heL)
    simpa using this
  · intro x y z
    have := pivot_ok r (by norm_num) (Matrix.of ![![1, b, c], ![x, 1, f'], ![y, z, i']]) 2 (fun j => by
      fin_cases j
      · exact bound (hcP.trans (by linarith))
      · exact bound hf'P
      · show |i'| ≤ _
        have h1 := abs_sub_abs_le_abs_sub i' (i - f' * h)
        have h2 := abs_sub i (f' * h)
        have h3 : P * P ≤ 64 * 64 := mul_le_mul hP' hP' hP0.le (by norm_num)
        have h4 : |i'| ≤ 10000 := by
          have : u 53 * (104 / 100 * P + 21 / 10 * (104 / 100 * P * (104 / 100 * P))) ≤ 3 * (u 53 * P ^ 2) + u 53 * P := by linarith
          linarith
        exact h4.trans (by norm_num)) (le_trans (by norm_num) hi'L)
    simpa using this
  · have s1 := row_scale r (A := ![0, e, f]) (A' := ![0, 1, f']) (α := 1035 / 1000 * P) hμ (by positivity) heL k1 k2 (fun x => by
      fin_cases x
      · simp; positivity
      · simp [hen]; positivity
      · exact (r.err pos53 _).trans (mul_le_mul_of_nonneg_left hfe hu0.le))
    have t1 : ∀ x, |∑ l, C1 l * M l x - (![0, 1, f'] : Fin 3 → ℝ) x| ≤ 119 / 10 * (u 53 * P ^ 2) := fun x => by
      refine (s1.1 x).trans ?_
      rw [div_div_eq_mul_div]
      linarith
    have t1' : ∑ l, |C1 l| ≤ 208 / 100 * P ^ 2 := by
      refine s1.2.trans ((scale_sum (by positivity) (by positivity)).trans ?_)
      rw [div_div_eq_mul_div]
      linarith [pow_pos hP0 2]
    have s2 := row_clear r (A := ![0, h, i]) (D := ![0, 1, f']) (A' := ![0, 0, i']) (α := 104 / 100 * P + 21 / 10 * (104 / 100 * P * (104 / 100 * P))) hμ hhP l1 t1 l2 t1' (fun x => by
      fin_cases x
      · simp; positivity
      · simp; positivity
      · exact hcombI)
    have t2 : ∀ x, |∑ l, C2 l * M l x - (![0, 0, i'] : Fin 3 → ℝ) x| ≤ 31 * (u 53 * P ^ 3) := fun x => by
      refine (s2.1 x).trans ?_
      linarith
    have t2' : ∑ l, |C2 l| ≤ 42 / 10 * P ^ 3 := by
      refine s2.2.trans ((clear_sum (by positivity)).trans ?_)
      linarith
    have s3 := row_scale r (A := ![0, 0, i']) (A' := ![0, 0, 1]) (α := 0) hμ (by norm_num) hi'L t2 t2' (fun x => by
      fin_cases x
      · simp
      · simp
      · simp [hi'n])
    have t3 : ∀ x, |∑ l, D2 l * M l x - (![0, 0, 1] : Fin 3 → ℝ) x| ≤ 38 * (u 53 * P ^ 3) := fun x => by
      refine (s3.1 x).trans ?_
      linarith [mul_pos hu0 (pow_pos hP0 3)]
    have t3' : ∑ l, |D2 l| ≤ 46 / 10 * P ^ 3 := by
      refine s3.2.trans ((scale_sum (by positivity) (by positivity)).trans ?_)
      linarith [pow_pos hP0 3]
    have s4 := row_clear r (A := ![0, 1, f']) (D := ![0, 0, 1]) (A' := ![0, 1, 0]) (α := 0) hμ hf'P t1 t3 t1' t3' (fun x => by fin_cases x <;> simp)
    have t4 : ∀ x, |∑ l, D1 l * M l x - (![0, 1, 0] : Fin 3 → ℝ) x| ≤ 64 * (u 53 * P ^ 4) := fun x => by
      refine (s4.1 x).trans ?_
      linarith
    have t4' : ∑ l, |D1 l| ≤ 69 / 10 * P ^ 4 := by
      refine s4.2.trans ((clear_sum (by positivity)).trans ?_)
      linarith
    have s5 := row_clear r (A := ![1, b, c]) (D := ![0, 0, 1]) (A' := ![1, b, 0]) (α := 0) hμ hcP g1 t3 g2 t3' (fun x => by fin_cases x <;> simp)
    have t5 : ∀ x, |∑ l, D0 l * M l x - (![1, b, 0] : Fin 3 → ℝ) x| ≤ 52 * (u 53 * P ^ 4) := fun x => by
      refine (s5.1 x).trans ?_
      linarith
    have t5' : ∑ l, |D0 l| ≤ 58 / 10 * P ^ 4 := by
      refine s5.2.trans ((clear_sum (by positivity)).trans ?_)
      linarith
    have s6 := row_clear r (A := ![1, b, 0]) (D := ![0, 1, 0]) (A' := ![1, 0, 0]) (α := 0) hμ hbP t5 t4 t5' t4' (fun x => by fin_cases x <;> simp)
    have t6 : ∀ x, |∑ l, E0 l * M l x - (![1, 0, 0] : Fin 3 → ℝ) x| ≤ 140 * (u 53 * P ^ 5) := fun x => by
      refine (s6.1 x).trans ?_
      linarith
    intro x y
    rw [Matrix.sub_apply, Matrix.mul_apply]
    fin_cases x
    · have h1 : (1 : Matrix (Fin 3) (Fin 3) ℝ) 0 y = (![1, 0, 0] : Fin 3 → ℝ) y := by fin_cases y <;> simp [Matrix.one_apply]
      refine le_trans (le_of_eq ?_) (t6 y)
      rw [← h1]; rfl
    · have h1 : (1 : Matrix (Fin 3) (Fin 3) ℝ) 1 y = (![0, 1, 0] : Fin 3 → ℝ) y := by fin_cases y <;> simp [Matrix.one_apply]
      refine le_trans (le_of_eq ?_) ((t4 y).trans (by linarith))
      rw [← h1]; rfl
    · have h1 : (1 : Matrix (Fin 3) (Fin 3) ℝ) 2 y = (![0, 0, 1] : Fin 3 → ℝ) y := by fin_cases y <;> simp [Matrix.one_apply]
      refine le_trans (le_of_eq ?_) ((t3 y).trans (by linarith))
      rw [← h1]; rfl

end Fl

end WFMath
