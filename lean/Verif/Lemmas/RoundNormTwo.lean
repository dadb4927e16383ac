/- Lemmas for C137: the computed inverse, and its residual in the plane. -/
import Verif.Lemmas.RoundNormRow

namespace WFMath
open Spec Matrix Gauss
variable {n : Nat}

namespace Fl
open Rounding

theorem comb_if (r : Rounding 53) {x : ℝ} (hx : IsFl 53 x) (y t : ℝ) : (if t = 0 then x else r (x - r (y * t))) = r (x - r (y * t)) := by
  split
  · rename_i h; rw [h, mul_zero, r.zero, sub_zero, r.of_fl hx]
  · rfl

theorem isFl_id (i j : Fin n) : IsFl 53 (identityArr i j) := by
  show IsFl 53 (if i = j then (1 : ℝ) else 0)
  split
  · exact IsFl.one pos53
  · exact IsFl.zero

/-- The inverse of a two by two matrix of doubles as it is computed when both pivots are acceptable. -/
theorem inverse_plane (r : Rounding 53) (L : Limits) (M : Matrix (Fin 2) (Fin 2) ℝ) (hM : ∀ i j, IsFl 53 (M i j)) (b d : ℝ) (B0 B1 C1 C0 : Fin 2 → ℝ)
    (hb : b = r (M 0 1 / M 0 0)) (hd : d = r (M 1 1 - r (b * M 1 0)))
    (hB0 : B0 = fun l => r (identityArr 0 l / M 0 0)) (hB1 : B1 = fun l => r (identityArr 1 l - r (B0 l * M 1 0)))
    (hC1 : C1 = fun l => r (B1 l / d)) (hC0 : C0 = fun l => r (B0 l - r (C1 l * b)))
    (h0 : ¬ r (M 0 0 * M 0 0) < minval r L M 0) (h1 : ∀ x, ¬ r (d * d) < minval r L (Matrix.of ![![1, b], ![x, d]]) 1) :
    inverseImpl r L M identityArr = some (Matrix.of ![C0, C1]) := by
  obtain ⟨x, s1⟩ : ∃ x, forwardStep r L 0 (M, identityArr) = some (Matrix.of ![![1, b], ![x, d]], Matrix.of ![B0, B1]) := by
    refine ⟨if M 1 0 = 0 then 0 else r (0 - r (1 * M 1 0)), ?_⟩
    unfold forwardStep pivot
    rw [if_neg h0]
    simp only [Option.map_some, Option.some.injEq]
    unfold clearBelow scaleRow
    refine Prod.ext ?_ ?_
    · ext i j
      fin_cases i <;> fin_cases j <;> simp [hd, hb, comb_if r (hM 1 1)]
    · ext i j
      fin_cases i <;> simp [hB0, hB1, comb_if r (isFl_id 1 _)]
  have s2 : forwardStep r L 1 (Matrix.of ![![1, b], ![x, d]], Matrix.of ![B0, B1]) = some (Matrix.of ![![1, b], ![x, 1]], Matrix.of ![B0, C1]) := by
    unfold forwardStep pivot
    rw [if_neg (by simpa using h1 x)]
    simp only [Option.map_some, Option.some.injEq]
    unfold clearBelow scaleRow
    refine Prod.ext ?_ ?_
    · ext i j
      fin_cases i <;> fin_cases j <;> simp
    · ext i j
      fin_cases i <;> simp [hC1]
  unfold inverseImpl
  simp only [show List.finRange 2 = [0, 1] from rfl, forward, s1, s2, Option.bind_some, Option.map_some, List.foldr, Option.some.injEq]
  have f0 : ∀ l, IsFl 53 (B0 l) := fun l => by rw [hB0]; exact r.isFl _
  ext i j
  unfold backStep
  fin_cases i <;> simp [hC0, comb_if r (f0 _)]

/-- The inverse of a three by three matrix of doubles as it is computed when the three pivots are acceptable. -/
theorem inverse_space (r : Rounding 53) (L : Limits) (M : Matrix (Fin 3) (Fin 3) ℝ) (hM : ∀ i j, IsFl 53 (M i j)) (b c e f h i f' i' : ℝ)
    (B0 B1 B2 C1 C2 D2 D1 D0 E0 : Fin 3 → ℝ)
    (hb : b = r (M 0 1 / M 0 0)) (hc : c = r (M 0 2 / M 0 0))
    (he : e = r (M 1 1 - r (b * M 1 0))) (hf : f = r (M 1 2 - r (c * M 1 0))) (hh : h = r (M 2 1 - r (b * M 2 0))) (hi : i = r (M 2 2 - r (c * M 2 0)))
    (hf' : f' = r (f / e)) (hi' : i' = r (i - r (f' * h)))
    (hB0 : B0 = fun l => r (identityArr 0 l / M 0 0)) (hB1 : B1 = fun l => r (identityArr 1 l - r (B0 l * M 1 0)))
    (hB2 : B2 = fun l => r (identityArr 2 l - r (B0 l * M 2 0)))
    (hC1 : C1 = fun l => r (B1 l / e)) (hC2 : C2 = fun l => r (B2 l - r (C1 l * h)))
    (hD2 : D2 = fun l => r (C2 l / i')) (hD1 : D1 = fun l => r (C1 l - r (D2 l * f'))) (hD0 : D0 = fun l => r (B0 l - r (D2 l * c)))
    (hE0 : E0 = fun l => r (D0 l - r (D1 l * b)))
    (h0 : ¬ r (M 0 0 * M 0 0) < minval r L M 0)
    (h1 : ∀ x y, ¬ r (e * e) < minval r L (Matrix.of ![![1, b, c], ![x, e, f], ![y, h, i]]) 1)
    (h2 : ∀ x y z, ¬ r (i' * i') < minval r L (Matrix.of ![![1, b, c], ![x, 1, f'], ![y, z, i']]) 2) :
    inverseImpl r L M identityArr = some (Matrix.of ![E0, D1, D2]) := by
  have fe : ∀ l, IsFl 53 (B2 l) := fun l => by rw [hB2]; exact r.isFl _
  have fi : IsFl 53 i := by rw [hi]; exact r.isFl _
  obtain ⟨x, y, s1⟩ : ∃ x y, forwardStep r L 0 (M, identityArr) = some (Matrix.of ![![1, b, c], ![x, e, f], ![y, h, i]], Matrix.of ![B0, B1, B2]) := by
    refine ⟨if M 1 0 = 0 then 0 else r (0 - r (1 * M 1 0)), if M 2 0 = 0 then 0 else r (0 - r (1 * M 2 0)), ?_⟩
    unfold forwardStep pivot
    rw [if_neg h0]
    simp only [Option.map_some, Option.some.injEq]
    unfold clearBelow scaleRow
    refine Prod.ext ?_ ?_
    · ext i j
      fin_cases i <;> fin_cases j <;> simp [hb, hc, he, hf, hh, hi, comb_if r (hM _ _)]
    · ext i j
      fin_cases i <;> simp [hB0, hB1, hB2, comb_if r (isFl_id _ _)]
  obtain ⟨z, s2⟩ : ∃ z, forwardStep r L 1 (Matrix.of ![![1, b, c], ![x, e, f], ![y, h, i]], Matrix.of ![B0, B1, B2]) =
      some (Matrix.of ![![1, b, c], ![x, 1, f'], ![if h = 0 then y else r (y - r (x * h)), z, i']], Matrix.of ![B0, C1, C2]) := by
    refine ⟨if h = 0 then 0 else r (0 - r (1 * h)), ?_⟩
    unfold forwardStep pivot
    rw [if_neg (by simpa using h1 x y)]
    simp only [Option.map_some, Option.some.injEq]
    unfold clearBelow scaleRow
    refine Prod.ext ?_ ?_
    · ext i j
      fin_cases i <;> fin_cases j <;> simp [hf', hi', comb_if r fi]
    · ext i j
      fin_cases i <;> simp [hC1, hC2, comb_if r (fe _)]
  generalize (if h = 0 then y else r (y - r (x * h))) = y' at s2
  have s3 : forwardStep r L 2 (Matrix.of ![![1, b, c], ![x, 1, f'], ![y', z, i']], Matrix.of ![B0, C1, C2]) =
      some (Matrix.of ![![1, b, c], ![x, 1, f'], ![y', z, 1]], Matrix.of ![B0, C1, D2]) := by
    unfold forwardStep pivot
    rw [if_neg (by simpa using h2 x y' z)]
    simp only [Option.map_some, Option.some.injEq]
    unfold clearBelow scaleRow
    refine Prod.ext ?_ ?_
    · ext i j
      fin_cases i <;> fin_cases j <;> simp
    · ext i j
      fin_cases i <;> simp [hD2]
  unfold inverseImpl
  simp only [show List.finRange 3 = [0, 1, 2] from rfl, forward, s1, s2, s3, Option.bind_some, Option.map_some, List.foldr, Option.some.injEq]
  have f0 : ∀ l, IsFl 53 (B0 l) := fun l => by rw [hB0]; exact r.isFl _
  have f1 : ∀ l, IsFl 53 (C1 l) := fun l => by rw [hC1]; exact r.isFl _
  have f2 : ∀ l, IsFl 53 (D0 l) := fun l => by rw [hD0]; exact r.isFl _
  ext i j
  unfold backStep
  fin_cases i
  · have e1 := comb_if r (f0 j) (D2 j) c
    have e2 := comb_if r (f1 j) (D2 j) f'
    have e3 := comb_if r (f2 j) (D1 j) b
    rw [hE0]
    simp [e1, e2, ← hD0]
    rw [← e3]
    simp [hD0, hD1]
  · simp [hD1, comb_if r (f1 _)]
  · simp

/-! ### The plane -/

theorem le_of_inv {a P : ℝ} (hP : 0 < P) (h : 1 / P ≤ |a|) (x : ℝ) : |x / a| ≤ |x| * P := by
  have ha : 0 < |a| := lt_of_lt_of_le (by positivity) h
  rw [abs_div, div_le_iff₀ ha]
  rw [div_le_iff₀ hP] at h
  nlinarith [abs_nonneg x]

theorem rnd_le (r : Rounding 53) {x X : ℝ} (h : |x| ≤ X) : |r x| ≤ 1001 / 1000 * X := by
  refine (r.abs_le pos53 x).trans ?_
  have hu : u 53 ≤ 1 / 1000 := by rw [u53]; norm_num
  nlinarith [abs_nonneg x]

/-- The first pivot row: the residual and the size. -/
theorem first_row (r : Rounding 53) {M : Matrix (Fin n) (Fin n) ℝ} (i : Fin n) (hμ : ∀ i j, |M i j| ≤ 101 / 100) {P : ℝ} (hP : 1 ≤ P) (h0 : 1 / P ≤ |M i i|) {A : Fin n → ℝ}
    (hA : ∀ c, A c = if c = i then 1 else r (M i c / M i i)) :
    (∀ c, |∑ l, r (identityArr i l / M i i) * M l c - A c| ≤ 203 / 100 * (u 53 * P)) ∧ ∑ l, |r (identityArr i l / M i i)| ≤ 1001 / 1000 * P ∧
      ∀ c, |A c| ≤ 102 / 100 * P := by
  have hu0 : 0 < u 53 := u_pos
  have hP0 : 0 < P := by linarith
  have hu : u 53 ≤ 1 / 1000 := by rw [u53]; norm_num
  have ha : M i i ≠ 0 := by
    intro h; rw [h, abs_zero] at h0
    have : 0 < 1 / P := by positivity
    linarith
  have key := row_scale r (B := identityArr i) (A := M i) (A' := A) (t := M i i) (T := 1 / P) (ρ := 0) (α := 101 / 100 * P) (β := 1) hμ (by positivity) h0
    (fun c => by
      have : ∑ l, identityArr i l * M l c = M i c := by simp [identityArr]
      rw [this, sub_self, abs_zero])
    (by simp [identityArr, apply_ite abs])
    (fun c => by
      rw [hA c]
      split
      · rename_i h
        rw [h, div_self ha, sub_self, abs_zero]; positivity
      · refine (r.err pos53 _).trans (mul_le_mul_of_nonneg_left ?_ hu0.le)
        exact (le_of_inv hP0 h0 _).trans (mul_le_mul_of_nonneg_right (hμ i c) hP0.le))
  refine ⟨fun c => (key.1 c).trans (le_of_eq_of_le (by field_simp; ring) (?_ : u 53 * P * (202 / 100) ≤ _)), key.2.trans ?_, fun c => ?_⟩
  · nlinarith [mul_pos hu0 hP0]
  · rw [div_div_eq_mul_div, div_one]
    nlinarith
  · rw [hA c]
    split
    · rw [abs_one]; linarith
    · refine (rnd_le r ((le_of_inv hP0 h0 (M i c)).trans (mul_le_mul_of_nonneg_right (hμ i c) hP0.le))).trans ?_
      nlinarith

/-- A row below the first pivot row, after the first column has been cleared. -/
theorem next_row (r : Rounding 53) {M : Matrix (Fin n) (Fin n) ℝ} (i k : Fin n) (hμ : ∀ i j, |M i j| ≤ 101 / 100) {P : ℝ} (hP : 1 ≤ P) (h0 : 1 / P ≤ |M i i|)
    {A D : Fin n → ℝ} (hD : ∀ c, D c = if c = i then 1 else r (M i c / M i i)) (hA : ∀ c, A c = if c = i then 0 else r (M k c - r (D c * M k i))) :
    (∀ c, |∑ l, r (identityArr k l - r (r (identityArr i l / M i i) * M k i)) * M l c - A c| ≤ 85 / 10 * (u 53 * P)) ∧
    ∑ l, |r (identityArr k l - r (r (identityArr i l / M i i) * M k i))| ≤ 203 / 100 * P ∧
    ∀ c, c ≠ i → |A c - (M k c * M i i - M i c * M k i) / M i i| ≤ 44 / 10 * (u 53 * P) := by
  have hu0 : 0 < u 53 := u_pos
  have hP0 : 0 < P := by linarith
  have hu : u 53 ≤ 1 / 1000 := by rw [u53]; norm_num
  have ha : M i i ≠ 0 := by
    intro h; rw [h, abs_zero] at h0
    have : 0 < 1 / P := by positivity
    linarith
  obtain ⟨g1, g2, g3⟩ := first_row r i hμ hP h0 hD
  have hup : 0 < u 53 * P := mul_pos hu0 hP0
  have hcomb : ∀ c, u 53 * (|M k c| + 21 / 10 * |D c * M k i|) ≤ u 53 * (101 / 100 + 21 / 10 * (102 / 100 * P * (101 / 100))) := fun c => by
    refine mul_le_mul_of_nonneg_left ?_ hu0.le
    rw [abs_mul]
    have := mul_le_mul (g3 c) (hμ k i) (abs_nonneg _) (by positivity)
    linarith [hμ k c]
  have key := row_clear r (B := identityArr k) (C := fun l => r (identityArr i l / M i i)) (A := M k) (D := D) (A' := A) (t := M k i) (τ := 101 / 100) (ρ := 0) (β := 1)
    (α := 101 / 100 + 21 / 10 * (102 / 100 * P * (101 / 100))) hμ (hμ k i)
    (fun c => by
      have : ∑ l, identityArr k l * M l c = M k c := by simp [identityArr]
      rw [this, sub_self, abs_zero]) g1
    (by simp [identityArr, apply_ite abs]) g2
    (fun c => by
      rw [hA c]
      split
      · rename_i h
        rw [hD c, if_pos h, h, one_mul, sub_self, sub_zero, abs_zero]; positivity
      · exact (comb_err r _ _ _).trans (hcomb c))
  refine ⟨fun c => (key.1 c).trans ?_, key.2.trans ?_, fun c hc => ?_⟩
  · generalize u 53 = w at *
    nlinarith
  · generalize u 53 = w at *
    nlinarith
  · have e : A c - (M k c * M i i - M i c * M k i) / M i i = (r (M k c - r (D c * M k i)) - (M k c - D c * M k i)) - (r (M i c / M i i) - M i c / M i i) * M k i := by
      have hDc : D c = r (M i c / M i i) := by rw [hD c, if_neg hc]
      rw [hA c, if_neg hc, sub_div, mul_div_cancel_right₀ _ ha, ← hDc]
      ring
    have h1 := (comb_err r (M k c) (D c) (M k i)).trans (hcomb c)
    have h2 : |(r (M i c / M i i) - M i c / M i i) * M k i| ≤ u 53 * (101 / 100 * P) * (101 / 100) := by
      rw [abs_mul]
      refine mul_le_mul ((r.err pos53 _).trans (mul_le_mul_of_nonneg_left ?_ hu0.le)) (hμ k i) (abs_nonneg _) (by positivity)
      exact (le_of_inv hP0 h0 _).trans (mul_le_mul_of_nonneg_right (hμ i c) hP0.le)
    rw [e]
    refine (abs_sub _ _).trans ((add_le_add h1 h2).trans ?_)
    generalize u 53 = w at *
    nlinarith

/-- Inverting in the plane: the residual. -/
theorem plane_residual (r : Rounding 53) {M : Matrix (Fin 2) (Fin 2) ℝ} (hM : ∀ i j, IsFl 53 (M i j)) (hμ : ∀ i j, |M i j| ≤ 101 / 100)
    (hdet : 97 / 100 ≤ |M 0 0 * M 1 1 - M 0 1 * M 1 0|) {P : ℝ} (hP : 1 ≤ P) (hP' : P ≤ 2 ^ 20) (h0 : 1 / P ≤ |M 0 0|) :
    ∃ X, inverseImpl r doubleLimits M identityArr = some X ∧ ∀ i j, |(X * M - 1) i j| ≤ 20 * (u 53 * P ^ 2) := by
  have hu0 : 0 < u 53 := u_pos
  have hP0 : 0 < P := by linarith
  have hu : u 53 ≤ 1 / 2 ^ 40 := by rw [u53]; norm_num
  have hup : 0 < u 53 * P := mul_pos hu0 hP0
  have hup' : u 53 * P ≤ 1 / 2 ^ 20 := by
    calc u 53 * P ≤ 1 / 2 ^ 40 * 2 ^ 20 := mul_le_mul hu hP' hP0.le (by positivity)
      _ = _ := by norm_num
  set b := r (M 0 1 / M 0 0) with hb
  set d := r (M 1 1 - r (b * M 1 0)) with hd
  set B0 : Fin 2 → ℝ := fun l => r (identityArr 0 l / M 0 0) with hB0
  set B1 : Fin 2 → ℝ := fun l => r (identityArr 1 l - r (B0 l * M 1 0)) with hB1
  set C1 : Fin 2 → ℝ := fun l => r (B1 l / d) with hC1
  set C0 : Fin 2 → ℝ := fun l => r (B0 l - r (C1 l * b)) with hC0
  have hD : ∀ c, (![1, b] : Fin 2 → ℝ) c = if c = 0 then 1 else r (M 0 c / M 0 0) := by intro c; fin_cases c <;> simp [hb]
  have hA : ∀ c, (![0, d] : Fin 2 → ℝ) c = if c = 0 then 0 else r (M 1 c - r ((![1, b] : Fin 2 → ℝ) c * M 1 0)) := by intro c; fin_cases c <;> simp [hd]
  obtain ⟨g1, g2, g3⟩ := first_row r 0 hμ hP h0 hD
  obtain ⟨k1, k2, k3⟩ := next_row r 0 1 hμ hP h0 hD hA
  have hbP : |b| ≤ 102 / 100 * P := g3 1
  have hdd : 95 / 100 ≤ |d| := by
    have h1 := k3 1 (by decide)
    have h2 : 96 / 100 ≤ |(M 1 1 * M 0 0 - M 0 1 * M 1 0) / M 0 0| := by
      rw [abs_div, le_div_iff₀ (lt_of_lt_of_le (by positivity) h0), mul_comm (M 1 1)]
      nlinarith [hμ 0 0]
    have h3 := abs_sub_abs_le_abs_sub ((M 1 1 * M 0 0 - M 0 1 * M 1 0) / M 0 0) d
    rw [abs_sub_comm] at h3
    have h4 : |d - (M 1 1 * M 0 0 - M 0 1 * M 1 0) / M 0 0| ≤ 44 / 10 * (u 53 * P) := h1
    have : 44 / 10 * (u 53 * P) ≤ 1 / 100 := by nlinarith
    linarith
  have hdu : |d| ≤ 4 * 2 ^ 20 := by
    refine (rnd_le r (X := 101 / 100 + 1001 / 1000 * (102 / 100 * P * (101 / 100))) ((abs_sub _ _).trans (add_le_add (hμ 1 1) (rnd_le r ?_)))).trans ?_
    · rw [abs_mul]
      exact mul_le_mul hbP (hμ 1 0) (abs_nonneg _) (by positivity)
    · nlinarith
  refine ⟨_, inverse_plane r doubleLimits M hM b d B0 B1 C1 C0 rfl rfl rfl rfl rfl rfl ?_ ?_, ?_⟩
  · refine pivot_ok r (by norm_num) M 0 (fun j => (hμ j 0).trans (by norm_num)) (le_trans ?_ h0)
    rw [le_div_iff₀ hP0]
    calc (2 : ℝ) ^ (-100 : ℤ) * P ≤ 2 ^ (-100 : ℤ) * 2 ^ 20 := mul_le_mul_of_nonneg_left hP' (by positivity)
      _ ≤ 1 := by norm_num
  · intro x
    have := pivot_ok r (by norm_num) (Matrix.of ![![1, b], ![x, d]]) 1 (fun j => by
      fin_cases j
      · refine hbP.trans ?_
        have : (102 / 100 * P : ℝ) ≤ 102 / 100 * 2 ^ 20 := by linarith
        exact this.trans (by norm_num)
      · exact hdu.trans (by norm_num)) (le_trans (by norm_num) hdd)
    simpa using this
  · have s1 := row_scale r (A := ![0, d]) (A' := ![0, 1]) (α := 0) hμ (by norm_num) hdd k1 k2 (fun c => by
      have hd0 : d ≠ 0 := by intro h; rw [h, abs_zero] at hdd; norm_num at hdd
      fin_cases c
      · simp
      · simp [hd0])
    have s2 := row_clear r (A := ![1, b]) (D := ![0, 1]) (A' := ![1, 0]) (α := 0) hμ hbP g1 s1.1 g2 s1.2 (fun c => by fin_cases c <;> simp)
    have hsq : u 53 * P ^ 2 = u 53 * P * P := by ring
    intro i j
    have hone : ∀ (v : Fin 2 → ℝ) (i : Fin 2), (Matrix.of ![C0, C1] i = v) → (Matrix.of ![C0, C1] * M - 1) i j = ∑ l, v l * M l j - (1 : Matrix (Fin 2) (Fin 2) ℝ) i j := by
      intro v i h
      rw [Matrix.sub_apply, Matrix.mul_apply, ← h]
    fin_cases i
    · have e := hone C0 0 rfl
      have h1 : (1 : Matrix (Fin 2) (Fin 2) ℝ) 0 j = (![1, 0] : Fin 2 → ℝ) j := by fin_cases j <;> simp [Matrix.one_apply]
      rw [h1] at e
      refine (le_of_eq (congrArg abs e)).trans ((s2.1 j).trans ?_)
      rw [hsq]
      have hPP : u 53 * P ≤ u 53 * P * P := by nlinarith
      have huP : u 53 * (u 53 * P * P) ≤ 1 / 1000 * (u 53 * P * P) := by nlinarith
      generalize u 53 = w at *
      ring_nf at *
      nlinarith
    · have e := hone C1 1 rfl
      have h1 : (1 : Matrix (Fin 2) (Fin 2) ℝ) 1 j = (![0, 1] : Fin 2 → ℝ) j := by fin_cases j <;> simp [Matrix.one_apply]
      rw [h1] at e
      refine (le_of_eq (congrArg abs e)).trans ((s1.1 j).trans ?_)
      rw [hsq]
      have hPP : u 53 * P ≤ u 53 * P * P := by nlinarith
      generalize u 53 = w at *
      ring_nf at *
      nlinarith

end Fl

end WFMath
