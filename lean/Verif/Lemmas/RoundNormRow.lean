/- Lemmas for C137: rounding errors of the row operations. -/
import Verif.Props.RoundNormFalse
import Verif.Props.RotNormalize

namespace WFMath
open Spec Matrix Gauss
variable {n : Nat}

namespace Fl
open Rounding

/-! ### One operation, one row -/

theorem comb_err (r : Rounding 53) (x y t : ℝ) : |r (x - r (y * t)) - (x - y * t)| ≤ u 53 * (|x| + 21 / 10 * |y * t|) := by
  have h1 := r.err pos53 (y * t)
  have h2 := r.err pos53 (x - r (y * t))
  have h3 : |x - r (y * t)| ≤ |x| + (|y * t| + u 53 * |y * t|) := by
    have := abs_sub x (r (y * t))
    have h4 : |r (y * t)| ≤ |y * t| + u 53 * |y * t| := by
      have := abs_sub_abs_le_abs_sub (r (y * t)) (y * t)
      linarith
    linarith
  have hu : u 53 ≤ 1 / 1000 := by rw [u53]; norm_num
  have hu0 : 0 < u 53 := u_pos
  have e : r (x - r (y * t)) - (x - y * t) = (r (x - r (y * t)) - (x - r (y * t))) - (r (y * t) - y * t) := by ring
  rw [e]
  refine (abs_sub _ _).trans ?_
  have h0 := abs_nonneg (y * t)
  generalize |y * t| = a at *
  generalize u 53 = w at *
  nlinarith [abs_nonneg x, mul_le_mul_of_nonneg_left h3 hu0.le, mul_nonneg hu0.le h0, mul_nonneg (mul_nonneg hu0.le hu0.le) h0]

/-- Dividing a row by the pivot. `B` is a row of the right hand side, `A` the row of the left hand side that it should give when multiplied with `M`. -/
theorem row_scale (r : Rounding 53) {M : Matrix (Fin n) (Fin n) ℝ} {μ : ℝ} (hμ : ∀ i j, |M i j| ≤ μ) {B A A' : Fin n → ℝ} {t T ρ α β : ℝ} (hT : 0 < T) (ht : T ≤ |t|)
    (hres : ∀ c, |∑ l, B l * M l c - A c| ≤ ρ) (hB : ∑ l, |B l| ≤ β) (hA : ∀ c, |A' c - A c / t| ≤ u 53 * α) :
    (∀ c, |∑ l, r (B l / t) * M l c - A' c| ≤ (ρ + u 53 * μ * β) / T + u 53 * α) ∧ ∑ l, |r (B l / t)| ≤ (1 + u 53) * β / T := by
  have hu0 : 0 < u 53 := u_pos
  have ht0 : 0 < |t| := hT.trans_le ht
  have hβ : 0 ≤ β := (Finset.sum_nonneg fun _ _ => abs_nonneg _).trans hB
  have hdiv : ∀ x : ℝ, 0 ≤ x → x / |t| ≤ x / T := fun x hx => div_le_div_of_nonneg_left hx hT ht
  constructor
  · intro c
    have hμ0 : 0 ≤ μ := (abs_nonneg _).trans (hμ c c)
    have hρ : 0 ≤ ρ := (abs_nonneg _).trans (hres c)
    have e : ∑ l, r (B l / t) * M l c - A' c = (∑ l, B l * M l c - A c) / t + ∑ l, (r (B l / t) - B l / t) * M l c - (A' c - A c / t) := by
      have : ∑ l, r (B l / t) * M l c = ∑ l, (r (B l / t) - B l / t) * M l c + (∑ l, B l * M l c) / t := by
        rw [Finset.sum_div, ← Finset.sum_add_distrib]
        exact Finset.sum_congr rfl fun l _ => by ring
      rw [this, sub_div]; ring
    have h1 : |(∑ l, B l * M l c - A c) / t| ≤ ρ / T := by
      rw [abs_div]
      exact (div_le_div_of_nonneg_right (hres c) ht0.le).trans (hdiv _ hρ)
    have h2 : |∑ l, (r (B l / t) - B l / t) * M l c| ≤ u 53 * μ * β / T := by
      calc |∑ l, (r (B l / t) - B l / t) * M l c| ≤ ∑ l, |(r (B l / t) - B l / t) * M l c| := Finset.abs_sum_le_sum_abs _ _
        _ ≤ ∑ l, u 53 * μ / |t| * |B l| := Finset.sum_le_sum fun l _ => by
            rw [abs_mul]
            calc |r (B l / t) - B l / t| * |M l c| ≤ (u 53 * |B l / t|) * μ := mul_le_mul (r.err pos53 _) (hμ l c) (abs_nonneg _) (by positivity)
              _ = u 53 * μ / |t| * |B l| := by rw [abs_div]; ring
        _ = u 53 * μ / |t| * ∑ l, |B l| := by rw [Finset.mul_sum]
        _ ≤ u 53 * μ / |t| * β := mul_le_mul_of_nonneg_left hB (by positivity)
        _ = u 53 * μ * β / |t| := by ring
        _ ≤ u 53 * μ * β / T := hdiv _ (by positivity)
    rw [e]
    refine (abs_sub _ _).trans ((add_le_add (abs_add_le _ _) (hA c)).trans ?_)
    rw [add_div]
    linarith
  · calc ∑ l, |r (B l / t)| ≤ ∑ l, (1 + u 53) / |t| * |B l| := Finset.sum_le_sum fun l _ => by
          refine (r.abs_le pos53 _).trans (le_of_eq ?_)
          rw [abs_div]; ring
      _ = (1 + u 53) / |t| * ∑ l, |B l| := by rw [Finset.mul_sum]
      _ ≤ (1 + u 53) / |t| * β := mul_le_mul_of_nonneg_left hB (by positivity)
      _ = (1 + u 53) * β / |t| := by ring
      _ ≤ (1 + u 53) * β / T := hdiv _ (by positivity)

/-- Subtracting a multiple of one row from another. -/
theorem row_clear (r : Rounding 53) {M : Matrix (Fin n) (Fin n) ℝ} {μ : ℝ} (hμ : ∀ i j, |M i j| ≤ μ) {B C A D A' : Fin n → ℝ} {t τ ρ σ α β γ : ℝ} (ht : |t| ≤ τ)
    (hres : ∀ c, |∑ l, B l * M l c - A c| ≤ ρ) (hres' : ∀ c, |∑ l, C l * M l c - D c| ≤ σ) (hB : ∑ l, |B l| ≤ β) (hC : ∑ l, |C l| ≤ γ)
    (hA : ∀ c, |A' c - (A c - D c * t)| ≤ u 53 * α) :
    (∀ c, |∑ l, r (B l - r (C l * t)) * M l c - A' c| ≤ ρ + τ * σ + u 53 * μ * (β + 21 / 10 * (γ * τ)) + u 53 * α) ∧
    ∑ l, |r (B l - r (C l * t))| ≤ (1 + 21 / 10 * u 53) * (β + γ * τ) := by
  have hu0 : 0 < u 53 := u_pos
  have hτ : 0 ≤ τ := (abs_nonneg _).trans ht
  have hγ : 0 ≤ γ := (Finset.sum_nonneg fun _ _ => abs_nonneg _).trans hC
  have hCt : ∑ l, |C l * t| ≤ γ * τ := by
    simp only [abs_mul]
    rw [← Finset.sum_mul]
    exact mul_le_mul hC ht (abs_nonneg _) hγ
  constructor
  · intro c
    have hμ0 : 0 ≤ μ := (abs_nonneg _).trans (hμ c c)
    have hσ : 0 ≤ σ := (abs_nonneg _).trans (hres' c)
    have e : ∑ l, r (B l - r (C l * t)) * M l c - A' c = (∑ l, B l * M l c - A c) - t * (∑ l, C l * M l c - D c) +
        ∑ l, (r (B l - r (C l * t)) - (B l - C l * t)) * M l c - (A' c - (A c - D c * t)) := by
      have : ∑ l, r (B l - r (C l * t)) * M l c = ∑ l, (r (B l - r (C l * t)) - (B l - C l * t)) * M l c + ∑ l, B l * M l c - t * ∑ l, C l * M l c := by
        rw [Finset.mul_sum, ← Finset.sum_add_distrib, ← Finset.sum_sub_distrib]
        exact Finset.sum_congr rfl fun l _ => by ring
      rw [this]; ring
    have h1 : |t * (∑ l, C l * M l c - D c)| ≤ τ * σ := by
      rw [abs_mul]
      exact mul_le_mul ht (hres' c) (abs_nonneg _) hτ
    have h2 : |∑ l, (r (B l - r (C l * t)) - (B l - C l * t)) * M l c| ≤ u 53 * μ * (β + 21 / 10 * (γ * τ)) := by
      calc |∑ l, (r (B l - r (C l * t)) - (B l - C l * t)) * M l c| ≤ ∑ l, |(r (B l - r (C l * t)) - (B l - C l * t)) * M l c| := Finset.abs_sum_le_sum_abs _ _
        _ ≤ ∑ l, (u 53 * μ) * (|B l| + 21 / 10 * |C l * t|) := Finset.sum_le_sum fun l _ => by
            rw [abs_mul]
            calc _ ≤ (u 53 * (|B l| + 21 / 10 * |C l * t|)) * μ := mul_le_mul (comb_err r _ _ _) (hμ l c) (abs_nonneg _) (by positivity)
              _ = _ := by ring
        _ = (u 53 * μ) * (∑ l, |B l| + 21 / 10 * ∑ l, |C l * t|) := by rw [← Finset.mul_sum, Finset.sum_add_distrib, ← Finset.mul_sum]
        _ ≤ _ := mul_le_mul_of_nonneg_left (by linarith) (by positivity)
    rw [e]
    refine (abs_sub _ _).trans ((add_le_add (abs_add_le _ _) (hA c)).trans ?_)
    have := (abs_sub (∑ l, B l * M l c - A c) (t * (∑ l, C l * M l c - D c))).trans (add_le_add (hres c) h1)
    linarith
  · calc ∑ l, |r (B l - r (C l * t))| ≤ ∑ l, (1 + 21 / 10 * u 53) * (|B l| + |C l * t|) := Finset.sum_le_sum fun l _ => by
          have h1 := comb_err r (B l) (C l) t
          have h2 := abs_sub (B l) (C l * t)
          have h3 : |r (B l - r (C l * t))| ≤ |B l - C l * t| + |r (B l - r (C l * t)) - (B l - C l * t)| := by
            have := abs_sub_abs_le_abs_sub (r (B l - r (C l * t))) (B l - C l * t)
            linarith
          nlinarith [mul_nonneg hu0.le (abs_nonneg (B l)), mul_nonneg hu0.le (abs_nonneg (C l * t))]
      _ = (1 + 21 / 10 * u 53) * (∑ l, |B l| + ∑ l, |C l * t|) := by rw [← Finset.mul_sum, Finset.sum_add_distrib]
      _ ≤ _ := mul_le_mul_of_nonneg_left (by linarith) (by positivity)

end Fl

end WFMath
