/- Euclidean length of a tuple of coordinates. -/
import Verif.Lemmas.Vector

namespace WFMath
open Matrix
variable {n : Nat}

/-- Euclidean length. -/
noncomputable def len (v : Fin n → ℝ) : ℝ := Real.sqrt (v ⬝ᵥ v)

theorem mag_eq_len (v : Vec n) : v.mag = len v.elem := rfl

theorem dot_self_nonneg (v : Fin n → ℝ) : 0 ≤ v ⬝ᵥ v := Vec.sqrMag_nonneg ⟨v, true⟩

theorem len_nonneg (v : Fin n → ℝ) : 0 ≤ len v := Real.sqrt_nonneg _

theorem len_sq (v : Fin n → ℝ) : len v ^ 2 = v ⬝ᵥ v := Real.sq_sqrt (dot_self_nonneg v)

theorem abs_dot_le_len (u v : Fin n → ℝ) : |u ⬝ᵥ v| ≤ len u * len v :=
  Vec.abs_dotProduct_le ⟨u, true⟩ ⟨v, true⟩

theorem dot_le_len (u v : Fin n → ℝ) : u ⬝ᵥ v ≤ len u * len v := (le_abs_self _).trans (abs_dot_le_len u v)

theorem abs_le_len (v : Fin n → ℝ) (i : Fin n) : |v i| ≤ len v :=
  (le_maxAbs v i).trans (Vec.maxAbs_le_mag ⟨v, true⟩)

theorem len_zero : len (0 : Fin n → ℝ) = 0 := by simp [len]

theorem len_eq_zero {v : Fin n → ℝ} : len v = 0 ↔ v = 0 := by
  rw [len, Real.sqrt_eq_zero (dot_self_nonneg v)]; exact Vec.sqrMag_eq_zero (v := ⟨v, true⟩)

theorem len_pos {v : Fin n → ℝ} : 0 < len v ↔ v ≠ 0 := by
  rw [(len_nonneg v).lt_iff_ne', Ne, len_eq_zero]

theorem len_smul (c : ℝ) (v : Fin n → ℝ) : len (c • v) = |c| * len v := by
  rw [len, len, smul_dotProduct, dotProduct_smul, smul_eq_mul, smul_eq_mul, ← mul_assoc, Real.sqrt_mul (mul_self_nonneg c),
    Real.sqrt_mul_self_eq_abs]

theorem len_neg (v : Fin n → ℝ) : len (-v) = len v := by simp [len]

theorem len_add_le (u v : Fin n → ℝ) : len (u + v) ≤ len u + len v := by
  refine Real.sqrt_le_iff.2 ⟨add_nonneg (len_nonneg u) (len_nonneg v), ?_⟩
  have h := dot_le_len u v
  rw [add_sq, len_sq, len_sq, add_dotProduct, dotProduct_add, dotProduct_add, dotProduct_comm v u]
  nlinarith

theorem len_sub_le (u v : Fin n → ℝ) : len (u - v) ≤ len u + len v := by
  have := len_add_le u (-v); rwa [len_neg, ← sub_eq_add_neg] at this

theorem len_sub_comm (u v : Fin n → ℝ) : len (u - v) = len (v - u) := by rw [← len_neg, neg_sub]

theorem len_triangle (a b c : Fin n → ℝ) : len (a - c) ≤ len (a - b) + len (b - c) := by
  have := len_add_le (a - b) (b - c); rwa [sub_add_sub_cancel] at this

/-- Three coordinates bounded by `b`. -/
theorem len3_le {v : Fin 3 → ℝ} {b : ℝ} (hb : 0 ≤ b) (h : ∀ i, |v i| ≤ b) : len v ≤ 2 * b := by
  refine Real.sqrt_le_iff.2 ⟨by linarith, ?_⟩
  have h' : ∀ i, v i * v i ≤ b * b := by
    intro i
    have := abs_le.1 (h i)
    nlinarith
  simp only [dotProduct, Fin.sum_univ_three]
  have := h' 0; have := h' 1; have := h' 2
  nlinarith [mul_self_nonneg b]

end WFMath
