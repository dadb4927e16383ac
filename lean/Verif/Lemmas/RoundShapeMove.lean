/- Lemmas for C141: shapes moved and turned in floating point arithmetic. -/
import Verif.Model.RoundedMove
import Verif.Props.RoundMore
import Verif.Props.RoundMove
import Verif.Props.RoundBary
import Verif.Props.RoundRBox

namespace WFMath
open Spec Matrix Rounding
variable {n : Nat}

namespace Fl

theorem u_small : u 53 ≤ 1 / 1000 := by rw [u53]; norm_num

theorem two_u : (2 : ℝ) ^ (-52 : ℤ) = 2 * u 53 := by rw [u53]; norm_num

/-- A sum of a number and a rounded number. -/
theorem add_rnd (r : Rounding 53) (c d : ℝ) : |r (c + r d) - (c + d)| ≤ u 53 * |c + d| + 2 * u 53 * |d| := by
  have h1 := r.err pos53 d
  have h2 := r.err pos53 (c + r d)
  have h3 := abs_sub_le (r (c + r d)) (c + r d) (c + d)
  rw [add_sub_add_left_eq_sub] at h3
  have h4 : |c + r d| ≤ |c + d| + |r d - d| := by
    have := abs_add_le (c + d) (r d - d); rwa [show c + d + (r d - d) = c + r d by ring] at this
  have u0 := u_pos (p := 53)
  have h5 := mul_le_mul_of_nonneg_left (h4.trans (add_le_add_right h1 _)) u0.le
  have h6 : u 53 * (u 53 * |d|) ≤ 1 * (u 53 * |d|) := mul_le_mul_of_nonneg_right (by linarith [u_small]) (mul_nonneg u0.le (abs_nonneg _))
  linarith

/-- The same with a difference. -/
theorem sub_rnd (r : Rounding 53) (c d : ℝ) : |r (c - r d) - (c - d)| ≤ u 53 * |c - d| + 2 * u 53 * |d| := by
  have := add_rnd r c (-d)
  rwa [r.odd, ← sub_eq_add_neg, ← sub_eq_add_neg, abs_neg] at this

/-- Adding a vector and taking it away again. -/
theorem add_sub_rnd (r : Rounding 53) (c v : ℝ) : |r (r (c + v) - v) - c| ≤ 3 * 2 ^ (-53 : ℤ) * (|c| + |v|) := by
  rw [← u53]
  have u0 := u_pos (p := 53)
  have h1 := r.err pos53 (c + v)
  have h2 := r.err pos53 (r (c + v) - v)
  have h3 := abs_sub_le (r (r (c + v) - v)) (r (c + v) - v) c
  rw [show r (c + v) - v - c = r (c + v) - (c + v) by ring] at h3
  have h4 : |r (c + v) - v| ≤ |c| + |r (c + v) - (c + v)| := by
    have := abs_add_le c (r (c + v) - (c + v)); rwa [show c + (r (c + v) - (c + v)) = r (c + v) - v by ring] at this
  have h5 := mul_le_mul_of_nonneg_left (h4.trans (add_le_add_right h1 _)) u0.le
  have h6 : u 53 * (u 53 * |c + v|) ≤ 1 / 1000 * (u 53 * |c + v|) := mul_le_mul_of_nonneg_right u_small (mul_nonneg u0.le (abs_nonneg _))
  have h7 := mul_le_mul_of_nonneg_left (abs_add_le c v) u0.le
  have h8 := mul_nonneg u0.le (abs_nonneg c)
  have h9 := mul_nonneg u0.le (abs_nonneg v)
  linarith

/-- Moving by the difference of `p` and a centre `z` known up to `e`. -/
theorem move_rnd (r : Rounding 53) {c p z g e S : ℝ} (hz : |z - g| ≤ e) (he : e ≤ 2 * u 53 * S) (hc : |c| ≤ S) (hg : |g| ≤ S) :
    |r (c + r (p - z)) - (c + (p - g))| ≤ 2 ^ (-50 : ℤ) * (S + |p|) := by
  have u0 := u_pos (p := 53)
  have hS : 0 ≤ S := (abs_nonneg _).trans hc
  have h1 := add_rnd r c (p - z)
  have h2 := abs_sub_le (r (c + r (p - z))) (c + (p - z)) (c + (p - g))
  rw [show c + (p - z) - (c + (p - g)) = -(z - g) by ring, abs_neg] at h2
  have h3 : |p - z| ≤ |p| + S + e := by
    have a := abs_sub p g
    have b := abs_sub_le p g z
    have d : |p - z| ≤ |p - g| + |g - z| := abs_sub_le p g z
    rw [abs_sub_comm g z] at d
    linarith
  have h4 : |c + (p - z)| ≤ |c| + |p - z| := abs_add_le _ _
  have hu := u_small
  have h5 : u 53 * S ≤ 1 / 1000 * S := mul_le_mul_of_nonneg_right hu hS
  have h6 : |p - z| ≤ |p| + 1002 / 1000 * S := by linarith
  have h7 := mul_le_mul_of_nonneg_left h6 u0.le
  have h8 := mul_le_mul_of_nonneg_left (h4.trans (add_le_add hc h6)) u0.le
  have e1 : (2 : ℝ) ^ (-50 : ℤ) = 8 * u 53 := by rw [u53]; norm_num
  rw [e1]
  have h9 := mul_nonneg u0.le hS
  have h10 := mul_nonneg u0.le (abs_nonneg p)
  linarith

/-- The middle of two numbers, computed. -/
theorem mid_rnd (r : Rounding 53) (x y : ℝ) : |r (r (x * r (1 - 1 / 2)) + r (y * (1 / 2))) - (x + y) / 2| ≤ 2 * u 53 * (|x| + |y|) := by
  rw [show (1 : ℝ) - 1 / 2 = 1 / 2 by norm_num, r.of_fl isFl_half]
  have u0 := u_pos (p := 53)
  have h1 := r.err pos53 (x * (1 / 2))
  have h2 := r.err pos53 (y * (1 / 2))
  have a1 : |x * (1 / 2)| = |x| / 2 := by rw [abs_mul, abs_of_pos (by norm_num : (0 : ℝ) < 1 / 2)]; ring
  have a2 : |y * (1 / 2)| = |y| / 2 := by rw [abs_mul, abs_of_pos (by norm_num : (0 : ℝ) < 1 / 2)]; ring
  rw [a1] at h1
  rw [a2] at h2
  generalize r (x * (1 / 2)) = a at *
  generalize r (y * (1 / 2)) = b at *
  have h3 : |a + b - (x + y) / 2| ≤ u 53 * ((|x| + |y|) / 2) := by
    have := abs_add_le (a - x * (1 / 2)) (b - y * (1 / 2))
    rw [show a - x * (1 / 2) + (b - y * (1 / 2)) = a + b - (x + y) / 2 by ring] at this
    linarith
  have h4 := r.err pos53 (a + b)
  have h5 := abs_sub_le (r (a + b)) (a + b) ((x + y) / 2)
  have h6 : |a + b| ≤ |a + b - (x + y) / 2| + |(x + y) / 2| := by
    have := abs_add_le (a + b - (x + y) / 2) ((x + y) / 2); rwa [sub_add_cancel] at this
  have h7 : |(x + y) / 2| ≤ (|x| + |y|) / 2 := by
    rw [abs_div, abs_of_pos (by norm_num : (0 : ℝ) < 2)]; linarith [abs_add_le x y]
  have h8 := mul_le_mul_of_nonneg_left (h6.trans (add_le_add h3 h7)) u0.le
  have hs : 0 ≤ |x| + |y| := by positivity
  have h9 : u 53 * (u 53 * ((|x| + |y|) / 2)) ≤ 1 / 1000 * (u 53 * ((|x| + |y|) / 2)) := mul_le_mul_of_nonneg_right u_small (mul_nonneg u0.le (by linarith))
  have h10 := mul_nonneg u0.le hs
  linarith

/-- A point with doubles as coordinates turned about itself stays where it is. -/
theorem rotate_self (r : Rounding 53) (c : Pt n) (m : RotMat n) (hc : ∀ i, IsFl 53 (c.elem i)) : (ptRotate r c m c).elem = c.elem := by
  funext i
  show r (c.elem i + sum r fun j => r (m.elem j i * r (c.elem j - c.elem j))) = c.elem i
  simp only [sub_self, r.zero, mul_zero]
  rw [sum_zero, add_zero, r.of_fl (hc i)]

/-- Turning about a point `z` near `g` instead of about `g`. -/
theorem about_near' {A : (Fin n → ℝ) → Fin n → ℝ} (dA : ∀ a b, len (A a - A b) = len (a - b)) {q x z g : Fin n → ℝ} {T t d : ℝ} (hT : 0 ≤ T) (ht : 0 ≤ t)
    (hz : len (z - g) ≤ d) (h : len (q - (z + A (x - z))) ≤ T * len (x - z) + t * len z) :
    len (q - (g + A (x - g))) ≤ T * (len (x - g) + d) + t * (len g + d) + 2 * d := by
  have h1 := len_triangle q (z + A (x - z)) (g + A (x - g))
  rw [show z + A (x - z) - (g + A (x - g)) = (z - g) + (A (x - z) - A (x - g)) by abel] at h1
  have h2 := len_add_le (z - g) (A (x - z) - A (x - g))
  rw [dA, show x - z - (x - g) = g - z by abel, len_sub_comm g z] at h2
  have h3 := len_triangle x g z
  rw [len_sub_comm g z] at h3
  have h4 : len z ≤ len g + len (z - g) := by
    have := len_add_le g (z - g); rwa [add_sub_cancel] at this
  have h5 : T * len (x - z) ≤ T * (len (x - g) + d) := mul_le_mul_of_nonneg_left (h3.trans (by linarith)) hT
  have h6 : t * len z ≤ t * (len g + d) := mul_le_mul_of_nonneg_left (h4.trans (by linarith)) ht
  linarith

/-- The same for a matrix. -/
theorem about_near {R : Matrix (Fin n) (Fin n) ℝ} (hR : Rᵀ * R = 1) {q x z g : Fin n → ℝ} {T t d : ℝ} (hT : 0 ≤ T) (ht : 0 ≤ t) (hz : len (z - g) ≤ d)
    (h : len (q - (z + (x - z) ᵥ* R)) ≤ T * len (x - z) + t * len z) :
    len (q - (g + (x - g) ᵥ* R)) ≤ T * (len (x - g) + d) + t * (len g + d) + 2 * d := by
  have hR' : Rᵀᵀ * Rᵀ = 1 := by rw [transpose_transpose]; exact mul_eq_one_comm.1 hR
  have lA : ∀ v, len (v ᵥ* R) = len v := fun v => by rw [← mulVec_transpose, len_orth hR']
  exact about_near' (A := fun v => v ᵥ* R) (fun a b => by show len (a ᵥ* R - b ᵥ* R) = _; rw [← sub_vecMul, lA]) hT ht hz h

end Fl
end WFMath
