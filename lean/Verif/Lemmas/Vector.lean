/- Helper lemmas about `Model/Vector.lean`. -/
import Verif.Model.Vector
import Verif.Lemmas.Const
import Mathlib.LinearAlgebra.CrossProduct
import Mathlib.LinearAlgebra.Matrix.DotProduct
import Mathlib.Algebra.Order.BigOperators.Ring.Finset

namespace WFMath
open Matrix

namespace Vec
variable {n : Nat}

@[simp] theorem add_elem (u v : Vec n) : (u + v).elem = u.elem + v.elem := rfl
@[simp] theorem add_valid (u v : Vec n) : (u + v).valid = (u.valid && v.valid) := rfl
@[simp] theorem sub_elem (u v : Vec n) : (u - v).elem = u.elem - v.elem := rfl
@[simp] theorem sub_valid (u v : Vec n) : (u - v).valid = (u.valid && v.valid) := rfl
@[simp] theorem neg_elem (v : Vec n) : (-v).elem = -v.elem := rfl
@[simp] theorem neg_valid (v : Vec n) : (-v).valid = v.valid := rfl
@[simp] theorem scale_elem (v : Vec n) (d : ℝ) : (v.scale d).elem = d • v.elem := by
  funext i; simp [scale, mul_comm]
@[simp] theorem scale_valid (v : Vec n) (d : ℝ) : (v.scale d).valid = v.valid := rfl
@[simp] theorem divBy_elem (v : Vec n) (d : ℝ) : (v.divBy d).elem = d⁻¹ • v.elem := by
  funext i; simp [divBy, div_eq_inv_mul]
@[simp] theorem divBy_valid (v : Vec n) (d : ℝ) : (v.divBy d).valid = v.valid := rfl
@[simp] theorem zero_elem : (zero : Vec n).elem = 0 := rfl
@[simp] theorem zero_valid : (zero : Vec n).valid = true := rfl

theorem sqrMag_eq (v : Vec n) : v.sqrMag = v.elem ⬝ᵥ v.elem := rfl

theorem sqrMag_nonneg (v : Vec n) : 0 ≤ v.sqrMag :=
  Finset.sum_nonneg fun i _ => mul_self_nonneg _

theorem sqrMag_eq_zero {v : Vec n} : v.sqrMag = 0 ↔ v.elem = 0 := by
  rw [sqrMag_eq, dotProduct_self_eq_zero]

theorem sqrMag_pos {v : Vec n} : 0 < v.sqrMag ↔ v.elem ≠ 0 := by
  rw [lt_iff_le_and_ne, Ne, Ne, ← sqrMag_eq_zero]
  exact ⟨fun h k => h.2 k.symm, fun h => ⟨sqrMag_nonneg v, fun k => h k.symm⟩⟩

theorem mag_pos {v : Vec n} : 0 < v.mag ↔ v.elem ≠ 0 := by
  rw [mag, Real.sqrt_pos, sqrMag_pos]

theorem mag_nonneg (v : Vec n) : 0 ≤ v.mag := Real.sqrt_nonneg _

theorem mag_sq (v : Vec n) : v.mag ^ 2 = v.sqrMag := Real.sq_sqrt (sqrMag_nonneg v)

theorem sqrMag_scale (v : Vec n) (d : ℝ) : (v.scale d).sqrMag = d ^ 2 * v.sqrMag := by
  rw [sqrMag_eq, sqrMag_eq, scale_elem, smul_dotProduct, dotProduct_smul, smul_eq_mul, smul_eq_mul]
  ring

theorem mag_scale (v : Vec n) (d : ℝ) : (v.scale d).mag = |d| * v.mag := by
  rw [mag, sqrMag_scale, Real.sqrt_mul (sq_nonneg d), Real.sqrt_sq_eq_abs, mag]

/-- Cauchy-Schwarz for the exact inner product. -/
theorem abs_dotProduct_le (u v : Vec n) : |u.elem ⬝ᵥ v.elem| ≤ u.mag * v.mag := by
  rw [← Real.sqrt_sq_eq_abs, mag, mag, ← Real.sqrt_mul (sqrMag_nonneg u)]
  apply Real.sqrt_le_sqrt
  have := Finset.sum_mul_sq_le_sq_mul_sq Finset.univ u.elem v.elem
  simpa [sqrMag, dotProduct, sq] using this

theorem maxAbs_le_mag (v : Vec n) : maxAbs v.elem ≤ v.mag := by
  apply maxAbs_le (mag_nonneg v)
  intro i
  rw [← Real.sqrt_sq_eq_abs, mag]
  apply Real.sqrt_le_sqrt
  rw [sq]
  exact Finset.single_le_sum (f := fun i => v.elem i * v.elem i) (fun i _ => mul_self_nonneg _)
    (Finset.mem_univ i)

theorem abs_mul_maxAbs_le (v : Vec n) (i : Fin n) : |v.elem i| * maxAbs v.elem ≤ v.sqrMag := by
  have h1 := le_trans (le_maxAbs v.elem i) (maxAbs_le_mag v)
  have h2 := maxAbs_le_mag v
  have := mag_sq v
  have := maxAbs_nonneg v.elem
  have := mag_nonneg v
  have := abs_nonneg (v.elem i)
  nlinarith

end Vec

section arr
variable {n : Nat}

theorem scaleEpsilonArr_symm (x y : Fin n → ℝ) (e : ℝ) :
    scaleEpsilonArr x y e = scaleEpsilonArr y x e := scaleEpsilon_symm _ _ _

theorem scaleEpsilonArr_nonneg {x y : Fin n → ℝ} {e : ℝ} (h : 0 ≤ e) : 0 ≤ scaleEpsilonArr x y e :=
  scaleEpsilon_nonneg h

theorem scaleEpsilonArr_pos {x y : Fin n → ℝ} {e : ℝ} (h : 0 < e) : 0 < scaleEpsilonArr x y e :=
  scaleEpsilon_pos h

theorem scaleEpsilonArr_le {x y : Fin n → ℝ} {e : ℝ} (h : 0 ≤ e) (hx : x ≠ 0) (hy : y ≠ 0) :
    scaleEpsilonArr x y e ≤ 2 * e * min (maxAbs x) (maxAbs y) := by
  have := scaleEpsilon_le (x := maxAbs x) (y := maxAbs y) h (maxAbs_eq_zero.not.2 hx)
    (maxAbs_eq_zero.not.2 hy)
  rwa [abs_of_nonneg (maxAbs_nonneg x), abs_of_nonneg (maxAbs_nonneg y)] at this

theorem le_scaleEpsilonArr {x y : Fin n → ℝ} {e : ℝ} (h : 0 ≤ e) :
    e * min (maxAbs x) (maxAbs y) ≤ scaleEpsilonArr x y e := by
  have := le_scaleEpsilon (x := maxAbs x) (y := maxAbs y) h
  rwa [abs_of_nonneg (maxAbs_nonneg x), abs_of_nonneg (maxAbs_nonneg y)] at this

theorem scaleEpsilonArr_zero {x y : Fin n → ℝ} {e : ℝ} (h : x = 0 ∨ y = 0) :
    scaleEpsilonArr x y e = e := by
  apply scaleEpsilon_zero
  rwa [maxAbs_eq_zero, maxAbs_eq_zero]

end arr

namespace Vec
variable {n : Nat}

theorem dot_def (u v : Vec n) : u.dot v =
    if |u.elem ⬝ᵥ v.elem| ≥ scaleEpsilonArr u.elem v.elem epsilon then u.elem ⬝ᵥ v.elem else 0 := rfl

theorem dot_cases (u v : Vec n) : u.dot v = u.elem ⬝ᵥ v.elem ∨
    (u.dot v = 0 ∧ |u.elem ⬝ᵥ v.elem| < scaleEpsilonArr u.elem v.elem epsilon) := by
  rw [dot_def]
  by_cases h : |u.elem ⬝ᵥ v.elem| ≥ scaleEpsilonArr u.elem v.elem epsilon
  · left; rw [if_pos h]
  · right; rw [if_neg h]; exact ⟨rfl, not_le.1 h⟩

theorem dot_comm (u v : Vec n) : u.dot v = v.dot u := by
  rw [dot_def, dot_def, scaleEpsilonArr_symm, dotProduct_comm]

theorem dot_of_zero_left {u v : Vec n} (h : u.elem = 0) : u.dot v = 0 := by
  rcases dot_cases u v with h' | h'
  · rw [h', h, zero_dotProduct]
  · exact h'.1

theorem dot_of_zero_right {u v : Vec n} (h : v.elem = 0) : u.dot v = 0 := by
  rw [dot_comm]; exact dot_of_zero_left h

theorem dot_mul_self_sub (u v : Vec n) : u.dot v * (u.dot v - u.elem ⬝ᵥ v.elem) = 0 := by
  rcases dot_cases u v with h | h
  · rw [h]; ring
  · rw [h.1]; ring

theorem dot_of_exact_zero {u v : Vec n} (h : u.elem ⬝ᵥ v.elem = 0) : u.dot v = 0 := by
  rcases dot_cases u v with h' | h'
  · rw [h', h]
  · exact h'.1

theorem dot_err (u v : Vec n) :
    |u.dot v - u.elem ⬝ᵥ v.elem| ≤ 2 * epsilon * min (maxAbs u.elem) (maxAbs v.elem) := by
  have he := epsilon_pos
  have hm : 0 ≤ min (maxAbs u.elem) (maxAbs v.elem) := le_min (maxAbs_nonneg _) (maxAbs_nonneg _)
  by_cases hu : u.elem = 0
  · rw [dot_of_zero_left hu, hu, zero_dotProduct, sub_zero, abs_zero]; rw [hu] at hm; positivity
  by_cases hv : v.elem = 0
  · rw [dot_of_zero_right hv, hv, dotProduct_zero, sub_zero, abs_zero]; rw [hv] at hm; positivity
  rcases dot_cases u v with h | ⟨h, h'⟩
  · rw [h, sub_self, abs_zero]; positivity
  · rw [h, zero_sub, abs_neg]
    exact le_trans h'.le (scaleEpsilonArr_le he.le hu hv)

theorem abs_dot_le (u v : Vec n) : |u.dot v| ≤ |u.elem ⬝ᵥ v.elem| := by
  rcases dot_cases u v with h | h
  · rw [h]
  · rw [h.1, abs_zero]; exact abs_nonneg _

/-- A simple condition under which `Dot` is exact. -/
theorem dot_exact {u v : Vec n}
    (h : 2 * epsilon * min (maxAbs u.elem) (maxAbs v.elem) ≤ |u.elem ⬝ᵥ v.elem|) :
    u.dot v = u.elem ⬝ᵥ v.elem := by
  by_cases hu : u.elem = 0
  · rw [dot_of_zero_left hu, hu, zero_dotProduct]
  by_cases hv : v.elem = 0
  · rw [dot_of_zero_right hv, hv, dotProduct_zero]
  rw [dot_def, if_pos]
  exact le_trans (scaleEpsilonArr_le epsilon_pos.le hu hv) h

/-- `Dot(v, v)` is exact when some component of `v` is at least `2 eps`. -/
theorem dot_self_exact {v : Vec n} (h : 2 * epsilon ≤ maxAbs v.elem) : v.dot v = v.sqrMag := by
  rw [sqrMag_eq]
  apply dot_exact
  rw [min_self]
  have hm := maxAbs_nonneg v.elem
  have h2 : maxAbs v.elem ^ 2 ≤ v.elem ⬝ᵥ v.elem := by
    rw [← sqrMag_eq, ← mag_sq]
    have := maxAbs_le_mag v
    nlinarith [mag_nonneg v]
  refine le_trans ?_ (le_abs_self _)
  nlinarith

end Vec

/-- A concave quadratic lies above its chord on `[0,1]`. -/
theorem concave_quad {A B C t : ℝ} (hA : A ≤ 0) (h0 : 0 ≤ t) (h1 : t ≤ 1) (g0 : 0 ≤ C)
    (g1 : 0 ≤ A + B + C) : 0 ≤ A * t ^ 2 + B * t + C := by
  have : A * t ^ 2 + B * t + C = -A * (t * (1 - t)) + (1 - t) * C + t * (A + B + C) := by ring
  rw [this]
  have h2 : 0 ≤ t * (1 - t) := mul_nonneg h0 (by linarith)
  have := mul_nonneg (neg_nonneg.2 hA) h2
  have := mul_nonneg (sub_nonneg.2 h1) g0
  have := mul_nonneg h0 g1
  linarith

end WFMath
