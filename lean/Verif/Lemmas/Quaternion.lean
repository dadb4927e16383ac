/- Quaternion algebra used by the quaternion and 3D rotation properties. -/
import Verif.Spec.Quaternion
import Verif.Lemmas.RotMatrix
import Verif.Props.Vector
import Mathlib.Tactic.LinearCombination

namespace WFMath
open Matrix Gauss Spec Quaternion

@[simp] theorem toH_re (q : Quat) : (toH q).re = q.w := rfl
@[simp] theorem toH_imI (q : Quat) : (toH q).imI = q.vec.elem 0 := rfl
@[simp] theorem toH_imJ (q : Quat) : (toH q).imJ = q.vec.elem 1 := rfl
@[simp] theorem toH_imK (q : Quat) : (toH q).imK = q.vec.elem 2 := rfl
@[simp] theorem pureH_re (v : Fin 3 → ℝ) : (pureH v).re = 0 := rfl
@[simp] theorem pureH_imI (v : Fin 3 → ℝ) : (pureH v).imI = v 0 := rfl
@[simp] theorem pureH_imJ (v : Fin 3 → ℝ) : (pureH v).imJ = v 1 := rfl
@[simp] theorem pureH_imK (v : Fin 3 → ℝ) : (pureH v).imK = v 2 := rfl
@[simp] theorem vecOf_0 (h : ℍ[ℝ]) : vecOf h 0 = h.imI := rfl
@[simp] theorem vecOf_1 (h : ℍ[ℝ]) : vecOf h 1 = h.imJ := rfl
@[simp] theorem vecOf_2 (h : ℍ[ℝ]) : vecOf h 2 = h.imK := rfl

/-- Componentwise equality of 3-vectors. -/
theorem ext3 {u v : Fin 3 → ℝ} (h0 : u 0 = v 0) (h1 : u 1 = v 1) (h2 : u 2 = v 2) : u = v := by
  funext i; fin_cases i <;> assumption

theorem cross0 (u v : Fin 3 → ℝ) : (u ⨯₃ v) 0 = u 1 * v 2 - u 2 * v 1 := by simp [cross_apply]
theorem cross1 (u v : Fin 3 → ℝ) : (u ⨯₃ v) 1 = u 2 * v 0 - u 0 * v 2 := by simp [cross_apply]
theorem cross2' (u v : Fin 3 → ℝ) : (u ⨯₃ v) 2 = u 0 * v 1 - u 1 * v 0 := by simp [cross_apply]
theorem dot3 (u v : Fin 3 → ℝ) : u ⬝ᵥ v = u 0 * v 0 + u 1 * v 1 + u 2 * v 2 := by
  simp [dotProduct, Fin.sum_univ_three]

theorem normSq_toH (q : Quat) : normSq (toH q) = q.w * q.w + q.vec.sqrMag := by
  rw [normSq_def']; simp [Vec.sqrMag, Fin.sum_univ_three]; ring

theorem normSq_eq_one {h : ℍ[ℝ]} : normSq h = 1 ↔ ‖h‖ = 1 := by
  rw [normSq_eq_norm_mul_self]
  constructor
  · intro h1
    have := norm_nonneg h
    nlinarith
  · intro h1; rw [h1]; norm_num

theorem inv_of_unit {h : ℍ[ℝ]} (hu : normSq h = 1) : h⁻¹ = star h := by
  rw [Quaternion.instInv]; simp [hu]

theorem act_star {h : ℍ[ℝ]} (hu : normSq h = 1) (v : Fin 3 → ℝ) : act h v = vecOf (h * pureH v * star h) := by
  rw [act, inv_of_unit hu]

/-- Rodrigues' formula. -/
theorem act_formula {h : ℍ[ℝ]} (hu : normSq h = 1) (v : Fin 3 → ℝ) :
    act h v = (2 * h.re ^ 2 - 1) • v + (2 * (vecOf h ⬝ᵥ v)) • vecOf h + (2 * h.re) • (vecOf h ⨯₃ v) := by
  rw [act_star hu]
  rw [normSq_def'] at hu
  apply ext3 <;> simp [cross0, cross1, cross2', dot3]
  · linear_combination -(v 0) * hu
  · linear_combination -(v 1) * hu
  · linear_combination -(v 2) * hu

theorem pureH_vecOf {h : ℍ[ℝ]} (h0 : h.re = 0) : pureH (vecOf h) = h := by
  ext <;> simp [pureH, vecOf, h0]

theorem vecOf_pureH (v : Fin 3 → ℝ) : vecOf (pureH v) = v := by
  funext i; fin_cases i <;> rfl

theorem conj_re {h : ℍ[ℝ]} (hu : normSq h = 1) (x : ℍ[ℝ]) : (h * x * star h).re = x.re := by
  rw [normSq_def'] at hu
  simp
  linear_combination (x.re) * hu

theorem pureH_act {h : ℍ[ℝ]} (hu : normSq h = 1) (v : Fin 3 → ℝ) : pureH (act h v) = h * pureH v * star h := by
  rw [act_star hu, pureH_vecOf]
  rw [conj_re hu]; rfl

theorem act_mul {a b : ℍ[ℝ]} (ha : normSq a = 1) (hb : normSq b = 1) (v : Fin 3 → ℝ) :
    act (a * b) v = act a (act b v) := by
  have hab : normSq (a * b) = 1 := by rw [map_mul, ha, hb, one_mul]
  rw [act_star hab, act_star ha, pureH_act hb, star_mul]
  simp only [mul_assoc]

theorem act_one (v : Fin 3 → ℝ) : act 1 v = v := by
  rw [act, inv_one, one_mul, mul_one, vecOf_pureH]

theorem star_unit {h : ℍ[ℝ]} (hu : normSq h = 1) : normSq (star h) = 1 := by rw [normSq_star, hu]

theorem mul_star_unit {h : ℍ[ℝ]} (hu : normSq h = 1) : h * star h = 1 := by
  rw [self_mul_star, hu]; rfl

theorem star_mul_unit {h : ℍ[ℝ]} (hu : normSq h = 1) : star h * h = 1 := by
  rw [star_mul_self, hu]; rfl

theorem act_star_act {h : ℍ[ℝ]} (hu : normSq h = 1) (v : Fin 3 → ℝ) : act (star h) (act h v) = v := by
  rw [← act_mul (star_unit hu) hu, star_mul_unit hu, act_one]

theorem act_act_star {h : ℍ[ℝ]} (hu : normSq h = 1) (v : Fin 3 → ℝ) : act h (act (star h) v) = v := by
  rw [← act_mul hu (star_unit hu), mul_star_unit hu, act_one]

theorem pureH_mul (u v : Fin 3 → ℝ) : (pureH u * pureH v).re = -(u ⬝ᵥ v) ∧ vecOf (pureH u * pureH v) = u ⨯₃ v := by
  constructor
  · simp [dot3]; ring
  · apply ext3 <;> simp [cross0, cross1, cross2']
    ring

theorem conj_mul {h : ℍ[ℝ]} (hu : normSq h = 1) (x y : ℍ[ℝ]) :
    (h * x * star h) * (h * y * star h) = h * (x * y) * star h := by
  have := star_mul_unit hu
  calc (h * x * star h) * (h * y * star h) = h * x * (star h * h) * y * star h := by simp only [mul_assoc]
    _ = _ := by rw [this]; simp only [mul_assoc, mul_one, one_mul]

theorem act_dot {h : ℍ[ℝ]} (hu : normSq h = 1) (u v : Fin 3 → ℝ) : act h u ⬝ᵥ act h v = u ⬝ᵥ v := by
  have h1 := (pureH_mul (act h u) (act h v)).1
  rw [pureH_act hu, pureH_act hu, conj_mul hu, conj_re hu, (pureH_mul u v).1] at h1
  linarith

theorem vecOf_conj {h : ℍ[ℝ]} (hu : normSq h = 1) (x : ℍ[ℝ]) : vecOf (h * x * star h) = act h (vecOf x) := by
  have e : x = (x.re : ℍ[ℝ]) + pureH (vecOf x) := by ext <;> simp
  have : h * x * star h = (x.re : ℍ[ℝ]) + h * pureH (vecOf x) * star h := by
    conv_lhs => rw [e]
    rw [mul_add, add_mul, ← coe_commutes, mul_assoc, mul_star_unit hu, mul_one]
  rw [this, act_star hu]
  apply ext3 <;> simp

theorem act_cross {h : ℍ[ℝ]} (hu : normSq h = 1) (u v : Fin 3 → ℝ) : act h u ⨯₃ act h v = act h (u ⨯₃ v) := by
  rw [← (pureH_mul (act h u) (act h v)).2, pureH_act hu, pureH_act hu, conj_mul hu, vecOf_conj hu, (pureH_mul u v).2]

theorem act_add {h : ℍ[ℝ]} (hu : normSq h = 1) (u v : Fin 3 → ℝ) : act h (u + v) = act h u + act h v := by
  rw [act_formula hu, act_formula hu, act_formula hu, dotProduct_add, map_add]
  module

theorem act_smul {h : ℍ[ℝ]} (hu : normSq h = 1) (c : ℝ) (v : Fin 3 → ℝ) : act h (c • v) = c • act h v := by
  rw [act_formula hu, act_formula hu, dotProduct_smul, map_smul, smul_eq_mul]
  module

theorem vecOf_toH (q : Quat) : vecOf (toH q) = q.vec.elem := by
  funext i; fin_cases i <;> rfl

theorem rotateQ_elem (v : Vec 3) (q : Quat) : (v.rotateQ q).elem =
    (2 * q.w ^ 2 - 1) • v.elem + (2 * q.vec.dot v) • q.vec.elem + (2 * q.w) • (cross3 q.vec v).elem := by
  funext i
  show v.elem i * (2 * q.w * q.w - 1) + q.vec.elem i * 2 * q.vec.dot v + (cross3 q.vec v).elem i * (2 * q.w) = _
  simp only [Pi.add_apply, Pi.smul_apply, smul_eq_mul]
  ring

theorem rotateQ_exact {v : Vec 3} {q : Quat} (hu : ‖toH q‖ = 1) (he : RotExact v q) :
    (v.rotateQ q).elem = act (toH q) v.elem := by
  rw [rotateQ_elem, act_formula (normSq_eq_one.2 hu), vecOf_toH, toH_re, he.1, he.2]

theorem cross_err (u v : Vec 3) (i : Fin 3) :
    |(cross3 u v).elem i - (u.elem ⨯₃ v.elem) i| ≤ 2 * epsilon * min (maxAbs u.elem) (maxAbs v.elem) := by
  rcases C21_components u v i with h | ⟨h, h'⟩
  · rw [h, sub_self, abs_zero]
    exact mul_nonneg (by linarith [epsilon_pos]) (le_min (maxAbs_nonneg _) (maxAbs_nonneg _))
  · rw [h, zero_sub, abs_neg]; exact h'.le

theorem abs_le_norm (q : Quat) : |q.w| ≤ ‖toH q‖ ∧ ∀ i, |q.vec.elem i| ≤ ‖toH q‖ := by
  have h := normSq_toH q
  rw [normSq_eq_norm_mul_self] at h
  have h0 := norm_nonneg (toH q)
  have key : ∀ x : ℝ, x * x ≤ q.w * q.w + q.vec.sqrMag → |x| ≤ ‖toH q‖ := by
    intro x hx
    apply abs_le_of_sq_le_sq _ h0
    nlinarith
  refine ⟨key _ (by linarith [Vec.sqrMag_nonneg q.vec]), fun i => key _ ?_⟩
  have : q.vec.elem i * q.vec.elem i ≤ q.vec.sqrMag :=
    Finset.single_le_sum (f := fun i => q.vec.elem i * q.vec.elem i) (fun i _ => mul_self_nonneg _) (Finset.mem_univ i)
  nlinarith [mul_self_nonneg q.w]

theorem maxAbs_le_norm (q : Quat) : maxAbs q.vec.elem ≤ ‖toH q‖ :=
  maxAbs_le (norm_nonneg _) (abs_le_norm q).2

/-- Rotation by a unit quaternion is exact up to the cut-offs of the inner and cross products. -/
theorem rotateQ_err {v : Vec 3} {q : Quat} (hu : ‖toH q‖ = 1) (i : Fin 3) :
    |(v.rotateQ q).elem i - act (toH q) v.elem i| ≤ 8 * epsilon * maxAbs v.elem := by
  rw [rotateQ_elem, act_formula (normSq_eq_one.2 hu), vecOf_toH, toH_re]
  simp only [Pi.add_apply, Pi.smul_apply, smul_eq_mul]
  have e := epsilon_pos
  have h1 := dot_err' q v
  have h2 := cross_err q.vec v i
  have hw := (abs_le_norm q).1
  have hv := (abs_le_norm q).2 i
  rw [hu] at hw hv
  have hm : 2 * epsilon * min (maxAbs q.vec.elem) (maxAbs v.elem) ≤ 2 * epsilon * maxAbs v.elem :=
    mul_le_mul_of_nonneg_left (min_le_right _ _) (by linarith)
  have e1 : |2 * (q.vec.dot v - q.vec.elem ⬝ᵥ v.elem) * q.vec.elem i| ≤ 4 * epsilon * maxAbs v.elem := by
    rw [abs_mul, abs_mul, abs_two]
    nlinarith [abs_nonneg (q.vec.dot v - q.vec.elem ⬝ᵥ v.elem), abs_nonneg (q.vec.elem i)]
  have e2 : |2 * q.w * ((cross3 q.vec v).elem i - (q.vec.elem ⨯₃ v.elem) i)| ≤ 4 * epsilon * maxAbs v.elem := by
    rw [abs_mul, abs_mul, abs_two]
    nlinarith [abs_nonneg ((cross3 q.vec v).elem i - (q.vec.elem ⨯₃ v.elem) i), abs_nonneg q.w]
  have e3 := abs_add_le (2 * (q.vec.dot v - q.vec.elem ⬝ᵥ v.elem) * q.vec.elem i)
    (2 * q.w * ((cross3 q.vec v).elem i - (q.vec.elem ⨯₃ v.elem) i))
  refine le_trans (le_of_eq ?_) (e3.trans (by linarith))
  congr 1
  ring
where
  dot_err' (q : Quat) (v : Vec 3) :
      |q.vec.dot v - q.vec.elem ⬝ᵥ v.elem| ≤ 2 * epsilon * min (maxAbs q.vec.elem) (maxAbs v.elem) := Vec.dot_err _ _

/-! ### Products -/

/-- Components of a product of (already prepared) quaternions. -/
noncomputable def rawMul (p q : Quat) : ℍ[ℝ] :=
  toH ⟨p.w * q.w - p.vec.dot q.vec, q.vec.scale p.w + p.vec.scale q.w - cross3 p.vec q.vec, true, 0⟩

noncomputable def rawDiv (p q : Quat) : ℍ[ℝ] :=
  toH ⟨p.w * q.w + p.vec.dot q.vec, p.vec.scale q.w - q.vec.scale p.w + cross3 p.vec q.vec, true, 0⟩

theorem toH_mul (p q : Quat) : toH (p.mul q) = rawMul (p.prepare q) q := rfl
theorem toH_div (p q : Quat) : toH (p.div q) = rawDiv (p.prepare q) q := rfl

theorem toH_inverse (q : Quat) : toH q.inverse = star (toH q) := by
  ext <;> simp [Quat.inverse]

theorem norm_le_of_comp {h : ℍ[ℝ]} {e : ℝ} (he : 0 ≤ e) (h0 : |h.re| ≤ e) (h1 : |h.imI| ≤ e) (h2 : |h.imJ| ≤ e)
    (h3 : |h.imK| ≤ e) : ‖h‖ ≤ 2 * e := by
  have := normSq_eq_norm_mul_self h
  rw [normSq_def'] at this
  have a0 := sq_le_sq' (neg_le_of_abs_le h0) (le_of_abs_le h0)
  have a1 := sq_le_sq' (neg_le_of_abs_le h1) (le_of_abs_le h1)
  have a2 := sq_le_sq' (neg_le_of_abs_le h2) (le_of_abs_le h2)
  have a3 := sq_le_sq' (neg_le_of_abs_le h3) (le_of_abs_le h3)
  have hn := norm_nonneg h
  by_contra hc
  push Not at hc
  nlinarith

theorem rawMul_exact {p q : Quat} (hd : DotExact p.vec q.vec) (hc : CrossExact p.vec q.vec) :
    rawMul p q = toH q * toH p := by
  unfold rawMul
  rw [hd]
  have e : (q.vec.scale p.w + p.vec.scale q.w - cross3 p.vec q.vec).elem = fun i =>
      q.vec.elem i * p.w + p.vec.elem i * q.w - (p.vec.elem ⨯₃ q.vec.elem) i := by
    rw [← hc]; rfl
  ext <;> simp only [toH_re, toH_imI, toH_imJ, toH_imK, e] <;> simp [cross0, cross1, cross2', dot3] <;> ring

theorem rawDiv_exact {p q : Quat} (hd : DotExact p.vec q.vec) (hc : CrossExact p.vec q.vec) :
    rawDiv p q = star (toH q) * toH p := by
  unfold rawDiv
  rw [hd]
  have e : (p.vec.scale q.w - q.vec.scale p.w + cross3 p.vec q.vec).elem = fun i =>
      p.vec.elem i * q.w - q.vec.elem i * p.w + (p.vec.elem ⨯₃ q.vec.elem) i := by
    rw [← hc]; rfl
  ext <;> simp only [toH_re, toH_imI, toH_imJ, toH_imK, e] <;> simp [cross0, cross1, cross2', dot3] <;> ring

theorem rawMul_err (p q : Quat) : ‖rawMul p q - toH q * toH p‖ ≤ 4 * epsilon * min ‖toH p‖ ‖toH q‖ := by
  have he := epsilon_pos
  have hm : min (maxAbs p.vec.elem) (maxAbs q.vec.elem) ≤ min ‖toH p‖ ‖toH q‖ :=
    min_le_min (maxAbs_le_norm p) (maxAbs_le_norm q)
  have hm' := mul_le_mul_of_nonneg_left hm (by linarith : 0 ≤ 2 * epsilon)
  have h0 : 0 ≤ 2 * epsilon * min ‖toH p‖ ‖toH q‖ :=
    mul_nonneg (by linarith) (le_min (norm_nonneg _) (norm_nonneg _))
  have hd := (Vec.dot_err p.vec q.vec).trans hm'
  have hc := fun i => (cross_err p.vec q.vec i).trans hm'
  refine (norm_le_of_comp h0 ?_ ?_ ?_ ?_).trans (by linarith)
  · refine le_trans (le_of_eq ?_) hd
    rw [abs_sub_comm]
    congr 1
    simp [rawMul, dot3]; ring
  · refine le_trans (le_of_eq ?_) (hc 0)
    rw [abs_sub_comm]
    congr 1
    simp [rawMul, cross0, cross1, cross2']; ring
  · refine le_trans (le_of_eq ?_) (hc 1)
    rw [abs_sub_comm]
    congr 1
    simp [rawMul, cross0, cross1, cross2']; ring
  · refine le_trans (le_of_eq ?_) (hc 2)
    rw [abs_sub_comm]
    congr 1
    simp [rawMul, cross0, cross1, cross2']; ring

theorem rawDiv_err (p q : Quat) : ‖rawDiv p q - star (toH q) * toH p‖ ≤ 4 * epsilon * min ‖toH p‖ ‖toH q‖ := by
  have he := epsilon_pos
  have hm : min (maxAbs p.vec.elem) (maxAbs q.vec.elem) ≤ min ‖toH p‖ ‖toH q‖ :=
    min_le_min (maxAbs_le_norm p) (maxAbs_le_norm q)
  have hm' := mul_le_mul_of_nonneg_left hm (by linarith : 0 ≤ 2 * epsilon)
  have h0 : 0 ≤ 2 * epsilon * min ‖toH p‖ ‖toH q‖ :=
    mul_nonneg (by linarith) (le_min (norm_nonneg _) (norm_nonneg _))
  have hd := (Vec.dot_err p.vec q.vec).trans hm'
  have hc := fun i => (cross_err p.vec q.vec i).trans hm'
  refine (norm_le_of_comp h0 ?_ ?_ ?_ ?_).trans (by linarith)
  · refine le_trans (le_of_eq ?_) hd
    congr 1
    simp [rawDiv, dot3]; ring
  · refine le_trans (le_of_eq ?_) (hc 0)
    congr 1
    simp [rawDiv, cross0, cross1, cross2']; ring
  · refine le_trans (le_of_eq ?_) (hc 1)
    congr 1
    simp [rawDiv, cross0, cross1, cross2']; ring
  · refine le_trans (le_of_eq ?_) (hc 2)
    congr 1
    simp [rawDiv, cross0, cross1, cross2']; ring

/-! ### Normalisation -/

theorem toH_normalize (q : Quat) : toH q.normalize = (2 / (‖toH q‖ ^ 2 + 1)) • toH q := by
  have h := normSq_toH q
  rw [normSq_eq_norm_mul_self] at h
  have e : (q.w * q.w + q.vec.sqrMag + 1) / 2 = (‖toH q‖ ^ 2 + 1) / 2 := by rw [pow_two, h]
  unfold Quat.normalize
  simp only [e]
  have : (‖toH q‖ ^ 2 + 1) ≠ 0 := by positivity
  ext <;> simp [Vec.divBy] <;> field_simp

theorem norm_normalize (q : Quat) : ‖toH q.normalize‖ = 2 * ‖toH q‖ / (‖toH q‖ ^ 2 + 1) := by
  rw [toH_normalize, norm_smul, Real.norm_eq_abs, abs_of_pos (by positivity)]
  ring

theorem toH_normalize_unit {q : Quat} (hu : ‖toH q‖ = 1) : toH q.normalize = toH q := by
  rw [toH_normalize, hu]; norm_num

theorem toH_prepare_unit {q rhs : Quat} (hu : ‖toH q‖ = 1) : toH (q.prepare rhs) = toH q := by
  unfold Quat.prepare Quat.checkNormalization
  split
  · exact toH_normalize_unit hu
  · rfl

theorem vec_of_toH {p q : Quat} (h : toH p = toH q) : p.w = q.w ∧ p.vec.elem = q.vec.elem := by
  refine ⟨by rw [← toH_re, h, toH_re], by rw [← vecOf_toH, h, vecOf_toH]⟩

theorem prepare_unit {q rhs : Quat} (hu : ‖toH q‖ = 1) :
    (q.prepare rhs).w = q.w ∧ (q.prepare rhs).vec.elem = q.vec.elem := vec_of_toH (toH_prepare_unit hu)

theorem dot_congr {n : Nat} {u u' v v' : Vec n} (h : u.elem = u'.elem) (h' : v.elem = v'.elem) : u.dot v = u'.dot v' := by
  unfold Vec.dot; rw [h, h']

theorem cross_congr {u u' v v' : Vec 3} (h : u.elem = u'.elem) (h' : v.elem = v'.elem) :
    (cross3 u v).elem = (cross3 u' v').elem := by
  unfold cross3; rw [h, h']

end WFMath
