/- Property theorems C130: building rotations in floating point arithmetic. -/
import Verif.Model.RoundedRot
import Verif.Props.RoundMatrix
import Verif.Props.Rotate3D

namespace WFMath
open Spec Matrix Gauss Quaternion
variable {n : Nat}

namespace Fl

theorem len_single_mul (j : Fin n) (a : ℝ) : len (Pi.single j a : Fin n → ℝ) = |a| := by
  have e : (Pi.single j a : Fin n → ℝ) = a • Pi.single j 1 := by
    funext i; by_cases h : i = j <;> simp [Pi.single_apply, h]
  rw [e, len_smul, len_single, mul_one]

/-- A vector with at most two components that are not zero. -/
theorem len_two {f : Fin n → ℝ} {i j : Fin n} (hij : i ≠ j) (h : ∀ k, k ≠ i → k ≠ j → f k = 0) : len f ≤ |f i| + |f j| := by
  have e : f = Pi.single i (f i) + Pi.single j (f j) := by
    funext k
    by_cases hi : k = i
    · subst hi; simp [Pi.single_apply, hij]
    · by_cases hj : k = j
      · subst hj; simp [Pi.single_apply, hi]
      · simp [Pi.single_apply, hi, hj, h k hi hj]
  calc len f = len (Pi.single i (f i) + Pi.single j (f j)) := by rw [← e]
    _ ≤ _ := (len_add_le _ _).trans (by rw [len_single_mul, len_single_mul])

end Fl

/-- C130, `RotMatrix::rotation(i, j, theta)`: the matrix stands for the rotation by `theta` in the plane of the two axes, with an error of at most `2⁻⁵⁰`. -/
theorem C130_plane (T : Trig) (i j : Fin n) (hij : i ≠ j) (θ : ℝ) :
    ∃ m M, Fl.rotation T i j θ = some m ∧ RotMat.rotation i j θ = some M ∧ Stands m.elem M.elem (2 ^ (-50 : ℤ)) ∧ m.valid = true ∧ m.flip = false ∧ m.age = 1 := by
  refine ⟨_, _, by rw [Fl.rotation, if_neg hij], by rw [RotMat.rotation, if_neg hij], fun v => ?_, rfl, rfl, rfl⟩
  have hc := T.cos_err θ
  have hs := T.sin_err θ
  rw [← sub_mulVec]
  set A := (Matrix.of fun k l => if k = l then (if k = i ∨ k = j then T.cos θ else 1) else if k = i ∧ l = j then T.sin θ else if k = j ∧ l = i then -T.sin θ else 0) -
    Matrix.of fun k l => if k = l then (if k = i ∨ k = j then Real.cos θ else 1) else if k = i ∧ l = j then Real.sin θ else if k = j ∧ l = i then -Real.sin θ else 0 with hA
  have hA0 : ∀ k l, k ≠ i → k ≠ j → A k l = 0 := fun k l hi hj => by simp [hA, Matrix.sub_apply, hi, hj]
  have hAl : ∀ k l, l ≠ i → l ≠ j → A k l = 0 := fun k l hi hj => by
    by_cases h : k = l
    · subst h; exact hA0 k k hi hj
    · simp [hA, Matrix.sub_apply, hi, hj, h]
  have hb : ∀ k l, |A k l| ≤ 2 ^ (-52 : ℤ) := by
    intro k l
    simp only [hA, Matrix.sub_apply, Matrix.of_apply]
    split_ifs
    · exact hc
    · simp
    · exact hs
    · rw [neg_sub_neg, abs_sub_comm]; exact hs
    · simp
  have hv : ∀ k, |(A *ᵥ v) k| ≤ 2 ^ (-52 : ℤ) * (2 * len v) := by
    intro k
    have e : (A *ᵥ v) k = A k i * v i + A k j * v j := by
      unfold mulVec dotProduct
      refine Finset.sum_eq_add_of_mem i j (Finset.mem_univ _) (Finset.mem_univ _) hij fun l _ hl => ?_
      show A k l * v l = 0
      rw [hAl k l hl.1 hl.2, zero_mul]
    rw [e]
    refine (abs_add_le _ _).trans ?_
    rw [abs_mul, abs_mul]
    have h1 := mul_le_mul (hb k i) (abs_le_len v i) (abs_nonneg _) (by positivity)
    have h2 := mul_le_mul (hb k j) (abs_le_len v j) (abs_nonneg _) (by positivity)
    linarith
  refine (Fl.len_two hij fun k hi hj => ?_).trans ((add_le_add (hv i) (hv j)).trans (le_of_eq (by norm_num; ring)))
  unfold mulVec dotProduct
  exact Finset.sum_eq_zero fun l _ => by show A k l * v l = 0; rw [hA0 k l hi hj, zero_mul]

/-- C130, `Vector::rotate(axis1, axis2, theta)`: the computed vector is off by at most `2⁻⁴⁸` times its length. -/
theorem C130_vector (r : Rounding 53) (T : Trig) (v : Vec n) (i j : Fin n) (hij : i ≠ j) (θ : ℝ) :
    ∃ w W, Fl.vecRotate r T v i j θ = some w ∧ v.rotate i j θ = some W ∧ len (w.elem - W.elem) ≤ 2 ^ (-48 : ℤ) * len v.elem ∧ w.valid = v.valid := by
  have e1 : Fl.vecRotate r T v i j θ = some ⟨Function.update (Function.update v.elem i (r (r (v.elem i * T.cos θ) - r (v.elem j * T.sin θ)))) j
      (r (r (v.elem j * T.cos θ) + r (v.elem i * T.sin θ))), v.valid⟩ := by rw [Fl.vecRotate, if_neg hij]
  have e2 : v.rotate i j θ = some ⟨Function.update (Function.update v.elem i (v.elem i * Real.cos θ - v.elem j * Real.sin θ)) j
      (v.elem j * Real.cos θ + v.elem i * Real.sin θ), v.valid⟩ := by rw [Vec.rotate, if_neg hij]
  refine ⟨_, _, e1, e2, ?_, rfl⟩
  have hc := T.cos_err θ
  have hs := T.sin_err θ
  have hC := Real.abs_cos_le_one θ
  have hS := Real.abs_sin_le_one θ
  have hL := len_nonneg v.elem
  have key : ∀ a b : Fin n, |r (r (v.elem a * T.cos θ) - r (v.elem b * T.sin θ)) - (v.elem a * Real.cos θ - v.elem b * Real.sin θ)| ≤ 2 ^ (-49 : ℤ) * len v.elem ∧
      |r (r (v.elem a * T.cos θ) + r (v.elem b * T.sin θ)) - (v.elem a * Real.cos θ + v.elem b * Real.sin θ)| ≤ 2 ^ (-49 : ℤ) * len v.elem := by
    intro a b
    have ha := abs_le_len v.elem a
    have hb := abs_le_len v.elem b
    have m1 := Fl.err_mul r (show |v.elem a - v.elem a| ≤ 0 by simp) hc ha hC
    have m2 := Fl.err_mul r (show |v.elem b - v.elem b| ≤ 0 by simp) hs hb hS
    have b1 : |v.elem a * Real.cos θ| ≤ len v.elem := by
      rw [abs_mul]; exact (mul_le_mul ha hC (abs_nonneg _) hL).trans (by rw [mul_one])
    have b2 : |v.elem b * Real.sin θ| ≤ len v.elem := by
      rw [abs_mul]; exact (mul_le_mul hb hS (abs_nonneg _) hL).trans (by rw [mul_one])
    have s1 := Fl.err_sub r m1 m2 b1 b2
    have s2 := Fl.err_add r m1 m2 b1 b2
    constructor
    · refine s1.trans ?_
      norm_num
      linarith
    · refine s2.trans ?_
      norm_num
      linarith
  refine (Fl.len_two hij fun k hi hj => ?_).trans ((add_le_add (b := 2 ^ (-49 : ℤ) * len v.elem) (d := 2 ^ (-49 : ℤ) * len v.elem) ?_ ?_).trans (le_of_eq (by norm_num; ring)))
  · simp [Function.update_of_ne hi, Function.update_of_ne hj]
  · simp only [Pi.sub_apply, Function.update_of_ne hij, Function.update_self]
    exact (key i j).1
  · simp only [Pi.sub_apply, Function.update_self]
    exact (key j i).2

/-! ### Quaternions from an axis and an angle -/

namespace Fl

theorem norm_toH_sub_le (p q : Quat) : ‖toH p - toH q‖ ≤ |p.w - q.w| + len (p.vec.elem - q.vec.elem) := by
  have h0 := abs_nonneg (p.w - q.w)
  have h1 := len_nonneg (p.vec.elem - q.vec.elem)
  refine abs_le_of_sq_le_sq' (?_ : ‖toH p - toH q‖ ^ 2 ≤ _ ^ 2) (by positivity) |>.2
  have h2 := len_sq (p.vec.elem - q.vec.elem)
  rw [dot3] at h2
  simp only [Pi.sub_apply] at h2
  rw [sq ‖toH p - toH q‖, ← normSq_eq_norm_mul_self, normSq_def']
  simp only [re_sub, imI_sub, imJ_sub, imK_sub, toH_re, toH_imI, toH_imJ, toH_imK]
  have h3 := sq_abs (p.w - q.w)
  nlinarith

/-- The unit quaternion for an axis that is not zero and an angle. -/
theorem axis_exact (axis : Vec 3) (h : axis.elem ≠ 0) (θ : ℝ) (b : Bool) (k : Nat) :
    ‖toH ⟨Real.cos (θ / 2), axis.scale (Real.sin (θ / 2) / axis.mag), b, k⟩‖ = 1 ∧
    ∀ v, act (toH ⟨Real.cos (θ / 2), axis.scale (Real.sin (θ / 2) / axis.mag), b, k⟩) v = rodrigues (dir axis) θ v := by
  have hm : 0 < axis.mag := Vec.mag_pos.2 h
  have hn : ‖toH ⟨Real.cos (θ / 2), axis.scale (Real.sin (θ / 2) / axis.mag), b, k⟩‖ = 1 := by
    apply norm_of_sqrMag
    rw [Vec.sqrMag_scale, ← Vec.mag_sq, div_pow, div_mul_cancel₀ _ (pow_ne_zero 2 hm.ne')]
    exact Real.cos_sq_add_sin_sq _
  refine ⟨hn, fun v => ?_⟩
  rw [act_formula (normSq_eq_one.2 hn), vecOf_toH, toH_re, Vec.scale_elem]
  have hc : Real.cos θ = 2 * Real.cos (θ / 2) ^ 2 - 1 := by rw [← Real.cos_two_mul]; congr 1; ring
  have hs : Real.sin θ = 2 * Real.sin (θ / 2) * Real.cos (θ / 2) := by rw [← Real.sin_two_mul]; congr 1; ring
  have h2 := Real.sin_sq_add_cos_sq (θ / 2)
  unfold rodrigues dir
  rw [hc, hs, smul_dotProduct, smul_dotProduct, map_smul, LinearMap.smul_apply, map_smul, LinearMap.smul_apply]
  have hs2 : Real.sin (θ / 2) ^ 2 = 1 - Real.cos (θ / 2) ^ 2 := by linarith
  have e1 : (1 - (2 * Real.cos (θ / 2) ^ 2 - 1)) = 2 * Real.sin (θ / 2) ^ 2 := by rw [hs2]; ring
  rw [e1]
  funext i
  simp only [Pi.add_apply, Pi.smul_apply, smul_eq_mul]
  ring

theorem half_fl (r : Rounding 53) {x : ℝ} (h : IsFl 53 x) : r (x / 2) = x / 2 := by
  have := r.of_fl (h.mul_zpow (-1))
  rw [show x * (2 : ℝ) ^ (-1 : ℤ) = x / 2 by norm_num; ring] at this
  exact this

/-- The vector part computed for an axis and an angle. -/
theorem axis_near (r : Rounding 53) (T : Trig) (axis : Vec 3) (h : axis.elem ≠ 0) (θ : ℝ) (b : Bool) (k : Nat) :
    ‖toH ⟨T.cos (θ / 2), scale r axis (r (T.sin (θ / 2) / mag r axis)), b, k⟩ - toH ⟨Real.cos (θ / 2), axis.scale (Real.sin (θ / 2) / axis.mag), b, k⟩‖ ≤ 2 ^ (-48 : ℤ) := by
  have hm : 0 < axis.mag := Vec.mag_pos.2 h
  have hc := T.cos_err (θ / 2)
  have hs := T.sin_err (θ / 2)
  have hS := Real.abs_sin_le_one (θ / 2)
  have hml : len axis.elem = axis.mag := (mag_eq_len axis).symm
  refine (norm_toH_sub_le _ _).trans ?_
  have h1 : ∀ i, Close 53 7 (r (axis.elem i * r (T.sin (θ / 2) / mag r axis))) (axis.elem i * (T.sin (θ / 2) / axis.mag)) := fun i =>
    (((Close.refl pos53 0 (axis.elem i)).mul pos53 (((Close.refl pos53 0 (T.sin (θ / 2))).div pos53 (mag_close r axis)).round pos53 r)).round pos53 r).mono pos53 (by norm_num)
  have h2 : len ((fun i => r (axis.elem i * r (T.sin (θ / 2) / mag r axis))) - (T.sin (θ / 2) / axis.mag) • axis.elem) ≤ 7 * 2 ^ (-52 : ℤ) * |T.sin (θ / 2)| := by
    have := len_mono (c := 7 * 2 ^ (-52 : ℤ)) (a := (fun i => r (axis.elem i * r (T.sin (θ / 2) / mag r axis))) - (T.sin (θ / 2) / axis.mag) • axis.elem)
      (b := (T.sin (θ / 2) / axis.mag) • axis.elem) (by positivity) fun i => by
        have := Close_err' (h1 i) (by norm_num)
        simp only [Pi.sub_apply, Pi.smul_apply, smul_eq_mul]
        rw [mul_comm (T.sin (θ / 2) / axis.mag)]
        exact_mod_cast this
    refine this.trans (le_of_eq ?_)
    rw [len_smul, hml, abs_div, abs_of_pos hm, div_mul_cancel₀ _ hm.ne']
  have h3 : len ((T.sin (θ / 2) / axis.mag) • axis.elem - (Real.sin (θ / 2) / axis.mag) • axis.elem) ≤ 2 ^ (-52 : ℤ) := by
    rw [← sub_smul, ← sub_div, len_smul, hml, abs_div, abs_of_pos hm, div_mul_cancel₀ _ hm.ne']
    exact hs
  have h4 := len_triangle (fun i => r (axis.elem i * r (T.sin (θ / 2) / mag r axis))) ((T.sin (θ / 2) / axis.mag) • axis.elem) ((Real.sin (θ / 2) / axis.mag) • axis.elem)
  have h5 : |T.sin (θ / 2)| ≤ 2 := by
    have := abs_sub_abs_le_abs_sub (T.sin (θ / 2)) (Real.sin (θ / 2))
    norm_num at *
    linarith
  have e : (axis.scale (Real.sin (θ / 2) / axis.mag)).elem = (Real.sin (θ / 2) / axis.mag) • axis.elem := Vec.scale_elem _ _
  show |T.cos (θ / 2) - Real.cos (θ / 2)| + len ((fun i => r (axis.elem i * r (T.sin (θ / 2) / mag r axis))) - (axis.scale (Real.sin (θ / 2) / axis.mag)).elem) ≤ _
  rw [e]
  norm_num at *
  linarith

end Fl

/-- C130, `Quaternion::rotation(axis, angle)`: unless the computed length of the axis is below `epsilon`, the quaternion is within `2⁻⁴⁸` of a unit quaternion that stands
for the rotation by the angle about the axis. -/
theorem C130_axis (r : Rounding 53) (T : Trig) (q : Quat) (axis : Vec 3) (θ : ℝ) (hθ : IsFl 53 θ) :
    (Fl.mag r axis < epsilon → Fl.qRotationAxis r T q axis θ = { q with valid := false }) ∧
    (¬ Fl.mag r axis < epsilon → ∃ u : ℍ[ℝ], ‖u‖ = 1 ∧ (∀ v, act u v = rodrigues (dir axis) θ v) ∧ ‖toH (Fl.qRotationAxis r T q axis θ) - u‖ ≤ 2 ^ (-48 : ℤ) ∧
      (Fl.qRotationAxis r T q axis θ).valid = axis.valid ∧ (Fl.qRotationAxis r T q axis θ).age = 1) := by
  unfold Fl.qRotationAxis
  refine ⟨fun h => if_pos h, fun h => ?_⟩
  dsimp only
  rw [if_neg h, Fl.half_fl r hθ]
  have h0 : axis.elem ≠ 0 := fun hc => h (by rw [(C116_length r axis (by norm_num)).2.2.2.2 hc]; exact epsilon_pos)
  obtain ⟨h1, h2⟩ := Fl.axis_exact axis h0 θ axis.valid 1
  exact ⟨_, h1, h2, Fl.axis_near r T axis h0 θ axis.valid 1, rfl, rfl⟩

/-- C130, `Quaternion::rotation(axis)`: the same, by an angle that is the length of the axis up to a relative error of `5 * 2⁻⁵²`. -/
theorem C130_length (r : Rounding 53) (T : Trig) (q : Quat) (axis : Vec 3) :
    (Fl.mag r axis < epsilon → Fl.qRotationMag r T q axis = { q with valid := false }) ∧
    (¬ Fl.mag r axis < epsilon → ∃ (u : ℍ[ℝ]) (θ : ℝ), |θ - axis.mag| ≤ 5 * 2 ^ (-52 : ℤ) * axis.mag ∧ ‖u‖ = 1 ∧ (∀ v, act u v = rodrigues (dir axis) θ v) ∧
      ‖toH (Fl.qRotationMag r T q axis) - u‖ ≤ 2 ^ (-48 : ℤ) ∧ (Fl.qRotationMag r T q axis).valid = axis.valid ∧ (Fl.qRotationMag r T q axis).age = 1) := by
  have e : Fl.qRotationMag r T q axis = Fl.qRotationAxis r T q axis (Fl.mag r axis) := rfl
  rw [e]
  obtain ⟨h1, h2⟩ := C130_axis r T q axis (Fl.mag r axis) (r.isFl _)
  refine ⟨h1, fun h => ?_⟩
  obtain ⟨u, hu⟩ := h2 h
  refine ⟨u, _, ?_, hu⟩
  have := Fl.Close_err' (Fl.mag_close r axis) (by norm_num)
  rw [abs_of_nonneg axis.mag_nonneg] at this
  push_cast at this
  norm_num at *
  exact this

/-- C130, `Quaternion::rotation(int axis, angle)`: the same for a coordinate axis; other values of `axis` make the quaternion invalid. -/
theorem C130_index (r : Rounding 53) (T : Trig) (q : Quat) (θ : ℝ) (hθ : IsFl 53 θ) :
    (∀ a : ℤ, (a < 0 ∨ a > 2) → Fl.qRotationIdx r T q a θ = { q with valid := false }) ∧
    ∀ a : Fin 3, ∃ u : ℍ[ℝ], ‖u‖ = 1 ∧ (∀ v, act u v = rodrigues (Pi.single a 1) θ v) ∧ ‖toH (Fl.qRotationIdx r T q (a.val : ℤ) θ) - u‖ ≤ 2 ^ (-48 : ℤ) ∧
      (Fl.qRotationIdx r T q (a.val : ℤ) θ).valid = true ∧ (Fl.qRotationIdx r T q (a.val : ℤ) θ).age = 1 := by
  unfold Fl.qRotationIdx
  refine ⟨fun a h => if_pos h, fun a => ?_⟩
  have ha : ¬ ((a.val : ℤ) < 0 ∨ (a.val : ℤ) > 2) := by have := a.isLt; omega
  rw [if_neg ha, Fl.half_fl r hθ]
  have h0 : (Pi.single a 1 : Fin 3 → ℝ) ≠ 0 := fun hc => by have := congrFun hc a; simp at this
  have hmag : (⟨Pi.single a 1, true⟩ : Vec 3).mag = 1 := by rw [mag_eq_len]; exact Fl.len_single a
  obtain ⟨h1, h2⟩ := Fl.axis_exact ⟨Pi.single a 1, true⟩ h0 θ true 1
  have hdir : dir (⟨Pi.single a 1, true⟩ : Vec 3) = Pi.single a 1 := by unfold dir; rw [hmag, inv_one, one_smul]
  rw [hdir] at h2
  refine ⟨_, h1, h2, ?_, rfl, rfl⟩
  refine (Fl.norm_toH_sub_le _ _).trans ?_
  have hc := T.cos_err (θ / 2)
  have hs := T.sin_err (θ / 2)
  have e : (fun i : Fin 3 => if (i.val : ℤ) = (a.val : ℤ) then T.sin (θ / 2) else 0) - ((⟨Pi.single a 1, true⟩ : Vec 3).scale (Real.sin (θ / 2) / (⟨Pi.single a 1, true⟩ : Vec 3).mag)).elem =
      Pi.single a (T.sin (θ / 2) - Real.sin (θ / 2)) := by
    rw [Vec.scale_elem, hmag, div_one]
    funext i
    by_cases hi : i = a
    · subst hi; simp
    · have h2 : ¬ (i.val = a.val) := fun h => hi (Fin.ext h)
      simp [hi, h2]
  show |T.cos (θ / 2) - Real.cos (θ / 2)| + len ((fun i : Fin 3 => if (i.val : ℤ) = (a.val : ℤ) then T.sin (θ / 2) else 0) - _) ≤ _
  rw [e, Fl.len_single_mul]
  norm_num at *
  linarith

/-! ### Matrices from quaternions -/

/-- The array of `fromQuaternion` without rounding, for a quaternion that need not be a unit. -/
theorem quatArr_formula (q : Quat) (v : Fin 3 → ℝ) : RotMat.quatArr q *ᵥ v = rotFormula q v + (2 * (1 - ‖toH q‖ ^ 2)) • v := by
  have hn : ‖toH q‖ ^ 2 = q.w ^ 2 + q.vec.elem 0 ^ 2 + q.vec.elem 1 ^ 2 + q.vec.elem 2 ^ 2 := by
    rw [sq, ← normSq_eq_norm_mul_self, normSq_def']; rfl
  rw [hn]
  funext i
  fin_cases i <;> simp [RotMat.quatArr, rotFormula, mulVec, dotProduct, Fin.sum_univ_three, cross0, cross1, cross2'] <;> ring

namespace Fl

theorem quatArr_err (r : Rounding 53) (q : Quat) (hq : ‖toH q‖ ≤ 51 / 50) (i j : Fin 3) : |quatArr r q i j - RotMat.quatArr q i j| ≤ 2 ^ (-48 : ℤ) := by
  have hw := ((abs_le_norm q).1).trans hq
  have hv : ∀ i, |q.vec.elem i| ≤ 51 / 50 := fun i => ((abs_le_norm q).2 i).trans hq
  have hp : ∀ {a b : ℝ}, |a| ≤ 51 / 50 → |b| ≤ 51 / 50 → |r (a * b) - a * b| ≤ 2 ^ (-53 : ℤ) * (11 / 10) ∧ |a * b| ≤ 11 / 10 := by
    intro a b ha hb
    have h : |a| * |b| ≤ 11 / 10 := (mul_le_mul ha hb (abs_nonneg _) (by norm_num)).trans (by norm_num)
    exact ⟨err_mul' r h, by rw [abs_mul]; exact h⟩
  have two : ∀ {x' x : ℝ}, |x' - x| ≤ 2 ^ (-53 : ℤ) * 6 → |x| ≤ 22 / 10 → |r (2 * x') - 2 * x| ≤ 2 ^ (-53 : ℤ) * 18 ∧ |2 * x| ≤ 44 / 10 := by
    intro x' x h hx
    have := err_mul r (show |(2 : ℝ) - 2| ≤ 0 by simp) h (show |(2 : ℝ)| ≤ 2 by simp) hx
    refine ⟨this.trans (by norm_num), by rw [abs_mul, abs_two]; linarith⟩
  have offD : ∀ {a b c d : ℝ}, |a| ≤ 51 / 50 → |b| ≤ 51 / 50 → |c| ≤ 51 / 50 → |d| ≤ 51 / 50 →
      |r (2 * r (r (a * b) - r (c * d))) - 2 * (a * b - c * d)| ≤ 2 ^ (-48 : ℤ) ∧ |r (2 * r (r (a * b) + r (c * d))) - 2 * (a * b + c * d)| ≤ 2 ^ (-48 : ℤ) ∧
      |r (1 - r (2 * r (r (a * b) + r (c * d)))) - (1 - 2 * (a * b + c * d))| ≤ 2 ^ (-48 : ℤ) := by
    intro a b c d ha hb hc hd
    obtain ⟨p1, p2⟩ := hp ha hb
    obtain ⟨p3, p4⟩ := hp hc hd
    have s1 := err_sub r p1 p3 p2 p4
    have s2 := err_add r p1 p3 p2 p4
    have b1 : |a * b - c * d| ≤ 22 / 10 := (abs_sub _ _).trans (by linarith)
    have b2 : |a * b + c * d| ≤ 22 / 10 := (abs_add_le _ _).trans (by linarith)
    have t1 := two (s1.trans (by norm_num)) b1
    have t2 := two (s2.trans (by norm_num)) b2
    have t3 := err_sub r (show |(1 : ℝ) - 1| ≤ 0 by simp) t2.1 (show |(1 : ℝ)| ≤ 1 by simp) t2.2
    exact ⟨t1.1.trans (by norm_num), t2.1.trans (by norm_num), t3.trans (by norm_num)⟩
  have h0 := hv 0; have h1 := hv 1; have h2 := hv 2
  fin_cases i <;> fin_cases j
  · exact (offD h1 h1 h2 h2).2.2
  · exact (offD h0 h1 h2 hw).1
  · exact (offD h0 h2 h1 hw).2.1
  · exact (offD h0 h1 h2 hw).2.1
  · exact (offD h0 h0 h2 h2).2.2
  · exact (offD h1 h2 h0 hw).1
  · exact (offD h0 h2 h1 hw).1
  · exact (offD h1 h2 h0 hw).2.1
  · exact (offD h0 h0 h1 h1).2.2

/-- Matrices whose entries are close. -/
theorem stands_entries {A B : Matrix (Fin 3) (Fin 3) ℝ} {η : ℝ} (h : ∀ i j, |A i j - B i j| ≤ η) : Stands A B (6 * η) := fun v => by
  have hη := (abs_nonneg _).trans (h 0 0)
  have hL := len_nonneg v
  have h1 : ∀ i, |(A *ᵥ v - B *ᵥ v) i| ≤ 3 * (η * len v) := fun i => by
    rw [← sub_mulVec]
    have e : ((A - B) *ᵥ v) i = (A i 0 - B i 0) * v 0 + (A i 1 - B i 1) * v 1 + (A i 2 - B i 2) * v 2 := by
      simp [mulVec, dotProduct, Fin.sum_univ_three]
    rw [e]
    have t : ∀ k, |(A i k - B i k) * v k| ≤ η * len v := fun k => by
      rw [abs_mul]; exact mul_le_mul (h i k) (abs_le_len v k) (abs_nonneg _) hη
    refine (abs_add_le _ _).trans ((add_le_add ((abs_add_le _ _).trans (add_le_add (t 0) (t 1))) (t 2)).trans (le_of_eq (by ring)))
  exact (len3_le (by positivity) h1).trans (le_of_eq (by ring))

/-- The array against the rotation. -/
theorem quatArr_stands (r : Rounding 53) (q : Quat) (u : ℍ[ℝ]) (δ : ℝ) (hu : ‖u‖ = 1) (hq : ‖toH q - u‖ ≤ δ) (hδ : δ ≤ 1 / 100) (v : Fin 3 → ℝ) :
    len (quatArr r q *ᵥ v - act u v) ≤ (18 * δ + 2 ^ (-45 : ℤ)) * len v := by
  have hL := len_nonneg v
  have hδ0 := (norm_nonneg _).trans hq
  have hn : |‖toH q‖ - 1| ≤ δ := by
    have := abs_norm_sub_norm_le (toH q) u
    rw [hu] at this
    exact this.trans hq
  have hn' := abs_le.1 hn
  have h1 := stands_entries (quatArr_err r q (by linarith)) v
  have h2 := rotFormula_near hu hq hδ v
  have h3 : len (RotMat.quatArr q *ᵥ v - rotFormula q v) ≤ 5 * δ * len v := by
    rw [quatArr_formula, add_sub_cancel_left, len_smul]
    refine mul_le_mul_of_nonneg_right ?_ hL
    rw [show 2 * (1 - ‖toH q‖ ^ 2) = (-2 * (‖toH q‖ + 1)) * (‖toH q‖ - 1) by ring, abs_mul]
    have : |(-2 * (‖toH q‖ + 1))| ≤ 5 := by
      rw [abs_mul, abs_neg, abs_two, abs_of_nonneg (by positivity)]; linarith
    exact mul_le_mul this hn (abs_nonneg _) (by norm_num)
  have t1 := len_triangle (quatArr r q *ᵥ v) (RotMat.quatArr q *ᵥ v) (act u v)
  have t2 := len_triangle (RotMat.quatArr q *ᵥ v) (rotFormula q v) (act u v)
  have h6 : 6 * (2 : ℝ) ^ (-48 : ℤ) * len v ≤ 2 ^ (-45 : ℤ) * len v := mul_le_mul_of_nonneg_right (by norm_num) hL
  linarith

/-- The orthogonal matrix of a unit quaternion. -/
theorem unit_matrix (u : ℍ[ℝ]) (hu : ‖u‖ = 1) : ∃ R : Matrix (Fin 3) (Fin 3) ℝ, Rᵀ * R = 1 ∧ R.det = 1 ∧ ∀ v, R *ᵥ v = act u v := by
  have e : toH ⟨u.re, ⟨![u.imI, u.imJ, u.imK], true⟩, true, 0⟩ = u := by ext <;> rfl
  have hq : ‖toH ⟨u.re, ⟨![u.imI, u.imJ, u.imK], true⟩, true, 0⟩‖ = 1 := by rw [e, hu]
  have h := quatArr_so3 hq
  refine ⟨_, mul_eq_one_comm.1 h.orth, h.det, fun v => ?_⟩
  rw [quatArr_mulVec hq, e]

end Fl

/-- C130, `RotMatrix::fromQuaternion`: when `q` stands for the unit quaternion `u` with an error up to `δ`, the matrix stands for the rotation by `u` with an error up to
`18 δ + 2⁻⁴⁵`. -/
theorem C130_matrix (r : Rounding 53) (q : Quat) (u : ℍ[ℝ]) (δ : ℝ) (hu : ‖u‖ = 1) (hq : ‖toH q - u‖ ≤ δ) (hδ : δ ≤ 1 / 100) :
    ∃ R : Matrix (Fin 3) (Fin 3) ℝ, Rᵀ * R = 1 ∧ R.det = 1 ∧ (∀ v, R *ᵥ v = act u v) ∧ Stands (Fl.fromQuaternion r q).elem R (18 * δ + 2 ^ (-45 : ℤ)) ∧
      (Fl.fromQuaternion r q).valid = true ∧ (Fl.fromQuaternion r q).flip = false ∧ (Fl.fromQuaternion r q).age = q.age := by
  obtain ⟨R, h1, h2, h3⟩ := Fl.unit_matrix u hu
  refine ⟨R, h1, h2, h3, fun v => ?_, rfl, rfl, rfl⟩
  rw [h3]
  exact Fl.quatArr_stands r q u δ hu hq hδ v

/-- C130: rotating a vector by a quaternion and multiplying it by the matrix made of the quaternion agree up to rounding. -/
theorem C130_agree (r : Rounding 53) (q : Quat) (δ : ℝ) (hq : |‖toH q‖ - 1| ≤ δ) (hδ : δ ≤ 1 / 100) (v : Vec 3) :
    len ((Fl.rotateQ r v q).elem - (Fl.matVec r (Fl.fromQuaternion r q) v).elem) ≤ (31 * δ + 26 * epsilon) * len v.elem := by
  have hL := len_nonneg v.elem
  have hδ0 := (abs_nonneg _).trans hq
  have hn := abs_le.1 hq
  have h0 : toH q ≠ 0 := fun h => by rw [h, norm_zero] at hn; linarith
  have hpos : 0 < ‖toH q‖ := norm_pos_iff.2 h0
  have hu : ‖(‖toH q‖⁻¹ • toH q : ℍ[ℝ])‖ = 1 := by rw [norm_smul, norm_inv, norm_norm, inv_mul_cancel₀ hpos.ne']
  have hd : ‖toH q - ‖toH q‖⁻¹ • toH q‖ ≤ δ := by
    have e : toH q - ‖toH q‖⁻¹ • toH q = (1 - ‖toH q‖⁻¹) • toH q := by rw [sub_smul, one_smul]
    have e2 : |1 - ‖toH q‖⁻¹| * ‖toH q‖ = |(1 - ‖toH q‖⁻¹) * ‖toH q‖| := by rw [abs_mul, abs_of_pos hpos]
    rw [e, norm_smul, Real.norm_eq_abs, e2, sub_mul, one_mul, inv_mul_cancel₀ hpos.ne']
    exact hq
  have h1 := C123_rotate r v q _ δ hu hd hδ
  obtain ⟨R, hR, -, hR3, hR4, -⟩ := C130_matrix r q _ δ hu hd hδ
  have h2 := (C124_vector r (Fl.fromQuaternion r q) R (18 * δ + 2 ^ (-45 : ℤ)) (by norm_num) (by positivity) (by norm_num; linarith) hR hR4 v).1
  rw [hR3] at h2
  have t := len_triangle (Fl.rotateQ r v q).elem (act (‖toH q‖⁻¹ • toH q) v.elem) (Fl.matVec r (Fl.fromQuaternion r q) v).elem
  rw [len_sub_comm (act (‖toH q‖⁻¹ • toH q) v.elem)] at t
  have he : epsilon = 30 * 2 ^ (-52 : ℤ) := by unfold epsilon; norm_num
  generalize len ((Fl.matVec r (Fl.fromQuaternion r q) v).elem - act (‖toH q‖⁻¹ • toH q) v.elem) = A at *
  generalize len ((Fl.rotateQ r v q).elem - act (‖toH q‖⁻¹ • toH q) v.elem) = B at *
  rw [he] at h1 ⊢
  push_cast at h2
  have e1 : (18 * δ + 2 ^ (-45 : ℤ) + 2 * 3 * (3 + 1) * 2 ^ (-52 : ℤ)) * len v.elem = 18 * (δ * len v.elem) + 152 * 2 ^ (-52 : ℤ) * len v.elem := by norm_num; ring
  have e2 : (13 * δ + 20 * (30 * 2 ^ (-52 : ℤ))) * len v.elem = 13 * (δ * len v.elem) + 600 * 2 ^ (-52 : ℤ) * len v.elem := by ring
  have e3 : (31 * δ + 26 * (30 * 2 ^ (-52 : ℤ))) * len v.elem = 31 * (δ * len v.elem) + 780 * 2 ^ (-52 : ℤ) * len v.elem := by ring
  rw [e1] at h2
  rw [e2] at h1
  rw [e3]
  have h9 : (0 : ℝ) ≤ 2 ^ (-52 : ℤ) * len v.elem := by positivity
  linarith

/-- C130, `RotMatrix::rotate(q)`: when `m` stands for the orthogonal matrix `S` and `q` for the unit quaternion `u`, the result stands for `S` times the inverse of the
rotation by `u` (each row is turned by `u`). -/
theorem C130_rotate (r : Rounding 53) (m : RotMat 3) (q : Quat) (u : ℍ[ℝ]) (S : Matrix (Fin 3) (Fin 3) ℝ) (α δ : ℝ) (hu : ‖u‖ = 1) (hq : ‖toH q - u‖ ≤ δ) (hδ : δ ≤ 1 / 100)
    (hα0 : 0 ≤ α) (hα : α ≤ 1) (hS : Sᵀ * S = 1) (hm : Stands m.elem S α) :
    ∃ R : Matrix (Fin 3) (Fin 3) ℝ, Rᵀ * R = 1 ∧ R.det = 1 ∧ (∀ v, R *ᵥ v = act u v) ∧ Stands (Fl.matRotateQ r m q).elem (S * R⁻¹) (α + 52 * δ + 80 * epsilon) ∧
      (Fl.matRotateQ r m q).valid = (m.valid && q.valid) ∧ (Fl.matRotateQ r m q).flip = m.flip ∧ (Fl.matRotateQ r m q).age = m.age + q.age := by
  obtain ⟨R, h1, h2, h3⟩ := Fl.unit_matrix u hu
  refine ⟨R, h1, h2, h3, fun v => ?_, rfl, rfl, rfl⟩
  have hδ0 := (norm_nonneg _).trans hq
  have he := epsilon_pos
  have hL := len_nonneg v
  have hR' : Rᵀᵀ * Rᵀ = 1 := by rw [transpose_transpose]; exact mul_eq_one_comm.1 h1
  rw [inv_eq_left_inv h1]
  have a1 : ∀ i, |((Fl.matRotateQ r m q).elem *ᵥ v - (m.elem * Rᵀ) *ᵥ v) i| ≤ (13 * δ + 20 * epsilon) * 2 * len v := by
    intro i
    have e1 : ((Fl.matRotateQ r m q).elem *ᵥ v) i = (Fl.rotateQ r ⟨fun k => m.elem i k, true⟩ q).elem ⬝ᵥ v := rfl
    have e2 : ((m.elem * Rᵀ) *ᵥ v) i = act u (fun k => m.elem i k) ⬝ᵥ v := by
      rw [← h3, ← mulVec_mulVec]
      show (fun k => m.elem i k) ⬝ᵥ (Rᵀ *ᵥ v) = _
      rw [mulVec_transpose, dotProduct_comm, ← dotProduct_mulVec, dotProduct_comm]
    rw [Pi.sub_apply, e1, e2, ← sub_dotProduct]
    refine (abs_dot_le_len _ _).trans (mul_le_mul_of_nonneg_right ?_ hL)
    refine (C123_rotate r ⟨fun k => m.elem i k, true⟩ q u δ hu hq hδ).trans (mul_le_mul_of_nonneg_left ?_ (by positivity))
    exact (Fl.stands_row hα0 hS hm i).trans (by linarith)
  have a2 := len3_le (by positivity) a1
  have a3 : len ((m.elem * Rᵀ) *ᵥ v - (S * Rᵀ) *ᵥ v) ≤ α * len v := by
    rw [← mulVec_mulVec, ← mulVec_mulVec]
    have := hm (Rᵀ *ᵥ v)
    rwa [Fl.len_orth hR'] at this
  have t := len_triangle ((Fl.matRotateQ r m q).elem *ᵥ v) ((m.elem * Rᵀ) *ᵥ v) ((S * Rᵀ) *ᵥ v)
  linarith

/-- The hypotheses of the theorems are met: functions that round the exact values, a turn by 3/4 about the axis (0, 0, 2), and the matrix of the quaternion built for it. -/
noncomputable def Fl.roundTrig (r : Rounding 53) : Trig where
  sin x := r (Real.sin x)
  cos x := r (Real.cos x)
  sin_err x := by
    have := r.err Fl.pos53 (Real.sin x)
    rw [Fl.u53] at this
    refine this.trans ?_
    have := mul_le_mul_of_nonneg_left (Real.abs_sin_le_one x) (show (0 : ℝ) ≤ 2 ^ (-53 : ℤ) by positivity)
    norm_num at *
    linarith
  cos_err x := by
    have := r.err Fl.pos53 (Real.cos x)
    rw [Fl.u53] at this
    refine this.trans ?_
    have := mul_le_mul_of_nonneg_left (Real.abs_cos_le_one x) (show (0 : ℝ) ≤ 2 ^ (-53 : ℤ) by positivity)
    norm_num at *
    linarith

example (r : Rounding 53) : ∃ R : Matrix (Fin 3) (Fin 3) ℝ, Rᵀ * R = 1 ∧ (∀ v, R *ᵥ v = rodrigues (dir ⟨![0, 0, 2], true⟩) (3 / 4) v) ∧
    Stands (Fl.fromQuaternion r (Fl.qRotationAxis r (Fl.roundTrig r) Quat.default ⟨![0, 0, 2], true⟩ (3 / 4))).elem R (2 ^ (-43 : ℤ)) := by
  have hm : ¬ Fl.mag r ⟨![0, 0, 2], true⟩ < epsilon := by
    have h := (C116_length r (⟨![0, 0, 2], true⟩ : Vec 3) (by norm_num)).2.1
    have e : Real.sqrt (∑ i, (⟨![0, 0, 2], true⟩ : Vec 3).elem i ^ 2) = 2 := by
      rw [show (∑ i, (⟨![0, 0, 2], true⟩ : Vec 3).elem i ^ 2) = 2 ^ 2 by simp [Fin.sum_univ_three]]
      exact Real.sqrt_sq (by norm_num)
    rw [e] at h
    have h2 := (abs_le.1 h).1
    have he2 := epsilon_lt
    norm_num at *
    linarith
  obtain ⟨u, h1, h2, h3, -⟩ := (C130_axis r (Fl.roundTrig r) Quat.default ⟨![0, 0, 2], true⟩ (3 / 4) ⟨3, -2, by norm_num, by norm_num⟩).2 hm
  obtain ⟨R, k1, -, k3, k4, -⟩ := C130_matrix r _ u _ h1 h3 (by norm_num)
  refine ⟨R, k1, fun v => by rw [k3, h2], fun v => (k4 v).trans (mul_le_mul_of_nonneg_right (by norm_num) (len_nonneg _))⟩

/-- The hypotheses of `C130_rotate` and `C130_agree` are met by the identity matrix and a quaternion that is only nearly a unit. -/
example (r : Rounding 53) : ∃ R : Matrix (Fin 3) (Fin 3) ℝ, Rᵀ * R = 1 ∧
    Stands (Fl.matRotateQ r RotMat.identity ⟨1001 / 1000, ⟨0, true⟩, true, 1⟩).elem (1 * R⁻¹) (0 + 52 * (1 / 1000) + 80 * epsilon) := by
  have e1 : toH ⟨1, ⟨0, true⟩, true, 1⟩ = 1 := by ext <;> rfl
  have hq : ‖toH ⟨1001 / 1000, ⟨0, true⟩, true, 1⟩ - 1‖ ≤ 1 / 1000 := by
    rw [← e1]
    refine (Fl.norm_toH_sub_le _ _).trans ?_
    simp [len]
    norm_num
  have hn2 : |‖toH ⟨1001 / 1000, ⟨0, true⟩, true, 1⟩‖ - 1| ≤ 1 / 1000 := by
    have := abs_norm_sub_norm_le (toH ⟨1001 / 1000, ⟨0, true⟩, true, 1⟩) 1
    rw [norm_one] at this
    exact this.trans hq
  have _h := C130_agree r ⟨1001 / 1000, ⟨0, true⟩, true, 1⟩ (1 / 1000) hn2 (by norm_num) ⟨![1, 2, 3], true⟩
  have hI : (RotMat.identity : RotMat 3).elem = 1 := by
    ext i j; simp [RotMat.identity, Matrix.one_apply]
  obtain ⟨R, k1, -, -, k4, -⟩ := C130_rotate r RotMat.identity ⟨1001 / 1000, ⟨0, true⟩, true, 1⟩ 1 1 0 (1 / 1000) norm_one hq (by norm_num) le_rfl zero_le_one (by simp)
    (fun v => by rw [hI, sub_self]; simp [len])
  exact ⟨R, k1, k4⟩

end WFMath
