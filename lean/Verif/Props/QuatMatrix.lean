/- Property theorems C36, C48, C84-C86 about conversions between quaternions and matrices. -/
import Verif.Props.Quaternion

namespace WFMath
open Matrix Gauss Spec Quaternion

/-- The array computed from a unit quaternion applies its rotation. -/
theorem quatArr_mulVec {q : Quat} (hq : ‖toH q‖ = 1) (v : Fin 3 → ℝ) : RotMat.quatArr q *ᵥ v = act (toH q) v := by
  have hs := sq_of_norm hq
  rw [act_formula (normSq_eq_one.2 hq), quatArr_eq, vecOf_toH, toH_re]
  apply ext3
  · simp [qArr, Matrix.mulVec, dotProduct, Fin.sum_univ_three, cross0]
    linear_combination (-2 * v 0) * hs
  · simp [qArr, Matrix.mulVec, dotProduct, Fin.sum_univ_three, cross1]
    linear_combination (-2 * v 1) * hs
  · simp [qArr, Matrix.mulVec, dotProduct, Fin.sum_univ_three, cross2']
    linear_combination (-2 * v 2) * hs

theorem quatArr_so3 {q : Quat} (hq : ‖toH q‖ = 1) : SO3 (RotMat.quatArr q) := by
  rw [quatArr_eq]; exact qArr_so3 (sq_of_norm hq)

theorem fromQuaternion_true (L : Limits) (m : RotMat 3) (q : Quat) :
    RotMat.fromQuaternion L m q true = ⟨RotMat.quatArr q, false, true, q.age⟩ := rfl

/-! ### C36 -/

/-- C36: the matrix of a unit quaternion is a rotation (orthogonal, determinant 1, parity flag clear), and `ProdInv(v, m)`
is exactly the rotation `v ↦ q v q⁻¹`. -/
theorem C36_matrix (L : Limits) (m : RotMat 3) (q : Quat) (hq : ‖toH q‖ = 1) (v : Vec 3) :
    let M := RotMat.fromQuaternion L m q true
    IsRotation M ∧ M.flip = false ∧ (v.prodInvM M).elem = act (toH q) v.elem := by
  intro M
  have h := quatArr_so3 hq
  exact ⟨⟨h.orth, by rw [show M.elem = RotMat.quatArr q from rfl, h.det]; rfl⟩, rfl, quatArr_mulVec hq v.elem⟩

/-- C36: `ProdInv(v, RotMatrix(q))` is `v.rotate(q)`, exactly when no inner or cross product is flushed to 0 and otherwise
up to `16 ε |v|`. -/
theorem C36_same_rotation (L : Limits) (m : RotMat 3) (q : Quat) (hq : ‖toH q‖ = 1) (v : Vec 3) :
    (RotExact v q → (v.prodInvM (RotMat.fromQuaternion L m q true)).elem = (v.rotateQ q).elem) ∧
    (v.rotateQ q - v.prodInvM (RotMat.fromQuaternion L m q true)).mag ≤ 16 * epsilon * v.mag := by
  have h := (C36_matrix L m q hq v).2.2
  constructor
  · intro he; rw [h, rotateQ_exact hq he]
  · rw [mag_eq_len, Vec.sub_elem, h]; exact rotateQ_len hq

/-- The trace of the matrix of a unit quaternion. -/
private theorem trace_quat {q : Quat} (hq : ‖toH q‖ = 1) :
    RotMat.quatArr q 0 0 + RotMat.quatArr q 1 1 + RotMat.quatArr q 2 2 = 4 * q.w ^ 2 - 1 := by
  rw [quatArr_eq]
  simp [qArr]
  linear_combination (-4) * sq_of_norm hq

/-- C36, back from the matrix, for rotations by less than 120 degrees (`4 w² > 1`, positive trace): `q` or `-q` is
returned, with the flag saying that there was no mirror. Missing: the other rotations, for which it is false
(`C36_false`, `C36_wrong`). -/
theorem C36_roundtrip_partial (L : Limits) (m : RotMat 3) (q : Quat) (hq : ‖toH q‖ = 1) (hw : 1 < 4 * q.w ^ 2) :
    let r := Quat.fromRotMatrix L (RotMat.fromQuaternion L m q true)
    (toH r.1 = toH q ∨ toH r.1 = -toH q) ∧ r.2 = true := by
  intro r
  refine ⟨?_, rfl⟩
  have ht : 0 < RotMat.quatArr q 0 0 + RotMat.quatArr q 1 1 + RotMat.quatArr q 2 2 := by rw [trace_quat hq]; linarith
  have h := qArr_fromMatrix (quatArr_so3 hq) ht
  have hr : r.1 = ⟨(Quat.fromMatrixComponents (RotMat.quatArr q)).1, ⟨(Quat.fromMatrixComponents (RotMat.quatArr q)).2, true⟩, true, q.age⟩ := rfl
  rcases qArr_inj h.2.2 (sq_of_norm hq) (h.2.1.trans (quatArr_eq q)) with ⟨h0, h1, h2, h3⟩ | ⟨h0, h1, h2, h3⟩
  · left; rw [hr]; ext
    · exact h0
    · exact h1
    · exact h2
    · exact h3
  · right; rw [hr]; ext
    · rw [toH_re, h0]; simp
    · rw [toH_imI]; simp only; rw [h1]; simp
    · rw [toH_imJ]; simp only; rw [h2]; simp
    · rw [toH_imK]; simp only; rw [h3]; simp

/-- C36, what is returned for the other rotations (by 120 degrees or more): the quaternion with the sign of one
component of the vector part, the one of the largest diagonal entry, reversed. -/
theorem C36_wrong (L : Limits) (m : RotMat 3) (q : Quat) (hq : ‖toH q‖ = 1) (hw : 4 * q.w ^ 2 ≤ 1) :
    ∃ i : Fin 3, q.vec.elem i ≠ 0 ∧ ∃ s : ℝ, (s = 1 ∨ s = -1) ∧
      let r := (Quat.fromRotMatrix L (RotMat.fromQuaternion L m q true)).1
      r.w = s * q.w ∧ ∀ j, r.vec.elem j = if j = i then -(s * q.vec.elem j) else s * q.vec.elem j := by
  have ht : ¬ 0 < RotMat.quatArr q 0 0 + RotMat.quatArr q 1 1 + RotMat.quatArr q 2 2 := by rw [trace_quat hq]; linarith
  have h := qArr_fromMatrix_neg (quatArr_so3 hq) ht
  set i := bigDiag (RotMat.quatArr q) with hi
  set c := Quat.fromMatrixComponents (RotMat.quatArr q) with hc
  have hr : (Quat.fromRotMatrix L (RotMat.fromQuaternion L m q true)).1 = ⟨c.1, ⟨c.2, true⟩, true, q.age⟩ := rfl
  set v := Function.update c.2 i (-c.2 i) with hv
  have hcv : ∀ j, c.2 j = if j = i then -v j else v j := by
    intro j
    rw [hv, Function.update_apply]
    by_cases hj : j = i
    · simp [hj]
    · simp [hj]
  have key : ∃ s : ℝ, (s = 1 ∨ s = -1) ∧ c.1 = s * q.w ∧ ∀ j, v j = s * q.vec.elem j := by
    rcases qArr_inj h.2.2 (sq_of_norm hq) (h.2.1.trans (quatArr_eq q)) with ⟨h0, h1, h2, h3⟩ | ⟨h0, h1, h2, h3⟩
    · refine ⟨1, Or.inl rfl, by rw [one_mul]; exact h0, fun j => ?_⟩
      rw [one_mul]; fin_cases j
      · exact h1
      · exact h2
      · exact h3
    · refine ⟨-1, Or.inr rfl, by rw [neg_one_mul]; exact h0, fun j => ?_⟩
      rw [neg_one_mul]; fin_cases j
      · exact h1
      · exact h2
      · exact h3
  obtain ⟨s, hs, hsw, hsv⟩ := key
  refine ⟨i, fun h0 => ?_, s, hs, ?_⟩
  · have h' : 0 < v i := h.1
    rw [hsv, h0, mul_zero] at h'
    exact lt_irrefl _ h'
  · rw [hr]
    refine ⟨hsw, fun j => ?_⟩
    change c.2 j = _
    rw [hcv, hsv]

/-- C36 fails as stated: a half turn about the axis (3/5, 4/5, 0) comes back as a half turn about another axis. -/
theorem C36_false (L : Limits) (m : RotMat 3) : ∃ q : Quat, q.valid = true ∧ ‖toH q‖ = 1 ∧
    let r := (Quat.fromRotMatrix L (RotMat.fromQuaternion L m q true)).1
    toH r ≠ toH q ∧ toH r ≠ -toH q := by
  let q : Quat := ⟨0, ⟨![3 / 5, 4 / 5, 0], true⟩, true, 1⟩
  have hq : ‖toH q‖ = 1 := norm_of_sq (by simp [q]; norm_num)
  obtain ⟨i, hi, s, hs, -, hv⟩ := C36_wrong L m q hq (by simp [q])
  refine ⟨q, rfl, hq, fun h => ?_, fun h => ?_⟩
  all_goals
    have h0 := congrArg QuaternionAlgebra.imI h
    have h1 := congrArg QuaternionAlgebra.imJ h
    simp only [toH_imI, toH_imJ, hv, imI_neg, imJ_neg] at h0 h1
    fin_cases i
    · rcases hs with rfl | rfl <;> simp [q] at h0 h1 <;> first | done | (norm_num at h0; done) | (norm_num at h1; done)
    · rcases hs with rfl | rfl <;> simp [q] at h0 h1 <;> first | done | (norm_num at h0; done) | (norm_num at h1; done)
    · simp [q] at hi

/-- C36: the assertion `s > 0` in the conversion never fails, whatever the matrix. -/
theorem C36_assert (A : Matrix (Fin 3) (Fin 3) ℝ) : Quat.fromMatrixAssert A := by
  by_cases ht : 0 < A 0 0 + A 1 1 + A 2 2
  · left; rw [sum_diag]; exact ht
  · right
    exact Real.sqrt_pos.2 (lt_of_lt_of_le one_pos (bigDiag_root ht _ rfl))

/-- C36, matrix to quaternion and back, for rotations with positive trace. -/
theorem C36_back_partial (L : Limits) (m0 m : RotMat 3) (hm : IsRotation m) (hf : m.flip = false)
    (ht : 0 < m.elem 0 0 + m.elem 1 1 + m.elem 2 2) :
    let r := Quat.fromRotMatrix L m
    ‖toH r.1‖ = 1 ∧ (RotMat.fromQuaternion L m0 r.1 r.2).elem = m.elem ∧ (RotMat.fromQuaternion L m0 r.1 r.2).flip = m.flip := by
  intro r
  have h : SO3 m.elem := ⟨hm.orth, by rw [hm.det, hf]; rfl⟩
  have h2 := qArr_fromMatrix h ht
  have hr : r = (⟨(Quat.fromMatrixComponents m.elem).1, ⟨(Quat.fromMatrixComponents m.elem).2, m.valid⟩, m.valid, m.age⟩, true) := by
    simp only [r, Quat.fromRotMatrix, hf]; rfl
  refine ⟨norm_fromRotMatrix hm, ?_, ?_⟩
  · rw [hr]; exact h2.2.1
  · rw [hr, hf]; rfl

/-- C36 applies to a rotation by 90 degrees. -/
example : ‖toH (Quat.default.rotationIdx 2 (Real.pi / 2))‖ = 1 ∧ 1 < 4 * (Quat.default.rotationIdx 2 (Real.pi / 2)).w ^ 2 := by
  refine ⟨norm_rotationIdx rfl (by simp [Quat.rotationIdx]), ?_⟩
  have : (Quat.default.rotationIdx 2 (Real.pi / 2)).w = Real.cos (Real.pi / 4) := by
    simp only [Quat.rotationIdx]; rw [show Real.pi / 2 / 2 = Real.pi / 4 by ring]; norm_num
  rw [this, Real.cos_pi_div_four, div_pow, Real.sq_sqrt (by norm_num)]; norm_num

/-! ### C48 -/

/-- C48, the part that holds: the result is orthogonal for both flags, and with `not_flip` the parity flag equals the
sign of the determinant. Missing: `not_flip = false`, where it is false (`C48_false`). -/
theorem C48_partial (L : Limits) (m : RotMat 3) (q : Quat) (hq : ‖toH q‖ = 1) :
    (∀ b, (RotMat.fromQuaternion L m q b).elem * (RotMat.fromQuaternion L m q b).elemᵀ = 1) ∧
    IsRotation (RotMat.fromQuaternion L m q true) ∧
    (RotMat.fromQuaternion L m q false).elem = RotMat.quatArr q * (RotMat.mirrorAxis 0).elem := by
  have h := quatArr_so3 hq
  have e : (RotMat.fromQuaternion L m q false).elem = RotMat.quatArr q * (RotMat.mirrorAxis 0).elem := by
    change (RotMat.prod L ⟨RotMat.quatArr q, true, m.valid, q.age⟩ (RotMat.mirrorAxis 0)).elem = _
    exact RotMat.prod_elem h.orth (mirrorAxis_isRotation 0).orth
  refine ⟨fun b => ?_, (C36_matrix L m q hq ⟨0, true⟩).1, e⟩
  cases b
  · rw [e]; exact RotMat.mul_orth h.orth (mirrorAxis_isRotation 0).orth
  · exact h.orth

/-- C48 fails for `not_flip = false`, for every unit quaternion: the matrix is a mirror (determinant -1) but its parity
flag says that it is not. -/
theorem C48_false (L : Limits) (m : RotMat 3) (q : Quat) (hq : ‖toH q‖ = 1) :
    (RotMat.fromQuaternion L m q false).elem.det = -1 ∧ (RotMat.fromQuaternion L m q false).flip = false := by
  constructor
  · rw [(C48_partial L m q hq).2.2, det_mul, (quatArr_so3 hq).det, (mirrorAxis_isRotation 0).det]
    simp [RotMat.mirrorAxis]
  · change (RotMat.prod L ⟨RotMat.quatArr q, true, m.valid, q.age⟩ (RotMat.mirrorAxis 0)).flip = _
    rw [RotMat.prod_flip]; rfl

example : ‖toH Quat.identity‖ = 1 := norm_identity

/-! ### C84 rotating by a quaternion and by its matrix -/

/-- C84, what holds: `v.rotate(RotMatrix(q))` is exactly the rotation by the *inverse* of `q`. -/
theorem C84_partial (L : Limits) (m : RotMat 3) (q : Quat) (hq : ‖toH q‖ = 1) (v : Vec 3) :
    (v.rotateM (RotMat.fromQuaternion L m q true)).elem = act (toH q.inverse) v.elem := by
  have hi : ‖toH q.inverse‖ = 1 := by rw [toH_inverse, norm_star, hq]
  rw [← quatArr_mulVec hi]
  change (RotMat.quatArr q)ᵀ *ᵥ v.elem = _
  congr 1
  rw [quatArr_eq, quatArr_eq]
  apply ext9 <;> simp [qArr, Quat.inverse] <;> ring

/-- C84 fails: turning the x axis by 90 degrees about z with a quaternion gives the y axis, with the matrix of the
quaternion its opposite. -/
theorem C84_false (L : Limits) (m : RotMat 3) : ∃ (q : Quat) (v : Vec 3), q.valid = true ∧ ‖toH q‖ = 1 ∧ v.valid = true ∧
    (v.rotateQ q).elem = ![0, 1, 0] ∧ (v.rotateM (RotMat.fromQuaternion L m q true)).elem = ![0, -1, 0] := by
  obtain ⟨s, hs2, hs0⟩ : ∃ s : ℝ, s ^ 2 = 1 / 2 ∧ 0 < s :=
    ⟨Real.sqrt 2 / 2, by rw [div_pow, Real.sq_sqrt (by norm_num)]; norm_num, by positivity⟩
  have hs1 : s ≤ 1 := by nlinarith [sq_nonneg (s - 1), sq_nonneg (s + 1)]
  let q : Quat := ⟨s, ⟨![0, 0, s], true⟩, true, 1⟩
  let v : Vec 3 := ⟨![1, 0, 0], true⟩
  have hq : ‖toH q‖ = 1 := norm_of_sq (by simp [q]; rw [hs2]; norm_num)
  have he := epsilon_pos
  have he2 := epsilon_lt
  norm_num at he2
  have hm : maxAbs v.elem ≤ 1 := maxAbs_le one_pos.le (fun k => by fin_cases k <;> simp [v])
  have hr : RotExact v q := by
    refine ⟨dotExact_of (Or.inl (by simp [q, v, dot3])), crossExact_of fun k => ?_⟩
    fin_cases k
    · left; simp [cross0, q, v]
    · right
      have h1 := min_le_right (maxAbs q.vec.elem) (maxAbs v.elem)
      have h2 : s ≤ |s| := le_abs_self s
      have h3 : 1 / 2 ≤ s := by nlinarith
      simp only [Fin.mk_one, cross1]; simp [q, v]
      change 2 * epsilon * min (maxAbs q.vec.elem) (maxAbs v.elem) ≤ |s|
      nlinarith
    · left; simp [cross2', q, v]
  refine ⟨q, v, rfl, hq, rfl, ?_, ?_⟩
  · rw [rotateQ_elem, hr.1, hr.2]
    apply ext3 <;> simp [q, v, dot3, cross0, cross1, cross2', hs2]
    linear_combination 2 * hs2
  · rw [C84_partial L m q hq]
    have hi : ‖toH q.inverse‖ = 1 := by rw [toH_inverse, norm_star, hq]
    rw [act_formula (normSq_eq_one.2 hi), vecOf_toH, toH_re]
    apply ext3 <;> simp [q, v, dot3, cross0, cross1, cross2', hs2, Quat.inverse]
    linear_combination 2 * hs2

/-! ### C85 validity of conversions -/

/-- C85 fails: the matrix made from an invalid quaternion is marked valid. -/
theorem C85_false (L : Limits) (m : RotMat 3) : ∃ q : Quat, q.valid = false ∧
    (∀ b, (RotMat.fromQuaternion L m q b).valid = true) := ⟨Quat.default, rfl, fun _ => rfl⟩

/-- C85, what holds: the conversion from a matrix to a quaternion, the product of quaternions and the rotation of a
matrix by a quaternion are valid exactly when all operands are. -/
theorem C85_partial (L : Limits) (m : RotMat 3) (p q : Quat) :
    (Quat.fromRotMatrix L m).1.valid = m.valid ∧ (p.mul q).valid = (p.valid && q.valid) ∧
    (p.div q).valid = (p.valid && q.valid) ∧ p.inverse.valid = p.valid ∧ p.normalize.valid = p.valid ∧
    (p.rotateMat L m).valid = (p.valid && m.valid) ∧ (RotMat.rotateQ L m q).valid = (m.valid && q.valid) := by
  refine ⟨rfl, mul_valid p q, div_valid p q, rfl, rfl, ?_, ?_⟩
  · rw [Quat.rotateMat, mul_valid]; rfl
  · simp [RotMat.rotateQ]

/-! ### C86 rotating a matrix by a quaternion -/

/-- The rows of the matrix are rotated without any inner or cross product being flushed to 0. -/
def RowsExact (m : RotMat 3) (q : Quat) : Prop := ∀ i, RotExact ⟨fun k => m.elem i k, true⟩ q

/-- C86: rotating by the matrix rotated by `q` is rotating by the matrix and then by `q`; the result is a rotation
matrix of the same parity. -/
theorem C86_rotate (L : Limits) (m : RotMat 3) (q : Quat) (hm : IsRotation m) (hq : ‖toH q‖ = 1) (hr : RowsExact m q) (v : Vec 3) :
    IsRotation (RotMat.rotateQ L m q) ∧ (RotMat.rotateQ L m q).flip = m.flip ∧
    (v.rotateM (RotMat.rotateQ L m q)).elem = act (toH q) (v.rotateM m).elem := by
  have hQ := quatArr_so3 hq
  have e : (Matrix.of fun i j => ((⟨fun k => m.elem i k, true⟩ : Vec 3).rotateQ q).elem j) = m.elem * (RotMat.quatArr q)ᵀ := by
    ext i j
    rw [of_apply, rotateQ_exact hq (hr i), ← quatArr_mulVec hq, Matrix.mul_apply, Matrix.mulVec, dotProduct]
    simp only [transpose_apply, mul_comm]
  have ho : (m.elem * (RotMat.quatArr q)ᵀ) * (m.elem * (RotMat.quatArr q)ᵀ)ᵀ = 1 :=
    RotMat.mul_orth hm.orth (RotMat.transpose_orth hQ.orth)
  have hel : (RotMat.rotateQ L m q).elem = m.elem * (RotMat.quatArr q)ᵀ := by
    unfold RotMat.rotateQ
    rw [RotMat.check_elem_of_orth]
    · exact e
    · rw [e]; exact ho
  have hfl : (RotMat.rotateQ L m q).flip = m.flip := by unfold RotMat.rotateQ; rw [RotMat.check_flip]
  refine ⟨⟨by rw [hel]; exact ho, ?_⟩, hfl, ?_⟩
  · rw [hel, hfl, det_mul, det_transpose, hQ.det, mul_one, hm.det]
  · rw [RotMat.rotateM_elem, RotMat.rotateM_elem, hel, ← vecMul_vecMul, vecMul_transpose, quatArr_mulVec hq]

/-- C86 applies to the identity matrix and a half turn. -/
example : IsRotation (RotMat.identity : RotMat 3) ∧ RowsExact RotMat.identity ⟨0, ⟨![1, 0, 0], true⟩, true, 1⟩ := by
  refine ⟨isRotation_identity, fun i => ?_⟩
  have he := epsilon_pos
  have he2 := epsilon_lt
  norm_num at he2
  have hm : maxAbs (![1, 0, 0] : Fin 3 → ℝ) ≤ 1 := maxAbs_le one_pos.le (fun k => by fin_cases k <;> simp)
  have h1 : ∀ v : Fin 3 → ℝ, 2 * epsilon * min (maxAbs (![1, 0, 0] : Fin 3 → ℝ)) (maxAbs v) ≤ 1 := by
    intro v
    have := min_le_left (maxAbs (![1, 0, 0] : Fin 3 → ℝ)) (maxAbs v)
    nlinarith
  have hrow : ∀ k, (⟨fun k => (RotMat.identity : RotMat 3).elem i k, true⟩ : Vec 3).elem k = if i = k then 1 else 0 := by
    intro k; simp only [RotMat.identity_elem, Matrix.one_apply]
  constructor
  · apply dotExact_of
    rw [dot3, hrow, hrow, hrow]
    fin_cases i
    · right; refine (h1 _).trans ?_; simp
    · left; simp
    · left; simp
  · apply crossExact_of
    intro k
    fin_cases k
    · left; simp only [Fin.zero_eta, cross0, hrow]; simp
    · simp only [Fin.mk_one, cross1, hrow]
      fin_cases i
      · left; simp
      · left; simp
      · right; refine (h1 _).trans ?_; simp
    · simp only [Fin.reduceFinMk, cross2', hrow]
      fin_cases i
      · left; simp
      · right; refine (h1 _).trans ?_; simp
      · left; simp

end WFMath
