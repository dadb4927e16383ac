/- Properties C24, C40-C44: rotation and mirror matrices. -/
import Verif.Lemmas.RotMatrix
import Mathlib.LinearAlgebra.Matrix.Trace
import Mathlib.LinearAlgebra.Matrix.Notation
import Mathlib.Analysis.Complex.Trigonometric

namespace WFMath
open Matrix Gauss Spec
variable {n : Nat}

/-! ### C24 rotating in a coordinate plane -/

/-- C24: what `v.rotate(i, j, theta)` returns. -/
theorem C24_components (v w : Vec n) (i j : Fin n) (θ : ℝ) (h : v.rotate i j θ = some w) :
    w.elem i = v.elem i * Real.cos θ - v.elem j * Real.sin θ ∧
    w.elem j = v.elem j * Real.cos θ + v.elem i * Real.sin θ ∧
    (∀ k, k ≠ i → k ≠ j → w.elem k = v.elem k) ∧ w.valid = v.valid := by
  unfold Vec.rotate at h
  split at h
  · exact absurd h (by simp)
  · rename_i hij
    obtain rfl := Option.some.inj h
    refine ⟨?_, ?_, ?_, rfl⟩
    · simp [Function.update_of_ne hij]
    · simp
    · intro k h1 h2; simp [Function.update_of_ne h1, Function.update_of_ne h2]

/-- C24: the call is allowed exactly for two different axes. -/
theorem C24_defined (v : Vec n) (i j : Fin n) (θ : ℝ) : (v.rotate i j θ).isSome ↔ i ≠ j := by
  unfold Vec.rotate; by_cases h : i = j <;> simp [h]

/-- C24: the result equals multiplication by the matrix `RotMatrix::rotation(i, j, theta)`. -/
theorem C24_matrix (v w : Vec n) (m : RotMat n) (i j : Fin n) (θ : ℝ) (h : v.rotate i j θ = some w)
    (hm : RotMat.rotation i j θ = some m) : w = v.rotateM m := by
  obtain ⟨hij, he, _, hv⟩ := RotMat.rotation_eq hm
  obtain ⟨h1, h2, h3, h4⟩ := C24_components v w i j θ h
  ext k
  · rw [RotMat.rotateM_elem, he, vecMul_planeMat]
    simp only [Pi.add_apply, Pi.smul_apply, smul_eq_mul, dotProduct_single, mul_one, Pi.single_apply]
    by_cases hki : k = i
    · subst hki; rw [h1]; simp [hij]; ring
    · by_cases hkj : k = j
      · subst hkj; rw [h2]; simp [hki]; ring
      · rw [h3 k hki hkj]; simp [hki, hkj]
  · rw [RotMat.rotateM_valid, h4, hv, Bool.true_and]

/-- C24: lengths are preserved. -/
theorem C24_length (v w : Vec n) (i j : Fin n) (θ : ℝ) (h : v.rotate i j θ = some w) :
    w.sqrMag = v.sqrMag := by
  have hij : i ≠ j := (C24_defined v i j θ).1 (by rw [h]; rfl)
  obtain ⟨m, hm⟩ : ∃ m, RotMat.rotation i j θ = some m := by
    unfold RotMat.rotation; rw [if_neg hij]; exact ⟨_, rfl⟩
  obtain ⟨_, he, _, _⟩ := RotMat.rotation_eq hm
  rw [C24_matrix v w m i j θ h hm, Vec.sqrMag_eq, Vec.sqrMag_eq, RotMat.rotateM_elem, ← dotProduct_mulVec,
    ← vecMul_transpose, vecMul_vecMul, he,
    planeMat_orth (RotMat.single_orthonormal hij) (by rw [add_comm]; exact Real.sin_sq_add_cos_sq _), vecMul_one]

/-- C24: rotating by `θ` and then by `φ` rotates by `θ + φ`. -/
theorem C24_additive (v w x : Vec n) (i j : Fin n) (θ φ : ℝ) (h : v.rotate i j θ = some w)
    (h' : w.rotate i j φ = some x) : v.rotate i j (θ + φ) = some x := by
  have hij : i ≠ j := (C24_defined v i j θ).1 (by rw [h]; rfl)
  obtain ⟨y, hy⟩ : ∃ y, v.rotate i j (θ + φ) = some y := by
    unfold Vec.rotate; rw [if_neg hij]; exact ⟨_, rfl⟩
  rw [hy]
  obtain ⟨a1, a2, a3, a4⟩ := C24_components _ _ _ _ _ h
  obtain ⟨b1, b2, b3, b4⟩ := C24_components _ _ _ _ _ h'
  obtain ⟨c1, c2, c3, c4⟩ := C24_components _ _ _ _ _ hy
  congr 1
  ext k
  · by_cases hki : k = i
    · subst hki; rw [c1, b1, a1, a2, Real.cos_add, Real.sin_add]; ring
    · by_cases hkj : k = j
      · subst hkj; rw [c2, b2, a1, a2, Real.cos_add, Real.sin_add]; ring
      · rw [c3 k hki hkj, b3 k hki hkj, a3 k hki hkj]
  · rw [c4, b4, a4]

/-- C24: rotating by `-θ` undoes rotating by `θ`. -/
theorem C24_inverse (v w : Vec n) (i j : Fin n) (θ : ℝ) (h : v.rotate i j θ = some w) :
    w.rotate i j (-θ) = some v := by
  have hij : i ≠ j := (C24_defined v i j θ).1 (by rw [h]; rfl)
  obtain ⟨y, hy⟩ : ∃ y, w.rotate i j (-θ) = some y := by
    unfold Vec.rotate; rw [if_neg hij]; exact ⟨_, rfl⟩
  have := C24_additive v w y i j θ (-θ) h hy
  rw [add_neg_cancel] at this
  obtain ⟨c1, c2, c3, c4⟩ := C24_components _ _ _ _ _ this
  rw [hy]
  congr 1
  ext k
  · by_cases hki : k = i
    · subst hki; rw [c1, Real.cos_zero, Real.sin_zero]; ring
    · by_cases hkj : k = j
      · subst hkj; rw [c2, Real.cos_zero, Real.sin_zero]; ring
      · rw [c3 k hki hkj]
  · rw [c4]

example : ((⟨![1, 0, 5], true⟩ : Vec 3).rotate 0 1 (Real.pi / 2)).isSome := by
  rw [C24_defined]; decide

/-! ### C40 orthogonality and parity over histories -/

theorem mirrorAxis_isRotation (i : Fin n) : IsRotation (RotMat.mirrorAxis i) := by
  have e : (RotMat.mirrorAxis i).elem = 1 - (2 : ℝ) • vecMulVec (Pi.single i 1) (Pi.single i 1) := by
    ext k l
    simp only [RotMat.mirrorAxis, of_apply, Matrix.sub_apply, Matrix.smul_apply, vecMulVec_apply, Pi.single_apply,
      Matrix.one_apply, smul_eq_mul]
    by_cases h1 : k = i <;> by_cases h2 : l = i <;> simp_all
    norm_num
  constructor
  · rw [e]
    simp only [transpose_sub, transpose_smul, transpose_one, transpose_vecMulVec, Matrix.sub_mul, Matrix.mul_sub,
      Matrix.one_mul, Matrix.mul_one, Matrix.smul_mul, Matrix.mul_smul, vecMulVec_mul_vecMulVec]
    simp
    module
  · rw [e, det_reflection _ (by simp)]; rfl

theorem mirrorDir_eq {v : Vec n} {m : RotMat n} (h : RotMat.mirrorDir v = some m) :
    v.elem ≠ 0 ∧ m.elem = 1 - (2 : ℝ) • vecMulVec (RotMat.unit v) (RotMat.unit v) ∧ m.flip = true ∧ m.valid = true := by
  unfold RotMat.mirrorDir at h
  split at h
  · exact absurd h (by simp)
  · rename_i h1
    rw [not_not] at h1
    obtain rfl := Option.some.inj h
    refine ⟨Vec.sqrMag_pos.1 h1, ?_, rfl, rfl⟩
    ext i j
    simp only [of_apply, Matrix.sub_apply, Matrix.smul_apply, vecMulVec_apply, RotMat.unit_mul_self, Matrix.one_apply,
      smul_eq_mul]
    by_cases hij : i = j
    · subst hij; simp; ring
    · simp only [if_neg hij]; split <;> ring

theorem reflection_orth {u : Fin n → ℝ} (h : u ⬝ᵥ u = 1) :
    (1 - (2 : ℝ) • vecMulVec u u) * (1 - (2 : ℝ) • vecMulVec u u)ᵀ = 1 := by
  simp only [transpose_sub, transpose_smul, transpose_one, transpose_vecMulVec, Matrix.sub_mul, Matrix.mul_sub,
    Matrix.one_mul, Matrix.mul_one, Matrix.smul_mul, Matrix.mul_smul, vecMulVec_mul_vecMulVec, h, one_smul]
  module

theorem mirrorDir_isRotation {v : Vec n} {m : RotMat n} (h : RotMat.mirrorDir v = some m) : IsRotation m := by
  obtain ⟨hv, he, hf, _⟩ := mirrorDir_eq h
  exact ⟨by rw [he]; exact reflection_orth (RotMat.unit_self hv),
    by rw [he, det_reflection _ (RotMat.unit_self hv), hf]; rfl⟩

theorem mirrorAll_elem : (RotMat.mirrorAll : RotMat n).elem = -1 := by
  ext i j
  simp only [RotMat.mirrorAll, of_apply, Matrix.neg_apply, Matrix.one_apply]
  split <;> simp

theorem mirrorAll_isRotation : IsRotation (RotMat.mirrorAll : RotMat n) := by
  constructor
  · rw [mirrorAll_elem]; simp
  · rw [mirrorAll_elem, det_neg, det_one, mul_one, Fintype.card_fin]
    rcases Nat.even_or_odd n with h | h
    · have hf : (RotMat.mirrorAll : RotMat n).flip = false := by
        simp only [RotMat.mirrorAll, beq_eq_false_iff_ne]; rcases h with ⟨k, rfl⟩; omega
      rw [h.neg_one_pow, hf]; rfl
    · have hf : (RotMat.mirrorAll : RotMat n).flip = true := by
        simp only [RotMat.mirrorAll, beq_iff_eq]; rcases h with ⟨k, rfl⟩; omega
      rw [h.neg_one_pow, hf]; rfl

theorem rotation_isRotation {i j : Fin n} {θ : ℝ} {m : RotMat n} (h : RotMat.rotation i j θ = some m) :
    IsRotation m := by
  obtain ⟨hij, he, hf, _⟩ := RotMat.rotation_eq h
  exact ⟨by rw [he]; exact planeMat_orth (RotMat.single_orthonormal hij) (by rw [add_comm]; exact Real.sin_sq_add_cos_sq _),
    by rw [he, planeMat_det (RotMat.single_orthonormal hij), hf]; rfl⟩

theorem rotationPlane_isRotation {v1 v2 : Vec n} {θ : ℝ} {m : RotMat n} (hd : DotExact v1 v2)
    (h : RotMat.rotationPlane v1 v2 θ = .ok m) : IsRotation m := by
  obtain ⟨_, he, hf, _, _⟩ := RotMat.rotationPlane_eq h
  have ho := RotMat.rotationPlane_orthonormal hd h
  exact ⟨by rw [he]; exact planeMat_orth ho (by rw [add_comm]; exact Real.sin_sq_add_cos_sq _),
    by rw [he, planeMat_det ho, hf]; rfl⟩

theorem rotationFromTo_isRotation {a b : Vec n} {m : RotMat n} (hd : DotExact a b)
    (hc : epsilon ≤ (a.elem ⬝ᵥ b.elem) / (a.mag * b.mag) + 1)
    (h : RotMat.rotationFromTo a b = .ok m) : IsRotation m := by
  obtain ⟨ha, hb, hf, _, he⟩ := RotMat.rotationFromTo_eq hd hc h
  have hne : RotMat.unit a ⬝ᵥ RotMat.unit b + 1 ≠ 0 := by
    rw [RotMat.unit_dot]; have := epsilon_pos; linarith
  obtain ⟨h1, h2, _, _⟩ := RotMat.fromTo_matrix (RotMat.unit_self ha) (RotMat.unit_self hb) hne
  exact ⟨by rw [he]; exact h1, by rw [he, hf]; exact h2⟩

/-- The exact half turn in two dimensions. -/
theorem rotationFromTo_opposite {a b : Vec 2} {m : RotMat 2} (hd : DotExact a b)
    (hc : (a.elem ⬝ᵥ b.elem) / (a.mag * b.mag) + 1 = 0)
    (h : RotMat.rotationFromTo a b = .ok m) : m.elem = -1 ∧ m.flip = false ∧ m.valid = true := by
  unfold RotMat.rotationFromTo at h
  split at h
  · exact absurd h (by simp)
  split at h
  · exact absurd h (by simp)
  simp only at h
  have hmag : Real.sqrt (a.sqrMag * b.sqrMag) = a.mag * b.mag := by
    rw [Real.sqrt_mul (Vec.sqrMag_nonneg _)]; rfl
  have hd' : a.dot b = a.elem ⬝ᵥ b.elem := hd
  rw [hmag, hd', if_pos (by rw [hc]; exact epsilon_pos)] at h
  simp only [dif_pos, hc, mul_zero, Real.sqrt_zero, neg_zero] at h
  obtain rfl := Except.ok.inj h
  refine ⟨?_, rfl, rfl⟩
  ext i j
  fin_cases i <;> fin_cases j <;> simp

theorem rotationFromTo_exact_isRotation {a b : Vec n} {m : RotMat n} (hd : DotExact a b)
    (hc : n = 2 → epsilon ≤ (a.elem ⬝ᵥ b.elem) / (a.mag * b.mag) + 1 ∨ (a.elem ⬝ᵥ b.elem) / (a.mag * b.mag) + 1 = 0)
    (h : RotMat.rotationFromTo a b = .ok m) : IsRotation m ∧ m.valid = true := by
  by_cases hlt : epsilon ≤ (a.elem ⬝ᵥ b.elem) / (a.mag * b.mag) + 1
  · exact ⟨rotationFromTo_isRotation hd hlt h, (RotMat.rotationFromTo_eq hd hlt h).2.2.2.1⟩
  · by_cases hn : n = 2
    · subst hn
      obtain ⟨he, hf, hv⟩ := rotationFromTo_opposite hd ((hc rfl).resolve_left hlt) h
      exact ⟨⟨by rw [he]; simp, by rw [he, hf, det_neg, det_one]; simp⟩, hv⟩
    · exfalso
      unfold RotMat.rotationFromTo at h
      split at h
      · exact absurd h (by simp)
      split at h
      · exact absurd h (by simp)
      simp only at h
      have hmag : Real.sqrt (a.sqrMag * b.sqrMag) = a.mag * b.mag := by
        rw [Real.sqrt_mul (Vec.sqrMag_nonneg _)]; rfl
      have hd' : a.dot b = a.elem ⬝ᵥ b.elem := hd
      rw [hmag, hd', if_pos (not_le.1 hlt)] at h
      try rw [dif_neg hn] at h
      exact absurd h (by simp)

/-- C40: every history of matrix operations (in which no inner product was flushed to zero) that runs to
its end produces a valid orthogonal matrix whose parity flag tells the sign of its determinant - whatever the
age counters do and wherever renormalisation happens. -/
theorem C40_invariant (L : Limits) (t : RotTerm n) (ht : t.Exact) (m : RotMat n) (h : t.eval L = some m) :
    IsRotation m ∧ m.valid = true := by
  induction t generalizing m with
  | identity => obtain rfl := Option.some.inj h; exact ⟨isRotation_identity, rfl⟩
  | mirrorAxis i => obtain rfl := Option.some.inj h; exact ⟨mirrorAxis_isRotation i, rfl⟩
  | mirrorDir v => exact ⟨mirrorDir_isRotation h, (mirrorDir_eq h).2.2.2⟩
  | mirrorAll => obtain rfl := Option.some.inj h; exact ⟨mirrorAll_isRotation, rfl⟩
  | rotation i j θ => exact ⟨rotation_isRotation h, (RotMat.rotation_eq h).2.2.2⟩
  | rotationPlane v1 v2 θ =>
    simp only [RotTerm.eval] at h
    cases hr : RotMat.rotationPlane v1 v2 θ with
    | error e => rw [hr] at h; exact absurd h (by simp [Except.toOption])
    | ok m' =>
      rw [hr] at h
      obtain rfl := Option.some.inj h
      exact ⟨rotationPlane_isRotation ht hr, (RotMat.rotationPlane_eq hr).2.2.2.1⟩
  | rotationFromTo a b =>
    simp only [RotTerm.eval] at h
    cases hr : RotMat.rotationFromTo a b with
    | error e => rw [hr] at h; exact absurd h (by simp [Except.toOption])
    | ok m' =>
      rw [hr] at h
      obtain rfl := Option.some.inj h
      exact rotationFromTo_exact_isRotation ht.1 ht.2 hr
  | prod s t ihs iht =>
    simp only [RotTerm.eval] at h
    obtain ⟨a, ha, h⟩ := Option.bind_eq_some_iff.1 h
    obtain ⟨b, hb, h⟩ := Option.bind_eq_some_iff.1 h
    obtain rfl := Option.some.inj h
    obtain ⟨p, q⟩ := ihs ht.1 a ha
    obtain ⟨r, s⟩ := iht ht.2 b hb
    exact ⟨p.prod r, by simp [q, s]⟩
  | prodInv s t ihs iht =>
    simp only [RotTerm.eval] at h
    obtain ⟨a, ha, h⟩ := Option.bind_eq_some_iff.1 h
    obtain ⟨b, hb, h⟩ := Option.bind_eq_some_iff.1 h
    obtain rfl := Option.some.inj h
    obtain ⟨p, q⟩ := ihs ht.1 a ha
    obtain ⟨r, s⟩ := iht ht.2 b hb
    exact ⟨p.prodInv r, by simp [q, s]⟩
  | invProd s t ihs iht =>
    simp only [RotTerm.eval] at h
    obtain ⟨a, ha, h⟩ := Option.bind_eq_some_iff.1 h
    obtain ⟨b, hb, h⟩ := Option.bind_eq_some_iff.1 h
    obtain rfl := Option.some.inj h
    obtain ⟨p, q⟩ := ihs ht.1 a ha
    obtain ⟨r, s⟩ := iht ht.2 b hb
    exact ⟨p.invProd r, by simp [q, s]⟩
  | invProdInv s t ihs iht =>
    simp only [RotTerm.eval] at h
    obtain ⟨a, ha, h⟩ := Option.bind_eq_some_iff.1 h
    obtain ⟨b, hb, h⟩ := Option.bind_eq_some_iff.1 h
    obtain rfl := Option.some.inj h
    obtain ⟨p, q⟩ := ihs ht.1 a ha
    obtain ⟨r, s⟩ := iht ht.2 b hb
    exact ⟨p.invProdInv r, by simp [q, s]⟩
  | inverse s ihs =>
    simp only [RotTerm.eval] at h
    obtain ⟨a, ha, h⟩ := Option.bind_eq_some_iff.1 h
    obtain rfl := Option.some.inj h
    obtain ⟨p, q⟩ := ihs ht a ha
    exact ⟨p.inverse, by simp [q]⟩
  | normalize s ihs =>
    simp only [RotTerm.eval] at h
    obtain ⟨a, ha, h⟩ := Option.bind_eq_some_iff.1 h
    obtain rfl := Option.some.inj h
    obtain ⟨p, q⟩ := ihs ht a ha
    exact ⟨p.normalize, by simp [q]⟩

/-- A history that meets the hypotheses: `mirror(0) * rotation(0, 1, 1)`, inverted. -/
example (L : Limits) : ∃ m, (RotTerm.inverse (.prod (.mirrorAxis (0 : Fin 3)) (.rotation 0 1 1))).eval L = some m ∧
    (RotTerm.inverse (.prod (.mirrorAxis (0 : Fin 3)) (.rotation 0 1 1))).Exact ∧ m.flip = true := by
  have : ∃ m, RotMat.rotation (0 : Fin 3) 1 1 = some m := by
    unfold RotMat.rotation; rw [if_neg (by decide)]; exact ⟨_, rfl⟩
  obtain ⟨m, hm⟩ := this
  refine ⟨_, by simp only [RotTerm.eval, hm]; rfl, ⟨trivial, trivial⟩, ?_⟩
  rw [RotMat.inverse_flip, RotMat.prod_flip, (RotMat.rotation_eq hm).2.2.1]; rfl

/-! ### C41 product conventions -/

/-- C41: rotating by `m1` and then by `m2` is rotating by `m1 * m2`. -/
theorem C41_compose (L : Limits) (v : Vec n) (m1 m2 : RotMat n) (h1 : IsRotation m1) (h2 : IsRotation m2) :
    (v.rotateM m1).rotateM m2 = v.rotateM (RotMat.prod L m1 m2) := by
  ext k
  · simp only [RotMat.rotateM_elem, RotMat.prod_elem h1.orth h2.orth, vecMul_vecMul]
  · simp only [RotMat.rotateM_valid, RotMat.prod_valid]
    cases m1.valid <;> cases m2.valid <;> cases v.valid <;> rfl

/-- C41: the four products are the products of the matrices or of their inverses. -/
theorem C41_products (L : Limits) (a b : RotMat n) (ha : IsRotation a) (hb : IsRotation b) :
    (RotMat.prod L a b).elem = a.elem * b.elem ∧
    (RotMat.prodInv L a b).elem = a.elem * b.elem⁻¹ ∧
    (RotMat.invProd L a b).elem = a.elem⁻¹ * b.elem ∧
    (RotMat.invProdInv L a b).elem = a.elem⁻¹ * b.elem⁻¹ := by
  rw [inv_eq_right_inv ha.orth, inv_eq_right_inv hb.orth]
  exact ⟨RotMat.prod_elem ha.orth hb.orth, RotMat.prodInv_elem ha.orth hb.orth,
    RotMat.invProd_elem ha.orth hb.orth, RotMat.invProdInv_elem ha.orth hb.orth⟩

/-- C41: `inverse()` stores the matrix inverse, and undoes a rotation whichever comes first. -/
theorem C41_inverse (v : Vec n) (m : RotMat n) (h : IsRotation m) (hv : m.valid = true) :
    m.inverse.elem = m.elem⁻¹ ∧ (v.rotateM m).rotateM m.inverse = v ∧ (v.rotateM m.inverse).rotateM m = v := by
  refine ⟨by rw [RotMat.inverse_elem, inv_eq_right_inv h.orth], ?_, ?_⟩
  · ext k
    · simp only [RotMat.rotateM_elem, RotMat.inverse_elem, vecMul_vecMul, h.orth, vecMul_one]
    · simp [hv]
  · ext k
    · simp only [RotMat.rotateM_elem, RotMat.inverse_elem, vecMul_vecMul, h.orth', vecMul_one]
    · simp [hv]

/-- C41: vectors on either side: `m * v` and `ProdInv(v, m)` rotate by the inverse of `m`,
`v * m` and `InvProd(m, v)` rotate by `m`. -/
theorem C41_sides (v : Vec n) (m : RotMat n) :
    m.mulVec v = v.rotateM m.inverse ∧ v.prodInvM m = v.rotateM m.inverse ∧ m.invMulVec v = v.rotateM m := by
  refine ⟨?_, ?_, rfl⟩
  · ext k
    · simp only [RotMat.rotateM_elem, RotMat.inverse_elem, RotMat.mulVec_elem, vecMul_transpose]
    · rfl
  · ext k
    · simp only [RotMat.rotateM_elem, RotMat.inverse_elem, RotMat.prodInvM_elem, vecMul_transpose]
    · rfl

/-- C41: rotating preserves exact inner products, hence lengths and angles. -/
theorem C41_isometry (u v : Vec n) (m : RotMat n) (h : IsRotation m) :
    (u.rotateM m).elem ⬝ᵥ (v.rotateM m).elem = u.elem ⬝ᵥ v.elem ∧ (v.rotateM m).sqrMag = v.sqrMag := by
  have key : ∀ u v : Vec n, (u.rotateM m).elem ⬝ᵥ (v.rotateM m).elem = u.elem ⬝ᵥ v.elem := by
    intro u v
    rw [RotMat.rotateM_elem, RotMat.rotateM_elem, ← dotProduct_mulVec, ← vecMul_transpose, vecMul_vecMul,
      h.orth, vecMul_one]
  exact ⟨key u v, key v v⟩

/-- C41: `trace()`, `determinant()`, `row()` and `column()` report what their names say. -/
theorem C41_accessors (m : RotMat n) (h : IsRotation m) :
    m.trace = Matrix.trace m.elem ∧ m.determinant = m.elem.det ∧
    (∀ i, (m.row i).elem = m.elem i) ∧ (∀ i, (m.column i).elem = m.elemᵀ i) :=
  ⟨rfl, by rw [h.det]; rfl, fun _ => rfl, fun _ => rfl⟩

example : IsRotation (RotMat.mirrorAll : RotMat 3) ∧ (RotMat.mirrorAll : RotMat 3).valid = true :=
  ⟨mirrorAll_isRotation, rfl⟩

/-! ### C42 rotations in a plane -/

/-- C42: `rotation(i, j, theta)` is a rotation (parity even), is additive in the angle, and turns the axis
`i` towards the axis `j`. -/
theorem C42_axes (i j : Fin n) (θ φ : ℝ) (m m' m'' : RotMat n) (h : RotMat.rotation i j θ = some m)
    (h' : RotMat.rotation i j φ = some m') (h'' : RotMat.rotation i j (θ + φ) = some m'') :
    IsRotation m ∧ m.flip = false ∧ m.elem * m'.elem = m''.elem ∧
    (Pi.single i 1 : Fin n → ℝ) ᵥ* m.elem = Real.cos θ • Pi.single i 1 + Real.sin θ • Pi.single j 1 ∧
    (Pi.single j 1 : Fin n → ℝ) ᵥ* m.elem = Real.cos θ • Pi.single j 1 - Real.sin θ • Pi.single i 1 ∧
    ∀ k, k ≠ i → k ≠ j → (Pi.single k 1 : Fin n → ℝ) ᵥ* m.elem = Pi.single k 1 := by
  obtain ⟨hij, he, hf, _⟩ := RotMat.rotation_eq h
  obtain ⟨_, he', _, _⟩ := RotMat.rotation_eq h'
  obtain ⟨_, he'', _, _⟩ := RotMat.rotation_eq h''
  have ho := RotMat.single_orthonormal hij
  refine ⟨rotation_isRotation h, hf, ?_, ?_, ?_, ?_⟩
  · rw [he, he', he'', planeMat_mul ho, Real.cos_add, Real.sin_add]; congr 1; ring
  · rw [he, vecMul_planeMat, ho.uu, ho.uw]; module
  · rw [he, vecMul_planeMat, ho.ww, ho.wu]; module
  · intro k hk hk'
    rw [he, vecMul_planeMat]; simp [hk, hk']

/-- C42: `rotation(v1, v2, theta)` is a rotation (parity even), is additive in the angle, turns `v1` by `theta`
in the plane of `v1` and `v2` towards the part `P` of `v2` perpendicular to `v1`, and fixes everything
perpendicular to both. -/
theorem C42_plane (v1 v2 : Vec n) (θ φ : ℝ) (m m' m'' : RotMat n) (hd : DotExact v1 v2)
    (h : RotMat.rotationPlane v1 v2 θ = .ok m) (h' : RotMat.rotationPlane v1 v2 φ = .ok m')
    (h'' : RotMat.rotationPlane v1 v2 (θ + φ) = .ok m'') :
    IsRotation m ∧ m.flip = false ∧ m.elem * m'.elem = m''.elem ∧
    (∀ P : Vec n, P.elem = v2.elem - ((v1.elem ⬝ᵥ v2.elem) / (v1.elem ⬝ᵥ v1.elem)) • v1.elem → P.elem ≠ 0 ∧
      v1.elem ᵥ* m.elem = Real.cos θ • v1.elem + (Real.sin θ * v1.mag / P.mag) • P.elem ∧
      P.elem ᵥ* m.elem = Real.cos θ • P.elem - (Real.sin θ * P.mag / v1.mag) • v1.elem) ∧
    (∀ x : Fin n → ℝ, x ⬝ᵥ v1.elem = 0 → x ⬝ᵥ v2.elem = 0 → x ᵥ* m.elem = x) := by
  obtain ⟨h1, he, hf, _, h2⟩ := RotMat.rotationPlane_eq h
  obtain ⟨_, he', _, _, _⟩ := RotMat.rotationPlane_eq h'
  obtain ⟨_, he'', _, _, _⟩ := RotMat.rotationPlane_eq h''
  have ho := RotMat.rotationPlane_orthonormal hd h
  have hvp : (RotMat.vperp v1 v2).elem ≠ 0 := by
    intro h0
    have := ho.ww
    rw [RotMat.unit_dot, h0, dotProduct_zero, zero_div] at this
    exact zero_ne_one this
  have hP : (RotMat.vperp v1 v2).elem = v2.elem - ((v1.elem ⬝ᵥ v2.elem) / (v1.elem ⬝ᵥ v1.elem)) • v1.elem := by
    have hd' : v1.dot v2 = v1.elem ⬝ᵥ v2.elem := hd
    unfold RotMat.vperp
    rw [Vec.sub_elem, Vec.divBy_elem, Vec.scale_elem, hd', Vec.sqrMag_eq, smul_smul, div_eq_inv_mul]
  have hun : ∀ {v : Vec n}, v.elem ≠ 0 → v.elem = v.mag • RotMat.unit v := by
    intro v hv
    unfold RotMat.unit
    rw [smul_smul, mul_inv_cancel₀ (Vec.mag_pos.2 hv).ne', one_smul]
  refine ⟨rotationPlane_isRotation hd h, hf, ?_, ?_, ?_⟩
  · rw [he, he', he'', planeMat_mul ho, Real.cos_add, Real.sin_add]; congr 1; ring
  · intro P hPe
    rw [← hP] at hPe
    have hPm : P.mag = (RotMat.vperp v1 v2).mag := by
      unfold Vec.mag; rw [Vec.sqrMag_eq, Vec.sqrMag_eq, hPe]
    rw [hPe, hPm]
    have m1 := (Vec.mag_pos.2 h1).ne'
    have m2 := (Vec.mag_pos.2 hvp).ne'
    refine ⟨hvp, ?_, ?_⟩
    · conv_lhs => rw [hun h1]
      conv_rhs => rw [hun h1, hun hvp]
      rw [he, smul_vecMul, vecMul_planeMat, ho.uu, ho.uw, smul_smul, smul_smul, div_mul_cancel₀ _ m2]
      module
    · conv_lhs => rw [hun hvp]
      conv_rhs => rw [hun h1, hun hvp]
      rw [he, smul_vecMul, vecMul_planeMat, ho.ww, ho.wu, smul_smul, smul_smul, div_mul_cancel₀ _ m1]
      module
  · intro x hx1 hx2
    have e1 : x ⬝ᵥ RotMat.unit v1 = 0 := by unfold RotMat.unit; rw [dotProduct_smul, hx1, smul_zero]
    have e2 : x ⬝ᵥ RotMat.unit (RotMat.vperp v1 v2) = 0 := by
      unfold RotMat.unit; rw [dotProduct_smul, hP, dotProduct_sub, dotProduct_smul, hx1, hx2]; simp
    rw [he, vecMul_planeMat, e1, e2]; module

/-- C42: whether `rotation(v1, v2, theta)` succeeds does not depend on the angle. -/
theorem C42_plane_defined (v1 v2 : Vec n) (θ φ : ℝ) (m : RotMat n) (h : RotMat.rotationPlane v1 v2 θ = .ok m) :
    ∃ m', RotMat.rotationPlane v1 v2 φ = .ok m' := by
  obtain ⟨h1, _, _, _, h2⟩ := RotMat.rotationPlane_eq h
  unfold RotMat.rotationPlane
  rw [if_neg (not_not.2 (Vec.sqrMag_pos.2 h1))]
  simp only
  rw [if_neg (not_lt.2 h2)]
  exact ⟨_, rfl⟩

theorem maxAbs_one_le {n : Nat} (i : Fin n) (v : Fin n → ℝ) (h : 1 ≤ |v i|) : 1 ≤ maxAbs v :=
  le_trans h (le_maxAbs v i)

/-- The hypotheses of `C42_plane` can be met. -/
example : DotExact (⟨![1, 0, 0], true⟩ : Vec 3) ⟨![1, 1, 0], true⟩ ∧
    ∃ m, RotMat.rotationPlane (⟨![1, 0, 0], true⟩ : Vec 3) ⟨![1, 1, 0], true⟩ 1 = .ok m := by
  have hd : DotExact (⟨![1, 0, 0], true⟩ : Vec 3) ⟨![1, 1, 0], true⟩ := by
    apply Vec.dot_exact
    have h1 : maxAbs (![1, 0, 0] : Fin 3 → ℝ) ≤ 1 := by
      apply maxAbs_le zero_le_one; intro i; fin_cases i <;> simp
    have h2 := min_le_left (maxAbs (![1, 0, 0] : Fin 3 → ℝ)) (maxAbs (![1, 1, 0] : Fin 3 → ℝ))
    have h3 := epsilon_lt
    have h4 := epsilon_pos
    have e : (![1, 0, 0] : Fin 3 → ℝ) ⬝ᵥ ![1, 1, 0] = 1 := by simp [dotProduct, Fin.sum_univ_three]
    show _ ≤ |(![1, 0, 0] : Fin 3 → ℝ) ⬝ᵥ ![1, 1, 0]|
    rw [e, abs_one]
    norm_num at h3 ⊢
    nlinarith
  refine ⟨hd, ?_⟩
  unfold RotMat.rotationPlane
  have e1 : (⟨![1, 0, 0], true⟩ : Vec 3).sqrMag = 1 := by simp [Vec.sqrMag, Fin.sum_univ_three]
  rw [if_neg (by rw [e1]; norm_num)]
  simp only
  have hdd : (⟨![1, 0, 0], true⟩ : Vec 3).dot ⟨![1, 1, 0], true⟩ = 1 := by
    have h : _ = _ := hd
    rw [h]; simp [dotProduct, Fin.sum_univ_three]
  have e2 : (RotMat.vperp (⟨![1, 0, 0], true⟩ : Vec 3) ⟨![1, 1, 0], true⟩).sqrMag = 1 := by
    unfold RotMat.vperp
    rw [hdd, e1, Vec.sqrMag_eq]
    simp [dotProduct, Fin.sum_univ_three]
  rw [if_neg]
  · exact ⟨_, rfl⟩
  · rw [e1, e2]
    have h3 := epsilon_lt
    have h4 := epsilon_pos
    norm_num at h3 ⊢
    nlinarith

/-! ### C43 the rotation taking one direction to another -/

/-- C43 (partial): away from opposite vectors `rotation(from, to)` is a rotation (parity even) that takes
`from` onto the direction of `to` and fixes everything perpendicular to both. Missing: vectors closer to
opposite than the code's epsilon in two dimensions, where the statement is false (`C43_false`), and vectors
whose inner product is flushed to 0. -/
theorem C43_partial (a b : Vec n) (m : RotMat n) (hd : DotExact a b)
    (hc : epsilon ≤ (a.elem ⬝ᵥ b.elem) / (a.mag * b.mag) + 1) (h : RotMat.rotationFromTo a b = .ok m) :
    IsRotation m ∧ m.flip = false ∧ m.valid = true ∧
    a.elem ᵥ* m.elem = (a.mag / b.mag) • b.elem ∧
    (∀ x : Fin n → ℝ, x ⬝ᵥ a.elem = 0 → x ⬝ᵥ b.elem = 0 → x ᵥ* m.elem = x) := by
  obtain ⟨ha, hb, hf, hv, he⟩ := RotMat.rotationFromTo_eq hd hc h
  have hne : RotMat.unit a ⬝ᵥ RotMat.unit b + 1 ≠ 0 := by
    rw [RotMat.unit_dot]; have := epsilon_pos; linarith
  obtain ⟨_, _, h3, h4⟩ := RotMat.fromTo_matrix (RotMat.unit_self ha) (RotMat.unit_self hb) hne
  rw [← he] at h3 h4
  refine ⟨rotationFromTo_isRotation hd hc h, hf, hv, ?_, ?_⟩
  · have hun : a.elem = a.mag • RotMat.unit a := by
      unfold RotMat.unit
      rw [smul_smul, mul_inv_cancel₀ (Vec.mag_pos.2 ha).ne', one_smul]
    conv_lhs => rw [hun]
    rw [smul_vecMul, h3]
    unfold RotMat.unit
    rw [smul_smul, div_eq_mul_inv]
  · intro x h1 h2
    apply h4
    · unfold RotMat.unit; rw [dotProduct_smul, h1, smul_zero]
    · unfold RotMat.unit; rw [dotProduct_smul, h2, smul_zero]

/-- C43: exactly opposite vectors in two dimensions give the half turn. -/
theorem C43_opposite (a b : Vec 2) (m : RotMat 2) (hd : DotExact a b)
    (hc : (a.elem ⬝ᵥ b.elem) / (a.mag * b.mag) + 1 = 0) (h : RotMat.rotationFromTo a b = .ok m) :
    IsRotation m ∧ m.flip = false ∧ a.elem ᵥ* m.elem = -a.elem := by
  obtain ⟨he, hf, hv⟩ := rotationFromTo_opposite hd hc h
  refine ⟨⟨by rw [he]; simp, by rw [he, hf, det_neg, det_one]; simp⟩, hf, ?_⟩
  rw [he, vecMul_neg, vecMul_one]

/-- C43: the call never fails for nonzero vectors away from opposite, and in other dimensions than two it
throws when the vectors are opposite up to epsilon. -/
theorem C43_defined (a b : Vec n) (ha : a.elem ≠ 0) (hb : b.elem ≠ 0) (hd : DotExact a b) :
    (epsilon ≤ (a.elem ⬝ᵥ b.elem) / (a.mag * b.mag) + 1 → ∃ m, RotMat.rotationFromTo a b = .ok m) ∧
    (n ≠ 2 → (a.elem ⬝ᵥ b.elem) / (a.mag * b.mag) + 1 < epsilon →
      RotMat.rotationFromTo a b = .error .colinear) := by
  have hd' : a.dot b = a.elem ⬝ᵥ b.elem := hd
  have hmag : Real.sqrt (a.sqrMag * b.sqrMag) = a.mag * b.mag := by
    rw [Real.sqrt_mul (Vec.sqrMag_nonneg _)]; rfl
  constructor
  · intro hc
    unfold RotMat.rotationFromTo
    rw [if_neg (not_not.2 (Vec.sqrMag_pos.2 ha)), if_neg (not_not.2 (Vec.sqrMag_pos.2 hb))]
    simp only
    rw [hmag, hd', if_neg (not_lt.2 hc)]
    exact ⟨_, rfl⟩
  · intro hn hc
    unfold RotMat.rotationFromTo
    rw [if_neg (not_not.2 (Vec.sqrMag_pos.2 ha)), if_neg (not_not.2 (Vec.sqrMag_pos.2 hb))]
    simp only
    rw [hmag, hd', if_pos hc]
    try rw [dif_neg hn]

/-- C43: in two dimensions the statement is false for vectors that are almost opposite: the direction of the
small remaining rotation has the wrong sign. Here `from = (1, 0)` and `to = (-1, 2^-26)`, and the result takes
`from` to a vector whose second component is negative, on the other side of the first axis. -/
theorem C43_false : ∃ (a b : Vec 2) (m : RotMat 2), DotExact a b ∧ a.elem ≠ 0 ∧ b.elem ≠ 0 ∧
    0 < b.elem 1 ∧ RotMat.rotationFromTo a b = .ok m ∧ (a.elem ᵥ* m.elem) 1 < 0 ∧
    ∀ k : ℝ, 0 < k → a.elem ᵥ* m.elem ≠ k • b.elem := by
  set t : ℝ := (2 ^ 26)⁻¹ with ht
  have ht0 : 0 < t := by rw [ht]; positivity
  have ht2 : t ^ 2 = (2 ^ 52)⁻¹ := by rw [ht]; norm_num
  have heps : epsilon = 30 * t ^ 2 := by
    rw [ht2]; unfold epsilon; norm_num
  set a : Vec 2 := ⟨![1, 0], true⟩ with ha
  set b : Vec 2 := ⟨![-1, t], true⟩ with hb
  have hadot : a.elem ⬝ᵥ b.elem = -1 := by simp [ha, hb, dotProduct, Fin.sum_univ_two]
  have hd : a.dot b = -1 := by
    rw [← hadot]
    apply Vec.dot_exact
    rw [hadot]
    have h1 : maxAbs a.elem ≤ 1 := by
      apply maxAbs_le zero_le_one; intro i; fin_cases i <;> simp [ha]
    have h2 := min_le_left (maxAbs a.elem) (maxAbs b.elem)
    have h3 := epsilon_lt
    have h4 := epsilon_pos
    norm_num at h3 ⊢
    nlinarith
  have hsa : a.sqrMag = 1 := by simp [ha, Vec.sqrMag, Fin.sum_univ_two]
  have hsb : b.sqrMag = 1 + t ^ 2 := by simp [hb, Vec.sqrMag, Fin.sum_univ_two]; ring
  have hr0 : 1 < Real.sqrt (1 + t ^ 2) := by
    rw [Real.lt_sqrt (by norm_num)]; nlinarith
  have hr2 : Real.sqrt (1 + t ^ 2) ^ 2 = 1 + t ^ 2 := Real.sq_sqrt (by positivity)
  have hr1 : Real.sqrt (1 + t ^ 2) < 1 + t ^ 2 := by nlinarith
  set r := Real.sqrt (1 + t ^ 2) with hr
  have hc0 : 0 < -1 / r + 1 := by
    have : 1 / r < 1 := by rw [div_lt_one (by linarith)]; exact hr0
    have e : -1 / r = -(1 / r) := by ring
    rw [e]; linarith
  have hc1 : -1 / r + 1 < epsilon := by
    have : (-1 / r + 1) * r = r - 1 := by field_simp; ring
    have h2 : -1 / r + 1 ≤ (-1 / r + 1) * r := le_mul_of_one_le_right hc0.le hr0.le
    have h3 : 0 < t ^ 2 := by positivity
    have h4 : -1 / r + 1 ≤ r - 1 := h2.trans this.le
    have h5 : r - 1 < 30 * t ^ 2 := by linarith
    rw [heps]
    exact lt_of_le_of_lt h4 h5
  have hmul : ∀ m : Matrix (Fin 2) (Fin 2) ℝ, (a.elem ᵥ* m) 1 = m 0 1 := by
    intro m; simp [ha, vecMul, dotProduct, Fin.sum_univ_two]
  obtain ⟨m, hm, hm1⟩ : ∃ m, RotMat.rotationFromTo a b = .ok m ∧ m.elem 0 1 < 0 := by
    unfold RotMat.rotationFromTo
    rw [if_neg (by rw [hsa]; norm_num), if_neg (not_not.2 (by rw [hsb]; positivity))]
    simp only
    rw [hd, hsa, hsb, one_mul, ← hr, if_pos hc1]
    simp only [dif_pos]
    refine ⟨_, rfl, ?_⟩
    have hdir : ¬ (b.elem 0 * a.elem 1 - b.elem 1 * a.elem 0 ≥ 0) := by
      simp [ha, hb]; exact ht0
    have hpos : 0 < Real.sqrt (2 * (-1 / r + 1)) := Real.sqrt_pos.2 (by linarith)
    have hdir' : decide (b.elem 0 * a.elem 1 - b.elem 1 * a.elem 0 ≥ 0) = false := decide_eq_false hdir
    show (Matrix.of _ : Matrix (Fin 2) (Fin 2) ℝ) 0 1 < 0
    rw [of_apply]
    have : decide (b.elem (⟨0, by decide⟩ : Fin 2) * a.elem ⟨1, by decide⟩ - b.elem ⟨1, by decide⟩ * a.elem ⟨0, by decide⟩ ≥ 0) = false := hdir'
    rw [if_neg (by decide), if_pos (by rfl), this]
    simp only [Bool.false_eq_true, if_false]
    linarith
  refine ⟨a, b, m, by rw [DotExact, hd, hadot], ?_, ?_, by simp [hb, ht0], hm, by rw [hmul]; exact hm1, ?_⟩
  · intro h; have := congrFun h 0; simp [ha] at this
  · intro h; have := congrFun h 0; simp [hb] at this
  · intro k hk h
    have h1 := congrFun h 1
    rw [hmul] at h1
    rw [h1] at hm1
    have : (k • b.elem) 1 = k * t := by simp [hb]
    rw [this] at hm1
    nlinarith

/-- The hypotheses of `C43_partial` can be met: `from = (1,0,0)`, `to = (1,1,0)`. -/
example : DotExact (⟨![1, 0, 0], true⟩ : Vec 3) ⟨![1, 1, 0], true⟩ ∧
    epsilon ≤ ((⟨![1, 0, 0], true⟩ : Vec 3).elem ⬝ᵥ (⟨![1, 1, 0], true⟩ : Vec 3).elem)
      / ((⟨![1, 0, 0], true⟩ : Vec 3).mag * (⟨![1, 1, 0], true⟩ : Vec 3).mag) + 1 := by
  have h3 := epsilon_lt
  have h4 := epsilon_pos
  constructor
  · apply Vec.dot_exact
    have h1 : maxAbs (![1, 0, 0] : Fin 3 → ℝ) ≤ 1 := by
      apply maxAbs_le zero_le_one; intro i; fin_cases i <;> simp
    have h2 := min_le_left (maxAbs (![1, 0, 0] : Fin 3 → ℝ)) (maxAbs (![1, 1, 0] : Fin 3 → ℝ))
    have e : (![1, 0, 0] : Fin 3 → ℝ) ⬝ᵥ ![1, 1, 0] = 1 := by simp [dotProduct, Fin.sum_univ_three]
    show _ ≤ |(![1, 0, 0] : Fin 3 → ℝ) ⬝ᵥ ![1, 1, 0]|
    rw [e, abs_one]
    norm_num at h3 ⊢
    nlinarith
  · have : (⟨![1, 0, 0], true⟩ : Vec 3).elem ⬝ᵥ (⟨![1, 1, 0], true⟩ : Vec 3).elem = 1 := by
      simp [dotProduct, Fin.sum_univ_three]
    rw [this]
    have := mul_nonneg (Vec.mag_nonneg (⟨![1, 0, 0], true⟩ : Vec 3)) (Vec.mag_nonneg (⟨![1, 1, 0], true⟩ : Vec 3))
    have := one_div_nonneg.2 this
    norm_num at h3
    linarith

/-! ### C44 mirrors -/

/-- C44: `mirror(i)` is a symmetric orthogonal involution with odd parity, and negates the component `i`. -/
theorem C44_axis (i : Fin n) (v : Vec n) :
    let m := RotMat.mirrorAxis i
    IsRotation m ∧ m.flip = true ∧ m.elemᵀ = m.elem ∧ m.elem * m.elem = 1 ∧ v.rotateM m = v.mirrorAxis i := by
  intro m
  have hs : m.elemᵀ = m.elem := by
    ext k l; simp only [m, RotMat.mirrorAxis, transpose_apply, of_apply]
    by_cases h : k = l
    · subst h; rfl
    · simp [h, Ne.symm h, and_comm]
  have hr := mirrorAxis_isRotation i
  refine ⟨hr, rfl, hs, ?_, ?_⟩
  · have := hr.orth; change m.elem * m.elemᵀ = 1 at this; rwa [hs] at this
  · ext k
    · rw [RotMat.rotateM_elem]
      simp only [m, vecMul, dotProduct, RotMat.mirrorAxis, of_apply, Vec.mirrorAxis]
      rw [Finset.sum_eq_single k]
      · by_cases h : k = i
        · subst h; simp
        · simp [h]
      · intro b _ hb; simp [hb]; rintro rfl rfl; exact absurd rfl hb
      · simp
    · rfl

/-- C44: `mirror(v)` is a symmetric orthogonal involution with odd parity, and reflects in the hyperplane
orthogonal to `v`: it negates `v` and fixes every vector orthogonal to it. -/
theorem C44_direction (v : Vec n) (m : RotMat n) (h : RotMat.mirrorDir v = some m) :
    IsRotation m ∧ m.flip = true ∧ m.elemᵀ = m.elem ∧ m.elem * m.elem = 1 ∧
    v.elem ᵥ* m.elem = -v.elem ∧ (∀ x : Fin n → ℝ, x ⬝ᵥ v.elem = 0 → x ᵥ* m.elem = x) := by
  obtain ⟨hv, he, hf, _⟩ := mirrorDir_eq h
  have hs : m.elemᵀ = m.elem := by
    rw [he, transpose_sub, transpose_one, transpose_smul, transpose_vecMulVec]
  have hr := mirrorDir_isRotation h
  refine ⟨hr, hf, hs, ?_, ?_, ?_⟩
  · have := hr.orth; rwa [hs] at this
  · have hun : v.elem = v.mag • RotMat.unit v := by
      unfold RotMat.unit
      rw [smul_smul, mul_inv_cancel₀ (Vec.mag_pos.2 hv).ne', one_smul]
    rw [hun, smul_vecMul, he, vecMul_sub, vecMul_one, vecMul_smul, vecMul_vecMulVec, RotMat.unit_self hv]
    module
  · intro x hx
    have e1 : x ⬝ᵥ RotMat.unit v = 0 := by unfold RotMat.unit; rw [dotProduct_smul, hx, smul_zero]
    rw [he, vecMul_sub, vecMul_one, vecMul_smul, vecMul_vecMulVec, e1]
    module

/-- C44: `mirror(v)` is defined exactly for nonzero `v`. -/
theorem C44_direction_defined (v : Vec n) : (RotMat.mirrorDir v).isSome ↔ v.elem ≠ 0 := by
  unfold RotMat.mirrorDir
  rw [← Vec.sqrMag_pos]
  by_cases h : v.sqrMag > 0 <;> simp [h]

/-- C44: `mirror()` is a symmetric orthogonal involution whose parity is odd exactly in odd dimensions, and
negates every vector. -/
theorem C44_all (v : Vec n) :
    let m := (RotMat.mirrorAll : RotMat n)
    IsRotation m ∧ (m.flip = true ↔ Odd n) ∧ m.elemᵀ = m.elem ∧ m.elem * m.elem = 1 ∧ v.rotateM m = -v := by
  intro m
  have he : m.elem = -1 := mirrorAll_elem
  refine ⟨mirrorAll_isRotation, ?_, ?_, ?_, ?_⟩
  · simp [m, RotMat.mirrorAll, Nat.odd_iff]
  · rw [he]; simp
  · rw [he]; simp
  · ext k
    · rw [RotMat.rotateM_elem, he, vecMul_neg, vecMul_one]; rfl
    · rfl

example : (RotMat.mirrorDir (⟨![1, 2, 2], true⟩ : Vec 3)).isSome := by
  rw [C44_direction_defined]; intro h; have := congrFun h 0; simp at this

end WFMath
