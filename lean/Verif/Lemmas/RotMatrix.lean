/- Helper lemmas about `Model/RotMatrix.lean`. -/
import Verif.Spec.RotMatrix
import Verif.Lemmas.PlaneRot
import Verif.Lemmas.Gauss
import Verif.Lemmas.Vector
import Mathlib.Tactic.FieldSimp

namespace WFMath
open Matrix Gauss Spec

theorem identityArr_eq {n : Nat} : (identityArr : Matrix (Fin n) (Fin n) ℝ) = 1 := by
  ext i j; simp [identityArr, Matrix.one_apply]

namespace RotMat
variable {n : Nat}

theorem normalizeBuf_spec {L : Limits} {m : RotMat n} {X : Matrix (Fin n) (Fin n) ℝ}
    (h : normalizeBuf L m = some X) : m.elemᵀ * X = 1 := by
  unfold normalizeBuf at h
  rw [identityArr_eq] at h
  exact (inverseImpl_spec h).2

theorem normalize_elem_of_orth {L : Limits} {m : RotMat n} (h : m.elem * m.elemᵀ = 1) :
    (m.normalize L).elem = m.elem := by
  unfold normalize
  cases hb : normalizeBuf L m with
  | none => rfl
  | some X =>
    have h1 := normalizeBuf_spec hb
    have : X = m.elem := by
      calc X = (m.elem * m.elemᵀ) * X := by rw [h, Matrix.one_mul]
        _ = m.elem * (m.elemᵀ * X) := Matrix.mul_assoc _ _ _
        _ = m.elem := by rw [h1, Matrix.mul_one]
    ext i j
    simp [this]

@[simp] theorem normalize_flip (L : Limits) (m : RotMat n) : (m.normalize L).flip = m.flip := by
  unfold normalize; cases normalizeBuf L m <;> rfl
@[simp] theorem normalize_valid (L : Limits) (m : RotMat n) : (m.normalize L).valid = m.valid := by
  unfold normalize; cases normalizeBuf L m <;> rfl

theorem check_elem_of_orth {L : Limits} {m : RotMat n} (h : m.elem * m.elemᵀ = 1) :
    (m.checkNormalization L).elem = m.elem := by
  unfold checkNormalization
  split
  · exact normalize_elem_of_orth h
  · rfl
@[simp] theorem check_flip (L : Limits) (m : RotMat n) : (m.checkNormalization L).flip = m.flip := by
  unfold checkNormalization; split <;> simp
@[simp] theorem check_valid (L : Limits) (m : RotMat n) : (m.checkNormalization L).valid = m.valid := by
  unfold checkNormalization; split <;> simp

@[simp] theorem prod_flip (L : Limits) (a b : RotMat n) : (prod L a b).flip = (a.flip != b.flip) := by simp [prod]
@[simp] theorem prod_valid (L : Limits) (a b : RotMat n) : (prod L a b).valid = (a.valid && b.valid) := by simp [prod]
@[simp] theorem prodInv_flip (L : Limits) (a b : RotMat n) : (prodInv L a b).flip = (a.flip != b.flip) := by simp [prodInv]
@[simp] theorem prodInv_valid (L : Limits) (a b : RotMat n) : (prodInv L a b).valid = (a.valid && b.valid) := by simp [prodInv]
@[simp] theorem invProd_flip (L : Limits) (a b : RotMat n) : (invProd L a b).flip = (a.flip != b.flip) := by simp [invProd]
@[simp] theorem invProd_valid (L : Limits) (a b : RotMat n) : (invProd L a b).valid = (a.valid && b.valid) := by simp [invProd]
@[simp] theorem invProdInv_flip (L : Limits) (a b : RotMat n) : (invProdInv L a b).flip = (a.flip != b.flip) := by simp [invProdInv]
@[simp] theorem invProdInv_valid (L : Limits) (a b : RotMat n) : (invProdInv L a b).valid = (a.valid && b.valid) := by simp [invProdInv]

theorem mul_orth {A B : Matrix (Fin n) (Fin n) ℝ} (hA : A * Aᵀ = 1) (hB : B * Bᵀ = 1) :
    (A * B) * (A * B)ᵀ = 1 := by
  rw [transpose_mul, Matrix.mul_assoc, ← Matrix.mul_assoc B, hB, Matrix.one_mul, hA]

theorem transpose_orth {A : Matrix (Fin n) (Fin n) ℝ} (hA : A * Aᵀ = 1) : Aᵀ * Aᵀᵀ = 1 := by
  rw [transpose_transpose]; exact mul_eq_one_comm.1 hA

theorem prod_elem {L : Limits} {a b : RotMat n} (ha : a.elem * a.elemᵀ = 1) (hb : b.elem * b.elemᵀ = 1) :
    (prod L a b).elem = a.elem * b.elem := by
  have h : (Matrix.of fun i j => ∑ k, a.elem i k * b.elem k j) = a.elem * b.elem := by
    ext i j; rw [Matrix.mul_apply]; rfl
  unfold prod
  rw [check_elem_of_orth]
  · exact h
  · simp only [h]; exact mul_orth ha hb

theorem prodInv_elem {L : Limits} {a b : RotMat n} (ha : a.elem * a.elemᵀ = 1) (hb : b.elem * b.elemᵀ = 1) :
    (prodInv L a b).elem = a.elem * b.elemᵀ := by
  have h : (Matrix.of fun i j => ∑ k, a.elem i k * b.elem j k) = a.elem * b.elemᵀ := by
    ext i j; rw [Matrix.mul_apply]; rfl
  unfold prodInv
  rw [check_elem_of_orth]
  · exact h
  · simp only [h]; exact mul_orth ha (transpose_orth hb)

theorem invProd_elem {L : Limits} {a b : RotMat n} (ha : a.elem * a.elemᵀ = 1) (hb : b.elem * b.elemᵀ = 1) :
    (invProd L a b).elem = a.elemᵀ * b.elem := by
  have h : (Matrix.of fun i j => ∑ k, a.elem k i * b.elem k j) = a.elemᵀ * b.elem := by
    ext i j; rw [Matrix.mul_apply]; rfl
  unfold invProd
  rw [check_elem_of_orth]
  · exact h
  · simp only [h]; exact mul_orth (transpose_orth ha) hb

theorem invProdInv_elem {L : Limits} {a b : RotMat n} (ha : a.elem * a.elemᵀ = 1) (hb : b.elem * b.elemᵀ = 1) :
    (invProdInv L a b).elem = a.elemᵀ * b.elemᵀ := by
  have h : (Matrix.of fun i j => ∑ k, a.elem k i * b.elem j k) = a.elemᵀ * b.elemᵀ := by
    ext i j; rw [Matrix.mul_apply]; rfl
  unfold invProdInv
  rw [check_elem_of_orth]
  · exact h
  · simp only [h]; exact mul_orth (transpose_orth ha) (transpose_orth hb)

@[simp] theorem inverse_elem (m : RotMat n) : m.inverse.elem = m.elemᵀ := by
  ext i j; rfl
@[simp] theorem inverse_flip (m : RotMat n) : m.inverse.flip = m.flip := rfl
@[simp] theorem inverse_valid (m : RotMat n) : m.inverse.valid = m.valid := rfl
@[simp] theorem identity_elem : (identity : RotMat n).elem = 1 := by
  ext i j; simp [identity, Matrix.one_apply]
@[simp] theorem mulVec_elem (m : RotMat n) (v : Vec n) : (m.mulVec v).elem = m.elem *ᵥ v.elem := rfl
@[simp] theorem mulVec_valid (m : RotMat n) (v : Vec n) : (m.mulVec v).valid = (m.valid && v.valid) := rfl
@[simp] theorem invMulVec_elem (m : RotMat n) (v : Vec n) : (m.invMulVec v).elem = m.elemᵀ *ᵥ v.elem := rfl
@[simp] theorem rotateM_elem (m : RotMat n) (v : Vec n) : (v.rotateM m).elem = v.elem ᵥ* m.elem := by
  unfold Vec.rotateM; rw [invMulVec_elem, mulVec_transpose]
@[simp] theorem rotateM_valid (m : RotMat n) (v : Vec n) : (v.rotateM m).valid = (m.valid && v.valid) := rfl
@[simp] theorem prodInvM_elem (m : RotMat n) (v : Vec n) : (v.prodInvM m).elem = m.elem *ᵥ v.elem := rfl
@[simp] theorem prodInvM_valid (m : RotMat n) (v : Vec n) : (v.prodInvM m).valid = (m.valid && v.valid) := rfl

theorem det_if (a b : Bool) : (if a then (-1 : ℝ) else 1) * (if b then -1 else 1) = if (a != b) then -1 else 1 := by
  cases a <;> cases b <;> norm_num

end RotMat

namespace Spec
open RotMat
variable {n : Nat} {L : Limits}

theorem IsRotation.orth' {m : RotMat n} (h : IsRotation m) : m.elemᵀ * m.elem = 1 := mul_eq_one_comm.1 h.orth

theorem IsRotation.prod {a b : RotMat n} (ha : IsRotation a) (hb : IsRotation b) : IsRotation (RotMat.prod L a b) where
  orth := by rw [prod_elem ha.orth hb.orth]; exact mul_orth ha.orth hb.orth
  det := by rw [prod_elem ha.orth hb.orth, det_mul, ha.det, hb.det, det_if, prod_flip]

theorem IsRotation.prodInv {a b : RotMat n} (ha : IsRotation a) (hb : IsRotation b) : IsRotation (RotMat.prodInv L a b) where
  orth := by rw [prodInv_elem ha.orth hb.orth]; exact mul_orth ha.orth (transpose_orth hb.orth)
  det := by rw [prodInv_elem ha.orth hb.orth, det_mul, det_transpose, ha.det, hb.det, det_if, prodInv_flip]

theorem IsRotation.invProd {a b : RotMat n} (ha : IsRotation a) (hb : IsRotation b) : IsRotation (RotMat.invProd L a b) where
  orth := by rw [invProd_elem ha.orth hb.orth]; exact mul_orth (transpose_orth ha.orth) hb.orth
  det := by rw [invProd_elem ha.orth hb.orth, det_mul, det_transpose, ha.det, hb.det, det_if, invProd_flip]

theorem IsRotation.invProdInv {a b : RotMat n} (ha : IsRotation a) (hb : IsRotation b) : IsRotation (RotMat.invProdInv L a b) where
  orth := by rw [invProdInv_elem ha.orth hb.orth]; exact mul_orth (transpose_orth ha.orth) (transpose_orth hb.orth)
  det := by rw [invProdInv_elem ha.orth hb.orth, det_mul, det_transpose, det_transpose, ha.det, hb.det, det_if, invProdInv_flip]

theorem IsRotation.inverse {a : RotMat n} (ha : IsRotation a) : IsRotation a.inverse where
  orth := by rw [inverse_elem]; exact transpose_orth ha.orth
  det := by rw [inverse_elem, det_transpose, ha.det]; rfl

theorem IsRotation.normalize {a : RotMat n} (ha : IsRotation a) : IsRotation (a.normalize L) where
  orth := by rw [normalize_elem_of_orth ha.orth]; exact ha.orth
  det := by rw [normalize_elem_of_orth ha.orth, ha.det, normalize_flip]

theorem isRotation_identity : IsRotation (RotMat.identity : RotMat n) where
  orth := by simp
  det := by rw [identity_elem, det_one]; rfl

end Spec

namespace RotMat
variable {n : Nat}

theorem single_orthonormal {i j : Fin n} (h : i ≠ j) :
    Orthonormal2 (Pi.single i (1 : ℝ)) (Pi.single j (1 : ℝ)) where
  uu := by simp
  ww := by simp
  uw := by simp [h]

theorem rotation_eq {i j : Fin n} {θ : ℝ} {m : RotMat n} (h : RotMat.rotation i j θ = some m) :
    i ≠ j ∧ m.elem = planeMat (Pi.single i 1) (Pi.single j 1) (Real.cos θ) (Real.sin θ) ∧ m.flip = false
      ∧ m.valid = true := by
  unfold RotMat.rotation at h
  split at h
  · exact absurd h (by simp)
  · rename_i hij
    obtain rfl := Option.some.inj h
    refine ⟨hij, ?_, rfl, rfl⟩
    ext k l
    rw [planeMat_apply]
    simp only [of_apply, Pi.single_apply]
    by_cases hkl : k = l
    · subst hkl
      by_cases h1 : k = i
      · subst h1; simp [hij]
      · by_cases h2 : k = j
        · subst h2; simp [h1]
        · simp [h1, h2]
    · by_cases h1 : k = i <;> by_cases h2 : l = j <;> by_cases h3 : k = j <;> by_cases h4 : l = i <;>
        simp_all

/-- Unit vector in the direction of `v`. -/
noncomputable def unit (v : Vec n) : Fin n → ℝ := v.mag⁻¹ • v.elem

theorem unit_dot (u v : Vec n) : unit u ⬝ᵥ unit v = (u.elem ⬝ᵥ v.elem) / (u.mag * v.mag) := by
  unfold unit
  rw [smul_dotProduct, dotProduct_smul, smul_eq_mul, smul_eq_mul]
  field_simp

theorem unit_self {v : Vec n} (h : v.elem ≠ 0) : unit v ⬝ᵥ unit v = 1 := by
  rw [unit_dot, ← Vec.sqrMag_eq, ← pow_two, Vec.mag_sq]
  exact div_self (Vec.sqrMag_pos.2 h).ne'

theorem unit_mul (u v : Vec n) (i j : Fin n) : unit u i * unit v j = u.elem i * v.elem j / (u.mag * v.mag) := by
  unfold unit
  simp only [Pi.smul_apply, smul_eq_mul]
  field_simp

theorem unit_mul_self (v : Vec n) (i j : Fin n) : unit v i * unit v j = v.elem i * v.elem j / v.sqrMag := by
  rw [unit_mul, ← pow_two, Vec.mag_sq]

theorem vperp_orth {v1 v2 : Vec n} (h1 : v1.elem ≠ 0) (hd : DotExact v1 v2) :
    v1.elem ⬝ᵥ (vperp v1 v2).elem = 0 := by
  unfold vperp
  rw [Vec.sub_elem, Vec.divBy_elem, Vec.scale_elem, dotProduct_sub, dotProduct_smul, dotProduct_smul,
    hd, ← Vec.sqrMag_eq]
  have := (Vec.sqrMag_pos.2 h1).ne'
  simp only [smul_eq_mul]
  field_simp
  ring

/-- `rotation(v1, v2, θ)` when it succeeds. -/
theorem rotationPlane_eq {v1 v2 : Vec n} {θ : ℝ} {m : RotMat n} (h : RotMat.rotationPlane v1 v2 θ = .ok m) :
    v1.elem ≠ 0 ∧ m.elem = planeMat (unit v1) (unit (vperp v1 v2)) (Real.cos θ) (Real.sin θ)
      ∧ m.flip = false ∧ m.valid = true ∧ n * epsilon * epsilon ≤ (vperp v1 v2).sqrMag / v1.sqrMag := by
  unfold RotMat.rotationPlane at h
  split at h
  · exact absurd h (by simp)
  · rename_i h1
    rw [not_not] at h1
    simp only at h
    split at h
    · split at h <;> exact absurd h (by simp)
    · rename_i h2
      obtain rfl := Except.ok.inj h
      refine ⟨Vec.sqrMag_pos.1 h1, ?_, rfl, rfl, not_lt.1 h2⟩
      ext i j
      rw [planeMat_apply, unit_mul_self, unit_mul_self, unit_mul, unit_mul]
      simp only [of_apply]
      rw [Real.sqrt_mul (Vec.sqrMag_nonneg _)]
      have e : (vperp v1 v2).mag = Real.sqrt (vperp v1 v2).sqrMag := rfl
      have e' : v1.mag = Real.sqrt v1.sqrMag := rfl
      rw [e, e']
      ring

theorem rotationPlane_orthonormal {v1 v2 : Vec n} {θ : ℝ} {m : RotMat n} (hd : DotExact v1 v2)
    (h : RotMat.rotationPlane v1 v2 θ = .ok m) : Orthonormal2 (unit v1) (unit (vperp v1 v2)) := by
  obtain ⟨h1, _, _, _, h2⟩ := rotationPlane_eq h
  have hn : 0 < n := by
    rcases Nat.eq_zero_or_pos n with rfl | h
    · exact absurd (funext fun i => i.elim0) h1
    · exact h
  have hvp : (vperp v1 v2).elem ≠ 0 := by
    intro h0
    rw [Vec.sqrMag_eq_zero.2 h0, zero_div] at h2
    have := epsilon_pos
    have hn' : (0 : ℝ) < n := by exact_mod_cast hn
    have : 0 < n * epsilon * epsilon := by positivity
    linarith
  exact ⟨unit_self h1, unit_self hvp, by rw [unit_dot, vperp_orth h1 hd, zero_div]⟩

/-- The general branch of `rotation(from, to)`: exact description as a rotation in a plane. -/
theorem fromTo_matrix {a b : Fin n → ℝ} (ha : a ⬝ᵥ a = 1) (hb : b ⬝ᵥ b = 1) (hc : a ⬝ᵥ b + 1 ≠ 0) :
    let c := a ⬝ᵥ b
    let M : Matrix (Fin n) (Fin n) ℝ := 1 - (c + 1)⁻¹ • (vecMulVec a a + vecMulVec b b - c • (vecMulVec a b + vecMulVec b a))
      - (vecMulVec b a - vecMulVec a b)
    M * Mᵀ = 1 ∧ M.det = 1 ∧ a ᵥ* M = b ∧ (∀ x, x ⬝ᵥ a = 0 → x ⬝ᵥ b = 0 → x ᵥ* M = x) := by
  intro c M
  have hba : b ⬝ᵥ a = c := dotProduct_comm _ _
  have hact : a ᵥ* M = b := by
    simp only [M, vecMul_sub, vecMul_one, vecMul_smul, vecMul_add, vecMul_vecMulVec, ha]
    have : a ⬝ᵥ b = c := rfl
    rw [this]
    have hc' : (c + 1)⁻¹ * (c + 1) = 1 := inv_mul_cancel₀ hc
    have e : (1 : ℝ) • a + c • b - c • ((1 : ℝ) • b + c • a) = ((c + 1) * (1 - c)) • a := by module
    rw [e, smul_smul, ← mul_assoc, hc']
    module
  have hfix : ∀ x, x ⬝ᵥ a = 0 → x ⬝ᵥ b = 0 → x ᵥ* M = x := by
    intro x h1 h2
    simp only [M, vecMul_sub, vecMul_one, vecMul_smul, vecMul_add, vecMul_vecMulVec, h1, h2]
    module
  have hsq : 0 ≤ 1 - c ^ 2 := by
    have h1 : 0 ≤ (b - c • a) ⬝ᵥ (b - c • a) := Finset.sum_nonneg fun i _ => mul_self_nonneg _
    have : a ⬝ᵥ b = c := rfl
    simp only [sub_dotProduct, dotProduct_sub, smul_dotProduct, dotProduct_smul, ha, hb, hba, this, smul_eq_mul] at h1
    nlinarith
  by_cases hs : 1 - c ^ 2 = 0
  · have hc1 : c = 1 := by
      have : (1 - c) * (c + 1) = 0 := by linarith
      rcases mul_eq_zero.1 this with h | h
      · linarith
      · exact absurd h hc
    have hab : b = a := by
      have h1 : (b - a) ⬝ᵥ (b - a) = 0 := by
        have : a ⬝ᵥ b = c := rfl
        simp only [sub_dotProduct, dotProduct_sub, ha, hb, hba, this]; linarith
      rw [dotProduct_self_eq_zero] at h1
      exact sub_eq_zero.1 h1
    have hM : M = 1 := by
      simp only [M, hc1, hab]
      module
    exact ⟨by rw [hM]; simp, by rw [hM]; simp, hact, hfix⟩
  · set s := Real.sqrt (1 - c ^ 2) with hsdef
    have hs2 : s ^ 2 = 1 - c ^ 2 := Real.sq_sqrt hsq
    have hs0 : s ≠ 0 := by
      intro h; rw [h] at hs2; apply hs; linarith
    set w := s⁻¹ • (b - c • a) with hw
    have hbw : b = c • a + s • w := by
      rw [hw, smul_smul, mul_inv_cancel₀ hs0]; module
    have ho : Orthonormal2 a w := by
      refine ⟨ha, ?_, ?_⟩
      · have : a ⬝ᵥ b = c := rfl
        simp only [hw, smul_dotProduct, dotProduct_smul, sub_dotProduct, dotProduct_sub, ha, hb, hba, this, smul_eq_mul]
        field_simp
        linarith
      · have : a ⬝ᵥ b = c := rfl
        simp only [hw, dotProduct_smul, dotProduct_sub, ha, this, smul_eq_mul]
        ring
    have hM : M = planeMat a w c s := by
      have e1 : vecMulVec b a - vecMulVec a b = s • (vecMulVec w a - vecMulVec a w) := by
        ext i j
        have hbi : ∀ k, b k = c * a k + s * w k := fun k => by
          conv_lhs => rw [hbw]
          simp
        simp only [Matrix.sub_apply, Matrix.smul_apply, vecMulVec_apply, smul_eq_mul, hbi]; ring
      have e2 : vecMulVec a a + vecMulVec b b - c • (vecMulVec a b + vecMulVec b a)
          = (1 - c ^ 2) • (vecMulVec a a + vecMulVec w w) := by
        ext i j
        have hbi : ∀ k, b k = c * a k + s * w k := fun k => by
          conv_lhs => rw [hbw]
          simp
        simp only [Matrix.sub_apply, Matrix.add_apply, Matrix.smul_apply, vecMulVec_apply, smul_eq_mul, hbi]
        linear_combination (w i * w j) * hs2
      simp only [M]
      rw [e1, e2, smul_smul, show (c + 1)⁻¹ * (1 - c ^ 2) = 1 - c by
        have : c + 1 ≠ 0 := hc
        field_simp; ring]
      unfold planeMat
      module
    have hcs : c ^ 2 + s ^ 2 = 1 := by linarith
    exact ⟨by rw [hM]; exact planeMat_orth ho hcs, by rw [hM]; exact planeMat_det' ho hcs, hact, hfix⟩

/-- `rotation(from, to)` away from opposite vectors. -/
theorem rotationFromTo_eq {a b : Vec n} {m : RotMat n} (hd : DotExact a b)
    (hc : epsilon ≤ (a.elem ⬝ᵥ b.elem) / (a.mag * b.mag) + 1)
    (h : RotMat.rotationFromTo a b = .ok m) :
    a.elem ≠ 0 ∧ b.elem ≠ 0 ∧ m.flip = false ∧ m.valid = true ∧
    m.elem = 1 - (unit a ⬝ᵥ unit b + 1)⁻¹ • (vecMulVec (unit a) (unit a) + vecMulVec (unit b) (unit b)
        - (unit a ⬝ᵥ unit b) • (vecMulVec (unit a) (unit b) + vecMulVec (unit b) (unit a)))
      - (vecMulVec (unit b) (unit a) - vecMulVec (unit a) (unit b)) := by
  unfold RotMat.rotationFromTo at h
  split at h
  · exact absurd h (by simp)
  rename_i h1
  split at h
  · exact absurd h (by simp)
  rename_i h2
  rw [not_not] at h1 h2
  simp only at h
  have hmag : Real.sqrt (a.sqrMag * b.sqrMag) = a.mag * b.mag := by
    rw [Real.sqrt_mul (Vec.sqrMag_nonneg _)]; rfl
  have hd' : a.dot b = a.elem ⬝ᵥ b.elem := hd
  rw [hmag, hd', if_neg (not_lt.2 hc)] at h
  obtain rfl := Except.ok.inj h
  have ha := Vec.sqrMag_pos.1 h1
  have hb := Vec.sqrMag_pos.1 h2
  refine ⟨ha, hb, rfl, rfl, ?_⟩
  have hma := Vec.mag_pos.2 ha
  have hmb := Vec.mag_pos.2 hb
  have hprod : a.sqrMag * b.sqrMag = (a.mag * b.mag) * (a.mag * b.mag) := by
    rw [← Vec.mag_sq, ← Vec.mag_sq]; ring
  have hc0 : (a.elem ⬝ᵥ b.elem) / (a.mag * b.mag) + 1 ≠ 0 := by
    have := epsilon_pos; linarith
  ext i j
  simp only [of_apply, Matrix.sub_apply, Matrix.add_apply, Matrix.smul_apply, vecMulVec_apply, smul_eq_mul, unit_mul_self, unit_dot,
    unit_mul, Matrix.one_apply, hprod]
  have hmab : a.mag * b.mag ≠ 0 := by positivity
  rw [show b.mag * a.mag = a.mag * b.mag by ring]
  generalize (a.elem ⬝ᵥ b.elem) = d at *
  generalize a.mag * b.mag = M at *
  rcases lt_trichotomy i j with hij | hij | hij
  · rw [if_neg hij.ne, if_pos hij, if_neg hij.ne]
    field_simp
    ring
  · subst hij
    simp only [if_true]
    field_simp
    ring
  · rw [if_neg hij.ne', if_neg (not_lt.2 hij.le), if_neg hij.ne']
    field_simp
    ring

end RotMat
end WFMath
