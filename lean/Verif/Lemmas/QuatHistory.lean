/- Norms of the quaternions built by the constructors and by histories of operations. -/
import Verif.Lemmas.QuatMatrix
import Verif.Props.RotMatrix

namespace WFMath
open Matrix Gauss Spec Quaternion

theorem norm_of_sq {q : Quat} (h : q.w ^ 2 + q.vec.elem 0 ^ 2 + q.vec.elem 1 ^ 2 + q.vec.elem 2 ^ 2 = 1) : ‖toH q‖ = 1 := by
  rw [← normSq_eq_one, normSq_def']; simpa using h

theorem sq_of_norm {q : Quat} (h : ‖toH q‖ = 1) : q.w ^ 2 + q.vec.elem 0 ^ 2 + q.vec.elem 1 ^ 2 + q.vec.elem 2 ^ 2 = 1 := by
  rw [← normSq_eq_one, normSq_def'] at h; simpa using h

theorem norm_identity : ‖toH Quat.identity‖ = 1 := norm_of_sq (by simp [Quat.identity, Vec.zero])

theorem norm_ofComponents {w x y z : ℝ} (h : ¬ (w = 0 ∧ x = 0 ∧ y = 0 ∧ z = 0)) : ‖toH (Quat.ofComponents w x y z)‖ = 1 := by
  apply norm_of_sq
  have hpos : 0 < w * w + x * x + y * y + z * z := by
    by_contra hn
    apply h
    apply four_sq
    have := sq_nonneg w; have := sq_nonneg x; have := sq_nonneg y; have := sq_nonneg z
    nlinarith
  have hs : Real.sqrt (w * w + x * x + y * y + z * z) ^ 2 = w * w + x * x + y * y + z * z := Real.sq_sqrt hpos.le
  have hs0 : Real.sqrt (w * w + x * x + y * y + z * z) ≠ 0 := (Real.sqrt_pos.2 hpos).ne'
  simp only [Quat.ofComponents, Matrix.cons_val_zero, Matrix.cons_val_one, Matrix.cons_val]
  simp only [div_pow, ← add_div, hs]
  rw [div_eq_one_iff_eq hpos.ne']; ring

theorem sqrMag3 (v : Vec 3) : v.sqrMag = v.elem 0 ^ 2 + v.elem 1 ^ 2 + v.elem 2 ^ 2 := by
  simp only [Vec.sqrMag, Fin.sum_univ_three]; ring

theorem norm_of_sqrMag {q : Quat} (h : q.w ^ 2 + q.vec.sqrMag = 1) : ‖toH q‖ = 1 :=
  norm_of_sq (by rw [sqrMag3] at h; linarith)

theorem norm_rotationIdx {q : Quat} {i : ℤ} {a : ℝ} (hq : q.valid = false) (h : (q.rotationIdx i a).valid = true) :
    ‖toH (q.rotationIdx i a)‖ = 1 := by
  unfold Quat.rotationIdx at h ⊢
  split
  · rw [if_pos (by assumption)] at h; simp at h
  · rename_i hi
    push Not at hi
    apply norm_of_sq
    obtain ⟨h0, h2⟩ := hi
    have hc := Real.cos_sq_add_sin_sq (a / 2)
    have : i = 0 ∨ i = 1 ∨ i = 2 := by omega
    rcases this with rfl | rfl | rfl <;> simpa using hc

theorem norm_axisAngle {axis : Vec 3} {a : ℝ} (h : ¬ axis.mag < epsilon) (b : Bool) (k : Nat) :
    ‖toH ⟨Real.cos (a / 2), axis.scale (Real.sin (a / 2) / axis.mag), b, k⟩‖ = 1 := by
  apply norm_of_sqrMag
  have hm : 0 < axis.mag := lt_of_lt_of_le epsilon_pos (not_lt.1 h)
  rw [Vec.sqrMag_scale, ← Vec.mag_sq, div_pow, div_mul_cancel₀ _ (pow_ne_zero 2 hm.ne')]
  exact Real.cos_sq_add_sin_sq _

theorem norm_rotationAxis {q : Quat} {axis : Vec 3} {a : ℝ} (hq : q.valid = false) (h : (q.rotationAxis axis a).valid = true) :
    ‖toH (q.rotationAxis axis a)‖ = 1 := by
  unfold Quat.rotationAxis at h ⊢
  split
  · rw [if_pos (by assumption)] at h; simp [hq] at h
  · exact norm_axisAngle (by assumption) _ _

theorem norm_rotationMag {q : Quat} {axis : Vec 3} (hq : q.valid = false) (h : (q.rotationMag axis).valid = true) :
    ‖toH (q.rotationMag axis)‖ = 1 := by
  unfold Quat.rotationMag at h ⊢
  split
  · rw [if_pos (by assumption)] at h; simp [hq] at h
  · exact norm_axisAngle (by assumption) _ _

/-- Lagrange's identity. -/
theorem lagrange (u v : Fin 3 → ℝ) : (u ⨯₃ v) ⬝ᵥ (u ⨯₃ v) = (u ⬝ᵥ u) * (v ⬝ᵥ v) - (u ⬝ᵥ v) ^ 2 := by
  simp only [dot3, cross0, cross1, cross2']; ring

/-- What is computed for two vectors that are not opposite. -/
noncomputable def fromToQuat (a b : Vec 3) (valid : Bool) (k : Nat) : Quat :=
  let mp := Real.sqrt (a.sqrMag * b.sqrMag)
  let w := Real.sqrt ((a.dot b / mp + 1) / 2)
  ⟨w, (cross3 a b).divBy (2 * mp * w), valid, k⟩

theorem norm_fromTo {a b : Vec 3} (hd : DotExact a b) (hc : CrossExact a b)
    (hm : ¬ Real.sqrt (a.sqrMag * b.sqrMag) < epsilon) (hp : ¬ a.dot b / Real.sqrt (a.sqrMag * b.sqrMag) + 1 < epsilon)
    (valid : Bool) (k : Nat) : ‖toH (fromToQuat a b valid k)‖ = 1 := by
  apply norm_of_sqrMag
  have hm0 : 0 < Real.sqrt (a.sqrMag * b.sqrMag) := lt_of_lt_of_le epsilon_pos (not_lt.1 hm)
  have hp0 := lt_of_lt_of_le epsilon_pos (not_lt.1 hp)
  have hm2 : Real.sqrt (a.sqrMag * b.sqrMag) ^ 2 = a.sqrMag * b.sqrMag :=
    Real.sq_sqrt (mul_nonneg (Vec.sqrMag_nonneg _) (Vec.sqrMag_nonneg _))
  have hcr : ∀ d, ((cross3 a b).divBy d).sqrMag = d⁻¹ * (d⁻¹ * (Real.sqrt (a.sqrMag * b.sqrMag) ^ 2 - a.dot b ^ 2)) := by
    intro d
    rw [Vec.sqrMag_eq, Vec.divBy_elem, hc, smul_dotProduct, dotProduct_smul, lagrange, ← Vec.sqrMag_eq, ← Vec.sqrMag_eq,
      show a.elem ⬝ᵥ b.elem = a.dot b from hd.symm, hm2]
    rfl
  simp only [fromToQuat]
  rw [hcr]
  clear hcr
  generalize Real.sqrt (a.sqrMag * b.sqrMag) = mp at *
  have hw2 : Real.sqrt ((a.dot b / mp + 1) / 2) ^ 2 = (a.dot b / mp + 1) / 2 := Real.sq_sqrt (by linarith)
  have hw0 : 0 < Real.sqrt ((a.dot b / mp + 1) / 2) := Real.sqrt_pos.2 (by linarith)
  generalize Real.sqrt ((a.dot b / mp + 1) / 2) = w at *
  have hd' : a.dot b = mp * (2 * w ^ 2 - 1) := by rw [hw2]; field_simp; ring
  rw [hd']
  field_simp
  ring

theorem norm_rotationFromTo {q r : Quat} {a b : Vec 3} (hd : DotExact a b) (hc : CrossExact a b) (hq : q.valid = false)
    (h : q.rotationFromTo a b = .ok r) (hr : r.valid = true) : ‖toH r‖ = 1 := by
  unfold Quat.rotationFromTo at h
  simp only at h
  split at h
  · rw [← Except.ok.inj h] at hr; simp at hr
  · split at h
    · cases h
    · rw [← Except.ok.inj h]; exact norm_fromTo hd hc (by assumption) (by assumption) _ _

theorem norm_rotationFromToOr {q : Quat} {a b c : Vec 3} (hd : DotExact a b) (hc : CrossExact a b) (hq : q.valid = false)
    (hr : (q.rotationFromToOr a b c).valid = true) : ‖toH (q.rotationFromToOr a b c)‖ = 1 := by
  unfold Quat.rotationFromToOr at hr ⊢
  simp only at hr ⊢
  split
  · rw [if_pos (by assumption)] at hr; simp at hr
  · rw [if_neg (by assumption)] at hr
    split
    · rw [if_pos (by assumption)] at hr
      exact norm_rotationAxis hq hr
    · exact norm_fromTo hd hc (by assumption) (by assumption) _ _

/-- The matrix whose components are converted: a mirror is composed with a fixed mirror first. -/
theorem fromRotMatrix_arr {L : Limits} {m : RotMat 3} (h : IsRotation m) :
    ∃ A, SO3 A ∧ (m.flip = false → A = m.elem) ∧ (Quat.fromRotMatrix L m).1.w = (Quat.fromMatrixComponents A).1 ∧
      (Quat.fromRotMatrix L m).1.vec.elem = (Quat.fromMatrixComponents A).2 := by
  unfold Quat.fromRotMatrix
  by_cases hf : m.flip = true
  · have hr : IsRotation (RotMat.prod L m (RotMat.mirrorAxis 0)) := h.prod (mirrorAxis_isRotation 0)
    refine ⟨(RotMat.prod L m (RotMat.mirrorAxis 0)).elem, ⟨hr.orth, ?_⟩, by simp [hf], by simp [hf], by simp [hf]⟩
    rw [hr.det]; simp [hf, RotMat.mirrorAxis]
  · simp only [Bool.not_eq_true] at hf
    exact ⟨m.elem, ⟨h.orth, by rw [h.det, hf]; rfl⟩, fun _ => rfl, by simp [hf], by simp [hf]⟩

theorem fromMatrix_unit {A : Matrix (Fin 3) (Fin 3) ℝ} (h : SO3 A) :
    let c := Quat.fromMatrixComponents A
    c.1 ^ 2 + c.2 0 ^ 2 + c.2 1 ^ 2 + c.2 2 ^ 2 = 1 := by
  intro c
  by_cases ht : 0 < A 0 0 + A 1 1 + A 2 2
  · exact (qArr_fromMatrix h ht).2.2
  · have := (qArr_fromMatrix_neg h ht).2.2
    rw [← this]
    congr 1
    · congr 1
      · congr 1
        simp only [Function.update_apply]
        split <;> simp_all [c]
      · simp only [Function.update_apply]
        split <;> simp_all [c]
    · simp only [Function.update_apply]
      split <;> simp_all [c]

theorem norm_fromRotMatrix {L : Limits} {m : RotMat 3} (h : IsRotation m) : ‖toH (Quat.fromRotMatrix L m).1‖ = 1 := by
  obtain ⟨A, hA, -, hw, hv⟩ := fromRotMatrix_arr (L := L) h
  apply norm_of_sq
  rw [hw, hv]
  exact fromMatrix_unit hA

/-! ### Products -/

@[simp] theorem mul_valid (p q : Quat) : (p.mul q).valid = (p.valid && q.valid) := by
  simp only [Quat.mul, Quat.prepare, Quat.checkNormalization]; split <;> rfl
@[simp] theorem div_valid (p q : Quat) : (p.div q).valid = (p.valid && q.valid) := by
  simp only [Quat.div, Quat.prepare, Quat.checkNormalization]; split <;> rfl
@[simp] theorem inverse_valid (p : Quat) : p.inverse.valid = p.valid := rfl
@[simp] theorem normalize_valid (p : Quat) : p.normalize.valid = p.valid := rfl

theorem exact_congr {p p' q q' : Quat} (h : p.vec.elem = p'.vec.elem) (h' : q.vec.elem = q'.vec.elem)
    (hd : DotExact p.vec q.vec) (hc : CrossExact p.vec q.vec) : DotExact p'.vec q'.vec ∧ CrossExact p'.vec q'.vec := by
  constructor
  · rw [DotExact, ← dot_congr h h', ← h, ← h']; exact hd
  · rw [CrossExact, ← cross_congr h h', ← h, ← h']; exact hc

theorem toH_mul_exact {p q : Quat} (hp : ‖toH p‖ = 1) (hd : DotExact p.vec q.vec) (hc : CrossExact p.vec q.vec) :
    toH (p.mul q) = toH q * toH p := by
  have hx := exact_congr (p' := p.prepare q) (q' := q) (prepare_unit hp).2.symm rfl hd hc
  rw [toH_mul, rawMul_exact hx.1 hx.2, toH_prepare_unit hp]

theorem toH_div_exact {p q : Quat} (hp : ‖toH p‖ = 1) (hd : DotExact p.vec q.vec) (hc : CrossExact p.vec q.vec) :
    toH (p.div q) = star (toH q) * toH p := by
  have hx := exact_congr (p' := p.prepare q) (q' := q) (prepare_unit hp).2.symm rfl hd hc
  rw [toH_div, rawDiv_exact hx.1 hx.2, toH_prepare_unit hp]

/-- General error of a product of a unit quaternion with another. -/
theorem toH_mul_err {p q : Quat} (hp : ‖toH p‖ = 1) : ‖toH (p.mul q) - toH q * toH p‖ ≤ 4 * epsilon * min 1 ‖toH q‖ := by
  have h := rawMul_err (p.prepare q) q
  rw [← toH_mul, toH_prepare_unit hp, hp] at h
  exact h

theorem toH_div_err {p q : Quat} (hp : ‖toH p‖ = 1) :
    ‖toH (p.div q) - star (toH q) * toH p‖ ≤ 4 * epsilon * min 1 ‖toH q‖ := by
  have h := rawDiv_err (p.prepare q) q
  rw [← toH_div, toH_prepare_unit hp, hp] at h
  exact h

/-! ### Drift of the norm -/

/-- `n` is the norm after `k` inexact products. -/
def Drift (k : Nat) (n : ℝ) : Prop := (1 - 8 * epsilon) ^ k ≤ n ∧ n ≤ (1 + 4 * epsilon) ^ k

theorem drift_zero : Drift 0 1 := by simp [Drift]

theorem drift_base : 0 < 1 - 8 * epsilon ∧ 1 - 8 * epsilon ≤ 1 ∧ 1 ≤ 1 + 4 * epsilon ∧ (1 - 8 * epsilon) * (1 + 4 * epsilon) ≤ 1 := by
  have h1 := epsilon_pos
  have h2 := epsilon_lt
  refine ⟨by linarith, by linarith, by linarith, by nlinarith⟩

theorem drift_mono {k l : Nat} {n : ℝ} (h : Drift k n) (hkl : k ≤ l) : Drift l n := by
  obtain ⟨b1, b2, b3, -⟩ := drift_base
  exact ⟨le_trans (pow_le_pow_of_le_one b1.le b2 hkl) h.1, le_trans h.2 (pow_le_pow_right₀ b3 hkl)⟩

theorem drift_normalize {k : Nat} {n : ℝ} (h : Drift k n) : Drift k (2 * n / (n ^ 2 + 1)) := by
  obtain ⟨b1, b2, b3, b4⟩ := drift_base
  have hn : 0 < n := lt_of_lt_of_le (pow_pos b1 k) h.1
  have hd : 0 < n ^ 2 + 1 := by positivity
  constructor
  · rcases le_or_gt n 1 with h1 | h1
    · refine le_trans h.1 ?_
      rw [le_div_iff₀ hd]; nlinarith
    · have : n⁻¹ ≤ 2 * n / (n ^ 2 + 1) := by
        rw [inv_eq_one_div, div_le_div_iff₀ hn hd]; nlinarith
      refine le_trans ?_ this
      rw [inv_eq_one_div, le_div_iff₀ hn]
      calc (1 - 8 * epsilon) ^ k * n ≤ (1 - 8 * epsilon) ^ k * (1 + 4 * epsilon) ^ k :=
            mul_le_mul_of_nonneg_left h.2 (pow_pos b1 k).le
        _ = ((1 - 8 * epsilon) * (1 + 4 * epsilon)) ^ k := (mul_pow _ _ _).symm
        _ ≤ 1 := pow_le_one₀ (by nlinarith [epsilon_pos]) b4
  · refine le_trans ?_ (one_le_pow₀ b3)
    rw [div_le_one hd]; nlinarith [sq_nonneg (n - 1)]

theorem drift_prepare {k : Nat} {p q : Quat} (h : Drift k ‖toH p‖) : Drift k ‖toH (p.prepare q)‖ := by
  unfold Quat.prepare Quat.checkNormalization
  split
  · rw [norm_normalize]; exact drift_normalize h
  · exact h

theorem half_le {k : Nat} (hk : 16 * epsilon * k ≤ 1) : (1 : ℝ) / 2 ≤ (1 - 8 * epsilon) ^ k := by
  have h2 := epsilon_lt
  have := one_add_mul_le_pow (a := -(8 * epsilon)) (by linarith) k
  rw [← sub_eq_add_neg] at this
  refine le_trans ?_ this
  nlinarith

theorem drift_product {j l : Nat} {a b r : ℝ} (ha : Drift j a) (hb : Drift l b) (hl : 16 * epsilon * l ≤ 1)
    (h : |r - a * b| ≤ 4 * epsilon * min a b) : Drift (j + l + 1) r := by
  obtain ⟨b1, b2, b3, b4⟩ := drift_base
  have he := epsilon_pos
  have ha0 : 0 < a := lt_of_lt_of_le (pow_pos b1 j) ha.1
  have hb0 : (1 : ℝ) / 2 ≤ b := le_trans (half_le hl) hb.1
  obtain ⟨h1, h2⟩ := abs_le.1 h
  constructor
  · have hmin : min a b ≤ 2 * (a * b) := le_trans (min_le_left _ _) (by nlinarith)
    calc (1 - 8 * epsilon) ^ (j + l + 1) = ((1 - 8 * epsilon) ^ j * (1 - 8 * epsilon) ^ l) * (1 - 8 * epsilon) := by ring
      _ ≤ a * b * (1 - 8 * epsilon) := mul_le_mul_of_nonneg_right
          (mul_le_mul ha.1 hb.1 (pow_pos b1 l).le ha0.le) b1.le
      _ ≤ r := by nlinarith
  · have hmin : min a b ≤ (1 + 4 * epsilon) ^ j * (1 + 4 * epsilon) ^ l :=
      le_trans (min_le_left _ _) (le_trans ha.2 (le_mul_of_one_le_right (by positivity) (one_le_pow₀ b3)))
    have hab : a * b ≤ (1 + 4 * epsilon) ^ j * (1 + 4 * epsilon) ^ l := mul_le_mul ha.2 hb.2 (by linarith) (by positivity)
    calc r ≤ a * b + 4 * epsilon * min a b := by linarith
      _ ≤ ((1 + 4 * epsilon) ^ j * (1 + 4 * epsilon) ^ l) * (1 + 4 * epsilon) := by nlinarith
      _ = (1 + 4 * epsilon) ^ (j + l + 1) := by ring

theorem drift_mul {j l : Nat} {p q : Quat} (hp : Drift j ‖toH p‖) (hq : Drift l ‖toH q‖) (hl : 16 * epsilon * l ≤ 1) :
    Drift (j + l + 1) ‖toH (p.mul q)‖ := by
  refine drift_product (drift_prepare (q := q) hp) hq hl ?_
  rw [toH_mul]
  refine le_trans ?_ (rawMul_err (p.prepare q) q)
  have := abs_norm_sub_norm_le (rawMul (p.prepare q) q) (toH q * toH (p.prepare q))
  rwa [norm_mul, mul_comm ‖toH q‖] at this

theorem drift_div {j l : Nat} {p q : Quat} (hp : Drift j ‖toH p‖) (hq : Drift l ‖toH q‖) (hl : 16 * epsilon * l ≤ 1) :
    Drift (j + l + 1) ‖toH (p.div q)‖ := by
  refine drift_product (drift_prepare (q := q) hp) hq hl ?_
  rw [toH_div]
  refine le_trans ?_ (rawDiv_err (p.prepare q) q)
  have := abs_norm_sub_norm_le (rawDiv (p.prepare q) q) (star (toH q) * toH (p.prepare q))
  rwa [norm_mul, norm_star, mul_comm ‖toH q‖] at this

/-- The drift is at most linear in the number of products. -/
theorem drift_linear {k : Nat} {n : ℝ} (h : Drift k n) (hk : 16 * epsilon * k ≤ 1) : |n - 1| ≤ 8 * epsilon * k := by
  obtain ⟨b1, b2, b3, b4⟩ := drift_base
  have he := epsilon_pos
  have he2 := epsilon_lt
  have hL := one_add_mul_le_pow (a := -(8 * epsilon)) (by linarith) k
  have hU := one_add_mul_le_pow (a := -(4 * epsilon)) (by linarith) k
  rw [← sub_eq_add_neg] at hL hU
  have hp : (1 + 4 * epsilon) ^ k * (1 - 4 * epsilon) ^ k ≤ 1 := by
    rw [← mul_pow]; exact pow_le_one₀ (by nlinarith) (by nlinarith)
  have hU0 : 0 < (1 + 4 * epsilon) ^ k := by positivity
  rw [abs_le]
  have hke : 0 ≤ epsilon * k := by positivity
  constructor
  · have := h.1; nlinarith
  · have h3 : (1 + 4 * epsilon) ^ k * (1 - 4 * (epsilon * k)) ≤ 1 :=
      le_trans (mul_le_mul_of_nonneg_left (by linarith) hU0.le) hp
    have h4 := h.2
    have hx : 16 * (epsilon * k) ≤ 1 := by linarith
    rw [show 8 * epsilon * (k : ℝ) = 8 * (epsilon * k) by ring]
    generalize epsilon * k = x at *
    generalize (1 + 4 * epsilon) ^ k = U at *
    have : U ≤ 1 + 8 * x := by
      by_contra hc
      push Not at hc
      nlinarith
    linarith

end WFMath
