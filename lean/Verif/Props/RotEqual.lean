/-
C96: comparison of rotation matrices.
-/
import Verif.Spec.RotMatrix
import Verif.Lemmas.RotMatrix
import Verif.Props.RotBox
import Mathlib.LinearAlgebra.Matrix.ToLinearEquiv
import Mathlib.Algebra.Order.BigOperators.Ring.Finset

namespace WFMath
open Matrix Spec

variable {n : Nat}

theorem all_all_iff {p : Fin n → Fin n → Bool} : ((List.finRange n).all fun i => (List.finRange n).all fun j => p i j) = true ↔ ∀ i j, p i j = true := by
  simp [List.all_eq_true]

/-- Whatever the flags: the comparison is true exactly for valid matrices with the same parity whose entries all agree to within epsilon. -/
theorem C96_iff (a b : RotMat n) (eps : ℝ) : a.isEqualTo b eps = some true ↔
    0 < eps ∧ a.valid = true ∧ b.valid = true ∧ (∀ i j, |a.elem i j - b.elem i j| ≤ eps) ∧ a.flip = b.flip := by
  unfold RotMat.isEqualTo
  by_cases he : eps > 0
  · rw [if_neg (not_not.2 he)]
    cases ha : a.valid <;> cases hb : b.valid <;> simp [he]
    split_ifs with h1 h2
    · simp [h1, h2]
    · simp [h2]
    · simp only [Option.some.injEq, Bool.false_eq_true, false_iff]
      exact fun h => h1 h.1
  · rw [if_pos he]
    simp only [reduceCtorEq, false_iff]
    exact fun h => he h.1

/-- An invalid matrix equals nothing. -/
theorem C96_invalid (a b : RotMat n) {eps : ℝ} (he : 0 < eps) (h : a.valid = false ∨ b.valid = false) : a.isEqualTo b eps = some false := by
  unfold RotMat.isEqualTo
  rw [if_neg (not_not.2 he)]
  rcases h with h | h <;> simp [h]

/-- A valid matrix equals itself. -/
theorem C96_refl (a : RotMat n) {eps : ℝ} (he : 0 < eps) (h : a.valid = true) : a.isEqualTo a eps = some true :=
  (C96_iff a a eps).2 ⟨he, h, h, fun i j => by simpa using he.le, rfl⟩

/-- The order of the operands does not matter. -/
theorem C96_symm (a b : RotMat n) (eps : ℝ) : a.isEqualTo b eps = b.isEqualTo a eps := by
  unfold RotMat.isEqualTo
  simp only [abs_sub_comm (b.elem _ _), Bool.or_comm b.valid.not, eq_comm (a := b.flip)]

theorem opposite_far {A B : Matrix (Fin n) (Fin n) ℝ} (hA : A * Aᵀ = 1) (hB : B * Bᵀ = 1) (hdA : A.det = 1) (hdB : B.det = -1) {eps : ℝ}
    (he : 0 < eps) (h : ∀ i j, |A i j - B i j| ≤ eps) : 2 ≤ n * eps := by
  have hB' : Bᵀ * B = 1 := mul_eq_one_comm.1 hB
  have hA' : Aᵀ * A = 1 := mul_eq_one_comm.1 hA
  have hdet : (A + B).det = 0 := by
    have e : A * (A + B)ᵀ * B = A + B := by
      rw [transpose_add, mul_add, add_mul, hA, one_mul, mul_assoc, hB', mul_one, add_comm]
    have := congrArg det e
    rw [det_mul, det_mul, det_transpose, hdA, hdB] at this
    linarith
  obtain ⟨w, hw0, hw⟩ := exists_mulVec_eq_zero_iff.2 hdet
  have hnorm : ∀ {M : Matrix (Fin n) (Fin n) ℝ}, Mᵀ * M = 1 → (M *ᵥ w) ⬝ᵥ (M *ᵥ w) = w ⬝ᵥ w := by
    intro M hM
    rw [dotProduct_mulVec, ← mulVec_transpose, mulVec_mulVec, hM, one_mulVec]
  have hD : (A - B) *ᵥ w = (2 : ℝ) • (A *ᵥ w) := by
    have : B *ᵥ w = -(A *ᵥ w) := by rw [eq_neg_iff_add_eq_zero, add_comm, ← add_mulVec, hw]
    rw [sub_mulVec, this]
    module
  have h4 : ((A - B) *ᵥ w) ⬝ᵥ ((A - B) *ᵥ w) = 4 * (w ⬝ᵥ w) := by
    rw [hD, smul_dotProduct, dotProduct_smul, hnorm hA']
    simp only [smul_eq_mul]
    ring
  have hrow : ∀ i, ((A - B) *ᵥ w) i * ((A - B) *ᵥ w) i ≤ n * eps ^ 2 * (w ⬝ᵥ w) := by
    intro i
    have hcs := Finset.sum_mul_sq_le_sq_mul_sq Finset.univ (fun j => (A - B) i j) w
    have h1 : ∑ j, ((A - B) i j) ^ 2 ≤ n * eps ^ 2 := by
      calc ∑ j, ((A - B) i j) ^ 2 ≤ ∑ _j : Fin n, eps ^ 2 := Finset.sum_le_sum fun j _ => by
            have := h i j
            rw [Matrix.sub_apply, ← sq_abs]
            exact pow_le_pow_left₀ (abs_nonneg _) this 2
        _ = _ := by simp
    have h2 : ∑ j, w j ^ 2 = w ⬝ᵥ w := by simp [dotProduct, sq]
    rw [h2] at hcs
    have h3 : 0 ≤ w ⬝ᵥ w := by rw [← h2]; positivity
    calc ((A - B) *ᵥ w) i * ((A - B) *ᵥ w) i = (∑ j, (A - B) i j * w j) ^ 2 := by rw [sq]; rfl
      _ ≤ _ := hcs.trans (mul_le_mul_of_nonneg_right h1 h3)
  have hsum : 4 * (w ⬝ᵥ w) ≤ n * (n * eps ^ 2 * (w ⬝ᵥ w)) := by
    rw [← h4]
    calc ((A - B) *ᵥ w) ⬝ᵥ ((A - B) *ᵥ w) ≤ ∑ _i : Fin n, n * eps ^ 2 * (w ⬝ᵥ w) := Finset.sum_le_sum fun i _ => hrow i
      _ = _ := by simp
  have hpos : 0 < w ⬝ᵥ w := by
    have h2 : w ⬝ᵥ w = ∑ j, w j ^ 2 := by simp [dotProduct, sq]
    obtain ⟨j, hj⟩ := Function.ne_iff.1 hw0
    rw [h2]
    exact Finset.sum_pos' (fun j _ => sq_nonneg _) ⟨j, Finset.mem_univ _, by have : w j ≠ 0 := hj; positivity⟩
  have h5 : (2 : ℝ) ^ 2 ≤ (n * eps) ^ 2 := by
    have : 4 * (w ⬝ᵥ w) ≤ (n * eps) ^ 2 * (w ⬝ᵥ w) := by linarith
    have := le_of_mul_le_mul_right this hpos
    linarith
  exact le_of_sq_le_sq h5 (by positivity)
where
  le_of_sq_le_sq {x y : ℝ} (h : x ^ 2 ≤ y ^ 2) (hy : 0 ≤ y) : x ≤ y := by
    by_contra hc
    nlinarith

/-- On rotation matrices (with or without mirroring) the assertion that the parities agree never fails for a tolerance below `2 / n`, so the
comparison is decided by the entries alone. -/
theorem C96_rotation {a b : RotMat n} (ha : IsRotation a) (hb : IsRotation b) (hva : a.valid = true) (hvb : b.valid = true) {eps : ℝ} (he : 0 < eps)
    (hn : n * eps < 2) : (a.isEqualTo b eps = some true ∧ ∀ i j, |a.elem i j - b.elem i j| ≤ eps) ∨
      (a.isEqualTo b eps = some false ∧ ∃ i j, eps < |a.elem i j - b.elem i j|) := by
  by_cases h : ∀ i j, |a.elem i j - b.elem i j| ≤ eps
  · refine Or.inl ⟨(C96_iff a b eps).2 ⟨he, hva, hvb, h, ?_⟩, h⟩
    by_contra hf
    have h1 := ha.det
    have h2 := hb.det
    cases hfa : a.flip <;> cases hfb : b.flip <;> rw [hfa] at h1 <;> rw [hfb] at h2 <;> simp [hfa, hfb] at hf h1 h2
    · linarith [opposite_far ha.orth hb.orth h1 h2 he h]
    · linarith [opposite_far hb.orth ha.orth h2 h1 he fun i j => by rw [abs_sub_comm]; exact h i j]
  · right
    refine ⟨?_, by push Not at h; exact h⟩
    unfold RotMat.isEqualTo
    rw [if_neg (not_not.2 he), hva, hvb, if_neg (by simp), if_neg]
    rw [all_all_iff]
    simpa using h

/-- The bound on the tolerance is needed: with a tolerance of 2 or more the comparison of the identity with a mirror matrix fails its
assertion, in every dimension. -/
theorem C96_coarse (i : Fin n) {eps : ℝ} (he : 2 ≤ eps) : (RotMat.identity : RotMat n).isEqualTo (RotMat.mirrorAxis i) eps = none := by
  have h0 : eps > 0 := by linarith
  unfold RotMat.isEqualTo
  rw [if_neg (not_not.2 h0), if_neg (by simp [RotMat.identity, RotMat.mirrorAxis]), if_pos, if_neg (by simp [RotMat.identity, RotMat.mirrorAxis])]
  rw [all_all_iff]
  intro k l
  simp only [RotMat.identity, RotMat.mirrorAxis, of_apply, Bool.not_eq_true', decide_eq_false_iff_not, not_lt, gt_iff_lt]
  rw [abs_le]
  split_ifs <;> constructor <;> linarith

example : quarter.isEqualTo RotMat.identity (1 / 2) = some false := by
  rcases C96_rotation quarter_isRotation isRotation_identity rfl rfl (eps := 1 / 2) (by norm_num) (by norm_num) with ⟨-, h⟩ | ⟨h, -⟩
  · have := h 0 0
    norm_num [quarter, RotMat.identity] at this
  · exact h

end WFMath
