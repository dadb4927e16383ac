/- Properties C45 and C46: `normalize` and `setVals` of rotation matrices. -/
import Verif.Lemmas.RotNormalize
import Verif.Lemmas.GaussSmall

namespace WFMath
open Matrix Gauss Spec
variable {n : Nat}

/-! ### C45 -/

/-- C45: a rotation matrix is left as it is. -/
theorem C45_fixed (L : Limits) (m : RotMat n) (h : IsRotation m) :
    (m.normalize L).elem = m.elem ∧ (m.normalize L).flip = m.flip ∧ (m.normalize L).valid = m.valid :=
  ⟨RotMat.normalize_elem_of_orth h.orth, RotMat.normalize_flip L m, RotMat.normalize_valid L m⟩

/-- C45: in general the new matrix is the mean of the old one and its inverse transpose (when the inversion
succeeds), the age is reset, and the sign of the determinant does not change, so the parity flag stays right. -/
theorem C45_step (L : Limits) (m : RotMat n) (h : (RotMat.normalizeBuf L m).isSome) :
    m.elem.det ≠ 0 ∧ (m.normalize L).elem = (1 / 2 : ℝ) • (m.elem + (m.elemᵀ)⁻¹) ∧ (m.normalize L).age = 1 ∧
    (m.normalize L).flip = m.flip ∧ 0 < (m.normalize L).elem.det * m.elem.det := by
  obtain ⟨X, hX⟩ := Option.isSome_iff_exists.1 h
  obtain ⟨h1, h2⟩ := RotMat.normalize_spec hX
  have hdet := avg_det h1
  refine ⟨?_, ?_, by rw [h2], by rw [h2], by rw [h2]; exact hdet⟩
  · intro h0; rw [h0, mul_zero] at hdet; exact lt_irrefl _ hdet
  · rw [h2, inv_eq_right_inv h1]; rfl

/-- C45: the orthogonality error after the step in terms of the error before: it is quadratic. -/
theorem C45_error (L : Limits) (m : RotMat n) (h : (RotMat.normalizeBuf L m).isSome) :
    (m.normalize L).elem * (m.normalize L).elemᵀ - 1 =
      (1 / 4 : ℝ) • ((m.elem * m.elemᵀ)⁻¹ * ((m.elem * m.elemᵀ - 1) * (m.elem * m.elemᵀ - 1))) := by
  obtain ⟨X, hX⟩ := Option.isSome_iff_exists.1 h
  obtain ⟨h1, h2⟩ := RotMat.normalize_spec hX
  rw [h2]
  exact avg_error h1

open scoped Matrix.Norms.Operator in
/-- C45: quadratic convergence in the maximum row sum norm: an orthogonality error `δ < 1` becomes at
most `δ² / (4 (1 - δ))`, which is less than `δ` for `δ < 4/5`. -/
theorem C45_contract (L : Limits) (m : RotMat (n + 1)) (h : (RotMat.normalizeBuf L m).isSome)
    (hδ : ‖m.elem * m.elemᵀ - 1‖ < 1) :
    ‖(m.normalize L).elem * (m.normalize L).elemᵀ - 1‖ ≤
      ‖m.elem * m.elemᵀ - 1‖ ^ 2 / (4 * (1 - ‖m.elem * m.elemᵀ - 1‖)) := by
  rw [C45_error L m h]
  obtain ⟨X, hX⟩ := Option.isSome_iff_exists.1 h
  have hX := RotMat.normalizeBuf_spec hX
  have h1 : X * m.elemᵀ = 1 := mul_eq_one_comm.1 hX
  have h2 : m.elem * Xᵀ = 1 := by
    have := congrArg transpose h1
    rwa [transpose_mul, transpose_transpose, transpose_one] at this
  have hK : (m.elem * m.elemᵀ)⁻¹ * (m.elem * m.elemᵀ) = 1 := by
    apply nonsing_inv_mul
    have : m.elem * m.elemᵀ * (X * Xᵀ) = 1 := by
      rw [Matrix.mul_assoc, ← Matrix.mul_assoc m.elemᵀ, hX, Matrix.one_mul, h2]
    exact (Matrix.isUnit_iff_isUnit_det _).1 (IsUnit.of_mul_eq_one _ this)
  generalize m.elem * m.elemᵀ = G at *
  have hG : ‖G⁻¹‖ ≤ 1 / (1 - ‖G - 1‖) := by
    have e : G⁻¹ = 1 - G⁻¹ * (G - 1) := by rw [Matrix.mul_sub, hK, Matrix.mul_one]; abel
    have : ‖G⁻¹‖ ≤ 1 + ‖G⁻¹‖ * ‖G - 1‖ := by
      calc ‖G⁻¹‖ = ‖1 - G⁻¹ * (G - 1)‖ := by rw [← e]
        _ ≤ ‖(1 : Matrix (Fin (n + 1)) (Fin (n + 1)) ℝ)‖ + ‖G⁻¹ * (G - 1)‖ := norm_sub_le _ _
        _ ≤ 1 + ‖G⁻¹‖ * ‖G - 1‖ := by
          rw [norm_one]
          linarith [norm_mul_le G⁻¹ (G - 1)]
    rw [le_div_iff₀ (by linarith)]
    linarith
  rw [norm_smul]
  have a : ‖G⁻¹ * ((G - 1) * (G - 1))‖ ≤ ‖G⁻¹‖ * (‖G - 1‖ * ‖G - 1‖) :=
    (norm_mul_le _ _).trans (mul_le_mul_of_nonneg_left (norm_mul_le _ _) (norm_nonneg _))
  have b : ‖G⁻¹‖ * (‖G - 1‖ * ‖G - 1‖) ≤ 1 / (1 - ‖G - 1‖) * (‖G - 1‖ * ‖G - 1‖) :=
    mul_le_mul_of_nonneg_right hG (by positivity)
  have c : ‖(1 / 4 : ℝ)‖ = 1 / 4 := by norm_num
  rw [c]
  have d : ‖G - 1‖ ^ 2 / (4 * (1 - ‖G - 1‖)) = 1 / 4 * (1 / (1 - ‖G - 1‖) * (‖G - 1‖ * ‖G - 1‖)) := by
    have : 1 - ‖G - 1‖ ≠ 0 := by linarith
    field_simp
  rw [d]
  exact mul_le_mul_of_nonneg_left (a.trans b) (by norm_num)

/-- C45: from any invertible matrix, however far from orthogonal: after the first `normalize` the rows have
length at least 1, and every further one divides the total excess `Σ (|row|² - 1)` by at least four. -/
theorem C45_global (L : Limits) (m : RotMat n) (h : (RotMat.normalizeBuf L m).isSome)
    (h' : (RotMat.normalizeBuf L (m.normalize L)).isSome) :
    let m1 := m.normalize L
    let m2 := m1.normalize L
    let excess := fun k : RotMat n => ∑ i, ((k.row i).sqrMag - 1)
    (∀ i, 1 ≤ (m1.row i).sqrMag) ∧ 0 ≤ excess m2 ∧ excess m2 ≤ excess m1 / 4 ∧
      ∀ i j, |(m2.elem * m2.elemᵀ - 1) i j| ≤ excess m2 := by
  intro m1 m2 excess
  obtain ⟨X, hX⟩ := Option.isSome_iff_exists.1 h
  obtain ⟨a1, a2⟩ := RotMat.normalize_spec hX
  obtain ⟨Y, hY⟩ := Option.isSome_iff_exists.1 h'
  obtain ⟨b1, b2⟩ := RotMat.normalize_spec hY
  have e1 : m1.elem = avg m.elem X := by simp only [m1]; rw [a2]
  have hB : m1.elem * m1.elemᵀ = 1 + halfDiff m.elem X * (halfDiff m.elem X)ᵀ := by
    rw [e1]; exact avg_mul_transpose a1
  have e2 : m2.elem = avg m1.elem Y := by
    have : m2 = ⟨avg m1.elem Y, m1.flip, m1.valid, 1⟩ := b2
    rw [this]
  have hC : m2.elem * m2.elemᵀ = 1 + halfDiff m1.elem Y * (halfDiff m1.elem Y)ᵀ := by
    rw [e2]; exact avg_mul_transpose b1
  have hex : ∀ (k : RotMat n) (B : Matrix (Fin n) (Fin n) ℝ), k.elem * k.elemᵀ = 1 + B * Bᵀ → excess k = frob B := by
    intro k B hk
    have h1 : excess k = Matrix.trace (k.elem * k.elemᵀ - 1) := by
      simp only [excess, Matrix.trace, Matrix.diag, Matrix.sub_apply, Matrix.one_apply_eq, Matrix.mul_apply]
      rfl
    rw [h1, hk, add_sub_cancel_left, trace_mul_transpose]
  rw [hex m1 _ hB, hex m2 _ hC]
  refine ⟨?_, frob_nonneg _, frob_halfDiff_le b1 hB, ?_⟩
  · intro i
    have h1 : (m1.row i).sqrMag = (m1.elem * m1.elemᵀ) i i := by
      rw [Matrix.mul_apply]; rfl
    rw [h1, hB, Matrix.add_apply, Matrix.one_apply_eq, Matrix.mul_apply]
    have : 0 ≤ ∑ j, halfDiff m.elem X i j * (halfDiff m.elem X)ᵀ j i :=
      Finset.sum_nonneg fun j _ => mul_self_nonneg _
    linarith
  · intro i j
    rw [hC, add_sub_cancel_left]
    exact abs_mul_transpose_le _ i j

/-- A non-trivial matrix that meets the hypotheses of `C45_step` for suitable constants. -/
example : ∃ L : Limits, (RotMat.normalizeBuf L (⟨!![1, 1; 0, 1], false, true, 20⟩ : RotMat 2)).isSome := by
  have h0 : RowEq 0 (!![1, 1; 0, 1])ᵀ identityArr ((!![1, 1; 0, 1])ᵀ, identityArr) := by
    refine ⟨1, isUnit_one, ?_, by rw [Matrix.one_mul]⟩
    rw [Matrix.one_mul]; ext r c; simp [clean]
  have hdet : IsUnit (Matrix.det (!![1, 1; 0, 1] : Matrix (Fin 2) (Fin 2) ℝ)ᵀ) := by
    rw [det_transpose, det_fin_two]; simp
  obtain ⟨δ, hδ, h⟩ := exists_forward 2 0 (by omega) hdet h0 (by simp)
  let L : Limits := ⟨1 / δ, δ, by positivity, hδ⟩
  have := h L ⟨le_rfl, by show 1 ≤ δ * (1 / δ); rw [mul_one_div_cancel hδ.ne']⟩
  refine ⟨L, ?_⟩
  obtain ⟨s, hs⟩ := Option.isSome_iff_exists.1 this
  unfold RotMat.normalizeBuf inverseImpl
  rw [List.drop_zero] at hs
  have e : (Matrix.of fun i j => (!![1, 1; 0, 1] : Matrix (Fin 2) (Fin 2) ℝ) j i) = (!![1, 1; 0, 1])ᵀ := rfl
  simp only
  rw [e, hs]; rfl

/-! ### C46 -/

/-- C46: an orthogonal array is accepted at once and stored as it is. -/
theorem C46_orthogonal (L : Limits) (fuel : Nat) (m : RotMat n) (vals : Matrix (Fin n) (Fin n) ℝ) (p : ℝ)
    (hp : |p| < 0.9) (h : vals * valsᵀ = 1) :
    ∃ m', RotMat.setVals L (fuel + 1) m vals p = some (m', true) ∧ m'.elem = vals ∧ m'.valid = true := by
  have h0 := RotMat.orthError_of_orth h
  unfold RotMat.setVals
  rw [if_neg (by linarith)]
  unfold RotMat.setValsLoop
  rw [if_neg (by linarith [abs_nonneg p]), if_pos (h0.trans epsilon_pos.le)]
  exact ⟨_, rfl, rfl, rfl⟩

/-- C46, in any dimension: its parity is the sign of the determinant, provided the two `numeric_limits` constants are
extreme enough for this matrix (see `C47_determinant_partial`). -/
theorem C46_parity_limits (vals : Matrix (Fin n) (Fin n) ℝ) (h : vals * valsᵀ = 1) :
    ∃ δ : ℝ, 0 < δ ∧ ∀ L : Limits, L.minD ≤ δ → 1 ≤ δ * L.maxD → ∀ (fuel : Nat) (m : RotMat n) (p : ℝ),
      |p| < 0.9 → ∃ m', RotMat.setVals L (fuel + 1) m vals p = some (m', true) ∧ IsRotation m' := by
  obtain ⟨δ, hδ, hc⟩ := exists_detClean ((List.finRange n).filter fun i => i.val + 1 < n) vals
  refine ⟨δ, hδ, fun L h1 h2 fuel m p hp => ?_⟩
  have hdet : determinantImpl L vals = vals.det := determinantImpl_eq (hc L ⟨h1, h2⟩)
  have h0 := RotMat.orthError_of_orth h
  unfold RotMat.setVals
  rw [if_neg (by linarith)]
  unfold RotMat.setValsLoop
  rw [if_neg (by linarith [abs_nonneg p]), if_pos (h0.trans epsilon_pos.le)]
  refine ⟨_, rfl, h, ?_⟩
  have hsq := det_sq_of_orth h
  have : vals.det = 1 ∨ vals.det = -1 := by
    have h2 : (vals.det - 1) * (vals.det + 1) = 0 := by linear_combination hsq
    rcases mul_eq_zero.1 h2 with h | h
    · left; linarith
    · right; linarith
  simp only [hdet]
  rcases this with h | h <;> rw [h] <;> norm_num

/-- C46: input whose orthogonality error exceeds the precision is refused and the matrix stays as it was;
so is any input when the precision is 0.9 or more. -/
theorem C46_refuses (L : Limits) (fuel : Nat) (m : RotMat n) (vals : Matrix (Fin n) (Fin n) ℝ) (p : ℝ) :
    (0.9 ≤ |p| → RotMat.setVals L fuel m vals p = some (m, false)) ∧
    ((∃ i j, |p| < |(vals * valsᵀ - 1) i j|) → RotMat.setVals L (fuel + 1) m vals p = some (m, false)) := by
  have h1 : ∀ f, 0.9 ≤ |p| → RotMat.setVals L f m vals p = some (m, false) := by
    intro f h; unfold RotMat.setVals; rw [if_pos h]
  refine ⟨h1 fuel, ?_⟩
  rintro ⟨i, j, hij⟩
  by_cases hp : 0.9 ≤ |p|
  · exact h1 _ hp
  · unfold RotMat.setVals
    rw [if_neg hp]
    unfold RotMat.setValsLoop
    rw [if_pos]
    by_contra hle
    rw [gt_iff_lt, not_lt, RotMat.orthError_le] at hle
    exact absurd (hle.2 i j) (not_le.2 hij)

theorem loop_accepted {L : Limits} {p : ℝ} (f : Nat) : ∀ {V V' : Matrix (Fin n) (Fin n) ℝ},
    RotMat.setValsLoop L p f V = .accepted V' → RotMat.orthError V ≤ p ∧ RotMat.orthError V' ≤ epsilon := by
  induction f with
  | zero => intro V V' h; unfold RotMat.setValsLoop at h; exact absurd h (by simp)
  | succ f ih =>
    intro V V' h
    unfold RotMat.setValsLoop at h
    split at h
    · exact absurd h (by simp)
    · rename_i h1
      split at h
      · rename_i h2
        obtain rfl := RotMat.LoopResult.accepted.inj h
        exact ⟨not_lt.1 h1, h2⟩
      · cases hi : RotMat.improve L V with
        | none => rw [hi] at h; exact absurd h (by simp)
        | some V1 =>
          rw [hi] at h
          exact ⟨not_lt.1 h1, (ih h).2⟩

/-- C46: whatever is accepted was within the precision, and what is stored is valid and orthogonal up to
epsilon in every entry; and a refusal never changes the matrix. -/
theorem C46_accepts (L : Limits) (fuel : Nat) (m m' : RotMat n) (vals : Matrix (Fin n) (Fin n) ℝ) (p : ℝ) (ok : Bool)
    (h : RotMat.setVals L fuel m vals p = some (m', ok)) :
    (ok = true → |p| < 0.9 ∧ (∀ i j, |(vals * valsᵀ - 1) i j| ≤ |p|) ∧
      (∀ i j, |(m'.elem * m'.elemᵀ - 1) i j| ≤ epsilon) ∧ m'.valid = true) ∧
    (ok = false → m' = m) := by
  unfold RotMat.setVals at h
  split at h
  · obtain ⟨rfl, rfl⟩ := Prod.mk.inj (Option.some.inj h)
    exact ⟨fun h => absurd h (by simp), fun _ => rfl⟩
  · rename_i hp
    cases hl : RotMat.setValsLoop L |p| fuel vals with
    | outOfFuel => rw [hl] at h; exact absurd h (by simp)
    | refused =>
      rw [hl] at h
      obtain ⟨rfl, rfl⟩ := Prod.mk.inj (Option.some.inj h)
      exact ⟨fun h => absurd h (by simp), fun _ => rfl⟩
    | accepted v =>
      rw [hl] at h
      obtain ⟨rfl, rfl⟩ := Prod.mk.inj (Option.some.inj h)
      obtain ⟨h1, h2⟩ := loop_accepted fuel hl
      exact ⟨fun _ => ⟨not_le.1 hp, (RotMat.orthError_le.1 h1).2, (RotMat.orthError_le.1 h2).2, rfl⟩,
        fun h => absurd h (by simp)⟩

/-- C46: the improvement loop, which has no iteration limit in the code, ends on every input. -/
theorem C46_terminates (L : Limits) (m : RotMat n) (vals : Matrix (Fin n) (Fin n) ℝ) (p : ℝ) :
    ∃ fuel, (RotMat.setVals L fuel m vals p).isSome := by
  obtain ⟨f, hf⟩ : ∃ f, RotMat.setValsLoop L |p| f vals ≠ .outOfFuel := by
    cases hi : RotMat.improve L vals with
    | none =>
      refine ⟨1, ?_⟩
      unfold RotMat.setValsLoop
      split
      · simp
      · split
        · simp
        · rw [hi]; simp
    | some V' =>
      obtain ⟨X, hX, rfl⟩ := RotMat.improve_spec hi
      obtain ⟨k, hk⟩ : ∃ k : Nat, frob (halfDiff vals X) ≤ epsilon * 4 ^ k := by
        obtain ⟨k, hk⟩ := pow_unbounded_of_one_lt (frob (halfDiff vals X) / epsilon) (by norm_num : (1 : ℝ) < 4)
        refine ⟨k, ?_⟩
        rw [div_lt_iff₀ epsilon_pos] at hk
        linarith
      obtain ⟨r, hr, hne⟩ := RotMat.loop_terminates (L := L) (p := |p|) k _ _ (avg_mul_transpose hX) hk (Nat.lt_succ_self k)
      refine ⟨k + 2, ?_⟩
      unfold RotMat.setValsLoop
      split
      · simp
      · split
        · simp
        · rw [hi]
          show RotMat.setValsLoop L |p| (k + 1) (avg vals X) ≠ _
          rw [hr]; exact hne
  refine ⟨f, ?_⟩
  unfold RotMat.setVals
  split
  · rfl
  · cases hl : RotMat.setValsLoop L |p| f vals with
    | outOfFuel => exact absurd hl hf
    | refused => rfl
    | accepted v => rfl

example : (!![0, 1; -1, 0] : Matrix (Fin 2) (Fin 2) ℝ) * (!![0, 1; -1, 0] : Matrix (Fin 2) (Fin 2) ℝ)ᵀ = 1 := by
  ext i j; fin_cases i <;> fin_cases j <;> simp [Matrix.mul_apply, Fin.sum_univ_two]

example : ∃ i j, |(0.1 : ℝ)| <
    |((!![2, 0; 0, 1] : Matrix (Fin 2) (Fin 2) ℝ) * (!![2, 0; 0, 1] : Matrix (Fin 2) (Fin 2) ℝ)ᵀ - 1) i j| :=
  ⟨0, 0, by
    rw [Matrix.sub_apply, Matrix.mul_apply, Fin.sum_univ_two]
    simp
    norm_num [abs_of_pos]⟩

end WFMath
