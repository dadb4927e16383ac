/- Property C47: the Gaussian elimination helpers. -/
import Verif.Lemmas.GaussSmall
import Mathlib.LinearAlgebra.Matrix.Notation
import Mathlib.Tactic.NormNum

namespace WFMath
open Matrix Gauss
variable {n : Nat}

/-- C47: whenever the inversion helper reports success on `A` (started with the identity, as all its
callers do) what it returns is the two-sided inverse of `A`. -/
theorem C47_inverse (L : Limits) (A X : Matrix (Fin n) (Fin n) ℝ)
    (h : inverseImpl L A identityArr = some X) :
    A * X = 1 ∧ X * A = 1 := by
  have h1 : (identityArr : Matrix (Fin n) (Fin n) ℝ) = 1 := by
    ext i j; simp [identityArr, Matrix.one_apply]
  rw [h1] at h
  have := (inverseImpl_spec h).2
  exact ⟨this, mul_eq_one_comm.1 this⟩

/-- C47: started with any right-hand side it solves the linear system. -/
theorem C47_solve (L : Limits) (A B X : Matrix (Fin n) (Fin n) ℝ) (h : inverseImpl L A B = some X) :
    A * X = B := (inverseImpl_spec h).2

/-- C47: it reports failure on every singular matrix. -/
theorem C47_singular (L : Limits) (A B : Matrix (Fin n) (Fin n) ℝ) (h : A.det = 0) :
    inverseImpl L A B = none := by
  cases hX : inverseImpl L A B with
  | none => rfl
  | some X =>
    have := (inverseImpl_spec hX).1
    rw [h] at this
    exact absurd this not_isUnit_zero

/-- C47: it fails only when, after row operations that brought the first `i` columns to unit upper
triangular form, every remaining candidate pivot in column `i` is below the threshold the code computes. -/
theorem C47_failure (L : Limits) (A B : Matrix (Fin n) (Fin n) ℝ) (h : inverseImpl L A B = none) :
    ∃ (i : Fin n) (E : Matrix (Fin n) (Fin n) ℝ), IsUnit E.det ∧
      (∀ r c, c < i → c < r → (E * A) r c = 0) ∧ (∀ c, c < i → (E * A) c c = 1) ∧
      (∀ r, i ≤ r → (E * A) r i ^ 2 < max L.minD ((∑ j, (E * A) j i ^ 2) / L.maxD)) := by
  unfold inverseImpl at h
  rw [Option.map_eq_none_iff] at h
  have h0 : RowEq 0 A B (A, B) := by
    refine ⟨1, isUnit_one, ?_, by rw [Matrix.one_mul]⟩
    rw [Matrix.one_mul]; ext r c; simp [clean]
  obtain ⟨i, s, ⟨E, hE, e1, _⟩, hd, hlow⟩ := forward_none n 0 (by omega) h0 (by simp) (by simpa using h)
  have hge : ∀ r c : Fin n, i ≤ c → s.1 r c = (E * A) r c := by
    intro r c hc
    rw [e1]; unfold clean
    rw [if_neg (fun h => absurd h.2 (not_lt.2 hc))]
  refine ⟨i, E, (Matrix.isUnit_iff_isUnit_det _).1 hE, ?_, ?_, ?_⟩
  · intro r c hci hrc
    rw [e1]; unfold clean; rw [if_pos ⟨hrc, hci⟩]
  · intro c hc
    rw [e1]; unfold clean; rw [if_neg (fun h => lt_irrefl _ h.1)]; exact hd c hc
  · intro r hr
    simp only [← hge _ i le_rfl]
    have := hlow r hr
    rw [← pow_two] at this
    refine lt_of_lt_of_le this ?_
    unfold minval
    simp only [← pow_two]
    split
    · exact le_max_left _ _
    · exact le_max_right _ _

/-- C47: every invertible matrix is inverted, provided the two constants the code takes from
`numeric_limits` are extreme enough for that matrix. What is missing from the full statement is that one
pair of constants does not serve all matrices (`C47_false`). -/
theorem C47_inverse_partial (A : Matrix (Fin n) (Fin n) ℝ) (hA : A.det ≠ 0) :
    ∃ δ : ℝ, 0 < δ ∧ ∀ L : Limits, L.minD ≤ δ → 1 ≤ δ * L.maxD →
      ∃ X, inverseImpl L A identityArr = some X ∧ A * X = 1 ∧ X * A = 1 := by
  have h0 : RowEq 0 A identityArr (A, identityArr) := by
    refine ⟨1, isUnit_one, ?_, by rw [Matrix.one_mul]⟩
    rw [Matrix.one_mul]; ext r c; simp [clean]
  obtain ⟨δ, hδ, h⟩ := exists_forward n 0 (by omega) (IsUnit.mk0 _ hA) h0 (by simp)
  refine ⟨δ, hδ, fun L h1 h2 => ?_⟩
  have := h L ⟨h1, h2⟩
  rw [List.drop_zero, Option.isSome_iff_exists] at this
  obtain ⟨s, hs⟩ := this
  have hX : inverseImpl L A identityArr
      = some ((List.finRange n).foldr (backStep s.1) s.2) := by
    unfold inverseImpl; rw [hs]; rfl
  exact ⟨_, hX, C47_inverse L A _ hX⟩

/-- C47: the determinant helper returns the determinant of every matrix, again provided the two constants
are extreme enough for that matrix. -/
theorem C47_determinant_partial (A : Matrix (Fin n) (Fin n) ℝ) :
    ∃ δ : ℝ, 0 < δ ∧ ∀ L : Limits, L.minD ≤ δ → 1 ≤ δ * L.maxD → determinantImpl L A = A.det := by
  obtain ⟨δ, hδ, h⟩ := exists_detClean ((List.finRange n).filter fun i => i.val + 1 < n) A
  exact ⟨δ, hδ, fun L h1 h2 => determinantImpl_eq (h L ⟨h1, h2⟩)⟩

/-- C47: the full statement is false: for every choice of the constants there is an invertible matrix whose
inversion is reported as impossible. -/
theorem C47_false (L : Limits) : ∃ A : Matrix (Fin 1) (Fin 1) ℝ, A.det ≠ 0 ∧
    ∀ B, inverseImpl L A B = none := by
  obtain ⟨x, hx, hxl⟩ : ∃ x : ℝ, 0 < x ∧ x * x < L.minD := by
    refine ⟨min 1 (L.minD / 2), lt_min one_pos (by linarith [L.minD_pos]), ?_⟩
    have h0 : 0 < min 1 (L.minD / 2) := lt_min one_pos (by linarith [L.minD_pos])
    have h1 : min 1 (L.minD / 2) ≤ 1 := min_le_left _ _
    have h2 : min 1 (L.minD / 2) ≤ L.minD / 2 := min_le_right _ _
    nlinarith [L.minD_pos]
  refine ⟨Matrix.of fun _ _ => x, by simp [hx.ne'], fun B => ?_⟩
  have hmin : x * x < minval L (Matrix.of fun _ _ => x : Matrix (Fin 1) (Fin 1) ℝ) 0 := by
    unfold minval
    simp only
    split
    · exact hxl
    · rename_i h; linarith
  have hfind : findRow L (Matrix.of fun _ _ => x : Matrix (Fin 1) (Fin 1) ℝ) 0 = none := by
    unfold findRow; rw [List.find?_eq_none]
    intro j _; simp
  have hl : List.finRange 1 = [0] := rfl
  unfold inverseImpl
  rw [hl]
  simp only [forward, forwardStep, pivot]
  have h1 : (Matrix.of fun _ _ => x : Matrix (Fin 1) (Fin 1) ℝ) 0 0
      * (Matrix.of fun _ _ => x : Matrix (Fin 1) (Fin 1) ℝ) 0 0
      < minval L (Matrix.of fun _ _ => x : Matrix (Fin 1) (Fin 1) ℝ) 0 := hmin
  rw [if_pos h1, hfind]
  rfl

/-- C47: and there is a matrix whose determinant is returned wrongly (a nonzero pivot below the threshold
is overwritten instead of added to). -/
theorem C47_determinant_false (L : Limits) (hL : 2 ≤ L.maxD) (hm : L.minD < 1) :
    ∃ A : Matrix (Fin 2) (Fin 2) ℝ, determinantImpl L A ≠ A.det := by
  obtain ⟨x, hx, hxl, hx1⟩ : ∃ x : ℝ, 0 < x ∧ x * x < L.minD ∧ x < 1 := by
    have h0 : 0 < min (1 / 2) (L.minD / 2) := lt_min (by norm_num) (by linarith [L.minD_pos])
    have h1 : min (1 / 2) (L.minD / 2) ≤ 1 / 2 := min_le_left _ _
    have h2 : min (1 / 2) (L.minD / 2) ≤ L.minD / 2 := min_le_right _ _
    refine ⟨min (1 / 2) (L.minD / 2), h0, ?_, by linarith⟩
    nlinarith [L.minD_pos]
  refine ⟨!![x, 1; 1, 1], ?_⟩
  have hM : minval L !![x, 1; 1, 1] 0 ≤ 1 ∧ L.minD ≤ minval L !![x, 1; 1, 1] 0 := by
    unfold minval
    simp only
    split
    · exact ⟨hm.le, le_rfl⟩
    · rename_i h
      refine ⟨?_, not_lt.1 h⟩
      rw [div_le_iff₀ L.maxD_pos]
      simp [Fin.sum_univ_two]
      nlinarith
  have hfind : findRow L !![x, 1; 1, 1] 0 = some 1 := by
    unfold findRow
    have hl : List.finRange 2 = [0, 1] := rfl
    rw [hl]
    have := hM.1
    simp [List.find?_cons, this]
  have hl : (List.finRange 2).filter (fun i => i.val + 1 < 2) = [0] := rfl
  have hl2 : List.finRange 2 = [0, 1] := rfl
  unfold determinantImpl
  rw [hl]
  simp only [detForward]
  have hp : detPivot L 0 !![x, 1; 1, 1] = some !![1, 2; 1, 1] := by
    unfold detPivot
    rw [if_pos (by simpa using lt_of_lt_of_le hxl hM.2), hfind]
    refine congrArg some (Matrix.ext fun i j => ?_)
    fin_cases i <;> fin_cases j <;> simp
    norm_num
  rw [hp]
  simp only [Option.bind_some]
  rw [hl2]
  simp [detClear, Matrix.det_fin_two]
  norm_num
  intro h
  apply hx.ne'
  linarith

/-- Usual constants. -/
noncomputable def stdLimits : Limits :=
  ⟨2 ^ 1023, (2 ^ 1022)⁻¹, by positivity, by positivity⟩

/-- The hypotheses can be met: with the standard constants the matrix `diag(2, 4)` is inverted. -/
example : ∃ X, inverseImpl stdLimits !![2, 0; 0, 4] identityArr = some X := by
  have : ∃ s, forward stdLimits ((List.finRange 2).drop 0)
      (!![2, 0; 0, 4], identityArr) = some s := by
    apply forward_of_diagonal 2 0 rfl
    · intro r c h
      fin_cases r <;> fin_cases c <;> simp at h ⊢
    · intro c _
      unfold minval
      have h1 : (1 : ℝ) ≤ 2 ^ 1023 := one_le_pow₀ (by norm_num)
      have h2 : (2 ^ 1022 : ℝ)⁻¹ ≤ 1 := inv_le_one_of_one_le₀ (one_le_pow₀ (by norm_num))
      have h3 : (0 : ℝ) < 2 ^ 1023 := by positivity
      show (if _ < (2 ^ 1022 : ℝ)⁻¹ then (2 ^ 1022 : ℝ)⁻¹ else _ / (2 ^ 1023 : ℝ)) ≤ _
      generalize (2 ^ 1023 : ℝ) = M at *
      generalize (2 ^ 1022 : ℝ)⁻¹ = d at *
      fin_cases c <;> simp [Fin.sum_univ_two] <;> split
      · linarith
      · rw [div_le_iff₀ h3]; nlinarith
      · linarith
      · rw [div_le_iff₀ h3]; nlinarith
  obtain ⟨s, hs⟩ := this
  rw [List.drop_zero] at hs
  unfold inverseImpl
  rw [hs]; exact ⟨_, rfl⟩

example : (!![1, 2; 2, 4] : Matrix (Fin 2) (Fin 2) ℝ).det = 0 := by
  rw [Matrix.det_fin_two]; simp; norm_num

end WFMath
