/- The averaging iteration `V ↦ (V + V⁻ᵀ)/2` used by `normalize` and `setVals`. -/
import Verif.Lemmas.RotMatrix
import Mathlib.LinearAlgebra.Matrix.Trace
import Mathlib.LinearAlgebra.Matrix.PosDef
import Mathlib.Analysis.Matrix.PosDef
import Mathlib.Analysis.Matrix.Normed
import Mathlib.Analysis.SpecificLimits.Basic
import Mathlib.Data.Real.StarOrdered

namespace WFMath
open Matrix Gauss
variable {n : Nat}

/-- One step of the iteration. -/
noncomputable def avg (V X : Matrix (Fin n) (Fin n) ℝ) : Matrix (Fin n) (Fin n) ℝ := (1 / 2 : ℝ) • (V + X)

/-- The square root of the error matrix after a step. -/
noncomputable def halfDiff (V X : Matrix (Fin n) (Fin n) ℝ) : Matrix (Fin n) (Fin n) ℝ := (1 / 2 : ℝ) • (V - X)

theorem avg_mul_transpose {V X : Matrix (Fin n) (Fin n) ℝ} (h : Vᵀ * X = 1) :
    avg V X * (avg V X)ᵀ = 1 + halfDiff V X * (halfDiff V X)ᵀ := by
  have h1 : X * Vᵀ = 1 := mul_eq_one_comm.1 h
  have h2 : V * Xᵀ = 1 := by
    have := congrArg transpose h1
    rwa [transpose_mul, transpose_transpose, transpose_one] at this
  unfold avg halfDiff
  simp only [transpose_smul, transpose_add, transpose_sub, Matrix.smul_mul, Matrix.mul_smul, Matrix.add_mul, Matrix.sub_mul,
    Matrix.mul_add, Matrix.mul_sub, h1, h2]
  module

/-- Sum of squares of all entries. -/
noncomputable def frob (M : Matrix (Fin n) (Fin n) ℝ) : ℝ := ∑ i, ∑ j, M i j ^ 2

theorem frob_nonneg (M : Matrix (Fin n) (Fin n) ℝ) : 0 ≤ frob M :=
  Finset.sum_nonneg fun _ _ => Finset.sum_nonneg fun _ _ => sq_nonneg _

theorem trace_mul_transpose (M : Matrix (Fin n) (Fin n) ℝ) : Matrix.trace (M * Mᵀ) = frob M := by
  simp only [Matrix.trace, Matrix.diag, Matrix.mul_apply, Matrix.transpose_apply, frob, pow_two]

theorem abs_mul_transpose_le (M : Matrix (Fin n) (Fin n) ℝ) (i j : Fin n) : |(M * Mᵀ) i j| ≤ frob M := by
  have hrow : ∀ i, ∑ k, M i k ^ 2 ≤ frob M := fun i =>
    Finset.single_le_sum (f := fun i => ∑ k, M i k ^ 2) (fun i _ => Finset.sum_nonneg fun _ _ => sq_nonneg _)
      (Finset.mem_univ i)
  have hi := hrow i
  have hj := hrow j
  rw [Matrix.mul_apply]
  simp only [Matrix.transpose_apply]
  have h1 : ∀ s : ℝ, (s = 1 ∨ s = -1) → s * ∑ k, M i k * M j k ≤ frob M := by
    intro s hs
    have h2 : 0 ≤ ∑ k, (M i k - s * M j k) ^ 2 := Finset.sum_nonneg fun _ _ => sq_nonneg _
    have h3 : ∑ k, (M i k - s * M j k) ^ 2 = ∑ k, M i k ^ 2 - 2 * (s * ∑ k, M i k * M j k) + s ^ 2 * ∑ k, M j k ^ 2 := by
      rw [Finset.mul_sum, Finset.mul_sum, Finset.mul_sum, ← Finset.sum_sub_distrib, ← Finset.sum_add_distrib]
      apply Finset.sum_congr rfl; intro k _; ring
    have h4 : s ^ 2 = 1 := by rcases hs with rfl | rfl <;> norm_num
    rw [h3, h4] at h2
    linarith
  rw [abs_le]
  have a := h1 1 (Or.inl rfl)
  have b := h1 (-1) (Or.inr rfl)
  constructor <;> linarith

/-- The error shrinks at least four-fold with every step after the first. -/
theorem frob_halfDiff_le {V X B : Matrix (Fin n) (Fin n) ℝ} (hX : Vᵀ * X = 1) (hV : V * Vᵀ = 1 + B * Bᵀ) :
    frob (halfDiff V X) ≤ frob B / 4 := by
  have h1 : X * Vᵀ = 1 := mul_eq_one_comm.1 hX
  have h2 : V * Xᵀ = 1 := by
    have := congrArg transpose h1
    rwa [transpose_mul, transpose_transpose, transpose_one] at this
  have h3 : Xᵀ * V = 1 := mul_eq_one_comm.1 h2
  set E := B * Bᵀ with hE
  have hEt : Eᵀ = E := by rw [hE, transpose_mul, transpose_transpose]
  set K := X * Xᵀ with hK
  have hKt : Kᵀ = K := by rw [hK, transpose_mul, transpose_transpose]
  have hKH : K * (1 + E) = 1 := by
    rw [← hV, hK, Matrix.mul_assoc, ← Matrix.mul_assoc Xᵀ, h3, Matrix.one_mul, h1]
  have hHK : (1 + E) * K = 1 := mul_eq_one_comm.1 hKH
  have hsum : K * B * (K * B)ᵀ + K * E * (K * E)ᵀ = 1 - K := by
    rw [transpose_mul K B, transpose_mul K E, hKt, hEt]
    have e1 : K * B * (Bᵀ * K) = K * E * K := by
      rw [hE]; simp only [Matrix.mul_assoc]
    rw [e1]
    have e2 : K * E = 1 - K := by
      rw [Matrix.mul_add, Matrix.mul_one] at hKH
      rw [← hKH]; abel
    have e3 : E * K = 1 - K := by
      rw [Matrix.add_mul, Matrix.one_mul] at hHK
      rw [← hHK]; abel
    rw [e2, e3, Matrix.mul_sub, Matrix.mul_one]
    abel
  have htr : Matrix.trace K ≤ n := by
    have := congrArg Matrix.trace hsum
    rw [Matrix.trace_add, trace_mul_transpose, trace_mul_transpose, Matrix.trace_sub, Matrix.trace_one, Fintype.card_fin] at this
    have := frob_nonneg (K * B)
    have := frob_nonneg (K * E)
    linarith
  have hd : halfDiff V X * (halfDiff V X)ᵀ = (1 / 4 : ℝ) • (1 + E + K - (2 : ℝ) • (1 : Matrix (Fin n) (Fin n) ℝ)) := by
    unfold halfDiff
    simp only [transpose_smul, transpose_sub, Matrix.smul_mul, Matrix.mul_smul, Matrix.sub_mul, Matrix.mul_sub, h1, h2, hV, ← hK]
    module
  rw [← trace_mul_transpose, hd, Matrix.trace_smul, Matrix.trace_sub, Matrix.trace_add, Matrix.trace_add, Matrix.trace_smul,
    Matrix.trace_one, Fintype.card_fin, hE, trace_mul_transpose]
  simp only [smul_eq_mul]
  linarith

/-- The identity behind quadratic convergence. -/
theorem avg_error {V X : Matrix (Fin n) (Fin n) ℝ} (hX : Vᵀ * X = 1) :
    avg V X * (avg V X)ᵀ - 1 = (1 / 4 : ℝ) • ((V * Vᵀ)⁻¹ * ((V * Vᵀ - 1) * (V * Vᵀ - 1))) := by
  have h1 : X * Vᵀ = 1 := mul_eq_one_comm.1 hX
  have h2 : V * Xᵀ = 1 := by
    have := congrArg transpose h1
    rwa [transpose_mul, transpose_transpose, transpose_one] at this
  have h3 : Xᵀ * V = 1 := mul_eq_one_comm.1 h2
  have hK : (V * Vᵀ)⁻¹ = X * Xᵀ := by
    apply inv_eq_right_inv
    rw [Matrix.mul_assoc, ← Matrix.mul_assoc Vᵀ, hX, Matrix.one_mul, h2]
  have hKH : X * Xᵀ * (V * Vᵀ) = 1 := by
    rw [Matrix.mul_assoc, ← Matrix.mul_assoc Xᵀ, h3, Matrix.one_mul, h1]
  rw [avg_mul_transpose hX, hK]
  have hd : halfDiff V X * (halfDiff V X)ᵀ = (1 / 4 : ℝ) • (V * Vᵀ + X * Xᵀ - (2 : ℝ) • (1 : Matrix (Fin n) (Fin n) ℝ)) := by
    unfold halfDiff
    simp only [transpose_smul, transpose_sub, Matrix.smul_mul, Matrix.mul_smul, Matrix.sub_mul, Matrix.mul_sub, h1, h2]
    module
  rw [hd]
  have e : X * Xᵀ * ((V * Vᵀ - 1) * (V * Vᵀ - 1)) = V * Vᵀ + X * Xᵀ - (2 : ℝ) • (1 : Matrix (Fin n) (Fin n) ℝ) := by
    rw [← Matrix.mul_assoc, Matrix.mul_sub (X * Xᵀ), hKH, Matrix.mul_one, Matrix.sub_mul, Matrix.one_mul, Matrix.mul_sub, hKH, Matrix.mul_one]
    module
  rw [e]
  abel

theorem avg_det {V X : Matrix (Fin n) (Fin n) ℝ} (hX : Vᵀ * X = 1) : 0 < (avg V X).det * V.det := by
  have h1 : X * Vᵀ = 1 := mul_eq_one_comm.1 hX
  have h : avg V X * Vᵀ = (1 / 2 : ℝ) • (V * Vᵀ + 1) := by
    unfold avg
    rw [Matrix.smul_mul, Matrix.add_mul, h1]
  have hd := congrArg Matrix.det h
  rw [det_mul, det_transpose, det_smul, Fintype.card_fin] at hd
  rw [hd]
  have hp : (V * Vᵀ + 1).PosDef := by
    have h2 : (V * Vᵀ).PosSemidef := by
      have := Matrix.posSemidef_self_mul_conjTranspose V
      rwa [conjTranspose_eq_transpose_of_trivial] at this
    rw [add_comm]
    exact Matrix.PosDef.one.add_posSemidef h2
  have := hp.det_pos
  positivity

namespace RotMat

theorem improve_spec {L : Limits} {V V' : Matrix (Fin n) (Fin n) ℝ} (h : improve L V = some V') :
    ∃ X, Vᵀ * X = 1 ∧ V' = avg V X := by
  unfold improve at h
  rw [Option.map_eq_some_iff] at h
  obtain ⟨X, hX, rfl⟩ := h
  rw [identityArr_eq] at hX
  refine ⟨X, (inverseImpl_spec hX).2, ?_⟩
  ext i j
  simp [avg]
  ring

theorem normalize_spec {L : Limits} {m : RotMat n} {X : Matrix (Fin n) (Fin n) ℝ} (h : normalizeBuf L m = some X) :
    m.elemᵀ * X = 1 ∧ m.normalize L = ⟨avg m.elem X, m.flip, m.valid, 1⟩ := by
  refine ⟨normalizeBuf_spec h, ?_⟩
  unfold normalize
  rw [h]
  simp only
  congr 1
  ext i j
  simp [avg]
  ring

/-- Meaning of the running maximum computed by the double loop. -/
theorem fold_max_le {α : Type} (l : List α) (f : α → ℝ) (p e : ℝ) :
    l.foldl (fun p a => if f a ≥ p then f a else p) p ≤ e ↔ p ≤ e ∧ ∀ a ∈ l, f a ≤ e := by
  induction l generalizing p with
  | nil => simp
  | cons a l ih =>
    rw [List.foldl_cons, ih]
    simp only [List.mem_cons, forall_eq_or_imp]
    split
    · rename_i h; constructor
      · rintro ⟨h1, h2⟩; exact ⟨by linarith, h1, h2⟩
      · rintro ⟨_, h1, h2⟩; exact ⟨h1, h2⟩
    · rename_i h; constructor
      · rintro ⟨h1, h2⟩; exact ⟨h1, by linarith, h2⟩
      · rintro ⟨h1, _, h2⟩; exact ⟨h1, h2⟩

theorem orthError_le {V : Matrix (Fin n) (Fin n) ℝ} {e : ℝ} :
    orthError V ≤ e ↔ 0 ≤ e ∧ ∀ i j, |(V * Vᵀ - 1) i j| ≤ e := by
  have key : ∀ i j, |(V * Vᵀ - 1) i j| = |(∑ k, V i k * V j k) - (if i = j then 1 else 0)| := by
    intro i j; rw [Matrix.sub_apply, Matrix.mul_apply, Matrix.one_apply]; rfl
  have gen : ∀ (l : List (Fin n)) (p : ℝ), l.foldl (fun p i => (List.finRange n).foldl (fun p j =>
      let ans := |(∑ k, V i k * V j k) - (if i = j then 1 else 0)|
      if ans ≥ p then ans else p) p) p ≤ e ↔ p ≤ e ∧ ∀ i ∈ l, ∀ j, |(V * Vᵀ - 1) i j| ≤ e := by
    intro l
    induction l with
    | nil => intro p; simp
    | cons i l ih =>
      intro p
      rw [List.foldl_cons, ih, fold_max_le]
      simp only [List.mem_finRange, forall_true_left, List.mem_cons, forall_eq_or_imp, key]
      tauto
  unfold orthError
  rw [gen]
  simp

theorem orthError_of_orth {V : Matrix (Fin n) (Fin n) ℝ} (h : V * Vᵀ = 1) : orthError V ≤ 0 := by
  rw [orthError_le, h]; simp

theorem loop_terminates {L : Limits} {p : ℝ} (k : Nat) : ∀ (V B : Matrix (Fin n) (Fin n) ℝ), V * Vᵀ = 1 + B * Bᵀ →
    frob B ≤ epsilon * 4 ^ k → ∀ {f}, k < f → (∃ r, setValsLoop L p f V = r ∧ r ≠ LoopResult.outOfFuel) := by
  induction k with
  | zero =>
    intro V B hV hB f hf
    obtain ⟨f, rfl⟩ : ∃ g, f = g + 1 := ⟨f - 1, by omega⟩
    have : orthError V ≤ epsilon := by
      rw [orthError_le]
      refine ⟨epsilon_pos.le, fun i j => ?_⟩
      rw [hV, add_sub_cancel_left]
      refine (abs_mul_transpose_le B i j).trans ?_
      simpa using hB
    refine ⟨_, rfl, ?_⟩
    unfold setValsLoop
    rw [if_pos this]
    split
    · simp
    · simp
  | succ k ih =>
    intro V B hV hB f hf
    obtain ⟨f, rfl⟩ : ∃ g, f = g + 1 := ⟨f - 1, by omega⟩
    unfold setValsLoop
    split
    · exact ⟨_, rfl, by simp⟩
    · split
      · exact ⟨_, rfl, by simp⟩
      · cases hi : improve L V with
        | none => exact ⟨_, rfl, by simp⟩
        | some V' =>
          obtain ⟨X, hX, rfl⟩ := improve_spec hi
          apply ih _ (halfDiff V X) (avg_mul_transpose hX)
          · have := frob_halfDiff_le hX hV
            rw [pow_succ] at hB
            linarith
          · omega

end RotMat
end WFMath
