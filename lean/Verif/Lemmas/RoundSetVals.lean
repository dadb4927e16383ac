/- Lemmas about checking that an array of doubles is orthogonal (rotmatrix.cpp 172-187), about the loop around the check, and about the sign of a determinant in floating point. -/
import Verif.Props.RoundNorm
import Verif.Props.RoundNormFalse

namespace WFMath.Fl
open Spec Matrix Gauss Rounding
variable {n : Nat}

/-- The number compared for the pair of rows `i`, `j`. -/
noncomputable def orthEntry (r : Rounding 53) (V : Matrix (Fin n) (Fin n) ℝ) (i j : Fin n) : ℝ :=
  if i = j then r (sum r (fun k => r (V i k * V j k)) - 1) else sum r fun k => r (V i k * V j k)

theorem orthError_le (r : Rounding 53) {V : Matrix (Fin n) (Fin n) ℝ} {e : ℝ} : orthError r V ≤ e ↔ 0 ≤ e ∧ ∀ i j, |orthEntry r V i j| ≤ e := by
  have gen : ∀ (l : List (Fin n)) (p : ℝ), l.foldl (fun p i => (List.finRange n).foldl (fun p j => if |orthEntry r V i j| ≥ p then |orthEntry r V i j| else p) p) p ≤ e ↔
      p ≤ e ∧ ∀ i ∈ l, ∀ j, |orthEntry r V i j| ≤ e := by
    intro l
    induction l with
    | nil => intro p; simp
    | cons i l ih =>
      intro p
      rw [List.foldl_cons, ih, RotMat.fold_max_le]
      simp only [List.mem_finRange, forall_true_left, List.mem_cons, forall_eq_or_imp]
      tauto
  have : orthError r V = (List.finRange n).foldl (fun p i => (List.finRange n).foldl (fun p j => if |orthEntry r V i j| ≥ p then |orthEntry r V i j| else p) p) 0 := rfl
  rw [this, gen]
  simp

theorem gam_four {k : Nat} (hk : k ≤ 4) : gam k ≤ 41 / 10 * u 53 := by
  have hu0 : 0 < u 53 := u_pos
  have hu : u 53 ≤ 1 / 1000 := by rw [u53]; norm_num
  refine (gam_mono hk).trans ?_
  unfold gam
  generalize u 53 = w at *
  have h1 : 0 < (1 - w) ^ 4 := by apply pow_pos; linarith
  rw [sub_le_iff_le_add, div_le_iff₀ h1]
  have h2 : (1 - w) ^ 4 = 1 - 4 * w + 6 * w ^ 2 - 4 * w ^ 3 + w ^ 4 := by ring
  have h3 : 1 - 4 * w + 5 * w ^ 2 ≤ (1 - w) ^ 4 := by rw [h2]; nlinarith [pow_pos hu0 2, pow_pos hu0 3, pow_pos hu0 4]
  refine le_trans ?_ (mul_le_mul_of_nonneg_left h3 (by linarith))
  nlinarith [pow_pos hu0 2, pow_pos hu0 3]

theorem gram_apply (V : Matrix (Fin n) (Fin n) ℝ) (i j : Fin n) : (V * Vᵀ) i j = ∑ k, V i k * V j k := by rw [Matrix.mul_apply]; rfl

/-- The rounding error of the inner product of two rows. -/
theorem rows_err (r : Rounding 53) (hn : n ≤ 3) (V : Matrix (Fin n) (Fin n) ℝ) {B : ℝ} (hB : ∀ i, (V * Vᵀ) i i ≤ B) (i j : Fin n) :
    |sum r (fun k => r (V i k * V j k)) - (V * Vᵀ) i j| ≤ 41 / 10 * u 53 * B := by
  have h := sum_err r (k := 1) (f := fun k => r (V i k * V j k)) (g := fun k => V i k * V j k) (fun k => Close.round_self pos53 r _)
  rw [gram_apply]
  refine h.trans ?_
  have hu0 : 0 < u 53 := u_pos
  have h1 : ∑ k, |V i k * V j k| ≤ B := by
    have h2 : ∑ k, |V i k * V j k| ≤ ∑ k, (V i k * V i k + V j k * V j k) / 2 := by
      refine Finset.sum_le_sum fun k _ => ?_
      rw [abs_mul]
      nlinarith [sq_nonneg (|V i k| - |V j k|), abs_mul_abs_self (V i k), abs_mul_abs_self (V j k)]
    rw [← Finset.sum_div, Finset.sum_add_distrib] at h2
    have h3 := hB i
    have h4 := hB j
    rw [gram_apply] at h3 h4
    linarith
  exact mul_le_mul (gam_four (by omega)) h1 (Finset.sum_nonneg fun _ _ => abs_nonneg _) (by positivity)

/-- From the departure of an array from orthogonality to the number computed. -/
theorem entry_of_near (r : Rounding 53) (hn : n ≤ 3) (V : Matrix (Fin n) (Fin n) ℝ) {δ : ℝ} (h : ∀ i j, |(V * Vᵀ - 1) i j| ≤ δ) (i j : Fin n) :
    |orthEntry r V i j - (V * Vᵀ - 1) i j| ≤ 52 / 10 * u 53 * (1 + δ) := by
  have hu0 : 0 < u 53 := u_pos
  have hu : u 53 ≤ 1 / 1000 := by rw [u53]; norm_num
  have hδ0 := (abs_nonneg _).trans (h i j)
  have hB : ∀ i, (V * Vᵀ) i i ≤ 1 + δ := fun i => by
    have := (_root_.abs_le.1 (h i i)).2
    rw [Matrix.sub_apply, one_apply_eq] at this
    linarith
  have e := rows_err r hn V hB i j
  unfold orthEntry
  by_cases hij : i = j
  · rw [if_pos hij]
    have h1 := h i j
    rw [Matrix.sub_apply, hij, one_apply_eq] at h1 ⊢
    rw [hij] at e
    set s := sum r fun k => r (V j k * V j k)
    have h2 := r.err pos53 (s - 1)
    have h3 : |s - 1| ≤ δ + 41 / 10 * u 53 * (1 + δ) := by
      have := abs_add_le (s - (V * Vᵀ) j j) ((V * Vᵀ) j j - 1)
      rw [sub_add_sub_cancel] at this
      linarith
    have h4 := abs_add_le (r (s - 1) - (s - 1)) (s - (V * Vᵀ) j j)
    rw [show r (s - 1) - (s - 1) + (s - (V * Vᵀ) j j) = r (s - 1) - ((V * Vᵀ) j j - 1) by ring] at h4
    have h5 := mul_le_mul_of_nonneg_left h3 hu0.le
    refine h4.trans ?_
    nlinarith [mul_nonneg hu0.le hδ0]
  · rw [if_neg hij, Matrix.sub_apply, one_apply_ne hij, sub_zero]
    refine e.trans ?_
    have : 0 ≤ u 53 * (1 + δ) := by positivity
    linarith

/-- From the numbers computed to the departure of the array from orthogonality. -/
theorem near_of_entry (r : Rounding 53) (hn : n ≤ 3) (V : Matrix (Fin n) (Fin n) ℝ) {e : ℝ} (he : e ≤ 9 / 10) (h : ∀ i j, |orthEntry r V i j| ≤ e) (i j : Fin n) :
    |(V * Vᵀ - 1) i j| ≤ e + 52 / 10 * u 53 * (11 / 10 + e) := by
  have hu0 : 0 < u 53 := u_pos
  have hu : u 53 ≤ 1 / 1000 := by rw [u53]; norm_num
  have he0 := (abs_nonneg _).trans (h i j)
  have hB : ∀ i, (V * Vᵀ) i i ≤ 1 + e + 1 / 50 := fun i => by
    have h1 := h i i
    unfold orthEntry at h1
    rw [if_pos rfl] at h1
    set s := sum r fun k => r (V i k * V i k) with hs
    have h2 := r.err pos53 (s - 1)
    have h3 : |s - 1| ≤ 1002 / 1000 * e := by
      have : |s - 1| ≤ |r (s - 1)| + |r (s - 1) - (s - 1)| := by
        have := abs_sub (r (s - 1)) (r (s - 1) - (s - 1)); rwa [sub_sub_cancel] at this
      nlinarith [abs_nonneg (s - 1)]
    have h4 : s ≤ 1 + 1002 / 1000 * e := by linarith [(_root_.abs_le.1 h3).2]
    have h5 := sum_err r (k := 1) (f := fun k => r (V i k * V i k)) (g := fun k => V i k * V i k) (fun k => Close.round_self pos53 r _)
    rw [← gram_apply, ← hs] at h5
    have h6 : ∑ k, |V i k * V i k| = (V * Vᵀ) i i := by
      rw [gram_apply]; exact Finset.sum_congr rfl fun k _ => abs_of_nonneg (mul_self_nonneg _)
    rw [h6] at h5
    have h7 : 0 ≤ (V * Vᵀ) i i := by rw [← h6]; exact Finset.sum_nonneg fun _ _ => abs_nonneg _
    have h8 := mul_le_mul_of_nonneg_right (gam_four (k := 1 + n) (by omega)) h7
    have h9 := (_root_.abs_le.1 h5).1
    have : 41 / 10 * u 53 * (V * Vᵀ) i i ≤ 41 / 10000 * (V * Vᵀ) i i := by nlinarith
    linarith
  have e1 := rows_err r hn V hB i j
  have h1 := h i j
  unfold orthEntry at h1
  by_cases hij : i = j
  · rw [if_pos hij] at h1
    rw [Matrix.sub_apply, hij, one_apply_eq]
    rw [hij] at h1 e1
    set s := sum r fun k => r (V j k * V j k)
    have h2 := r.err pos53 (s - 1)
    have h3 : |s - 1| ≤ 1002 / 1000 * e := by
      have : |s - 1| ≤ |r (s - 1)| + |r (s - 1) - (s - 1)| := by
        have := abs_sub (r (s - 1)) (r (s - 1) - (s - 1)); rwa [sub_sub_cancel] at this
      nlinarith [abs_nonneg (s - 1)]
    have h4 : |(V * Vᵀ) j j - 1| ≤ |s - (V * Vᵀ) j j| + |r (s - 1) - (s - 1)| + |r (s - 1)| := by
      have a := abs_sub (r (s - 1)) (r (s - 1) - (s - 1))
      have b := abs_sub (s - 1) (s - (V * Vᵀ) j j)
      rw [sub_sub_cancel] at a
      rw [show s - 1 - (s - (V * Vᵀ) j j) = (V * Vᵀ) j j - 1 by ring] at b
      linarith
    have h5 := mul_le_mul_of_nonneg_left h3 hu0.le
    nlinarith [mul_nonneg hu0.le he0]
  · rw [if_neg hij] at h1
    rw [Matrix.sub_apply, one_apply_ne hij, sub_zero]
    set s := sum r fun k => r (V i k * V j k)
    have := abs_sub s (s - (V * Vᵀ) i j)
    rw [sub_sub_cancel] at this
    nlinarith [mul_nonneg hu0.le he0]

theorem eps_u : epsilon = 60 * u 53 := by rw [u53]; unfold epsilon; norm_num

/-- What the loop does. -/
theorem loop_spec (r : Rounding 53) {L : Limits} {p : ℝ} (f : Nat) : ∀ {V V' : Matrix (Fin n) (Fin n) ℝ}, setValsLoop r L p f V = .accepted V' →
    orthError r V ≤ p ∧ orthError r V' ≤ epsilon := by
  induction f with
  | zero => intro V V' h; unfold setValsLoop at h; exact absurd h (by simp)
  | succ f ih =>
    intro V V' h
    unfold setValsLoop at h
    split at h
    · exact absurd h (by simp)
    · rename_i h1
      split at h
      · rename_i h2
        obtain rfl := RotMat.LoopResult.accepted.inj h
        exact ⟨not_lt.1 h1, h2⟩
      · cases hi : improve r L V with
        | none => rw [hi] at h; exact absurd h (by simp)
        | some V1 =>
          rw [hi] at h
          exact ⟨not_lt.1 h1, (ih h).2⟩

end WFMath.Fl
