/- Lemmas for C137: what averaging with the inverse transpose does to a nearly orthogonal matrix. -/
import Verif.Lemmas.RoundNormThree

namespace WFMath
open Spec Matrix Gauss
variable {n : Nat}

/-- The columns of a nearly orthogonal matrix are nearly orthonormal too. -/
theorem columns_near {m : Matrix (Fin n) (Fin n) ℝ} {δ : ℝ} (h : ∀ i j, |(m * mᵀ - 1) i j| ≤ δ) (i j : Fin n) : |(mᵀ * m - 1) i j| ≤ n * δ := by
  have hδ : 0 ≤ δ := (abs_nonneg _).trans (h i i)
  have sq : ∀ A : Matrix (Fin n) (Fin n) ℝ, Aᵀ = A → (A * A).trace = ∑ i, ∑ j, A i j ^ 2 := fun A hA => by
    rw [Matrix.trace]
    refine Finset.sum_congr rfl fun i _ => ?_
    rw [Matrix.diag_apply, Matrix.mul_apply]
    refine Finset.sum_congr rfl fun j _ => ?_
    have : A j i = A i j := by rw [← Matrix.transpose_apply A i j, hA]
    rw [this]; ring
  have s1 : (m * mᵀ - 1)ᵀ = m * mᵀ - 1 := by simp
  have s2 : (mᵀ * m - 1)ᵀ = mᵀ * m - 1 := by simp
  have ht : ((mᵀ * m - 1) * (mᵀ * m - 1)).trace = ((m * mᵀ - 1) * (m * mᵀ - 1)).trace := by
    have e1 : (mᵀ * m - 1) * (mᵀ * m - 1) = mᵀ * (m * mᵀ * m) - (mᵀ * m + mᵀ * m) + 1 := by noncomm_ring
    have e2 : (m * mᵀ - 1) * (m * mᵀ - 1) = m * mᵀ * m * mᵀ - (m * mᵀ + m * mᵀ) + 1 := by noncomm_ring
    rw [e1, e2]
    simp only [Matrix.trace_add, Matrix.trace_sub]
    rw [Matrix.trace_mul_comm mᵀ (m * mᵀ * m), Matrix.trace_mul_comm mᵀ m]
  have hle : (mᵀ * m - 1) i j ^ 2 ≤ (n * δ) ^ 2 := by
    calc (mᵀ * m - 1) i j ^ 2 ≤ ∑ k, (mᵀ * m - 1) i k ^ 2 := Finset.single_le_sum (f := fun k => (mᵀ * m - 1) i k ^ 2) (fun k _ => sq_nonneg _) (Finset.mem_univ j)
      _ ≤ ∑ l, ∑ k, (mᵀ * m - 1) l k ^ 2 :=
          Finset.single_le_sum (f := fun l => ∑ k, (mᵀ * m - 1) l k ^ 2) (fun k _ => Finset.sum_nonneg fun _ _ => sq_nonneg _) (Finset.mem_univ i)
      _ = ∑ l, ∑ k, (m * mᵀ - 1) l k ^ 2 := by rw [← sq _ s2, ht, sq _ s1]
      _ ≤ ∑ _l : Fin n, ∑ _k : Fin n, δ ^ 2 := Finset.sum_le_sum fun l _ => Finset.sum_le_sum fun k _ => by
          rw [← sq_abs]; exact pow_le_pow_left₀ (abs_nonneg _) (h l k) 2
      _ = (n * δ) ^ 2 := by simp; ring
  exact abs_le_of_sq_le_sq hle (by positivity)

theorem abs_mul_entry_le {A B : Matrix (Fin n) (Fin n) ℝ} {a b : ℝ} (hA : ∀ i j, |A i j| ≤ a) (hB : ∀ i j, |B i j| ≤ b) (i j : Fin n) : |(A * B) i j| ≤ n * (a * b) := by
  rw [Matrix.mul_apply]
  refine (Finset.abs_sum_le_sum_abs _ _).trans ?_
  calc ∑ k, |A i k * B k j| ≤ ∑ _k : Fin n, a * b := Finset.sum_le_sum fun k _ => by
        rw [abs_mul]; exact mul_le_mul (hA i k) (hB k j) (abs_nonneg _) ((abs_nonneg _).trans (hA i k))
    _ = _ := by simp

theorem entry_near {m : Matrix (Fin n) (Fin n) ℝ} {δ : ℝ} (hδ : δ ≤ 1 / 1000) (h : ∀ i j, |(m * mᵀ - 1) i j| ≤ δ) (i j : Fin n) : |m i j| ≤ 1001 / 1000 := by
  have h1 := h i i
  rw [Matrix.sub_apply, one_apply_eq, Matrix.mul_apply] at h1
  have h2 : m i j * m i j ≤ ∑ k, m i k * mᵀ k i := Finset.single_le_sum (f := fun k => m i k * mᵀ k i) (fun k _ => mul_self_nonneg _) (Finset.mem_univ j)
  have h3 := (_root_.abs_le.1 h1).2
  refine abs_le_of_sq_le_sq (b := 1001 / 1000) ?_ (by norm_num)
  nlinarith

/-- How far the approximate inverse transpose `X` is from `m`. -/
theorem inverse_near {m X : Matrix (Fin n) (Fin n) ℝ} (hn : n ≤ 3) {δ ρ : ℝ} (hδ : δ ≤ 1 / 1000) (h : ∀ i j, |(m * mᵀ - 1) i j| ≤ δ) (hX : ∀ i j, |(X * mᵀ - 1) i j| ≤ ρ) (i j : Fin n) :
    |(X - m) i j| ≤ 31 / 10 * (δ + ρ) := by
  have hn' : (n : ℝ) ≤ 3 := by exact_mod_cast hn
  have hδ0 : 0 ≤ δ := (abs_nonneg _).trans (h i i)
  have hρ0 : 0 ≤ ρ := (abs_nonneg _).trans (hX i i)
  have e : X - m = ((X * mᵀ - 1) - (m * mᵀ - 1)) * m - (X - m) * (mᵀ * m - 1) := by noncomm_ring
  have hH : ∀ i j, |((X * mᵀ - 1) - (m * mᵀ - 1)) i j| ≤ δ + ρ := fun i j => by
    rw [Matrix.sub_apply]
    have := (abs_sub ((X * mᵀ - 1) i j) ((m * mᵀ - 1) i j)).trans (add_le_add (hX i j) (h i j))
    linarith
  obtain ⟨⟨a, b⟩, -, hmax⟩ := Finset.exists_max_image Finset.univ (fun p : Fin n × Fin n => |(X - m) p.1 p.2|) ⟨(i, j), Finset.mem_univ _⟩
  set S := |(X - m) a b| with hS
  have hS0 : 0 ≤ S := abs_nonneg _
  have hall : ∀ i j, |(X - m) i j| ≤ S := fun i j => hmax (i, j) (Finset.mem_univ _)
  have h1 := abs_mul_entry_le hH (entry_near hδ h) a b
  have h2 := abs_mul_entry_le hall (columns_near h) a b
  have h3 : S ≤ n * ((δ + ρ) * (1001 / 1000)) + n * (S * (n * δ)) := by
    rw [hS]
    conv_lhs => rw [e]
    rw [Matrix.sub_apply]
    exact (abs_sub _ _).trans (add_le_add h1 h2)
  refine (hall i j).trans ?_
  have h4 : n * ((δ + ρ) * (1001 / 1000)) ≤ 3 * ((δ + ρ) * (1001 / 1000)) := mul_le_mul_of_nonneg_right hn' (by positivity)
  have h5 : n * (S * (n * δ)) ≤ 3 * (S * (3 * (1 / 1000))) := by gcongr
  linarith

namespace Fl
open Rounding

/-- One normalisation, given the residual of the inverse: the defect is squared, up to that residual. -/
theorem polish (r : Rounding 53) {m X : Matrix (Fin n) (Fin n) ℝ} (hn : n ≤ 3) {δ ρ : ℝ} (hδ : δ ≤ 1 / 1000) (hρ : ρ ≤ 1 / 1000) (h : ∀ i j, |(m * mᵀ - 1) i j| ≤ δ)
    (hX : ∀ i j, |(X * mᵀ - 1) i j| ≤ ρ) (m' : Matrix (Fin n) (Fin n) ℝ) (hm' : ∀ i j, m' i j = r (r (m i j + X i j) / 2)) :
    (∀ i j, |(m' * m'ᵀ - 1) i j| ≤ δ ^ 2 + 101 / 100 * ρ + 14 * u 53) ∧ ∀ i j, |m' i j - m i j| ≤ 16 / 10 * (δ + ρ) + 3 * u 53 := by
  have hn' : (n : ℝ) ≤ 3 := by exact_mod_cast hn
  have hu0 : 0 < u 53 := u_pos
  have hu : u 53 ≤ 1 / 2 ^ 40 := by rw [u53]; norm_num
  set D := X - m with hD
  have hDle := inverse_near hn hδ h hX
  rw [← hD] at hDle
  set F : Matrix (Fin n) (Fin n) ℝ := m' - (m + (1 / 2 : ℝ) • D) with hF
  have hm1 := entry_near hδ h
  have hF1 : ∀ i j, |F i j| ≤ 22 / 10 * u 53 := fun i j => by
    have hδ0 : 0 ≤ δ := (abs_nonneg _).trans (h i i)
    have hρ0 : 0 ≤ ρ := (abs_nonneg _).trans (hX i i)
    have e : F i j = r (r (m i j + X i j) / 2) - (m i j + X i j) / 2 := by
      rw [hF, hD]
      simp only [Matrix.sub_apply, Matrix.add_apply, Matrix.smul_apply, smul_eq_mul, hm']
      ring
    have hy : |m i j + X i j| ≤ 201 / 100 := by
      have e1 : m i j + X i j = 2 * m i j + D i j := by rw [hD, Matrix.sub_apply]; ring
      rw [e1]
      refine (abs_add_le _ _).trans ?_
      rw [abs_mul, abs_two]
      have := hDle i j
      have := hm1 i j
      linarith
    have h1 := r.err pos53 (m i j + X i j)
    have h2 := r.err pos53 (r (m i j + X i j) / 2)
    have h3 := rnd_le r hy
    have h4 : |r (m i j + X i j) / 2| ≤ 1001 / 1000 * (201 / 100) / 2 := by rw [abs_div, abs_two]; linarith
    rw [e]
    have e2 : r (r (m i j + X i j) / 2) - (m i j + X i j) / 2 = (r (r (m i j + X i j) / 2) - r (m i j + X i j) / 2) + (r (m i j + X i j) - (m i j + X i j)) / 2 := by ring
    rw [e2]
    refine (abs_add_le _ _).trans ?_
    rw [abs_div (r (m i j + X i j) - (m i j + X i j)), abs_two]
    have h5 := mul_le_mul_of_nonneg_left hy hu0.le
    have h6 := mul_le_mul_of_nonneg_left h4 hu0.le
    linarith
  have hmD : ∀ i j, m' i j = m i j + D i j / 2 + F i j := fun i j => by
    rw [hF]
    simp only [Matrix.sub_apply, Matrix.add_apply, Matrix.smul_apply, smul_eq_mul]
    ring
  constructor
  · intro i j
    have hδ0 : 0 ≤ δ := (abs_nonneg _).trans (h i i)
    have hρ0 : 0 ≤ ρ := (abs_nonneg _).trans (hX i i)
    set H := (X * mᵀ - 1) - (m * mᵀ - 1) with hH
    have hHle : ∀ i j, |H i j| ≤ δ + ρ := fun i j => by
      rw [hH, Matrix.sub_apply]
      have := (abs_sub ((X * mᵀ - 1) i j) ((m * mᵀ - 1) i j)).trans (add_le_add (hX i j) (h i j))
      linarith
    have hDD : D * Dᵀ = H * Hᵀ - D * (mᵀ * m - 1) * Dᵀ := by
      have : H = D * mᵀ := by rw [hH, hD]; noncomm_ring
      rw [this, Matrix.transpose_mul, Matrix.transpose_transpose]
      noncomm_ring
    have hDDle : |(D * Dᵀ) i j| ≤ 33 / 10 * (δ + ρ) ^ 2 := by
      have h1 := abs_mul_entry_le hHle (fun i j => hHle j i : ∀ i j, |Hᵀ i j| ≤ δ + ρ) i j
      have h2 := abs_mul_entry_le (abs_mul_entry_le hDle (columns_near h)) (fun i j => hDle j i : ∀ i j, |Dᵀ i j| ≤ 31 / 10 * (δ + ρ)) i j
      rw [hDD, Matrix.sub_apply]
      refine (abs_sub _ _).trans ((add_le_add h1 h2).trans ?_)
      have h3 : (n : ℝ) * ((δ + ρ) * (δ + ρ)) ≤ 3 * ((δ + ρ) * (δ + ρ)) := mul_le_mul_of_nonneg_right hn' (by positivity)
      have h4 : (n : ℝ) * (n * (31 / 10 * (δ + ρ) * (n * δ)) * (31 / 10 * (δ + ρ))) ≤ 3 * (3 * (31 / 10 * (δ + ρ) * (3 * (1 / 1000))) * (31 / 10 * (δ + ρ))) := by gcongr
      nlinarith [sq_nonneg (δ + ρ)]
    set Y := m + (1 / 2 : ℝ) • D with hY
    have hYle : ∀ i j, |Y i j| ≤ 102 / 100 := fun i j => by
      rw [hY]
      simp only [Matrix.add_apply, Matrix.smul_apply, smul_eq_mul]
      refine (abs_add_le _ _).trans ?_
      rw [abs_mul, abs_of_pos (by norm_num : (0 : ℝ) < 1 / 2)]
      have := hDle i j
      have := hm1 i j
      linarith
    have hYY : Y * Yᵀ - 1 = (1 / 2 : ℝ) • ((X * mᵀ - 1) + (X * mᵀ - 1)ᵀ) + (1 / 4 : ℝ) • (D * Dᵀ) := by
      rw [hY, hD]
      simp only [Matrix.transpose_add, Matrix.transpose_smul, Matrix.transpose_sub, Matrix.transpose_mul, Matrix.transpose_transpose, Matrix.transpose_one, mul_add, add_mul,
        mul_sub, sub_mul, smul_mul_assoc, mul_smul_comm, smul_sub, smul_add]
      module
    have hm'e : m' = Y + F := by rw [hF]; abel
    have hsplit : m' * m'ᵀ - 1 = (Y * Yᵀ - 1) + (F * m'ᵀ + Y * Fᵀ) := by
      rw [hm'e, Matrix.transpose_add]; noncomm_ring
    have hm'le : ∀ i j, |m' i j| ≤ 103 / 100 := fun i j => by
      rw [hm'e, Matrix.add_apply]
      have := (abs_add_le (Y i j) (F i j)).trans (add_le_add (hYle i j) (hF1 i j))
      linarith
    have f1 := abs_mul_entry_le hF1 (fun i j => hm'le j i : ∀ i j, |m'ᵀ i j| ≤ 103 / 100) i j
    have f2 := abs_mul_entry_le hYle (fun i j => hF1 j i : ∀ i j, |Fᵀ i j| ≤ 22 / 10 * u 53) i j
    have f1' : (n : ℝ) * (22 / 10 * u 53 * (103 / 100)) ≤ 3 * (22 / 10 * u 53 * (103 / 100)) := mul_le_mul_of_nonneg_right hn' (by positivity)
    have f2' : (n : ℝ) * (102 / 100 * (22 / 10 * u 53)) ≤ 3 * (102 / 100 * (22 / 10 * u 53)) := mul_le_mul_of_nonneg_right hn' (by positivity)
    rw [hsplit, hYY]
    simp only [Matrix.add_apply, Matrix.smul_apply, smul_eq_mul]
    have e1 : |(1 / 2 : ℝ) * ((X * mᵀ - 1) i j + (X * mᵀ - 1)ᵀ i j)| ≤ ρ := by
      rw [abs_mul, abs_of_pos (by norm_num : (0 : ℝ) < 1 / 2)]
      have := (abs_add_le ((X * mᵀ - 1) i j) ((X * mᵀ - 1)ᵀ i j)).trans (add_le_add (hX i j) (hX j i))
      linarith
    have e2 : |(1 / 4 : ℝ) * (D * Dᵀ) i j| ≤ δ ^ 2 + 1 / 100 * ρ := by
      rw [abs_mul, abs_of_pos (by norm_num : (0 : ℝ) < 1 / 4)]
      nlinarith [mul_nonneg hδ0 hρ0, mul_le_mul_of_nonneg_right hδ hρ0, mul_le_mul_of_nonneg_right hρ hρ0, sq_nonneg δ]
    refine (abs_add_le _ _).trans ((add_le_add ((abs_add_le _ _).trans (add_le_add e1 e2)) ((abs_add_le _ _).trans (add_le_add f1 f2))).trans ?_)
    linarith
  · intro i j
    rw [hmD]
    have e : m i j + D i j / 2 + F i j - m i j = D i j / 2 + F i j := by ring
    rw [e]
    refine (abs_add_le _ _).trans ?_
    rw [abs_div, abs_two]
    have := hDle i j
    have := hF1 i j
    have hδ0 : 0 ≤ δ := (abs_nonneg _).trans (h i i)
    have hρ0 : 0 ≤ ρ := (abs_nonneg _).trans (hX i i)
    linarith

end Fl

end WFMath
