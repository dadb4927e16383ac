/- Property theorems C137, the positive part: renormalising a rotation matrix in floating point when the leading minors are not small. -/
import Verif.Lemmas.RoundNormPolish
import Verif.Props.RotParity

namespace WFMath
open Spec Matrix Gauss
variable {n : Nat}

theorem det_near_two {m : Matrix (Fin 2) (Fin 2) ℝ} {δ : ℝ} (hδ : δ ≤ 1 / 1000) (h : ∀ i j, |(m * mᵀ - 1) i j| ≤ δ) : 97 / 100 ≤ |m.det| := by
  have hdet : m.det * m.det = (m * mᵀ).det := by rw [det_mul, det_transpose]
  have d : ∀ i, |(m * mᵀ) i i - 1| ≤ 1 / 1000 := fun i => by
    have := h i i; rw [Matrix.sub_apply, one_apply_eq] at this; linarith
  have o : ∀ i k, i ≠ k → |(m * mᵀ) i k| ≤ 1 / 1000 := fun i k hk => by
    have := h i k; rw [Matrix.sub_apply, one_apply_ne hk, sub_zero] at this; linarith
  have d0 := _root_.abs_le.1 (d 0)
  have d1 := _root_.abs_le.1 (d 1)
  have o := _root_.abs_le.1 (small_mul (o 0 1 (by decide)) ((o 1 0 (by decide)).trans (by norm_num)))
  have : 95 / 100 ≤ m.det * m.det := by
    rw [hdet, det_fin_two]
    nlinarith
  rw [← abs_mul_abs_self] at this
  nlinarith [abs_nonneg m.det]

theorem det_near_three {m : Matrix (Fin 3) (Fin 3) ℝ} {δ : ℝ} (hδ : δ ≤ 1 / 1000) (h : ∀ i j, |(m * mᵀ - 1) i j| ≤ δ) : 97 / 100 ≤ |m.det| := by
  have hdet : m.det * m.det = (m * mᵀ).det := by rw [det_mul, det_transpose]
  have dg : ∀ i, |(m * mᵀ) i i - 1| ≤ 1 / 1000 := fun i => by
    have := h i i; rw [Matrix.sub_apply, one_apply_eq] at this; linarith
  have og : ∀ i k, i ≠ k → |(m * mᵀ) i k| ≤ 1 / 1000 := fun i k hk => by
    have := h i k; rw [Matrix.sub_apply, one_apply_ne hk, sub_zero] at this; linarith
  have d0 := _root_.abs_le.1 (dg 0)
  have d1 := _root_.abs_le.1 (dg 1)
  have d2 := _root_.abs_le.1 (dg 2)
  have s0 : |(m * mᵀ) 0 0| ≤ 11 / 10 := _root_.abs_le.2 ⟨by linarith, by linarith⟩
  have s1 : |(m * mᵀ) 1 1| ≤ 11 / 10 := _root_.abs_le.2 ⟨by linarith, by linarith⟩
  have s2 : |(m * mᵀ) 2 2| ≤ 11 / 10 := _root_.abs_le.2 ⟨by linarith, by linarith⟩
  have k : ∀ a b c : ℝ, |a| ≤ 1 / 1000 → |b| ≤ 1 / 1000 → |c| ≤ 11 / 10 → |a * b * c| ≤ 1 / 1000 := fun a b c ha hb hc => by
    rw [abs_mul, abs_mul]
    have : |a| * |b| ≤ 1 / 1000 * (1 / 1000) := mul_le_mul ha hb (abs_nonneg _) (by norm_num)
    have := mul_le_mul this hc (abs_nonneg _) (by norm_num)
    linarith
  have t1 := _root_.abs_le.1 (k _ _ _ (og 1 2 (by decide)) (og 2 1 (by decide)) s0)
  have t2 := _root_.abs_le.1 (k _ _ _ (og 0 1 (by decide)) (og 1 0 (by decide)) s2)
  have t3 := _root_.abs_le.1 (k _ _ _ (og 0 1 (by decide)) (og 1 2 (by decide)) ((og 2 0 (by decide)).trans (by norm_num)))
  have t4 := _root_.abs_le.1 (k _ _ _ (og 0 2 (by decide)) (og 1 0 (by decide)) ((og 2 1 (by decide)).trans (by norm_num)))
  have t5 := _root_.abs_le.1 (k _ _ _ (og 0 2 (by decide)) (og 2 0 (by decide)) s1)
  have t6 : 99 / 100 ≤ (m * mᵀ) 0 0 * (m * mᵀ) 1 1 * (m * mᵀ) 2 2 := by
    have a : 998 / 1000 ≤ (m * mᵀ) 0 0 * (m * mᵀ) 1 1 := by nlinarith
    nlinarith
  have : 95 / 100 ≤ m.det * m.det := by
    rw [hdet, det_fin_three]
    linarith
  rw [← abs_mul_abs_self] at this
  nlinarith [abs_nonneg m.det]

theorem minor_near {m : Matrix (Fin n) (Fin n) ℝ} {δ : ℝ} (hδ : δ ≤ 1 / 1000) (h : ∀ i j, |(m * mᵀ - 1) i j| ≤ δ) (i j k l : Fin n) : |m i k * m j l - m i l * m j k| ≤ 103 / 100 := by
  by_cases hkl : k = l
  · rw [hkl, sub_self, abs_zero]; norm_num
  have row : ∀ a, m a k * m a k + m a l * m a l ≤ 1001 / 1000 := fun a => by
    have h1 := h a a
    rw [Matrix.sub_apply, one_apply_eq, Matrix.mul_apply] at h1
    have h2 : ∑ x ∈ {k, l}, m a x * mᵀ x a ≤ ∑ x, m a x * mᵀ x a := Finset.sum_le_sum_of_subset_of_nonneg (Finset.subset_univ _) fun x _ _ => mul_self_nonneg (m a x)
    rw [Finset.sum_pair hkl] at h2
    have h3 := (_root_.abs_le.1 h1).2
    simp only [Matrix.transpose_apply] at h2 h3
    linarith
  refine abs_le_of_sq_le_sq ?_ (by norm_num)
  have h1 := mul_le_mul (row i) (row j) (add_nonneg (mul_self_nonneg _) (mul_self_nonneg _)) (by norm_num)
  nlinarith [sq_nonneg (m i k * m j k + m i l * m j l)]

open Rounding in
/-- C137 in the plane: normalising in floating point squares the departure from orthogonality and moves no entry by more than about that departure, up to rounding that grows as
the first entry gets small. The full claim, without the condition on the first entry, is refuted by `C137_false`. -/
theorem C137_plane_partial (r : Rounding 53) (m : RotMat 2) (hfl : ∀ i j, IsFl 53 (m.elem i j)) (δ : ℝ) (hδ : δ ≤ 1 / 1000) (h : ∀ i j, |(m.elem * m.elemᵀ - 1) i j| ≤ δ)
    (P : ℝ) (hP : 1 ≤ P) (hP' : P ≤ 2 ^ 16) (h0 : 1 / P ≤ |m.elem 0 0|) :
    (Fl.normalizeBuf r doubleLimits m).isSome ∧
    (Fl.rotNormalize r doubleLimits m).age = 1 ∧ (Fl.rotNormalize r doubleLimits m).flip = m.flip ∧ (Fl.rotNormalize r doubleLimits m).valid = m.valid ∧
    (∀ i j, |((Fl.rotNormalize r doubleLimits m).elem * (Fl.rotNormalize r doubleLimits m).elemᵀ - 1) i j| ≤ δ ^ 2 + 2 ^ (-47 : ℤ) * P ^ 2) ∧
    ∀ i j, |(Fl.rotNormalize r doubleLimits m).elem i j - m.elem i j| ≤ 8 / 5 * δ + 2 ^ (-47 : ℤ) * P ^ 2 := by
  have hu0 : 0 < u 53 := u_pos
  obtain ⟨X, hX, hres⟩ := Fl.plane_residual r (M := m.elemᵀ) (fun i j => hfl j i) (fun i j => (entry_near hδ h j i).trans (by norm_num))
    (by have := det_near_two hδ h; rw [det_fin_two] at this; simpa [mul_comm (m.elem 1 0)] using this) hP (hP'.trans (by norm_num)) h0
  have hbuf : Fl.normalizeBuf r doubleLimits m = some X := hX
  have hp2 : 1 ≤ P ^ 2 := one_le_pow₀ hP
  have hp2' : P ^ 2 ≤ 2 ^ 32 := (pow_le_pow_left₀ (by linarith) hP' 2).trans (by norm_num)
  have hρ : 20 * (u 53 * P ^ 2) ≤ 1 / 1000 := by
    have hu : u 53 ≤ 1 / 2 ^ 53 := by rw [Fl.u53]; norm_num
    have : u 53 * P ^ 2 ≤ 1 / 2 ^ 53 * 2 ^ 32 := mul_le_mul hu hp2' (by positivity) (by positivity)
    norm_num at this
    linarith
  have e : (2 : ℝ) ^ (-47 : ℤ) = 64 * u 53 := by rw [Fl.u53]; norm_num
  have hN : Fl.rotNormalize r doubleLimits m = ⟨Matrix.of fun i j => r (r (m.elem i j + X i j) / 2), m.flip, m.valid, 1⟩ := by
    unfold Fl.rotNormalize
    rw [hbuf]
  obtain ⟨g1, g2⟩ := Fl.polish r (by norm_num) hδ hρ h hres (Matrix.of fun i j => r (r (m.elem i j + X i j) / 2)) (fun i j => rfl)
  have hup : u 53 ≤ u 53 * P ^ 2 := le_mul_of_one_le_right hu0.le hp2
  refine ⟨by rw [hbuf]; rfl, by rw [hN], by rw [hN], by rw [hN], fun i j => ?_, fun i j => ?_⟩
  · rw [hN, e]
    refine (g1 i j).trans ?_
    linarith
  · rw [hN, e]
    refine (g2 i j).trans ?_
    linarith

open Rounding in
/-- C137 in space: the same, with a condition on the two leading minors. For a rotation the second of these is, up to its sign, the last diagonal entry. -/
theorem C137_space_partial (r : Rounding 53) (m : RotMat 3) (hfl : ∀ i j, IsFl 53 (m.elem i j)) (δ : ℝ) (hδ : δ ≤ 1 / 1000) (h : ∀ i j, |(m.elem * m.elemᵀ - 1) i j| ≤ δ)
    (P : ℝ) (hP : 1 ≤ P) (hP' : P ≤ 64) (h0 : 1 / P ≤ |m.elem 0 0|) (h1 : 1 / P ≤ |m.elem 0 0 * m.elem 1 1 - m.elem 0 1 * m.elem 1 0|) :
    (Fl.normalizeBuf r doubleLimits m).isSome ∧
    (Fl.rotNormalize r doubleLimits m).age = 1 ∧ (Fl.rotNormalize r doubleLimits m).flip = m.flip ∧ (Fl.rotNormalize r doubleLimits m).valid = m.valid ∧
    (∀ i j, |((Fl.rotNormalize r doubleLimits m).elem * (Fl.rotNormalize r doubleLimits m).elemᵀ - 1) i j| ≤ δ ^ 2 + 2 ^ (-45 : ℤ) * P ^ 5) ∧
    ∀ i j, |(Fl.rotNormalize r doubleLimits m).elem i j - m.elem i j| ≤ 8 / 5 * δ + 2 ^ (-45 : ℤ) * P ^ 5 := by
  have hu0 : 0 < u 53 := u_pos
  have hm : 1 / P ≤ |m.elemᵀ 1 1 * m.elemᵀ 0 0 - m.elemᵀ 0 1 * m.elemᵀ 1 0| := by
    have e : m.elemᵀ 1 1 * m.elemᵀ 0 0 - m.elemᵀ 0 1 * m.elemᵀ 1 0 = m.elem 0 0 * m.elem 1 1 - m.elem 0 1 * m.elem 1 0 := by
      simp only [Matrix.transpose_apply]; ring
    rw [e]; exact h1
  obtain ⟨X, hX, hres⟩ := Fl.space_residual r (M := m.elemᵀ) (fun i j => hfl j i) (fun i j => (entry_near hδ h j i).trans (by norm_num))
    (fun k c => by
      have := minor_near hδ h c 0 k 0
      simpa only [Matrix.transpose_apply] using this)
    (by rw [Matrix.det_transpose]; exact det_near_three hδ h) hP hP' h0 hm
  have hbuf : Fl.normalizeBuf r doubleLimits m = some X := hX
  have hp5 : 1 ≤ P ^ 5 := one_le_pow₀ hP
  have hp5' : P ^ 5 ≤ 2 ^ 30 := (pow_le_pow_left₀ (by linarith) hP' 5).trans (by norm_num)
  have hρ : 140 * (u 53 * P ^ 5) ≤ 1 / 1000 := by
    have hu : u 53 ≤ 1 / 2 ^ 53 := by rw [Fl.u53]; norm_num
    have : u 53 * P ^ 5 ≤ 1 / 2 ^ 53 * 2 ^ 30 := mul_le_mul hu hp5' (by positivity) (by positivity)
    norm_num at this
    linarith
  have e : (2 : ℝ) ^ (-45 : ℤ) = 256 * u 53 := by rw [Fl.u53]; norm_num
  have hN : Fl.rotNormalize r doubleLimits m = ⟨Matrix.of fun i j => r (r (m.elem i j + X i j) / 2), m.flip, m.valid, 1⟩ := by
    unfold Fl.rotNormalize
    rw [hbuf]
  obtain ⟨g1, g2⟩ := Fl.polish r (by norm_num) hδ hρ h hres (Matrix.of fun i j => r (r (m.elem i j + X i j) / 2)) (fun i j => rfl)
  have hup : u 53 ≤ u 53 * P ^ 5 := le_mul_of_one_le_right hu0.le hp5
  refine ⟨by rw [hbuf]; rfl, by rw [hN], by rw [hN], by rw [hN], fun i j => ?_, fun i j => ?_⟩
  · rw [hN, e]
    refine (g1 i j).trans ?_
    linarith
  · rw [hN, e]
    refine (g2 i j).trans ?_
    linarith

/-- A turn in the plane, a little too long. -/
noncomputable def longTurn : Matrix (Fin 2) (Fin 2) ℝ := !![5 / 8, -(25 / 32); 25 / 32, 5 / 8]

theorem longTurn_near (i j : Fin 2) : |(longTurn * longTurnᵀ - 1) i j| ≤ 1 / 1000 := by
  rw [Matrix.sub_apply, Matrix.mul_apply, Fin.sum_univ_two]
  simp only [Matrix.transpose_apply]
  fin_cases i <;> fin_cases j <;> simp [longTurn] <;> norm_num [abs_le]

/-- It meets the hypotheses of `C137_plane_partial` and is brought close to an exact turn. -/
example (r : Rounding 53) : ∀ i j, |((Fl.rotNormalize r doubleLimits ⟨longTurn, false, true, 19⟩).elem *
    (Fl.rotNormalize r doubleLimits ⟨longTurn, false, true, 19⟩).elemᵀ - 1) i j| ≤ (1 / 1000) ^ 2 + 2 ^ (-47 : ℤ) * 2 ^ 2 := by
  refine (C137_plane_partial r ⟨longTurn, false, true, 19⟩ (fun i j => ?_) (1 / 1000) le_rfl longTurn_near 2 (by norm_num) (by norm_num) (by norm_num [longTurn])).2.2.2.2.1
  have a : IsFl 53 (5 / 8 : ℝ) := ⟨5, -3, by norm_num, by norm_num⟩
  have b : IsFl 53 (25 / 32 : ℝ) := ⟨25, -5, by norm_num, by norm_num⟩
  have c : IsFl 53 (-(25 / 32) : ℝ) := ⟨-25, -5, by norm_num, by norm_num⟩
  fin_cases i <;> fin_cases j <;> first | exact a | exact b | exact c

/-- A turn in space about no axis of the frame, its entries (two thirds and one third) cut to eleven bits. -/
noncomputable def cutTurn : Matrix (Fin 3) (Fin 3) ℝ :=
  !![1365 / 2048, -(683 / 2048), 1365 / 2048; 1365 / 2048, 1365 / 2048, -(683 / 2048); -(683 / 2048), 1365 / 2048, 1365 / 2048]

theorem cutTurn_near (i j : Fin 3) : |(cutTurn * cutTurnᵀ - 1) i j| ≤ 1 / 1000 := by
  rw [Matrix.sub_apply, Matrix.mul_apply, Fin.sum_univ_three]
  simp only [Matrix.transpose_apply]
  fin_cases i <;> fin_cases j <;> simp [cutTurn] <;> norm_num [abs_le]

/-- It meets the hypotheses of `C137_space_partial`. -/
example (r : Rounding 53) : ∀ i j, |((Fl.rotNormalize r doubleLimits ⟨cutTurn, false, true, 19⟩).elem *
    (Fl.rotNormalize r doubleLimits ⟨cutTurn, false, true, 19⟩).elemᵀ - 1) i j| ≤ (1 / 1000) ^ 2 + 2 ^ (-45 : ℤ) * 2 ^ 5 := by
  refine (C137_space_partial r ⟨cutTurn, false, true, 19⟩ (fun i j => ?_) (1 / 1000) le_rfl cutTurn_near 2 (by norm_num) (by norm_num) (by norm_num [cutTurn])
    (by simp [cutTurn]; norm_num [le_abs])).2.2.2.2.1
  have a : IsFl 53 (1365 / 2048 : ℝ) := ⟨1365, -11, by norm_num, by norm_num⟩
  have c : IsFl 53 (-(683 / 2048) : ℝ) := ⟨-683, -11, by norm_num, by norm_num⟩
  fin_cases i <;> fin_cases j <;> first | exact a | exact c

end WFMath
