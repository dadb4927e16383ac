/- Property theorems C138, the negative part: in space a reflection given by doubles can be stored as a rotation. -/
import Verif.Props.RoundSetVals

namespace WFMath
open Spec Matrix Gauss Rounding

/-- The double nearest to the square root of a half. -/
noncomputable def halfRoot : ℝ := 6369051672525773 / 9007199254740992
/-- A reflection of space, up to about `2^-52`; its first element is `2^-60`. -/
noncomputable def nearMirror : Matrix (Fin 3) (Fin 3) ℝ :=
  !![1 / 1152921504606846976, -halfRoot, -halfRoot; halfRoot, -(1 / 2), 1 / 2; halfRoot, 1 / 2, -(1 / 2)]

theorem nearMirror_isFl (i j : Fin 3) : IsFl 53 (nearMirror i j) := by
  have a : IsFl 53 (1 / 1152921504606846976 : ℝ) := ⟨1, -60, by norm_num, by norm_num⟩
  have b : IsFl 53 halfRoot := ⟨6369051672525773, -53, by norm_num, by norm_num [halfRoot]⟩
  have c : IsFl 53 (-halfRoot) := ⟨-6369051672525773, -53, by norm_num, by norm_num [halfRoot]⟩
  have d : IsFl 53 (1 / 2 : ℝ) := ⟨1, -1, by norm_num, by norm_num⟩
  have e : IsFl 53 (-(1 / 2) : ℝ) := ⟨-1, -1, by norm_num, by norm_num⟩
  fin_cases i <;> fin_cases j <;> first | exact a | exact b | exact c | exact d | exact e

theorem nearMirror_near (i j : Fin 3) : |(nearMirror * nearMirrorᵀ - 1) i j| ≤ 2 ^ (-51 : ℤ) := by
  rw [Matrix.sub_apply, Matrix.mul_apply, Fin.sum_univ_three]
  simp only [Matrix.transpose_apply]
  fin_cases i <;> fin_cases j <;> simp [nearMirror, halfRoot] <;> norm_num [_root_.abs_le]

theorem nearMirror_det : nearMirror.det ≤ -(99 / 100) := by
  rw [det_fin_three]
  simp [nearMirror, halfRoot]
  norm_num

/-- The elimination divides by the tiny first element, which wipes out the other elements: the determinant comes out as zero. -/
theorem nearMirror_determinant (r : Rounding 53) : Fl.determinantImpl r doubleLimits nearMirror = 0 := by
  have hq : r (halfRoot / (1 / 1152921504606846976)) = halfRoot * 1152921504606846976 := by
    rw [show halfRoot / (1 / 1152921504606846976) = halfRoot * 1152921504606846976 by ring]
    exact r.of_fl ⟨6369051672525773, 7, by norm_num, by norm_num [halfRoot]⟩
  have hs : r (halfRoot * (halfRoot * 1152921504606846976)) = 576460752303423616 := by
    rw [r.eq_of_near Fl.pos53 (x := halfRoot * (halfRoot * 1152921504606846976)) (e := 59) (k := 4503599627370497) (by norm_num [halfRoot]) (by norm_num)
      (by norm_num [halfRoot, abs_lt])]
    norm_num
  have hlo : r (-(1 / 2) - -576460752303423616) = 576460752303423616 := by
    rw [r.eq_of_near Fl.pos53 (x := -(1 / 2) - -576460752303423616) (e := 59) (k := 4503599627370497) (by norm_num) (by norm_num) (by norm_num [abs_lt])]
    norm_num
  have hhi : r (1 / 2 - -576460752303423616) = 576460752303423616 := by
    rw [r.eq_of_near Fl.pos53 (x := 1 / 2 - -576460752303423616) (e := 59) (k := 4503599627370497) (by norm_num) (by norm_num) (by norm_num [abs_lt])]
    norm_num
  have hS : r 576460752303423616 = 576460752303423616 := r.of_fl ⟨4503599627370497, 7, by norm_num, by norm_num⟩
  set W := Fl.detClear r 0 nearMirror with hWdef
  have hW : ∀ i j, IsFl 53 (W i j) := Fl.clear_isFl r nearMirror_isFl 0
  have en : ∀ k l : Fin 3, k > 0 → l > 0 → W k l = 576460752303423616 := fun k l hk hl => by
    rw [hWdef, Fl.clear_entry r nearMirror nearMirror_isFl hk hl]
    have c0 : nearMirror k 0 = halfRoot := by fin_cases k <;> first | exact absurd hk (by decide) | rfl
    have c1 : nearMirror 0 l = -halfRoot := by fin_cases l <;> first | exact absurd hl (by decide) | rfl
    have c2 : nearMirror 0 0 = 1 / 1152921504606846976 := rfl
    rw [c0, c1, c2, hq, neg_mul, r.odd, hs]
    have c3 : nearMirror k l = -(1 / 2) ∨ nearMirror k l = 1 / 2 := by
      fin_cases k <;> fin_cases l <;> first | exact absurd hk (by decide) | exact absurd hl (by decide) | exact Or.inl rfl | exact Or.inr rfl
    rcases c3 with h | h <;> rw [h]
    · exact hlo
    · exact hhi
  have hr1 : |halfRoot| ≤ 1 := by norm_num [halfRoot, abs_of_pos]
  have p0 : Fl.detPivot r doubleLimits 0 nearMirror = some nearMirror := by
    unfold Fl.detPivot
    rw [if_neg]
    refine Fl.pivot_ok r (by norm_num) nearMirror 0 (fun j => ?_) (by simp [nearMirror]; norm_num)
    fin_cases j <;> norm_num [nearMirror, halfRoot, abs_of_pos]
  have p1 : Fl.detPivot r doubleLimits 1 W = some W := by
    unfold Fl.detPivot
    rw [if_neg]
    refine Fl.pivot_ok r (by norm_num) W 1 (fun j => ?_) (by rw [en 1 1 (by decide) (by decide)]; norm_num [abs_of_pos])
    by_cases hj : j > 0
    · rw [en j 1 hj (by decide)]; norm_num [abs_of_pos]
    · rw [hWdef, Fl.clear_above r _ hj]
      have : j = 0 := by fin_cases j <;> first | rfl | exact absurd (by decide) hj
      rw [this]
      show |-halfRoot| ≤ _
      rw [abs_neg]
      exact hr1.trans (by norm_num)
  unfold Fl.determinantImpl
  rw [show (List.finRange 3).filter (fun i => decide (i.val + 1 < 3)) = [0, 1] from rfl]
  simp only [Fl.detForward, p0, ← hWdef, p1, Option.bind_some, show List.finRange 3 = [0, 1, 2] from rfl, List.map, List.foldl, one_mul]
  rw [Fl.clear_entry r W hW (i := 1) (k := 2) (l := 2) (by decide) (by decide), en 2 2 (by decide) (by decide), en 1 2 (by decide) (by decide), en 2 1 (by decide) (by decide),
    en 1 1 (by decide) (by decide), div_self (by norm_num), r.of_fl (IsFl.one Fl.pos53), mul_one, hS, sub_self, r.zero, mul_zero, r.zero]

/-- C138 is false in space: there is an array of doubles, a reflection up to about `2^-51` in every product of its rows, that is accepted and stored as it is, but without the mark of a
reflection: `determinant()` is then 1. -/
theorem C138_false : ∃ vals : Matrix (Fin 3) (Fin 3) ℝ, (∀ i j, IsFl 53 (vals i j)) ∧ (∀ i j, |(vals * valsᵀ - 1) i j| ≤ 2 ^ (-51 : ℤ)) ∧ vals.det ≤ -(99 / 100) ∧
    ∀ (r : Rounding 53) (fuel : Nat) (m : RotMat 3), ∃ m', Fl.setVals r doubleLimits (fuel + 1) m vals epsilon = some (m', true) ∧ m'.elem = vals ∧ m'.flip = false ∧ m'.determinant = 1 := by
  refine ⟨nearMirror, nearMirror_isFl, nearMirror_near, nearMirror_det, fun r fuel m => ?_⟩
  have he : |epsilon| = epsilon := abs_of_pos epsilon_pos
  have hlt := epsilon_lt
  have b : ∀ i j, |(nearMirror * nearMirrorᵀ - 1) i j| ≤ epsilon - 2 ^ (-50 : ℤ) := fun i j => (nearMirror_near i j).trans (by unfold epsilon; norm_num)
  obtain ⟨m', h1, h2, -, -⟩ := C138_orthogonal r (by norm_num) fuel m nearMirror epsilon (by rw [he]; norm_num at hlt ⊢; linarith) b (by rw [he]; exact b)
  refine ⟨m', h1, h2, ?_⟩
  rcases Fl.setVals_cases r _ _ m m' _ _ true h1 with ⟨h, -⟩ | ⟨-, -, v, -, h⟩
  · exact absurd h (by simp)
  · rw [h] at h2 ⊢
    have h2' : v = nearMirror := h2
    have : decide (Fl.determinantImpl r doubleLimits v < 0) = false := by rw [h2', nearMirror_determinant]; simp
    refine ⟨this, ?_⟩
    unfold RotMat.determinant
    simp only [this]
    simp

/-! Cases that meet the hypotheses of `C138_accepts`, `C138_refuses`, `C138_orthogonal`, `C138_parity_plane` and `C138_parity_space_partial`. -/

/-- A reflection of space with larger leading minors. -/
noncomputable def fairMirror : Matrix (Fin 3) (Fin 3) ℝ := !![-halfRoot, 1 / 2, -(1 / 2); halfRoot, 1 / 2, -(1 / 2); 0, halfRoot, halfRoot]

theorem fairMirror_isFl (i j : Fin 3) : IsFl 53 (fairMirror i j) := by
  have b : IsFl 53 halfRoot := ⟨6369051672525773, -53, by norm_num, by norm_num [halfRoot]⟩
  have c : IsFl 53 (-halfRoot) := ⟨-6369051672525773, -53, by norm_num, by norm_num [halfRoot]⟩
  have d : IsFl 53 (1 / 2 : ℝ) := ⟨1, -1, by norm_num, by norm_num⟩
  have e : IsFl 53 (-(1 / 2) : ℝ) := ⟨-1, -1, by norm_num, by norm_num⟩
  fin_cases i <;> fin_cases j <;> first | exact b | exact c | exact d | exact e | exact IsFl.zero

theorem fairMirror_near (i j : Fin 3) : |(fairMirror * fairMirrorᵀ - 1) i j| ≤ 2 ^ (-51 : ℤ) := by
  rw [Matrix.sub_apply, Matrix.mul_apply, Fin.sum_univ_three]
  simp only [Matrix.transpose_apply]
  fin_cases i <;> fin_cases j <;> simp [fairMirror, halfRoot] <;> norm_num [_root_.abs_le]

theorem fairMirror_set (r : Rounding 53) (m : RotMat 3) : ∃ m', Fl.setVals r doubleLimits 1 m fairMirror epsilon = some (m', true) ∧ m'.elem = fairMirror := by
  have he : |epsilon| = epsilon := abs_of_pos epsilon_pos
  have hlt := epsilon_lt
  have b : ∀ i j, |(fairMirror * fairMirrorᵀ - 1) i j| ≤ epsilon - 2 ^ (-50 : ℤ) := fun i j => (fairMirror_near i j).trans (by unfold epsilon; norm_num)
  obtain ⟨m', h1, h2, -, -⟩ := C138_orthogonal r (by norm_num) 0 m fairMirror epsilon (by rw [he]; norm_num at hlt ⊢; linarith) b (by rw [he]; exact b)
  exact ⟨m', h1, h2⟩

/-- This one is recognised as a reflection. -/
example (r : Rounding 53) (m : RotMat 3) : ∃ m', Fl.setVals r doubleLimits 1 m fairMirror epsilon = some (m', true) ∧ m'.flip = true := by
  obtain ⟨m', h1, h2⟩ := fairMirror_set r m
  refine ⟨m', h1, ?_⟩
  rw [(C138_parity_space_partial r 1 m m' fairMirror fairMirror_isFl epsilon h1 (by rw [h2]; norm_num [fairMirror, halfRoot, abs_of_pos])
    (by rw [h2]; simp [fairMirror, halfRoot]; norm_num [le_abs])).1, h2, det_fin_three]
  simp [fairMirror, halfRoot]
  norm_num

/-- What is stored is close to orthogonal. -/
example (r : Rounding 53) (m m' : RotMat 3) (h : Fl.setVals r doubleLimits 1 m fairMirror epsilon = some (m', true)) : m'.valid = true ∧ m'.age = 1 :=
  have := (C138_accepts r (by norm_num) 1 m m' fairMirror fairMirror_isFl epsilon true h).1 rfl
  ⟨this.2.2.2.2.1, this.2.2.2.2.2⟩

/-- A matrix that doubles all lengths is refused. -/
example (r : Rounding 53) (m : RotMat 2) : Fl.setVals r doubleLimits 1 m !![0, 2; 2, 0] (1 / 10) = some (m, false) := by
  refine (C138_refuses r (by norm_num) 0 m !![0, 2; 2, 0] (1 / 10)).2 ⟨0, 0, ?_⟩
  rw [Matrix.sub_apply, Matrix.mul_apply, Fin.sum_univ_two]
  simp [Matrix.transpose_apply]
  norm_num [abs_of_pos]

/-- The exchange of the axes in the plane, whose first element is zero, is stored as a reflection. -/
example (r : Rounding 53) (m : RotMat 2) : ∃ m', Fl.setVals r doubleLimits 1 m !![0, 1; 1, 0] (1 / 10) = some (m', true) ∧ m'.elem = !![0, 1; 1, 0] ∧ m'.flip = true := by
  have near : ∀ i j, |((!![0, 1; 1, 0] : Matrix (Fin 2) (Fin 2) ℝ) * (!![0, 1; 1, 0] : Matrix (Fin 2) (Fin 2) ℝ)ᵀ - 1) i j| ≤ 0 := fun i j => by
    rw [Matrix.sub_apply, Matrix.mul_apply, Fin.sum_univ_two]
    simp only [Matrix.transpose_apply]
    fin_cases i <;> fin_cases j <;> simp
  obtain ⟨m', h1, h2, -, -⟩ := C138_orthogonal r (by norm_num) 0 m !![0, 1; 1, 0] (1 / 10) (by norm_num [abs_of_pos]) (fun i j => (near i j).trans (by unfold epsilon; norm_num))
    (fun i j => (near i j).trans (by norm_num [abs_of_pos]))
  refine ⟨m', h1, h2, ?_⟩
  rw [(C138_parity_plane r 1 m m' _ (fun i j => by fin_cases i <;> fin_cases j <;> first | exact IsFl.zero | exact IsFl.one Fl.pos53) _ h1).1, h2, det_fin_two]
  norm_num

end WFMath
