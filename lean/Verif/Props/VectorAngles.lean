/- Property theorems C92 (Parallel, Perpendicular) and the coordinate axes part of C25. -/
import Verif.Lemmas.Vector
import Verif.Spec.Rotate3D
import Verif.Spec.RotMatrix
import Verif.Props.Rotate3D

namespace WFMath
open Matrix Spec
variable {n : Nat}

/-! ### C25: the coordinate axes -/

/-- C25: `rotateX`, `rotateY`, `rotateZ` are the rotations by `theta` about the coordinate axes, and never fail. -/
theorem C25_coordinate_axes (v : Vec 3) (θ : ℝ) :
    v.rotateX θ = some ⟨rodrigues ![1, 0, 0] θ v.elem, v.valid⟩ ∧ v.rotateY θ = some ⟨rodrigues ![0, 1, 0] θ v.elem, v.valid⟩ ∧
    v.rotateZ θ = some ⟨rodrigues ![0, 0, 1] θ v.elem, v.valid⟩ := by
  refine ⟨?_, ?_, ?_⟩
  · unfold Vec.rotateX Vec.rotate
    rw [if_neg (by decide)]
    show some _ = some _
    congr 2
    apply ext3 <;> simp [rodrigues, dot3, cross0, cross1, cross2', Function.update, Matrix.vecHead, Matrix.vecTail] <;> ring
  · unfold Vec.rotateY Vec.rotate
    rw [if_neg (by decide)]
    show some _ = some _
    congr 2
    apply ext3 <;> simp [rodrigues, dot3, cross0, cross1, cross2', Function.update, Matrix.vecHead, Matrix.vecTail] <;> ring
  · unfold Vec.rotateZ Vec.rotate
    rw [if_neg (by decide)]
    show some _ = some _
    congr 2
    apply ext3 <;> simp [rodrigues, dot3, cross0, cross1, cross2', Function.update, Matrix.vecHead, Matrix.vecTail] <;> ring

/-- C24: `Vector<2>::rotate(theta)` turns counterclockwise by `theta`, and never fails. -/
theorem C24_plane (v : Vec 2) (θ : ℝ) : v.rotate2D θ =
    some ⟨![v.elem 0 * Real.cos θ - v.elem 1 * Real.sin θ, v.elem 0 * Real.sin θ + v.elem 1 * Real.cos θ], v.valid⟩ := by
  unfold Vec.rotate2D Vec.rotate
  rw [if_neg (by decide)]
  show some _ = some _
  congr 2
  funext i; fin_cases i <;> simp [Function.update]; ring

/-- A quarter turn about the y axis takes z to x. -/
example : (⟨![0, 0, 1], true⟩ : Vec 3).rotateY (Real.pi / 2) = some ⟨![1, 0, 0], true⟩ := by
  rw [(C25_coordinate_axes _ _).2.1]
  congr 2
  apply ext3 <;> simp [rodrigues, dot3, cross0, cross1, cross2']

/-! ### C92: Parallel -/

/-- C92: vectors that are exact multiples of each other are parallel, and `same_dir` tells the sign of the factor. -/
theorem C92_parallel_multiple (u v : Vec n) (c : ℝ) (hu : u.elem ≠ 0) (hc : c ≠ 0) (hv : v.elem = c • u.elem) (hd : DotExact u v) :
    u.parallel v = (true, decide (0 < c)) := by
  have hp : 0 < u.elem ⬝ᵥ u.elem := Vec.sqrMag_pos.2 hu
  unfold Vec.parallel
  have h1 : u.dot v = c * (u.elem ⬝ᵥ u.elem) := by
    have := hd; unfold DotExact at this
    rw [this, hv, dotProduct_smul, smul_eq_mul]
  have h2 : u.sqrMag * v.sqrMag = u.dot v * u.dot v := by
    rw [h1, Vec.sqrMag_eq, Vec.sqrMag_eq, hv, dotProduct_smul, smul_dotProduct, smul_eq_mul, smul_eq_mul]; ring
  simp only [h2, Prod.mk.injEq]
  constructor
  · simp [equal, scaleEpsilon_nonneg epsilon_pos.le]
  · rw [h1]
    simp only [gt_iff_lt, decide_eq_decide]
    rw [mul_pos_iff_of_pos_right hp]

/-- C92: if nonzero vectors with an exact inner product that is not 0 are found parallel, the squared sine of their angle is at most `2 ε`. -/
theorem C92_parallel_sound (u v : Vec n) (hd : DotExact u v) (h0 : u.elem ⬝ᵥ v.elem ≠ 0) (h : (u.parallel v).1 = true) :
    (u.elem ⬝ᵥ u.elem) * (v.elem ⬝ᵥ v.elem) - (u.elem ⬝ᵥ v.elem) ^ 2 ≤ 2 * epsilon * (u.elem ⬝ᵥ v.elem) ^ 2 := by
  have hd' : u.dot v = u.elem ⬝ᵥ v.elem := hd
  have hu : u.elem ≠ 0 := by rintro h; rw [h, zero_dotProduct] at h0; exact h0 rfl
  have hv : v.elem ≠ 0 := by rintro h; rw [h, dotProduct_zero] at h0; exact h0 rfl
  have hpu : 0 < u.sqrMag := Vec.sqrMag_pos.2 hu
  have hpv : 0 < v.sqrMag := Vec.sqrMag_pos.2 hv
  unfold Vec.parallel at h
  simp only [hd', equal, decide_eq_true_eq] at h
  have h1 := scaleEpsilon_le (x := u.elem ⬝ᵥ v.elem * u.elem ⬝ᵥ v.elem) (y := u.sqrMag * v.sqrMag) epsilon_pos.le
    (mul_ne_zero h0 h0) (mul_pos hpu hpv).ne'
  have h2 := neg_abs_le (u.elem ⬝ᵥ v.elem * u.elem ⬝ᵥ v.elem - u.sqrMag * v.sqrMag)
  have h3 : min |u.elem ⬝ᵥ v.elem * u.elem ⬝ᵥ v.elem| |u.sqrMag * v.sqrMag| ≤ u.elem ⬝ᵥ v.elem * u.elem ⬝ᵥ v.elem :=
    le_trans (min_le_left _ _) (abs_mul_self _).le
  have h4 := mul_le_mul_of_nonneg_left h3 (by have := epsilon_pos; linarith : 0 ≤ 2 * epsilon)
  rw [Vec.sqrMag_eq, Vec.sqrMag_eq] at h2 h h1
  rw [Vec.sqrMag_eq, Vec.sqrMag_eq] at h4
  nlinarith

/-- C92: vectors with exact inner product are found parallel whenever the squared sine of their angle is at most `ε` times the squared cosine. -/
theorem C92_parallel_complete (u v : Vec n) (hd : DotExact u v)
    (h : (u.elem ⬝ᵥ u.elem) * (v.elem ⬝ᵥ v.elem) - (u.elem ⬝ᵥ v.elem) ^ 2 ≤ epsilon * (u.elem ⬝ᵥ v.elem) ^ 2) : (u.parallel v).1 = true := by
  have hd' : u.dot v = u.elem ⬝ᵥ v.elem := hd
  have hcs : (u.elem ⬝ᵥ v.elem) ^ 2 ≤ (u.elem ⬝ᵥ u.elem) * (v.elem ⬝ᵥ v.elem) := by
    have := Finset.sum_mul_sq_le_sq_mul_sq Finset.univ u.elem v.elem
    simpa [dotProduct, pow_two] using this
  unfold Vec.parallel
  simp only [hd', equal, decide_eq_true_eq]
  refine le_trans ?_ (le_scaleEpsilon epsilon_pos.le)
  rw [Vec.sqrMag_eq, Vec.sqrMag_eq]
  have h5 : |u.elem ⬝ᵥ v.elem * u.elem ⬝ᵥ v.elem| = (u.elem ⬝ᵥ v.elem) ^ 2 := by rw [abs_mul_self]; ring
  have h6 : |u.elem ⬝ᵥ u.elem * v.elem ⬝ᵥ v.elem| = u.elem ⬝ᵥ u.elem * v.elem ⬝ᵥ v.elem := abs_of_nonneg (le_trans (sq_nonneg _) hcs)
  rw [h5, h6, min_eq_left hcs, abs_le]
  constructor <;> nlinarith

/-- C92 is false for short vectors: perpendicular vectors of length `2^-12` are found parallel. -/
theorem C92_parallel_false : ∃ u v : Vec 2, u.elem ⬝ᵥ v.elem = 0 ∧ u.elem ⬝ᵥ u.elem = (2⁻¹ ^ 12) ^ 2 ∧ v.elem ⬝ᵥ v.elem = (2⁻¹ ^ 12) ^ 2 ∧
    (u.parallel v).1 = true := by
  refine ⟨⟨![2⁻¹ ^ 12, 0], true⟩, ⟨![0, 2⁻¹ ^ 12], true⟩, ?_, ?_, ?_, ?_⟩
  · simp [dotProduct, Fin.sum_univ_two]
  · simp [dotProduct, Fin.sum_univ_two]; norm_num
  · simp [dotProduct, Fin.sum_univ_two]; norm_num
  · have he : epsilon = 30 * 2⁻¹ ^ 52 := by unfold epsilon; norm_num
    unfold Vec.parallel
    have h0 : (⟨![2⁻¹ ^ 12, 0], true⟩ : Vec 2).dot ⟨![0, 2⁻¹ ^ 12], true⟩ = 0 := Vec.dot_of_exact_zero (by simp [dotProduct, Fin.sum_univ_two])
    simp only [h0, equal, decide_eq_true_eq]
    rw [scaleEpsilon_zero (Or.inl (by ring)), he]
    simp only [Vec.sqrMag, Fin.sum_univ_two]
    simp
    norm_num [abs_of_pos]

/-! ### C92: Perpendicular -/

/-- C92: vectors with inner product 0 are perpendicular. -/
theorem C92_perp_zero (u v : Vec n) (h : u.elem ⬝ᵥ v.elem = 0) : u.perpendicular v = true := by
  unfold Vec.perpendicular
  rw [Vec.dot_of_exact_zero h, abs_zero, decide_eq_true_eq]
  unfold ldexp
  have := epsilon_pos
  positivity

/-- C92: if nonzero vectors with an exact inner product are found perpendicular, the cosine of their angle is below `4 ε`. -/
theorem C92_perp_sound (u v : Vec n) (hu : u.elem ≠ 0) (hv : v.elem ≠ 0) (hd : DotExact u v) (h : u.perpendicular v = true) :
    |u.elem ⬝ᵥ v.elem| < 4 * epsilon * (u.mag * v.mag) := by
  have hd' : u.dot v = u.elem ⬝ᵥ v.elem := hd
  unfold Vec.perpendicular ldexp at h
  rw [decide_eq_true_eq, hd', zpow_add₀ (by norm_num)] at h
  have h1 := frexp_lower (fun h => hu (maxAbs_eq_zero.1 h) : maxAbs u.elem ≠ 0)
  have h2 := frexp_lower (fun h => hv (maxAbs_eq_zero.1 h) : maxAbs v.elem ≠ 0)
  rw [abs_of_nonneg (maxAbs_nonneg _)] at h1 h2
  have h3 := Vec.maxAbs_le_mag u
  have h4 := Vec.maxAbs_le_mag v
  have h5 : (2 : ℝ) ^ frexpExp (maxAbs u.elem) * 2 ^ frexpExp (maxAbs v.elem) ≤ (2 * u.mag) * (2 * v.mag) :=
    mul_le_mul (by linarith) (by linarith) (by positivity) (by have := maxAbs_nonneg u.elem; linarith)
  have h6 := mul_le_mul_of_nonneg_left h5 epsilon_pos.le
  linarith

/-- C92: vectors whose inner product is at most `ε` times the product of their largest components are found perpendicular. -/
theorem C92_perp_complete (u v : Vec n) (hu : u.elem ≠ 0) (hv : v.elem ≠ 0)
    (h : |u.elem ⬝ᵥ v.elem| ≤ epsilon * (maxAbs u.elem * maxAbs v.elem)) : u.perpendicular v = true := by
  unfold Vec.perpendicular ldexp
  rw [decide_eq_true_eq, zpow_add₀ (by norm_num)]
  have h1 := frexp_upper (fun h => hu (maxAbs_eq_zero.1 h) : maxAbs u.elem ≠ 0)
  have h2 := frexp_upper (fun h => hv (maxAbs_eq_zero.1 h) : maxAbs v.elem ≠ 0)
  rw [abs_of_nonneg (maxAbs_nonneg _)] at h1 h2
  have h3 : maxAbs u.elem * maxAbs v.elem < (2 : ℝ) ^ frexpExp (maxAbs u.elem) * 2 ^ frexpExp (maxAbs v.elem) :=
    mul_lt_mul'' h1 h2 (maxAbs_nonneg _) (maxAbs_nonneg _)
  have h4 := mul_lt_mul_of_pos_left h3 epsilon_pos
  rcases Vec.dot_cases u v with h5 | h5
  · rw [h5]; linarith
  · rw [h5.1, abs_zero]
    have := epsilon_pos
    positivity

/-- C92: both tests are symmetric. -/
theorem C92_symmetric (u v : Vec n) : u.parallel v = v.parallel u ∧ u.perpendicular v = v.perpendicular u := by
  have h : u.dot v = v.dot u := by
    rw [Vec.dot_def, Vec.dot_def, dotProduct_comm]
    unfold scaleEpsilonArr
    rw [scaleEpsilon_symm]
  constructor
  · unfold Vec.parallel
    rw [h, mul_comm u.sqrMag]
  · unfold Vec.perpendicular
    rw [h, add_comm]

/-- C92 is false for very short vectors: a vector of length `2^-50` is found perpendicular to itself. -/
theorem C92_perp_false : ∃ u : Vec 2, u.elem ⬝ᵥ u.elem = (2⁻¹ ^ 50) ^ 2 ∧ u.perpendicular u = true := by
  refine ⟨⟨![2⁻¹ ^ 50, 0], true⟩, ?_, ?_⟩
  · simp [dotProduct, Fin.sum_univ_two]; norm_num
  · have he : epsilon = 30 * 2⁻¹ ^ 52 := by unfold epsilon; norm_num
    have hm : maxAbs (![2⁻¹ ^ 50, 0] : Fin 2 → ℝ) = 2⁻¹ ^ 50 := by
      apply le_antisymm
      · apply maxAbs_le (by positivity)
        intro i; fin_cases i <;> simp [abs_of_pos]
      · have := le_maxAbs (![2⁻¹ ^ 50, 0] : Fin 2 → ℝ) 0
        simpa [abs_of_pos] using this
    have h0 : (⟨![2⁻¹ ^ 50, 0], true⟩ : Vec 2).dot ⟨![2⁻¹ ^ 50, 0], true⟩ = 0 := by
      rw [Vec.dot_def, if_neg]
      have h1 := le_scaleEpsilon (x := maxAbs (![2⁻¹ ^ 50, 0] : Fin 2 → ℝ)) (y := maxAbs (![2⁻¹ ^ 50, 0] : Fin 2 → ℝ)) epsilon_pos.le
      have h2 : |(2⁻¹ : ℝ) ^ 50| = 2⁻¹ ^ 50 := abs_of_pos (by positivity)
      rw [hm, h2, min_self, he] at h1
      rw [ge_iff_le, not_le]
      unfold scaleEpsilonArr
      rw [hm, he]
      refine lt_of_lt_of_le ?_ h1
      simp [dotProduct, Fin.sum_univ_two]
      norm_num
    unfold Vec.perpendicular ldexp
    rw [h0, abs_zero, decide_eq_true_eq]
    have := epsilon_pos
    positivity

/-- Non-trivial cases: (1,2) and (-2,-4) are parallel in opposite directions, (1,2) and (2,-1) perpendicular. -/
example : (⟨![1, 2], true⟩ : Vec 2).elem ≠ 0 ∧ (![-2, -4] : Fin 2 → ℝ) = (-2 : ℝ) • ![1, 2] ∧ (![1, 2] : Fin 2 → ℝ) ⬝ᵥ ![2, -1] = 0 := by
  refine ⟨fun h => by have := congrFun h 0; simp at this, ?_, ?_⟩
  · funext i; fin_cases i <;> simp; norm_num
  · simp [dotProduct, Fin.sum_univ_two]

example : DotExact (⟨![1, 2], true⟩ : Vec 2) ⟨![-2, -4], true⟩ := by
  apply Vec.dot_exact
  have he := epsilon_lt
  norm_num at he
  have h1 : min (maxAbs (![1, 2] : Fin 2 → ℝ)) (maxAbs (![-2, -4] : Fin 2 → ℝ)) ≤ 2 := by
    refine le_trans (min_le_left _ _) (maxAbs_le (by norm_num) ?_)
    intro i; fin_cases i <;> simp
  have h2 : |(![1, 2] : Fin 2 → ℝ) ⬝ᵥ ![-2, -4]| = 10 := by
    simp [dotProduct, Fin.sum_univ_two]; norm_num
  rw [h2]
  nlinarith [epsilon_pos]

end WFMath
