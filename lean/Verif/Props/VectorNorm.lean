/- Property theorems C19 and the `sloppyNorm` part of C20. -/
import Verif.Lemmas.SloppyMag

namespace WFMath
open Matrix Sloppy

private theorem mag2 (v : Vec 2) : v.mag = Real.sqrt (|v.elem 0| ^ 2 + |v.elem 1| ^ 2) := by
  rw [Vec.mag, Vec.sqrMag, Fin.sum_univ_two]; simp [sq]
private theorem mag3 (v : Vec 3) :
    v.mag = Real.sqrt (|v.elem 0| ^ 2 + |v.elem 1| ^ 2 + |v.elem 2| ^ 2) := by
  rw [Vec.mag, Vec.sqrMag, Fin.sum_univ_three]; simp [sq]

/-- C19 in one dimension. -/
theorem C19_dim1 (v : Vec 1) : v.mag ≤ v.sloppyMag1 ∧ v.sloppyMag1 ≤ Vec.sloppyMagMax 1 * v.mag := by
  have : v.mag = v.sloppyMag1 := by
    rw [Vec.mag, Vec.sqrMag, Vec.sloppyMag1]; simp [← sq, Real.sqrt_sq_eq_abs]
  rw [this]; simp [Vec.sloppyMagMax]

private theorem bracket {M S K : ℝ} (hM : 0 ≤ M) (hS : 0 ≤ S) (hK : 0 ≤ K) (h1 : M ≤ S ^ 2)
    (h2 : S ^ 2 ≤ K ^ 2 * M) : Real.sqrt M ≤ S ∧ S ≤ K * Real.sqrt M := by
  refine ⟨(Real.sqrt_le_left hS).2 h1, ?_⟩
  rw [← Real.sqrt_sq hS, ← Real.sqrt_sq hK, ← Real.sqrt_mul (sq_nonneg K)]
  exact Real.sqrt_le_sqrt h2

/-- C19 in two dimensions. -/
theorem C19_dim2 (v : Vec 2) : v.mag ≤ v.sloppyMag2 ∧ v.sloppyMag2 ≤ Vec.sloppyMagMax 2 * v.mag := by
  have hp := p_lo
  have hp' := p_hi
  have hK : (0 : ℝ) ≤ Vec.sloppyMagMax 2 := by simp only [Vec.sloppyMagMax]; norm_num
  have hKp : 1 + p ^ 2 ≤ Vec.sloppyMagMax 2 ^ 2 := by
    rw [p_eq]; simp only [Vec.sloppyMagMax]; norm_num at *; linarith
  rw [mag2, Vec.sloppyMag2]
  have a0 := abs_nonneg (v.elem 0)
  have b0 := abs_nonneg (v.elem 1)
  generalize |v.elem 0| = a at *
  generalize |v.elem 1| = b at *
  split
  · rename_i h
    obtain ⟨l, u⟩ := sq2 b0 h.le
    refine bracket (by positivity) (by nlinarith) hK l (le_trans u ?_)
    exact mul_le_mul_of_nonneg_right hKp (by positivity)
  · rename_i h
    split
    · obtain ⟨l, u⟩ := sq2 a0 (not_lt.1 h)
      rw [add_comm (a ^ 2)]
      refine bracket (by positivity) (by nlinarith) hK l (le_trans u ?_)
      exact mul_le_mul_of_nonneg_right hKp (by positivity)
    · have : b = 0 := by linarith
      have : a = 0 := by linarith
      subst_vars; simp

/-- C19 in three dimensions, lower bound, and the upper bound with the constant 1.14593472. -/
theorem C19_dim3_partial (v : Vec 3) : v.mag ≤ v.sloppyMag3 ∧ v.sloppyMag3 ≤ 1.14593472 * v.mag := by
  rw [mag3, Vec.sloppyMag3]
  have a0 := abs_nonneg (v.elem 0)
  have b0 := abs_nonneg (v.elem 1)
  have c0 := abs_nonneg (v.elem 2)
  generalize |v.elem 0| = a at *
  generalize |v.elem 1| = b at *
  generalize |v.elem 2| = c at *
  split
  · rename_i h
    obtain ⟨n, l, u⟩ := sq3 (lt_of_le_of_lt b0 h.1) b0 h.1.le c0 h.2.le
    exact bracket (by positivity) n (by norm_num) l u
  · rename_i h
    split
    · rename_i h2
      have hab : a ≤ b := by
        by_contra k
        rw [not_le] at k
        exact h ⟨k, lt_trans h2 k⟩
      obtain ⟨n, l, u⟩ := sq3 (lt_of_le_of_lt c0 h2) a0 hab c0 h2.le
      rw [show a ^ 2 + b ^ 2 + c ^ 2 = b ^ 2 + a ^ 2 + c ^ 2 by ring]
      exact bracket (by positivity) n (by norm_num) l u
    · rename_i h2
      rw [gt_iff_lt, not_lt] at h2
      have hac : a ≤ c := by
        by_contra k
        rw [not_le] at k
        exact h ⟨lt_of_le_of_lt h2 k, k⟩
      split
      · rename_i h3
        obtain ⟨n, l, u⟩ := sq3 h3 a0 hac b0 h2
        rw [show a ^ 2 + b ^ 2 + c ^ 2 = c ^ 2 + a ^ 2 + b ^ 2 by ring]
        exact bracket (by positivity) n (by norm_num) l u
      · have : c = 0 := by linarith
        have : a = 0 := by linarith
        have : b = 0 := by linarith
        subst_vars; simp

/-- The constant of `C19_dim3_partial` exceeds the library's `sloppyMagMax()` by less than `2 * 10^-8`. -/
theorem C19_dim3_gap : Vec.sloppyMagMax 3 < 1.14593472 ∧ 1.14593472 - Vec.sloppyMagMax 3 < 2 / 10 ^ 8 := by
  simp only [Vec.sloppyMagMax]; norm_num

/-- C19 is false in three dimensions: the `float` literal returned by `sloppyMagMax()` was rounded down
below the maximal ratio. -/
theorem C19_false : ∃ v : Vec 3, v.valid = true ∧ Vec.sloppyMagMax 3 * v.mag < v.sloppyMag3 := by
  refine ⟨⟨![1, 0.373232, 0.373232], true⟩, rfl, ?_⟩
  have hp := p_lo; have hq := q_lo
  have e : Vec.sloppyMag3 ⟨![1, 0.373232, 0.373232], true⟩
      = 1 + p * (0.373232 + 0.373232) + q * 0.373232 * 0.373232 / 1 := by
    rw [Vec.sloppyMag3]
    simp [abs_of_pos (show (0 : ℝ) < 0.373232 by norm_num)]
    intro h; norm_num at h
  have hb : (1.29577008 : ℝ) < 1 + p * (0.373232 + 0.373232) + q * 0.373232 * 0.373232 / 1 := by
    norm_num at *; linarith
  rw [e]
  refine lt_of_le_of_lt ?_ hb
  rw [mag3]
  simp only [Vec.sloppyMagMax]
  have : Real.sqrt (|(![1, 0.373232, 0.373232] : Fin 3 → ℝ) 0| ^ 2 + |(![1, 0.373232, 0.373232] : Fin 3 → ℝ) 1| ^ 2
      + |(![1, 0.373232, 0.373232] : Fin 3 → ℝ) 2| ^ 2) ≤ 1.130753843 := by
    rw [Real.sqrt_le_left (by norm_num)]
    simp; norm_num
  norm_num at *
  linarith

/-- The estimate is not the exact length: in two dimensions it differs for `(2, 1)`. -/
example : (⟨![2, 1], true⟩ : Vec 2).mag < (⟨![2, 1], true⟩ : Vec 2).sloppyMag2 := by
  have hp := p_lo
  have : Vec.sloppyMag2 ⟨![2, 1], true⟩ = 2 + p := by simp [Vec.sloppyMag2]
  rw [this, mag2, Real.sqrt_lt' (by linarith)]
  simp
  norm_num at *
  nlinarith

/-- C20: `sloppyNorm` (which aborts for vectors too short to be rescaled) gives a length between
`norm / M` and `norm` whenever `M` bounds the ratio of the approximate to the true length. -/
private theorem sloppyNorm_length {n : Nat} (v r : Vec n) (s norm maxD M : ℝ) (hn : 0 < norm)
    (hD : 0 < maxD) (hM : 0 < M) (h1 : v.mag ≤ s) (h2 : s ≤ M * v.mag)
    (hr : v.sloppyNorm s norm maxD = some r) : norm / M ≤ r.mag ∧ r.mag ≤ norm := by
  unfold Vec.sloppyNorm at hr
  split at hr
  · rename_i h
    have hs : 0 < s := lt_trans (div_pos hn hD) h
    simp only [Option.some.injEq] at hr
    rw [← hr, Vec.mag_scale, abs_of_pos (div_pos hn hs)]
    constructor
    · rw [div_mul_eq_mul_div, div_le_div_iff₀ hM hs]
      nlinarith
    · rw [div_mul_eq_mul_div, div_le_iff₀ hs]
      exact mul_le_mul_of_nonneg_left h1 hn.le
  · exact absurd hr (by simp)

/-- C20: `sloppyNorm` in two dimensions. -/
theorem C20_sloppy_dim2 (v r : Vec 2) (norm maxD : ℝ) (hn : 0 < norm) (hD : 0 < maxD)
    (hr : v.sloppyNorm v.sloppyMag2 norm maxD = some r) :
    norm / Vec.sloppyMagMax 2 ≤ r.mag ∧ r.mag ≤ norm :=
  sloppyNorm_length v r _ norm maxD _ hn hD (by simp only [Vec.sloppyMagMax]; norm_num)
    (C19_dim2 v).1 (C19_dim2 v).2 hr

/-- C20: `sloppyNorm` in three dimensions, with the constant of `C19_dim3_partial`; with the library's
own constant the lower bound fails in the eighth decimal (`C19_false`). -/
theorem C20_sloppy_dim3_partial (v r : Vec 3) (norm maxD : ℝ) (hn : 0 < norm) (hD : 0 < maxD)
    (hr : v.sloppyNorm v.sloppyMag3 norm maxD = some r) :
    norm / 1.14593472 ≤ r.mag ∧ r.mag ≤ norm :=
  sloppyNorm_length v r _ norm maxD _ hn hD (by norm_num) (C19_dim3_partial v).1 (C19_dim3_partial v).2 hr

/-- C20 is false in three dimensions, for the same reason as C19: there are a vector and a positive length which `sloppyNorm` undercuts by more than `sloppyMagMax()`
allows. -/
theorem C20_false (maxD : ℝ) (hD : 0 < maxD) : ∃ (v r : Vec 3) (norm : ℝ), v.valid = true ∧ 0 < norm ∧ v.sloppyNorm v.sloppyMag3 norm maxD = some r ∧
    r.mag < norm / Vec.sloppyMagMax 3 := by
  obtain ⟨v, hv, h⟩ := C19_false
  have hK : (1 : ℝ) < Vec.sloppyMagMax 3 := by simp only [Vec.sloppyMagMax]; norm_num
  have h0 : 0 ≤ v.mag := Real.sqrt_nonneg _
  have hs : 0 < v.sloppyMag3 := lt_of_le_of_lt (mul_nonneg (by linarith) h0) h
  refine ⟨v, v.scale (v.sloppyMag3 * maxD / 2 / v.sloppyMag3), v.sloppyMag3 * maxD / 2, hv, by positivity, ?_, ?_⟩
  · unfold Vec.sloppyNorm
    rw [if_pos]
    rw [gt_iff_lt, div_lt_iff₀ hD]
    nlinarith [mul_pos hs hD]
  · rw [Vec.mag_scale, abs_of_pos (by positivity), lt_div_iff₀ (by linarith), div_mul_eq_mul_div, div_mul_eq_mul_div, div_lt_iff₀ hs, mul_assoc]
    refine mul_lt_mul_of_pos_left ?_ (by positivity)
    linarith

/-- C20: `sloppyNorm` succeeds on every vector longer than `norm / maxDouble`. -/
theorem C20_sloppy_succeeds (v : Vec 3) (norm maxD : ℝ) (h : norm / maxD < v.mag) :
    (v.sloppyNorm v.sloppyMag3 norm maxD).isSome = true := by
  unfold Vec.sloppyNorm
  rw [if_pos (lt_of_lt_of_le h (C19_dim3_partial v).1)]; rfl

example : ∃ r, (⟨![3, 4, 0], true⟩ : Vec 3).sloppyNorm (⟨![3, 4, 0], true⟩ : Vec 3).sloppyMag3 1 10 = some r := by
  apply Option.isSome_iff_exists.1
  apply C20_sloppy_succeeds
  rw [Vec.mag, Real.lt_sqrt (by norm_num), Vec.sqrMag, Fin.sum_univ_three]
  simp; norm_num

end WFMath
