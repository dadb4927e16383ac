/- Property theorems C14 and C15: tolerant scalar equality, clamp, min, max. -/
import Verif.Lemmas.Const

namespace WFMath

/-- C14: `Equal(x, x, eps)` is true. -/
theorem C14_refl (x eps : ℝ) (h : 0 ≤ eps) : equal x x eps = true := by
  simp [equal, scaleEpsilon_nonneg h]

/-- C14: `Equal(x, y, eps) = Equal(y, x, eps)`. -/
theorem C14_symm (x y eps : ℝ) : equal x y eps = equal y x eps := by
  unfold equal
  rw [scaleEpsilon_symm, abs_sub_comm]

/-- C14: equal numbers differ by at most `2 eps` relative to the smaller one. -/
theorem C14_sound (x y eps : ℝ) (h : 0 ≤ eps) (hx : x ≠ 0) (hy : y ≠ 0) (he : equal x y eps = true) :
    |x - y| ≤ 2 * eps * min |x| |y| := by
  unfold equal at he
  exact le_trans (of_decide_eq_true he) (scaleEpsilon_le h hx hy)

/-- C14: numbers within `eps` relative to the smaller one are equal. -/
theorem C14_complete (x y eps : ℝ) (h : 0 ≤ eps) (hd : |x - y| ≤ eps * min |x| |y|) :
    equal x y eps = true := by
  unfold equal
  exact decide_eq_true (le_trans hd (le_scaleEpsilon h))

/-- C14: for nonzero numbers the verdict does not change when both are scaled by a power of two. -/
theorem C14_scale (x y eps : ℝ) (hx : x ≠ 0) (hy : y ≠ 0) (k : ℤ) :
    equal (x * 2 ^ k) (y * 2 ^ k) eps = equal x y eps := by
  have hk : (0 : ℝ) < 2 ^ k := by positivity
  unfold equal
  rw [scaleEpsilon_scale hx hy, ← sub_mul, abs_mul, abs_of_pos hk]
  simp only [mul_le_mul_iff_left₀ hk]

/-- C14: against zero the tolerance is absolute. -/
theorem C14_zero (y eps : ℝ) : equal 0 y eps = true ↔ |y| ≤ eps := by
  unfold equal
  rw [scaleEpsilon_zero (Or.inl rfl)]
  simp

/-- The hypotheses of the C14 theorems are met, and both verdicts occur. -/
example : equal 1 (1 + epsilon / 2) epsilon = true ∧ equal 1 2 (1/4) = false := by
  have he := epsilon_pos
  constructor
  · apply C14_complete _ _ _ he.le
    have : |(1 : ℝ) + epsilon / 2| = 1 + epsilon / 2 := abs_of_pos (by linarith)
    rw [this, abs_one, min_eq_left (by linarith)]
    rw [abs_le]; constructor <;> linarith
  · by_contra h
    have := C14_sound 1 2 (1/4) (by norm_num) (by norm_num) (by norm_num) (by simpa using h)
    norm_num at this

/-- C15: the clamped value lies in the interval. -/
theorem C15_clamp_mem {α : Type} [LinearOrder α] (v lo hi : α) (h : lo ≤ hi) :
    lo ≤ floatClamp v lo hi ∧ floatClamp v lo hi ≤ hi := by
  unfold floatClamp
  split
  · exact ⟨le_rfl, h⟩
  · rename_i h1
    rw [ge_iff_le, not_le] at h1
    split
    · exact ⟨h, le_rfl⟩
    · rename_i h2; rw [not_le] at h2; exact ⟨h1.le, h2.le⟩

/-- C15: a value already inside is returned unchanged. -/
theorem C15_clamp_id {α : Type} [LinearOrder α] (v lo hi : α) (h1 : lo ≤ v) (h2 : v ≤ hi) :
    floatClamp v lo hi = v := by
  unfold floatClamp
  split
  · rename_i h; exact le_antisymm h1 h
  · split
    · rename_i h; exact le_antisymm h h2
    · rfl

/-- C15: the clamped value is the point of `[lo, hi]` nearest to `v`, and the only one at that distance. -/
theorem C15_clamp_nearest (v lo hi x : ℝ) (h : lo ≤ hi) (h1 : lo ≤ x) (h2 : x ≤ hi) :
    |v - floatClamp v lo hi| ≤ |v - x| ∧ (|v - x| = |v - floatClamp v lo hi| → x = floatClamp v lo hi) := by
  unfold floatClamp
  split
  · rename_i h3
    rw [abs_of_nonpos (by linarith), abs_of_nonpos (by linarith)]
    exact ⟨by linarith, fun _ => by linarith⟩
  · rename_i h3
    rw [ge_iff_le, not_le] at h3
    split
    · rename_i h4
      rw [abs_of_nonneg (by linarith), abs_of_nonneg (by linarith)]
      exact ⟨by linarith, fun _ => by linarith⟩
    · rw [sub_self, abs_zero]
      refine ⟨abs_nonneg _, fun h5 => ?_⟩
      rw [abs_eq_zero] at h5; linarith

/-- C15: `FloatMax` and `FloatMin` are the lattice operations. -/
theorem C15_minmax {α : Type} [LinearOrder α] (a b : α) :
    floatMax a b = a ⊔ b ∧ floatMin a b = a ⊓ b := by
  unfold floatMax floatMin
  constructor
  · split
    · rename_i h; exact (sup_eq_left.2 h.le).symm
    · rename_i h; exact (sup_eq_right.2 (not_lt.1 h)).symm
  · split
    · rename_i h; exact (inf_eq_left.2 h.le).symm
    · rename_i h; exact (inf_eq_right.2 (not_lt.1 h)).symm

example : floatClamp (5 : ℤ) 0 3 = 3 ∧ floatClamp (-5 : ℤ) 0 3 = 0 ∧ floatClamp (2 : ℤ) 0 3 = 2 := by decide

end WFMath
