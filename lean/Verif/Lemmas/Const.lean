/- Helper lemmas about `Model/Const.lean`. -/
import Verif.Model.Const
import Mathlib.Tactic.Linarith
import Mathlib.Tactic.Positivity
import Mathlib.Algebra.Order.Field.Power
import Mathlib.Tactic.FieldSimp
import Mathlib.Tactic.Ring
import Mathlib.Tactic.NormNum

namespace WFMath

theorem epsilon_pos : 0 < epsilon := by unfold epsilon; positivity

theorem epsilon_lt : epsilon < 1 / 10 ^ 14 := by
  unfold epsilon
  norm_num [zpow_neg]

theorem frexp_lower {x : ℝ} (h : x ≠ 0) : (2 : ℝ) ^ frexpExp x ≤ 2 * |x| := by
  unfold frexpExp
  rw [if_neg h, zpow_add_one₀ (by norm_num)]
  have := Int.zpow_log_le_self (b := 2) (by norm_num) (abs_pos.2 h)
  push_cast at this
  linarith

theorem frexp_upper {x : ℝ} (h : x ≠ 0) : |x| < (2 : ℝ) ^ frexpExp x := by
  unfold frexpExp
  rw [if_neg h]
  have := Int.lt_zpow_succ_log_self (b := 2) (by norm_num) (|x|)
  push_cast at this
  exact this

theorem frexpExp_zero : frexpExp 0 = 0 := by simp [frexpExp]

theorem frexpExp_abs (x : ℝ) : frexpExp |x| = frexpExp x := by simp [frexpExp]

theorem frexpExp_congr {x y : ℝ} (h : |x| = |y|) : frexpExp x = frexpExp y := by
  rw [← frexpExp_abs x, h, frexpExp_abs]

/-- `frexp` determines the exponent. -/
theorem frexpExp_eq {x : ℝ} {e : ℤ} (h1 : (2 : ℝ) ^ e ≤ 2 * |x|) (h2 : |x| < (2 : ℝ) ^ e) :
    frexpExp x = e := by
  have hx : x ≠ 0 := by
    rintro rfl
    have : (0 : ℝ) < 2 ^ e := by positivity
    simp at h1
    linarith
  have a := frexp_lower hx
  have b := frexp_upper hx
  have k1 : (2 : ℝ) ^ (frexpExp x) < 2 ^ (e + 1) := by rw [zpow_add_one₀ (by norm_num)]; linarith
  have k2 : (2 : ℝ) ^ e < 2 ^ (frexpExp x + 1) := by rw [zpow_add_one₀ (by norm_num)]; linarith
  rw [zpow_lt_zpow_iff_right₀ (by norm_num)] at k1 k2
  omega

theorem frexpExp_scale {x : ℝ} (h : x ≠ 0) (k : ℤ) : frexpExp (x * 2 ^ k) = frexpExp x + k := by
  have hk : (0 : ℝ) < 2 ^ k := by positivity
  apply frexpExp_eq
  · rw [zpow_add₀ (by norm_num), abs_mul, abs_of_pos hk]
    have := mul_le_mul_of_nonneg_right (frexp_lower h) hk.le
    linarith
  · rw [zpow_add₀ (by norm_num), abs_mul, abs_of_pos hk]
    exact mul_lt_mul_of_pos_right (frexp_upper h) hk

theorem scaleEpsilon_symm (x y e : ℝ) : scaleEpsilon x y e = scaleEpsilon y x e := by
  unfold scaleEpsilon
  congr 1
  rcases lt_trichotomy |x| |y| with h | h | h
  · rw [if_pos h, if_neg (not_lt.2 h.le)]
  · rw [if_neg h.not_lt, if_neg h.not_gt]; exact frexpExp_congr h.symm
  · rw [if_neg (not_lt.2 h.le), if_pos h]

theorem abs_small (x y : ℝ) : |if |x| < |y| then x else y| = min |x| |y| := by
  split
  · rw [min_eq_left]; linarith
  · rw [min_eq_right]; linarith

theorem scaleEpsilon_nonneg {x y e : ℝ} (h : 0 ≤ e) : 0 ≤ scaleEpsilon x y e := by
  unfold scaleEpsilon ldexp; positivity

theorem scaleEpsilon_pos {x y e : ℝ} (h : 0 < e) : 0 < scaleEpsilon x y e := by
  unfold scaleEpsilon ldexp; positivity

theorem small_ne {x y : ℝ} (hx : x ≠ 0) (hy : y ≠ 0) : (if |x| < |y| then x else y) ≠ 0 := by
  split <;> assumption

theorem scaleEpsilon_le {x y e : ℝ} (h : 0 ≤ e) (hx : x ≠ 0) (hy : y ≠ 0) :
    scaleEpsilon x y e ≤ 2 * e * min |x| |y| := by
  unfold scaleEpsilon ldexp
  have := frexp_lower (small_ne hx hy)
  rw [abs_small] at this
  nlinarith

theorem le_scaleEpsilon {x y e : ℝ} (h : 0 ≤ e) :
    e * min |x| |y| ≤ scaleEpsilon x y e := by
  unfold scaleEpsilon ldexp
  by_cases hs : (if |x| < |y| then x else y) = 0
  · have := abs_small x y
    rw [hs, abs_zero] at this
    rw [← this, mul_zero]; positivity
  · have := frexp_upper hs
    rw [abs_small] at this
    nlinarith

theorem scaleEpsilon_zero {x y e : ℝ} (h : x = 0 ∨ y = 0) : scaleEpsilon x y e = e := by
  unfold scaleEpsilon ldexp
  have : (if |x| < |y| then x else y) = 0 := by
    rcases h with h | h
    · subst h
      split
      · rfl
      · rename_i h; simp at h; exact h
    · subst h; simp
  rw [this, frexpExp_zero]; simp

theorem scaleEpsilon_scale {x y e : ℝ} (hx : x ≠ 0) (hy : y ≠ 0) (k : ℤ) :
    scaleEpsilon (x * 2 ^ k) (y * 2 ^ k) e = scaleEpsilon x y e * 2 ^ k := by
  have hk : (0 : ℝ) < 2 ^ k := by positivity
  unfold scaleEpsilon ldexp
  have : (if |x * 2 ^ k| < |y * 2 ^ k| then x * 2 ^ k else y * 2 ^ k)
      = (if |x| < |y| then x else y) * 2 ^ k := by
    rw [abs_mul, abs_mul, abs_of_pos hk]
    by_cases h : |x| < |y|
    · rw [if_pos h, if_pos (mul_lt_mul_of_pos_right h hk)]
    · rw [if_neg h, if_neg (by rw [mul_lt_mul_iff_left₀ hk]; exact h)]
  rw [this, frexpExp_scale (small_ne hx hy), zpow_add₀ (by norm_num)]
  ring

/-! ### the running maximum -/

section maxAbs
variable {n : Nat}

private theorem fold_spec (x : Fin n → ℝ) (l : List (Fin n)) (m : ℝ) :
    let r := l.foldl (fun m i => if |x i| > m then |x i| else m) m
    m ≤ r ∧ (∀ i ∈ l, |x i| ≤ r) ∧ (r = m ∨ ∃ i ∈ l, r = |x i|) := by
  induction l generalizing m with
  | nil => simp
  | cons a l ih =>
    simp only [List.foldl_cons]
    obtain ⟨h1, h2, h3⟩ := ih (if |x a| > m then |x a| else m)
    refine ⟨?_, ?_, ?_⟩
    · refine le_trans ?_ h1; split <;> linarith
    · intro i hi
      rcases List.mem_cons.1 hi with rfl | hi
      · refine le_trans ?_ h1; split <;> linarith
      · exact h2 i hi
    · rcases h3 with h3 | ⟨i, hi, h3⟩
      · rw [h3]
        by_cases h : |x a| > m
        · right; exact ⟨a, by simp, by rw [if_pos h]⟩
        · left; rw [if_neg h]
      · right; exact ⟨i, by simp [hi], h3⟩

theorem maxAbs_nonneg (x : Fin n → ℝ) : 0 ≤ maxAbs x := (fold_spec x _ 0).1

theorem le_maxAbs (x : Fin n → ℝ) (i : Fin n) : |x i| ≤ maxAbs x :=
  (fold_spec x _ 0).2.1 i (List.mem_finRange i)

theorem maxAbs_attained (x : Fin n → ℝ) : maxAbs x = 0 ∨ ∃ i, maxAbs x = |x i| := by
  rcases (fold_spec x (List.finRange n) 0).2.2 with h | ⟨i, _, h⟩
  · left; exact h
  · right; exact ⟨i, h⟩

theorem maxAbs_le {x : Fin n → ℝ} {M : ℝ} (hM : 0 ≤ M) (h : ∀ i, |x i| ≤ M) : maxAbs x ≤ M := by
  rcases maxAbs_attained x with h' | ⟨i, h'⟩
  · rw [h']; exact hM
  · rw [h']; exact h i

theorem maxAbs_eq_zero {x : Fin n → ℝ} : maxAbs x = 0 ↔ x = 0 := by
  constructor
  · intro h
    funext i
    have := le_maxAbs x i
    rw [h] at this
    simpa using this
  · rintro rfl
    exact le_antisymm (maxAbs_le le_rfl (by simp)) (maxAbs_nonneg _)

theorem maxAbs_congr {x y : Fin n → ℝ} (h : ∀ i, |x i| = |y i|) : maxAbs x = maxAbs y := by
  unfold maxAbs; simp [h]

theorem maxAbs_neg (x : Fin n → ℝ) : maxAbs (fun i => -x i) = maxAbs x := maxAbs_congr (by simp)

theorem maxAbs_scale (x : Fin n → ℝ) (d : ℝ) : maxAbs (fun i => x i * d) = maxAbs x * |d| := by
  apply le_antisymm
  · apply maxAbs_le (mul_nonneg (maxAbs_nonneg _) (abs_nonneg _))
    intro i; rw [abs_mul]; exact mul_le_mul_of_nonneg_right (le_maxAbs x i) (abs_nonneg d)
  · rcases maxAbs_attained x with h | ⟨i, h⟩
    · rw [h, zero_mul]; exact maxAbs_nonneg _
    · rw [h, ← abs_mul]; exact le_maxAbs (fun i => x i * d) i

end maxAbs
end WFMath
