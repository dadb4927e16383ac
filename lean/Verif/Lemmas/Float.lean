/- Lemmas about floating point numbers and rounding. -/
import Verif.Spec.Float
import Mathlib.Analysis.Real.Sqrt
import Mathlib.Algebra.Order.Ring.Pow
import Mathlib.Algebra.Order.BigOperators.Group.Finset

namespace WFMath
open Spec

namespace Spec
namespace IsFl
variable {p : Nat} {x y : ℝ}

theorem zero : IsFl p 0 := ⟨0, 0, by simp, by simp⟩

theorem neg (h : IsFl p x) : IsFl p (-x) := by
  obtain ⟨m, e, hm, rfl⟩ := h
  exact ⟨-m, e, by rwa [abs_neg], by push_cast; ring⟩

theorem abs (h : IsFl p x) : IsFl p |x| := by
  rcases abs_choice x with e | e <;> rw [e]
  · exact h
  · exact h.neg

theorem mul_zpow (h : IsFl p x) (k : ℤ) : IsFl p (x * (2 : ℝ) ^ k) := by
  obtain ⟨m, e, hm, rfl⟩ := h
  exact ⟨m, e + k, hm, by rw [zpow_add₀ two_ne_zero]; ring⟩

/-- An integer of at most `p` digits, or `2^p`. -/
theorem int (hp : 0 < p) {k : ℤ} (h : |k| ≤ 2 ^ p) : IsFl p (k : ℝ) := by
  rcases lt_or_eq_of_le h with h | h
  · exact ⟨k, 0, h, by simp⟩
  · have h2 : (1 : ℤ) < 2 ^ p := one_lt_pow₀ one_lt_two hp.ne'
    rcases abs_choice k with e | e
    · refine ⟨1, p, by simpa using h2, ?_⟩
      rw [← e, h]; push_cast; simp
    · refine ⟨-1, p, by simpa using h2, ?_⟩
      have : k = -2 ^ p := by linarith
      rw [this]; push_cast; simp

theorem int_zpow (hp : 0 < p) {k : ℤ} (h : |k| ≤ 2 ^ p) (e : ℤ) : IsFl p ((k : ℝ) * (2 : ℝ) ^ e) := (int hp h).mul_zpow e

theorem nat (hp : 0 < p) {k : Nat} (h : k ≤ 2 ^ p) : IsFl p (k : ℝ) := by
  have : IsFl p ((k : ℤ) : ℝ) := int hp (by rw [abs_of_nonneg (by positivity)]; exact_mod_cast h)
  simpa using this

theorem one (hp : 0 < p) : IsFl p 1 := by
  have := nat (p := p) hp (k := 1) Nat.one_le_two_pow
  simpa using this

theorem zpow (hp : 0 < p) (k : ℤ) : IsFl p ((2 : ℝ) ^ k) := by
  have := (one hp).mul_zpow k
  rwa [one_mul] at this

/-- Sterbenz: the difference of two numbers that differ by at most the smaller of them is a floating point number. -/
theorem sub (hx : IsFl p x) (hy : IsFl p y) (h1 : |x - y| ≤ |x|) (h2 : |x - y| ≤ |y|) : IsFl p (x - y) := by
  obtain ⟨m, e, hm, rfl⟩ := hx
  obtain ⟨m', e', hm', rfl⟩ := hy
  have key : ∀ (m m' e e' : ℤ), e ≤ e' → |m| < 2 ^ p → |(m : ℝ) * (2 : ℝ) ^ e - m' * (2 : ℝ) ^ e'| ≤ |(m : ℝ) * (2 : ℝ) ^ e| →
      IsFl p ((m : ℝ) * (2 : ℝ) ^ e - m' * (2 : ℝ) ^ e') := by
    intro m m' e e' hee hm h
    obtain ⟨d, rfl⟩ := Int.le.dest hee
    have e1 : (m : ℝ) * (2 : ℝ) ^ e - m' * (2 : ℝ) ^ (e + d) = ((m - m' * 2 ^ d : ℤ) : ℝ) * (2 : ℝ) ^ e := by
      rw [zpow_add₀ two_ne_zero, zpow_natCast]; push_cast; ring
    rw [e1] at h ⊢
    refine ⟨_, e, ?_, rfl⟩
    have hp : (0 : ℝ) < (2 : ℝ) ^ e := by positivity
    rw [abs_mul, abs_mul, abs_of_pos hp] at h
    have h' := le_of_mul_le_mul_right h hp
    have : |m - m' * 2 ^ d| ≤ |m| := by exact_mod_cast h'
    omega
  rcases le_total e e' with hee | hee
  · exact key m m' e e' hee hm h1
  · have := key m' m e' e hee hm' (by rw [abs_sub_comm]; exact h2)
    have := this.neg
    rwa [neg_sub] at this

end IsFl

namespace Rounding
variable {p : Nat} (r : Rounding p)

theorem of_fl {x : ℝ} (h : IsFl p x) : r x = x := by
  have := r.nearest x x h
  rw [sub_self, abs_zero] at this
  have := abs_eq_zero.1 (le_antisymm this (abs_nonneg _))
  linarith

theorem zero : r 0 = 0 := r.of_fl IsFl.zero

theorem mono {x y : ℝ} (h : x ≤ y) : r x ≤ r y := by
  by_contra hc
  push Not at hc
  rcases eq_or_lt_of_le h with rfl | h
  · exact lt_irrefl _ hc
  have h1 := r.nearest x (r y) (r.isFl y)
  have h2 := r.nearest y (r x) (r.isFl x)
  rcases abs_cases (r x - x) with ⟨e1, f1⟩ | ⟨e1, f1⟩ <;> rcases abs_cases (r y - x) with ⟨e2, f2⟩ | ⟨e2, f2⟩ <;>
    rcases abs_cases (r y - y) with ⟨e3, f3⟩ | ⟨e3, f3⟩ <;> rcases abs_cases (r x - y) with ⟨e4, f4⟩ | ⟨e4, f4⟩ <;>
    rw [e1, e2] at h1 <;> rw [e3, e4] at h2 <;> linarith

theorem nonneg {x : ℝ} (h : 0 ≤ x) : 0 ≤ r x := by rw [← r.zero]; exact r.mono h
theorem nonpos {x : ℝ} (h : x ≤ 0) : r x ≤ 0 := by rw [← r.zero]; exact r.mono h

theorem le_fl {x t : ℝ} (ht : IsFl p t) (h : x ≤ t) : r x ≤ t := by rw [← r.of_fl ht]; exact r.mono h
theorem fl_le {x t : ℝ} (ht : IsFl p t) (h : t ≤ x) : t ≤ r x := by rw [← r.of_fl ht]; exact r.mono h

theorem abs_le_fl {x t : ℝ} (ht : IsFl p t) (h : |x| ≤ t) : |r x| ≤ t := by
  rw [abs_le] at h ⊢
  exact ⟨r.fl_le ht.neg h.1, r.le_fl ht h.2⟩

/-- Half of the distance between neighbouring numbers of `p` digits near 1. -/
noncomputable def u (p : Nat) : ℝ := (2 : ℝ) ^ (-(p : ℤ))

theorem u_pos : 0 < u p := by unfold u; positivity

/-- The relative error of one rounding. -/
theorem err (hp : 0 < p) (x : ℝ) : |r x - x| ≤ u p * |x| := by
  rcases eq_or_ne x 0 with rfl | hx
  · rw [r.zero]; simp
  have hx' : 0 < |x| := abs_pos.2 hx
  have h1 : (2 : ℝ) ^ Int.log 2 |x| ≤ |x| := by exact_mod_cast Int.zpow_log_le_self one_lt_two hx'
  have h2 : |x| < (2 : ℝ) ^ (Int.log 2 |x| + 1) := by exact_mod_cast Int.lt_zpow_succ_log_self one_lt_two |x|
  generalize Int.log 2 |x| = e at *
  have hg : (0 : ℝ) < (2 : ℝ) ^ (e - p + 1) := by positivity
  have hxg : |x / (2 : ℝ) ^ (e - p + 1)| < 2 ^ p := by
    rw [abs_div, abs_of_pos hg, div_lt_iff₀ hg, ← zpow_natCast, ← zpow_add₀ two_ne_zero]
    refine h2.trans_le (le_of_eq ?_)
    congr 1; ring
  have hr := abs_sub_round (x / (2 : ℝ) ^ (e - p + 1))
  generalize round (x / (2 : ℝ) ^ (e - p + 1)) = k at *
  have hk : |k| ≤ 2 ^ p := by
    have : |(k : ℝ)| < 2 ^ p + 1 := by
      have := abs_sub_abs_le_abs_sub (k : ℝ) (x / (2 : ℝ) ^ (e - p + 1))
      rw [abs_sub_comm] at this
      linarith
    have : |k| < 2 ^ p + 1 := by exact_mod_cast this
    omega
  have hfl := IsFl.int_zpow hp hk (e - p + 1)
  refine (r.nearest x _ hfl).trans ?_
  have e1 : (k : ℝ) * (2 : ℝ) ^ (e - p + 1) - x = -((x / (2 : ℝ) ^ (e - p + 1) - k) * (2 : ℝ) ^ (e - p + 1)) := by
    field_simp; ring
  rw [e1, abs_neg, abs_mul, abs_of_pos hg]
  have e2 : u p * (2 : ℝ) ^ e = 1 / 2 * (2 : ℝ) ^ (e - p + 1) := by
    unfold u
    rw [zpow_add₀ two_ne_zero, zpow_sub₀ two_ne_zero, zpow_neg]
    field_simp
  calc _ ≤ 1 / 2 * (2 : ℝ) ^ (e - p + 1) := mul_le_mul_of_nonneg_right hr hg.le
    _ = u p * (2 : ℝ) ^ e := e2.symm
    _ ≤ u p * |x| := mul_le_mul_of_nonneg_left h1 u_pos.le

theorem abs_le (hp : 0 < p) (x : ℝ) : |r x| ≤ (1 + u p) * |x| := by
  have := r.err hp x
  have := abs_sub_abs_le_abs_sub (r x) x
  linarith

end Rounding

/-! ### The grid of floating point numbers between two powers of two -/

/-- A floating point number of at least `2^e` is a multiple of `2^(e-p+1)`. -/
theorem IsFl.grid {p : Nat} {y : ℝ} (h : IsFl p y) {e : ℤ} (hy : (2 : ℝ) ^ e ≤ |y|) : ∃ j : ℤ, y = j * (2 : ℝ) ^ (e - p + 1) := by
  obtain ⟨m, e', hm, rfl⟩ := h
  have hle : e - p + 1 ≤ e' := by
    have h3 : (2 : ℝ) ^ e < (2 : ℝ) ^ ((p : ℤ) + e') := by
      refine hy.trans_lt ?_
      rw [abs_mul, abs_of_pos (by positivity : (0 : ℝ) < (2 : ℝ) ^ e'), zpow_add₀ two_ne_zero, zpow_natCast]
      refine mul_lt_mul_of_pos_right ?_ (by positivity)
      exact_mod_cast hm
    have := (zpow_lt_zpow_iff_right₀ (by norm_num : (1 : ℝ) < 2)).1 h3
    linarith
  obtain ⟨d, hd⟩ := Int.le.dest hle
  refine ⟨m * 2 ^ d, ?_⟩
  rw [← hd, zpow_add₀ two_ne_zero (e - p + 1), zpow_natCast]
  push_cast; ring

/-- The rounded value of a number nearer than half the spacing to a floating point number. -/
theorem Rounding.eq_of_near {p : Nat} (r : Rounding p) (hp : 0 < p) {x : ℝ} {e k : ℤ} (hx : (2 : ℝ) ^ e ≤ x) (hk : |k| ≤ 2 ^ p)
    (hd : |x - k * (2 : ℝ) ^ (e - p + 1)| < 1 / 2 * (2 : ℝ) ^ (e - p + 1)) : r x = k * (2 : ℝ) ^ (e - p + 1) := by
  have hg : (0 : ℝ) < (2 : ℝ) ^ (e - p + 1) := by positivity
  have h1 : (2 : ℝ) ^ e ≤ r x := r.fl_le (IsFl.zpow hp e) hx
  obtain ⟨j, hj⟩ := (r.isFl x).grid (e := e) (h1.trans (le_abs_self _))
  have h2 := r.nearest x _ (IsFl.int_zpow hp hk (e - p + 1))
  rw [abs_sub_comm x] at hd
  have h3 : |r x - k * (2 : ℝ) ^ (e - p + 1)| < (2 : ℝ) ^ (e - p + 1) := by
    have := abs_sub_le (r x) x (k * (2 : ℝ) ^ (e - p + 1))
    rw [abs_sub_comm x] at this
    linarith
  rw [hj, ← sub_mul, abs_mul, abs_of_pos hg] at h3
  have h4 : |(j : ℝ) - k| < 1 := by
    by_contra hc
    push Not at hc
    have := mul_le_mul_of_nonneg_right hc hg.le
    linarith
  have h5 : |j - k| < 1 := by exact_mod_cast h4
  have : j = k := by
    rw [abs_lt] at h5; omega
  rw [hj, this]

/-! ### Rounding to nearest exists -/

/-- Round a non-negative number to `p` digits. -/
noncomputable def roundTo (p : Nat) (x : ℝ) : ℝ :=
  (round (x / (2 : ℝ) ^ (Int.log 2 |x| - p + 1)) : ℝ) * (2 : ℝ) ^ (Int.log 2 |x| - p + 1)

theorem round_nearest (x : ℝ) (k : ℤ) : |(round x : ℝ) - x| ≤ |(k : ℝ) - x| := by
  rw [abs_sub_comm, abs_sub_comm (k : ℝ)]; exact round_le x k

theorem roundTo_nearest {p : Nat} (hp : 0 < p) (x : ℝ) : IsFl p (roundTo p x) ∧ ∀ y, IsFl p y → |roundTo p x - x| ≤ |y - x| := by
  rcases eq_or_ne x 0 with rfl | hx
  · have : roundTo p 0 = 0 := by unfold roundTo; simp
    rw [this]
    exact ⟨IsFl.zero, fun y _ => by simp⟩
  have hx' : 0 < |x| := abs_pos.2 hx
  have h1 : (2 : ℝ) ^ Int.log 2 |x| ≤ |x| := by exact_mod_cast Int.zpow_log_le_self one_lt_two hx'
  have h2 : |x| < (2 : ℝ) ^ (Int.log 2 |x| + 1) := by exact_mod_cast Int.lt_zpow_succ_log_self one_lt_two |x|
  unfold roundTo
  generalize Int.log 2 |x| = e at *
  have hg : (0 : ℝ) < (2 : ℝ) ^ (e - p + 1) := by positivity
  have hxg : |x / (2 : ℝ) ^ (e - p + 1)| < 2 ^ p := by
    rw [abs_div, abs_of_pos hg, div_lt_iff₀ hg, ← zpow_natCast, ← zpow_add₀ two_ne_zero]
    refine h2.trans_le (le_of_eq ?_)
    congr 1; ring
  have hr := abs_sub_round (x / (2 : ℝ) ^ (e - p + 1))
  have hnear := round_nearest (x / (2 : ℝ) ^ (e - p + 1))
  generalize round (x / (2 : ℝ) ^ (e - p + 1)) = k at *
  have hk : |k| ≤ 2 ^ p := by
    have : |(k : ℝ)| < 2 ^ p + 1 := by
      have := abs_sub_abs_le_abs_sub (k : ℝ) (x / (2 : ℝ) ^ (e - p + 1))
      rw [abs_sub_comm] at this
      linarith
    have : |k| < 2 ^ p + 1 := by exact_mod_cast this
    omega
  refine ⟨IsFl.int_zpow hp hk _, ?_⟩
  -- nearest among the multiples of the spacing
  have hgrid : ∀ j : ℤ, |(k : ℝ) * (2 : ℝ) ^ (e - p + 1) - x| ≤ |(j : ℝ) * (2 : ℝ) ^ (e - p + 1) - x| := by
    intro j
    have e1 : ∀ j : ℤ, (j : ℝ) * (2 : ℝ) ^ (e - p + 1) - x = ((j : ℝ) - x / (2 : ℝ) ^ (e - p + 1)) * (2 : ℝ) ^ (e - p + 1) := by
      intro j; field_simp
    rw [e1, e1, abs_mul, abs_mul]
    exact mul_le_mul_of_nonneg_right (hnear j) (abs_nonneg _)
  rintro y ⟨m, e', hm, rfl⟩
  by_cases hy : (2 : ℝ) ^ e ≤ |(m : ℝ) * (2 : ℝ) ^ e'|
  · -- y is a multiple of the spacing
    have hle : e - p + 1 ≤ e' := by
      have h3 : (2 : ℝ) ^ e < (2 : ℝ) ^ ((p : ℤ) + e') := by
        refine hy.trans_lt ?_
        rw [abs_mul, abs_of_pos (by positivity : (0 : ℝ) < (2 : ℝ) ^ e'), zpow_add₀ two_ne_zero, zpow_natCast]
        refine mul_lt_mul_of_pos_right ?_ (by positivity)
        exact_mod_cast hm
      have := (zpow_lt_zpow_iff_right₀ (by norm_num : (1 : ℝ) < 2)).1 h3
      linarith
    obtain ⟨d, hd⟩ := Int.le.dest hle
    rw [← hd]
    have := hgrid (m * 2 ^ d)
    rw [show (2 : ℝ) ^ (e - p + 1 + d) = (2 : ℝ) ^ (e - p + 1) * 2 ^ d by rw [zpow_add₀ two_ne_zero (e - p + 1), zpow_natCast]]
    push_cast at this
    rw [show (m : ℝ) * ((2 : ℝ) ^ (e - p + 1) * 2 ^ d) = (m : ℝ) * 2 ^ d * (2 : ℝ) ^ (e - p + 1) by ring]
    exact this
  · -- y is nearer to 0 than the power of two below x
    push Not at hy
    have hpow : (2 : ℝ) ^ e = ((2 ^ (p - 1) : ℤ) : ℝ) * (2 : ℝ) ^ (e - p + 1) := by
      obtain ⟨q, rfl⟩ : ∃ q, p = q + 1 := ⟨p - 1, by omega⟩
      push_cast
      rw [← zpow_natCast, ← zpow_add₀ two_ne_zero]
      congr 1; ring
    have h3 : |(k : ℝ) * (2 : ℝ) ^ (e - p + 1) - x| ≤ |x| - (2 : ℝ) ^ e := by
      rcases le_total 0 x with hs | hs
      · have := hgrid (2 ^ (p - 1))
        rw [← hpow] at this
        rw [abs_of_nonneg hs] at h1 ⊢
        rwa [abs_sub_comm ((2 : ℝ) ^ e), abs_of_nonneg (by linarith : 0 ≤ x - (2 : ℝ) ^ e)] at this
      · have := hgrid (-2 ^ (p - 1))
        rw [show (((-2 ^ (p - 1) : ℤ)) : ℝ) * (2 : ℝ) ^ (e - p + 1) = -(2 : ℝ) ^ e by rw [hpow]; push_cast; ring] at this
        rw [abs_of_nonpos hs] at h1 ⊢
        rwa [abs_of_nonneg (by linarith : 0 ≤ -(2 : ℝ) ^ e - x), show -(2 : ℝ) ^ e - x = -x - (2 : ℝ) ^ e by ring] at this
    have h4 := abs_sub_abs_le_abs_sub x ((m : ℝ) * (2 : ℝ) ^ e')
    rw [abs_sub_comm x] at h4
    linarith

/-- `roundTo` for a non-negative number, mirrored for a negative one. -/
noncomputable def roundAway (p : Nat) (x : ℝ) : ℝ := if 0 ≤ x then roundTo p x else -roundTo p (-x)

/-- Rounding to nearest in a format of `p ≥ 1` digits, ties away from 0: the theorems below are about something. -/
noncomputable def someRounding (p : Nat) (hp : 0 < p) : Rounding p where
  rnd := roundAway p
  isFl x := by
    unfold roundAway
    split_ifs
    · exact (roundTo_nearest hp x).1
    · exact (roundTo_nearest hp (-x)).1.neg
  nearest x y hy := by
    unfold roundAway
    split_ifs
    · exact (roundTo_nearest hp x).2 y hy
    · have := (roundTo_nearest hp (-x)).2 (-y) hy.neg
      rw [← abs_neg, ← abs_neg (y - x)]
      rwa [show -(-roundTo p (-x) - x) = roundTo p (-x) - -x by ring, show -(y - x) = -y - -x by ring]
  odd x := by
    unfold roundAway
    rcases lt_trichotomy x 0 with h | rfl | h
    · rw [if_pos (by linarith), if_neg (by linarith), neg_neg]
    · have : roundTo p 0 = 0 := by unfold roundTo; simp
      simp [this]
    · rw [if_neg (by linarith), if_pos h.le, neg_neg]

/-! ### Relative error -/

theorem Rounding.u_le_half {p : Nat} (hp : 0 < p) : Rounding.u p ≤ 1 / 2 := by
  have : (2 : ℝ) ^ (-(p : ℤ)) ≤ (2 : ℝ) ^ (-1 : ℤ) := zpow_le_zpow_right₀ one_le_two (by omega)
  unfold Rounding.u; norm_num at this ⊢; exact this

/-- `x'` is `x` up to a factor between `(1 - u)^k` and `(1 - u)^-k`: what `k` roundings can do. -/
def Close (p k : Nat) (x' x : ℝ) : Prop := ∃ t : ℝ, (1 - Rounding.u p) ^ k ≤ t ∧ t * (1 - Rounding.u p) ^ k ≤ 1 ∧ x' = t * x

namespace Close
open WFMath.Spec.Rounding (u)
variable {p k l : Nat} {x x' y y' : ℝ}

theorem base (hp : 0 < p) : 0 < 1 - u p ∧ 1 - u p ≤ 1 := by
  have := Rounding.u_le_half hp
  have : 0 < u p := Rounding.u_pos
  constructor <;> linarith

theorem pow (hp : 0 < p) (k : Nat) : 0 < (1 - u p) ^ k ∧ (1 - u p) ^ k ≤ 1 :=
  ⟨pow_pos (base hp).1 k, pow_le_one₀ (base hp).1.le (base hp).2⟩

theorem refl (hp : 0 < p) (k : Nat) (x : ℝ) : Close p k x x := ⟨1, (pow hp k).2, by simpa using (pow hp k).2, by simp⟩

theorem mono (hp : 0 < p) (h : Close p k x' x) (hkl : k ≤ l) : Close p l x' x := by
  obtain ⟨t, h1, h2, rfl⟩ := h
  have hle : (1 - u p) ^ l ≤ (1 - u p) ^ k := pow_le_pow_of_le_one (base hp).1.le (base hp).2 hkl
  refine ⟨t, hle.trans h1, le_trans (mul_le_mul_of_nonneg_left hle ((pow hp k).1.le.trans h1)) h2, rfl⟩

theorem mul (hp : 0 < p) (h : Close p k x' x) (h' : Close p l y' y) : Close p (k + l) (x' * y') (x * y) := by
  obtain ⟨t, h1, h2, rfl⟩ := h
  obtain ⟨s, h3, h4, rfl⟩ := h'
  have hk := pow hp k
  have hl := pow hp l
  refine ⟨t * s, ?_, ?_, by ring⟩
  · rw [pow_add]; exact mul_le_mul h1 h3 hl.1.le (hk.1.le.trans h1)
  · rw [pow_add, mul_mul_mul_comm]
    exact mul_le_one₀ h2 (mul_nonneg (hl.1.le.trans h3) hl.1.le) h4

theorem inv (hp : 0 < p) (h : Close p k x' x) : Close p k x'⁻¹ x⁻¹ := by
  obtain ⟨t, h1, h2, rfl⟩ := h
  have hk := pow hp k
  have ht : 0 < t := hk.1.trans_le h1
  refine ⟨t⁻¹, ?_, ?_, by rw [mul_inv]⟩
  · rw [le_inv_comm₀ hk.1 ht, ← one_div, le_div_iff₀ hk.1]; exact h2
  · rw [inv_mul_le_iff₀ ht, mul_one]; exact h1

theorem div (hp : 0 < p) (h : Close p k x' x) (h' : Close p l y' y) : Close p (k + l) (x' / y') (x / y) := by
  rw [div_eq_mul_inv, div_eq_mul_inv]; exact h.mul hp (h'.inv hp)

theorem trans (hp : 0 < p) {x'' : ℝ} (h' : Close p l x'' x') (h : Close p k x' x) : Close p (k + l) x'' x := by
  obtain ⟨t, h1, h2, rfl⟩ := h
  obtain ⟨s, h3, h4, rfl⟩ := h'
  have := mul hp (⟨t, h1, h2, (mul_one t).symm⟩ : Close p k t 1) (⟨s, h3, h4, (mul_one s).symm⟩ : Close p l s 1)
  obtain ⟨w, w1, w2, e⟩ := this
  refine ⟨w, w1, w2, ?_⟩
  rw [mul_one, mul_one] at e
  rw [← e]; ring

theorem round_self (hp : 0 < p) (r : Rounding p) (x : ℝ) : Close p 1 (r x) x := by
  rcases eq_or_ne x 0 with rfl | hx
  · rw [r.zero]; exact refl hp 1 0
  have h := r.err hp x
  have hx' := abs_pos.2 hx
  have hd : |r x / x - 1| ≤ u p := by
    rw [show r x / x - 1 = (r x - x) / x by field_simp, abs_div, div_le_iff₀ hx']; exact h
  obtain ⟨h1, h2⟩ := _root_.abs_le.1 hd
  have hu : 0 < u p := Rounding.u_pos
  have hb := base hp
  refine ⟨r x / x, by rw [pow_one]; linarith, ?_, by field_simp⟩
  rw [pow_one]
  have : r x / x * (1 - u p) ≤ (1 + u p) * (1 - u p) := mul_le_mul_of_nonneg_right (by linarith) hb.1.le
  nlinarith

theorem round (hp : 0 < p) (r : Rounding p) (h : Close p k x' x) : Close p (k + 1) (r x') x := (round_self hp r x').trans hp h

theorem sqrt (hp : 0 < p) (h : Close p k x' x) : Close p k (Real.sqrt x') (Real.sqrt x) := by
  obtain ⟨t, h1, h2, rfl⟩ := h
  have hk := pow hp k
  have ht : 0 < t := hk.1.trans_le h1
  have hs := Real.sqrt_nonneg t
  have hss := Real.mul_self_sqrt ht.le
  refine ⟨Real.sqrt t, ?_, ?_, by rw [Real.sqrt_mul ht.le]⟩
  · apply Real.le_sqrt_of_sq_le
    nlinarith
  · have h3 : Real.sqrt t ≤ (1 / (1 - u p) ^ k) := by
      rw [Real.sqrt_le_left (one_div_nonneg.2 hk.1.le)]
      have h4 : t ≤ 1 / (1 - u p) ^ k := by rw [le_div_iff₀ hk.1]; exact h2
      have h5 : 1 ≤ 1 / (1 - u p) ^ k := by rw [le_div_iff₀ hk.1]; linarith
      nlinarith
    rwa [le_div_iff₀ hk.1] at h3

theorem sqrt_two (hp : 0 < p) (h : Close p (k + k) x' x) : Close p k (Real.sqrt x') (Real.sqrt x) := by
  obtain ⟨t, h1, h2, rfl⟩ := h
  have hk := pow hp k
  rw [pow_add] at h1 h2
  have ht : 0 < t := (mul_pos hk.1 hk.1).trans_le h1
  refine ⟨Real.sqrt t, Real.le_sqrt_of_sq_le (by rw [sq]; exact h1), ?_, by rw [Real.sqrt_mul ht.le]⟩
  rw [← Real.sqrt_sq hk.1.le, ← Real.sqrt_mul ht.le, sq]
  exact Real.sqrt_le_one.2 h2

theorem add (hp : 0 < p) (h : Close p k x' x) (h' : Close p k y' y) (hx : 0 ≤ x) (hy : 0 ≤ y) :
    Close p k (x' + y') (x + y) := by
  obtain ⟨t, h1, h2, rfl⟩ := h
  obtain ⟨s, h3, h4, rfl⟩ := h'
  have hk := pow hp k
  rcases eq_or_lt_of_le (add_nonneg hx hy) with h0 | h0
  · have hx0 : x = 0 := by linarith
    have hy0 : y = 0 := by linarith
    subst hx0; subst hy0
    simpa using refl hp k 0
  · refine ⟨(t * x + s * y) / (x + y), ?_, ?_, by field_simp⟩
    · rw [le_div_iff₀ h0]; nlinarith
    · rw [div_mul_eq_mul_div, div_le_one h0]
      nlinarith [mul_le_mul_of_nonneg_right h2 hx, mul_le_mul_of_nonneg_right h4 hy]

theorem sum (hp : 0 < p) {ι : Type} (s : Finset ι) {f g : ι → ℝ} (h : ∀ i, Close p k (f i) (g i)) (hg : ∀ i, 0 ≤ g i) :
    Close p k (∑ i ∈ s, f i) (∑ i ∈ s, g i) := by
  classical
  induction s using Finset.induction_on with
  | empty => simpa using refl hp k 0
  | insert i s hi ih =>
    rw [Finset.sum_insert hi, Finset.sum_insert hi]
    exact (h i).add hp ih (hg i) (Finset.sum_nonneg fun j _ => hg j)

theorem neg (h : Close p k x' x) : Close p k (-x') (-x) := by
  obtain ⟨t, h1, h2, rfl⟩ := h
  exact ⟨t, h1, h2, by ring⟩

theorem abs (hp : 0 < p) (h : Close p k x' x) : Close p k |x'| |x| := by
  obtain ⟨t, h1, h2, rfl⟩ := h
  refine ⟨t, h1, h2, ?_⟩
  rw [abs_mul, abs_of_pos ((pow hp k).1.trans_le h1)]

theorem nonneg (hp : 0 < p) (h : Close p k x' x) (hx : 0 ≤ x) : 0 ≤ x' := by
  obtain ⟨t, h1, h2, rfl⟩ := h
  exact mul_nonneg ((pow hp k).1.le.trans h1) hx

theorem pos (hp : 0 < p) (h : Close p k x' x) (hx : 0 < x) : 0 < x' := by
  obtain ⟨t, h1, h2, rfl⟩ := h
  exact mul_pos ((pow hp k).1.trans_le h1) hx

theorem eq_zero (hp : 0 < p) (h : Close p k x' x) : x' = 0 ↔ x = 0 := by
  obtain ⟨t, h1, h2, rfl⟩ := h
  have : t ≠ 0 := ((pow hp k).1.trans_le h1).ne'
  simp [this]

theorem symm (hp : 0 < p) (h : Close p k x' x) : Close p k x x' := by
  obtain ⟨t, h1, h2, rfl⟩ := h
  have hk := pow hp k
  have ht : 0 < t := hk.1.trans_le h1
  refine ⟨t⁻¹, ?_, ?_, by field_simp⟩
  · rw [le_inv_comm₀ hk.1 ht, ← one_div, le_div_iff₀ hk.1]; exact h2
  · rw [inv_mul_le_iff₀ ht, mul_one]; exact h1

/-- The factor in plain terms. -/
theorem err (hp : 0 < p) (h : Close p k x' x) (hk : k * u p ≤ 1 / 2) : |x' - x| ≤ 2 * (k * u p) * |x| := by
  obtain ⟨t, h1, h2, rfl⟩ := h
  have hb := base hp
  have hbern : 1 - k * u p ≤ (1 - u p) ^ k := by
    have := one_add_mul_le_pow (a := -u p) (by linarith [hb.1]) k
    rw [← sub_eq_add_neg] at this
    linarith
  have hu : 0 < u p := Rounding.u_pos
  have hku : 0 ≤ k * u p := by positivity
  have ht : 0 < t := (pow hp k).1.trans_le h1
  have h5 : t * (1 - k * u p) ≤ 1 := (mul_le_mul_of_nonneg_left hbern ht.le).trans h2
  have ht2 : t ≤ 1 + 2 * (k * u p) := by nlinarith
  rw [show t * x - x = (t - 1) * x by ring, abs_mul]
  refine mul_le_mul_of_nonneg_right ?_ (abs_nonneg _)
  rw [_root_.abs_le]
  constructor <;> linarith

end Close

end Spec
end WFMath
