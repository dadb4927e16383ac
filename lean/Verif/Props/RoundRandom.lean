/- Property theorems C115: the random numbers as computed in floating point arithmetic. -/
import Verif.Props.RoundCompare

namespace WFMath
open Spec

namespace Fl

/-- The quotient `1.0/4294967295.0` is `2^-32 + 2^-64` in doubles, for every rounding to nearest. -/
theorem round_quotient (r : Rounding 53) : r (1 / 4294967295) = 4294967297 / 18446744073709551616 := by
  have := r.eq_of_near pos53 (x := 1 / 4294967295) (e := -32) (k := 4503599628419072) (by norm_num) (by norm_num)
    (by norm_num [abs_lt])
  rw [this]; norm_num

theorem rand_eq (r : Rounding 53) (w : BitVec 32) : rand r w = r ((w.toNat : ℝ) * (4294967297 / 18446744073709551616)) := by
  unfold rand; rw [round_quotient]

theorem word_le (w : BitVec 32) : (w.toNat : ℝ) ≤ 4294967295 := by
  have hw : w.toNat ≤ 4294967295 := by have := w.isLt; omega
  exact_mod_cast hw

/-- In `float`, the literal `4294967295.0f` is `2^32`. -/
theorem round_literal (s : Rounding 24) : s 4294967295 = 4294967296 := by
  have := s.eq_of_near (by norm_num) (x := 4294967295) (e := 31) (k := 16777216) (by norm_num) (by norm_num) (by norm_num [abs_lt])
  rw [this]; norm_num

theorem randFloat_eq (s : Rounding 24) (w : BitVec 32) : randFloat s w = s (w.toNat : ℝ) * (2 : ℝ) ^ (-32 : ℤ) := by
  unfold randFloat
  have h : s (1 / s 4294967295) = (2 : ℝ) ^ (-32 : ℤ) := by
    rw [round_literal, show (1 : ℝ) / 4294967296 = (2 : ℝ) ^ (-32 : ℤ) by norm_num]
    exact s.of_fl (IsFl.zpow (by norm_num) _)
  rw [h]
  exact s.of_fl ((s.isFl _).mul_zpow _)

end Fl

/-- C115, `rand()` and `rand(m)` in doubles: the result lies in `[0,1]`, different words give different results in the order of the words, 0 and 1 come from the
extreme words alone, and the result is the word divided by `2^32 - 1` up to a relative error of `2^-52`. `rand(m)` for a double `m ≥ 0` lies in `[0,m]`, reaches
`m` for the largest word and does not decrease as the word grows. -/
theorem C115_rand (r : Rounding 53) (w w' : BitVec 32) (m : ℝ) (hm : 0 ≤ m) (hfl : IsFl 53 m) :
    0 ≤ Fl.rand r w ∧ Fl.rand r w ≤ 1 ∧ (w < w' → Fl.rand r w < Fl.rand r w') ∧
    Fl.rand r 0#32 = 0 ∧ Fl.rand r 0xffffffff#32 = 1 ∧
    |Fl.rand r w - (w.toNat : ℝ) / 4294967295| ≤ 2 ^ (-52 : ℤ) * ((w.toNat : ℝ) / 4294967295) ∧
    0 ≤ Fl.randMax r w m ∧ Fl.randMax r w m ≤ m ∧ (w ≤ w' → Fl.randMax r w m ≤ Fl.randMax r w' m) ∧
    Fl.randMax r 0xffffffff#32 m = m := by
  have hw := Fl.word_le w
  have hw' := Fl.word_le w'
  have hw0 : (0 : ℝ) ≤ w.toNat := Nat.cast_nonneg _
  have hw0' : (0 : ℝ) ≤ w'.toNat := Nat.cast_nonneg _
  have h0 : 0 ≤ Fl.rand r w := r.nonneg (mul_nonneg hw0 (by rw [Fl.round_quotient]; norm_num))
  have h1 : Fl.rand r w ≤ 1 := by
    rw [Fl.rand_eq]
    exact r.le_fl (IsFl.one Fl.pos53) (by nlinarith)
  have hmono : w ≤ w' → Fl.rand r w ≤ Fl.rand r w' := by
    intro h
    have : (w.toNat : ℝ) ≤ w'.toNat := by exact_mod_cast h
    rw [Fl.rand_eq, Fl.rand_eq]
    exact r.mono (by nlinarith)
  have herr : ∀ v : BitVec 32, |Fl.rand r v - (v.toNat : ℝ) * (4294967297 / 18446744073709551616)| ≤ 2 ^ (-53 : ℤ) *
      ((v.toNat : ℝ) * (4294967297 / 18446744073709551616)) := by
    intro v
    have := r.err Fl.pos53 ((v.toNat : ℝ) * (4294967297 / 18446744073709551616))
    rw [Fl.u53, abs_of_nonneg (a := (v.toNat : ℝ) * _) (by positivity)] at this
    rw [Fl.rand_eq]; exact this
  have htop : Fl.rand r 0xffffffff#32 = 1 := by
    rw [Fl.rand_eq, show (0xffffffff#32 : BitVec 32).toNat = 4294967295 by decide]
    have := r.eq_of_near Fl.pos53 (x := (4294967295 : ℕ) * (4294967297 / 18446744073709551616)) (e := -1) (k := 9007199254740992)
      (by norm_num) (by norm_num) (by norm_num [abs_lt])
    rw [this]; norm_num
  refine ⟨h0, h1, ?_, ?_, htop, ?_, ?_, ?_, ?_, ?_⟩
  · intro h
    have h2 : w.toNat + 1 ≤ w'.toNat := h
    have h3 : (w.toNat : ℝ) + 1 ≤ w'.toNat := by exact_mod_cast h2
    have h4 := abs_le.1 (herr w)
    have h5 := abs_le.1 (herr w')
    norm_num at h4 h5
    linarith
  · rw [Fl.rand_eq]; simp [r.zero]
  · have h4 := abs_le.1 (herr w)
    rw [abs_le]
    norm_num at h4 ⊢
    constructor <;> linarith
  · exact r.nonneg (mul_nonneg h0 hm)
  · exact r.le_fl hfl (mul_le_of_le_one_left hm h1)
  · intro h
    exact r.mono (mul_le_mul_of_nonneg_right (hmono h) hm)
  · unfold Fl.randMax; rw [htop, one_mul, r.of_fl hfl]

/-- C115, `rand<float>()`: computed in `float` the result lies in `[0,1]`, is 0 for the word 0 alone and 1 for the largest word, and does not decrease as the word
grows. -/
theorem C115_rand_float (s : Rounding 24) (w w' : BitVec 32) :
    0 ≤ Fl.randFloat s w ∧ Fl.randFloat s w ≤ 1 ∧ (w ≤ w' → Fl.randFloat s w ≤ Fl.randFloat s w') ∧
    (Fl.randFloat s w = 0 ↔ w = 0#32) ∧ Fl.randFloat s 0xffffffff#32 = 1 ∧
    |Fl.randFloat s w - (w.toNat : ℝ) / 4294967295| ≤ 2 ^ (-23 : ℤ) * ((w.toNat : ℝ) / 4294967295) := by
  have hp : 0 < 24 := by norm_num
  have hw := Fl.word_le w
  have hw0 : (0 : ℝ) ≤ w.toNat := Nat.cast_nonneg _
  have hz : (0 : ℝ) < (2 : ℝ) ^ (-32 : ℤ) := by positivity
  have herr := s.err hp (w.toNat : ℝ)
  rw [show Rounding.u 24 = (2 : ℝ) ^ (-24 : ℤ) from rfl, abs_of_nonneg hw0] at herr
  refine ⟨?_, ?_, ?_, ?_, ?_, ?_⟩
  · rw [Fl.randFloat_eq]; exact mul_nonneg (s.nonneg hw0) hz.le
  · rw [Fl.randFloat_eq]
    have : s (w.toNat : ℝ) ≤ 4294967296 := s.le_fl ⟨1, 32, by norm_num, by norm_num⟩ (by linarith)
    norm_num; linarith
  · intro h
    have : (w.toNat : ℝ) ≤ w'.toNat := by exact_mod_cast h
    rw [Fl.randFloat_eq, Fl.randFloat_eq]
    exact mul_le_mul_of_nonneg_right (s.mono this) hz.le
  · rw [Fl.randFloat_eq, mul_eq_zero, or_iff_left hz.ne', (Close.round_self hp s _).eq_zero hp]
    constructor
    · intro h
      have : w.toNat = 0 := by exact_mod_cast h
      exact BitVec.eq_of_toNat_eq (by simpa using this)
    · rintro rfl; simp
  · rw [Fl.randFloat_eq, show (0xffffffff#32 : BitVec 32).toNat = 4294967295 by decide]
    have := Fl.round_literal s
    push_cast
    rw [this]; norm_num
  · rw [Fl.randFloat_eq]
    have h4 := abs_le.1 herr
    rw [abs_le]
    norm_num at h4 ⊢
    constructor <;> linarith

/-- In `float` different words need not give different results: the 128 largest words (at least) all give 1. The strict order of C12 is a property of `rand()` in
doubles only. -/
theorem C115_rand_float_not_injective (s : Rounding 24) : Fl.randFloat s 0xffffffff#32 = Fl.randFloat s 0xffffff81#32 := by
  rw [Fl.randFloat_eq, Fl.randFloat_eq, show (0xffffffff#32 : BitVec 32).toNat = 4294967295 by decide,
    show (0xffffff81#32 : BitVec 32).toNat = 4294967169 by decide]
  have h1 := Fl.round_literal s
  have h2 := s.eq_of_near (by norm_num) (x := 4294967169) (e := 31) (k := 16777216) (by norm_num) (by norm_num) (by norm_num [abs_lt])
  push_cast
  rw [h1, h2]; norm_num

/-- A double other than a whole number, as the argument of `rand(m)`. -/
example : Fl.randMax (someRounding 53 Fl.pos53) 0xffffffff#32 (5 / 2) = 5 / 2 :=
  (C115_rand _ 0#32 0#32 (5 / 2) (by norm_num) ⟨5, -1, by norm_num, by norm_num⟩).2.2.2.2.2.2.2.2.2

end WFMath
