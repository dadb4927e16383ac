import Verif.Lemmas.IntToString

namespace WFMath
open Spec IntToString

/-- C01. For every 64-bit unsigned value the buffer is never overrun (`some`), and the returned text
is the canonical decimal numeral of the value. -/
theorem C01_unsigned_numeral (v : BitVec 64) :
    ∃ s, intToStringU v = some s ∧ IsDecimal v.toNat s :=
  ⟨_, intToStringU_eq v, numeral_isDecimal _⟩

/-- C01. Different values print differently. -/
theorem C01_unsigned_injective (v w : BitVec 64) (h : intToStringU v = intToStringU w) : v = w := by
  obtain ⟨s, hs, hd⟩ := C01_unsigned_numeral v
  obtain ⟨t, ht, he⟩ := C01_unsigned_numeral w
  rw [hs, ht] at h
  have : s = t := by simpa using h
  subst this
  exact BitVec.eq_of_toNat_eq (hd.2.2.2.symm.trans he.2.2.2)

/-- C01. The buffer bound is sharp: with one byte less the largest value overruns the buffer, so the
`some` above is a real claim about `ul_max_digits`. -/
theorem C01_buffer_bound_sharp :
    doIntToString ulMaxDigits (BitVec.ofNat 64 (2 ^ 64 - 1)) = none := by
  rw [ulMaxDigits_eq]; decide +kernel

/-- C02. For every 64-bit signed value (LONG_MIN included) no buffer overrun and no signed overflow
happens and the text is the canonical signed numeral. -/
theorem C02_signed_numeral (x : Int) (h1 : -(2 ^ 63) ≤ x) (h2 : x < 2 ^ 63) :
    ∃ s, intToStringS x = some s ∧ IsSignedDecimal x s := by
  refine ⟨_, intToStringS_eq x h1 h2, ?_⟩
  unfold IsSignedDecimal
  split
  · exact ⟨_, rfl, numeral_isDecimal _⟩
  · exact numeral_isDecimal _

/-- C02. Different signed values print differently. -/
theorem C02_signed_injective (x y : Int) (hx1 : -(2 ^ 63) ≤ x) (hx2 : x < 2 ^ 63)
    (hy1 : -(2 ^ 63) ≤ y) (hy2 : y < 2 ^ 63) (h : intToStringS x = intToStringS y) : x = y := by
  rw [intToStringS_eq x hx1 hx2, intToStringS_eq y hy1 hy2] at h
  have nd : ∀ n, (numeral n).head? ≠ some '-' := by
    intro n hn
    obtain ⟨c, hc⟩ : ∃ l, numeral n = '-' :: l := by
      cases hl : numeral n with
      | nil => rw [hl] at hn; simp at hn
      | cons a l => rw [hl] at hn; simp at hn; exact ⟨l, by rw [hn]⟩
    have := (numeral_isDecimal n).2.1 '-' (by rw [hc]; simp)
    exact absurd this.1 (by decide)
  have val : ∀ a b, numeral a = numeral b → a = b := fun a b hab => by
    have h1 := (numeral_isDecimal a).2.2.2
    have h2 := (numeral_isDecimal b).2.2.2
    rw [hab] at h1; omega
  simp only [Option.some.injEq] at h
  split at h <;> split at h
  · have := val _ _ (List.cons.inj h).2; omega
  · exact absurd (by rw [← h]; rfl) (nd y.natAbs)
  · exact absurd (by rw [h]; rfl) (nd x.natAbs)
  · have := val _ _ h; omega

-- concrete non-trivial instances
example : intToStringU (BitVec.ofNat 64 1024) = some ['1', '0', '2', '4'] := by
  rw [intToStringU_eq]; decide +kernel
example : intToStringS (-(2 ^ 63)) = some "-9223372036854775808".toList := by
  rw [intToStringS_eq _ (by norm_num) (by norm_num)]; decide +kernel

end WFMath
