import Verif.Model.IntToString
import Verif.Spec.Numeral
import Mathlib.Algebra.Order.Floor.Semifield

namespace WFMath.IntToString
open WFMath.Spec

theorem ulMaxDigits_eq : ulMaxDigits = 20 := by
  unfold ulMaxDigits
  rw [Nat.floor_eq_iff (by norm_num)]
  constructor <;> norm_num

/-- digits of `n`, most significant first (`n = 0` gives nothing) -/
def digs (n : Nat) : List Char :=
  if h : n = 0 then [] else digs (n / 10) ++ [Char.ofNat (n % 10 + 48)]
termination_by n
decreasing_by omega

theorem digitTable_get (k : Nat) (h : k < 10) :
    digitTable[k]? = some (Char.ofNat (k + 48)) := by
  have : k = 0 ∨ k = 1 ∨ k = 2 ∨ k = 3 ∨ k = 4 ∨ k = 5 ∨ k = 6 ∨ k = 7 ∨ k = 8 ∨ k = 9 := by omega
  rcases this with h|h|h|h|h|h|h|h|h|h <;> subst h <;> rfl

theorem digs_length_le (n k : Nat) (h : n < 10 ^ k) : (digs n).length ≤ k := by
  induction n using Nat.strongRecOn generalizing k with
  | _ n ih =>
    unfold digs
    split
    · simp
    · rename_i hn
      cases k with
      | zero => simp at h; omega
      | succ k =>
        have := ih (n / 10) (by omega) k (by rw [pow_succ] at h; omega)
        simp; omega

theorem digitLoop_eq (cap : Nat) (val : BitVec 64) (buf : List Char) (hv : val ≠ 0#64)
    (hcap : (digs val.toNat).length + buf.length ≤ cap) :
    digitLoop cap val buf = some (digs val.toNat ++ buf) := by
  induction hn : val.toNat using Nat.strongRecOn generalizing val buf with
  | _ n ih =>
    have hv' : val.toNat ≠ 0 := fun h => hv (BitVec.eq_of_toNat_eq (by simpa using h))
    have hd : digs val.toNat = digs (val.toNat / 10) ++ [Char.ofNat (val.toNat % 10 + 48)] := by
      rw [digs]; simp [hv']
    rw [hd] at hcap
    simp at hcap
    have hmod : (val % 10#64).toNat = val.toNat % 10 := by simp
    have hdiv : (val / 10#64).toNat = val.toNat / 10 := by simp
    rw [digitLoop, hmod, digitTable_get _ (by omega)]
    simp only [put]
    rw [if_pos (by omega)]
    by_cases h : val / 10#64 = 0#64
    · have h0 : val.toNat / 10 = 0 := by rw [← hdiv, h]; rfl
      simp only [h, dite_true]
      rw [← hn, hd, h0]; simp [digs]
    · simp only [h, dite_false]
      subst hn
      rw [ih (val / 10#64).toNat (by rw [hdiv]; omega) _ _ h (by rw [hdiv]; simp; omega) rfl, hdiv, hd]
      simp

theorem digs_lt_pow (n : BitVec 64) : (digs n.toNat).length ≤ 20 :=
  digs_length_le _ _ (by have := n.isLt; omega)

/-- all characters of `digs` are decimal digits -/
theorem digs_range (n : Nat) : ∀ c ∈ digs n, '0' ≤ c ∧ c ≤ '9' := by
  induction n using Nat.strongRecOn with
  | _ n ih =>
    unfold digs
    split
    · simp
    · rename_i hn
      intro c hc
      rw [List.mem_append] at hc
      rcases hc with hc | hc
      · exact ih _ (by omega) c hc
      · simp at hc
        subst hc
        have : n % 10 < 10 := by omega
        generalize n % 10 = k at this
        have : k = 0 ∨ k = 1 ∨ k = 2 ∨ k = 3 ∨ k = 4 ∨ k = 5 ∨ k = 6 ∨ k = 7 ∨ k = 8 ∨ k = 9 := by omega
        rcases this with h|h|h|h|h|h|h|h|h|h <;> subst h <;> decide

theorem digs_ne_nil (n : Nat) (h : n ≠ 0) : digs n ≠ [] := by
  rw [digs]; simp [h]

theorem digs_head (n : Nat) (h : n ≠ 0) : (digs n).head? ≠ some '0' := by
  induction n using Nat.strongRecOn with
  | _ n ih =>
    rw [digs]
    simp only [h, dite_false]
    by_cases h' : n / 10 = 0
    · rw [h']
      have h10 : n < 10 := by omega
      have : n = 1 ∨ n = 2 ∨ n = 3 ∨ n = 4 ∨ n = 5 ∨ n = 6 ∨ n = 7 ∨ n = 8 ∨ n = 9 := by omega
      have h0 : digs 0 = [] := by rw [digs]; simp
      rw [h0]
      rcases this with h|h|h|h|h|h|h|h|h <;> subst h <;> decide
    · rw [List.head?_append_of_ne_nil _ (digs_ne_nil _ h')]
      exact ih _ (by omega) h'

theorem digs_value (n : Nat) : digitsValue (digs n) = n := by
  induction n using Nat.strongRecOn with
  | _ n ih =>
    rw [digs]
    split
    · rename_i h; subst h; rfl
    · rename_i h
      have := ih (n / 10) (by omega)
      unfold digitsValue at this ⊢
      rw [List.foldl_append, this]
      simp
      have hk : n % 10 < 10 := by omega
      have hc : (Char.ofNat (n % 10 + 48)).toNat = n % 10 + 48 := by
        generalize n % 10 = k at hk
        have : k = 0 ∨ k = 1 ∨ k = 2 ∨ k = 3 ∨ k = 4 ∨ k = 5 ∨ k = 6 ∨ k = 7 ∨ k = 8 ∨ k = 9 := by omega
        rcases this with h|h|h|h|h|h|h|h|h|h <;> subst h <;> decide
      rw [hc]; omega

/-- numeral of `n` -/
def numeral (n : Nat) : List Char := if n = 0 then ['0'] else digs n

theorem numeral_isDecimal (n : Nat) : IsDecimal n (numeral n) := by
  unfold numeral
  split
  · rename_i h; subst h; exact ⟨by simp, by decide, by simp, by decide⟩
  · rename_i h
    exact ⟨digs_ne_nil n h, digs_range n, fun h0 => absurd h0 (digs_head n h), digs_value n⟩

theorem doIntToString_eq (cap : Nat) (hcap : 21 ≤ cap) (v : BitVec 64) :
    doIntToString cap v = some (numeral v.toNat ++ ['\x00']) := by
  have hl := digs_lt_pow v
  unfold doIntToString
  simp only [put]
  rw [if_pos (by simp; omega)]
  dsimp only
  by_cases h : v = 0#64
  · subst h
    rw [if_pos rfl, if_pos (by simp; omega)]; rfl
  · rw [if_neg h, digitLoop_eq cap v _ h (by simp; omega)]
    have hv' : v.toNat ≠ 0 := fun h' => h (BitVec.eq_of_toNat_eq (by simpa using h'))
    simp [numeral, hv']

theorem takeWhile_no_nul (ds : List Char) (h : ∀ c ∈ ds, c ≠ '\x00') :
    (ds ++ ['\x00']).takeWhile (· ≠ '\x00') = ds := by
  induction ds with
  | nil => rfl
  | cons a l ih =>
    have ha := h a (by simp)
    simp only [List.cons_append, List.takeWhile_cons]
    simp only [ha, ne_eq, not_false_eq_true, decide_true, if_true]
    rw [ih (fun c hc => h c (by simp [hc]))]

theorem cString_numeral (n : Nat) : cString (numeral n ++ ['\x00']) = some (numeral n) := by
  unfold cString
  rw [if_pos (by simp), takeWhile_no_nul]
  intro c hc h0
  have := (numeral_isDecimal n).2.1 c hc
  subst h0
  exact absurd this.1 (by decide)

theorem numeral_length_le (v : BitVec 64) : (numeral v.toNat).length ≤ 20 := by
  unfold numeral; split
  · simp
  · exact digs_lt_pow v

theorem intToStringU_eq (v : BitVec 64) : intToStringU v = some (numeral v.toNat) := by
  unfold intToStringU
  rw [doIntToString_eq _ (by rw [ulMaxDigits_eq])]
  exact cString_numeral _

theorem safeAbs_eq (x : Int) (h1 : -(2 ^ 63) ≤ x) (h2 : x < 2 ^ 63) :
    ∃ v, safeAbs x = some v ∧ v.toNat = x.natAbs := by
  have ofInt_nat : ∀ y : Int, 0 ≤ y → y < 2 ^ 64 → (BitVec.ofInt 64 y).toNat = y.natAbs := by
    intro y hy1 hy2
    rw [BitVec.toNat_ofInt]
    omega
  unfold safeAbs
  by_cases h : x ≥ 0
  · rw [if_pos h]
    exact ⟨_, rfl, by rw [ofInt_nat x h (by omega)]⟩
  · rw [if_neg h]
    by_cases h' : x ≥ -longMax
    · rw [if_pos h']
      unfold longMax at h'
      refine ⟨BitVec.ofInt 64 (-x), ?_, ?_⟩
      · unfold asLong longMax; rw [if_pos (by omega)]; rfl
      · rw [ofInt_nat _ (by omega) (by omega)]; omega
    · rw [if_neg h']
      unfold longMax at h'
      have hx : x = -(2 ^ 63) := by omega
      subst hx
      refine ⟨BitVec.ofInt 64 longMax + BitVec.ofInt 64 1, ?_, ?_⟩
      · unfold asLong longMax; decide
      · unfold longMax; decide

theorem intToStringS_eq (x : Int) (h1 : -(2 ^ 63) ≤ x) (h2 : x < 2 ^ 63) :
    intToStringS x = some (if x < 0 then '-' :: numeral x.natAbs else numeral x.natAbs) := by
  obtain ⟨v, hv, hn⟩ := safeAbs_eq x h1 h2
  have hl := numeral_length_le v
  unfold intToStringS
  rw [hv]
  simp only [Option.bind_some]
  rw [doIntToString_eq _ (by rw [ulMaxDigits_eq]; omega)]
  simp only [Option.bind_some]
  split
  · rw [put, if_pos (by rw [ulMaxDigits_eq]; simp; omega), hn]
    simp only [Option.bind_some]
    unfold cString
    rw [if_pos (by simp), ← List.cons_append, takeWhile_no_nul]
    intro c hc h0
    rw [List.mem_cons] at hc
    subst h0
    rcases hc with hc | hc
    · exact absurd hc (by decide)
    · exact absurd ((numeral_isDecimal _).2.1 _ hc).1 (by decide)
  · rw [hn]; exact cString_numeral _

end WFMath.IntToString
