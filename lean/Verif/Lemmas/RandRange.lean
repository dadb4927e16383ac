import Verif.Lemmas.MTRand
import Mathlib.Data.Fintype.Card
import Mathlib.Data.Fintype.Pi
import Mathlib.Data.Nat.Size

namespace WFMath.MT

/-- one smearing step turns "some bit in a window of length `a` is set" into a window of `a + s` -/
theorem window_or_shift (n u : Word) (a s : Nat) (hs : s ≤ a)
    (h : ∀ i, u.getLsbD i = true ↔ ∃ j, i ≤ j ∧ j < i + a ∧ n.getLsbD j = true) :
    ∀ i, (u ||| (u >>> s)).getLsbD i = true ↔ ∃ j, i ≤ j ∧ j < i + (a + s) ∧ n.getLsbD j = true := by
  intro i
  rw [BitVec.getLsbD_or, BitVec.getLsbD_ushiftRight, Bool.or_eq_true, h, h]
  constructor
  · rintro (⟨j, h1, h2, h3⟩ | ⟨j, h1, h2, h3⟩)
    · exact ⟨j, h1, by omega, h3⟩
    · exact ⟨j, by omega, by omega, h3⟩
  · rintro ⟨j, h1, h2, h3⟩
    by_cases hj : j < i + a
    · exact Or.inl ⟨j, h1, hj, h3⟩
    · exact Or.inr ⟨j, by omega, by omega, h3⟩

theorem smear_bit (n : Word) (i : Nat) :
    (smear n).getLsbD i = true ↔ ∃ j, i ≤ j ∧ n.getLsbD j = true := by
  have h0 : ∀ i, n.getLsbD i = true ↔ ∃ j, i ≤ j ∧ j < i + 1 ∧ n.getLsbD j = true := by
    intro i
    constructor
    · intro h; exact ⟨i, le_refl _, by omega, h⟩
    · rintro ⟨j, h1, h2, h3⟩
      have : j = i := by omega
      rwa [this] at h3
  have h1 := window_or_shift n _ 1 1 (by omega) h0
  have h2 := window_or_shift n _ 2 2 (by omega) h1
  have h3 := window_or_shift n _ 4 4 (by omega) h2
  have h4 := window_or_shift n _ 8 8 (by omega) h3
  have h5 := window_or_shift n _ 16 16 (by omega) h4
  have := h5 i
  unfold smear
  rw [this]
  constructor
  · rintro ⟨j, a, _, b⟩; exact ⟨j, a, b⟩
  · rintro ⟨j, a, b⟩
    have : j < 32 := BitVec.lt_of_getLsbD b
    exact ⟨j, a, by omega, b⟩

theorem smear_toNat (n : Word) : (smear n).toNat = 2 ^ n.toNat.size - 1 := by
  apply Nat.eq_of_testBit_eq
  intro i
  rw [Nat.testBit_two_pow_sub_one]
  have h := smear_bit n i
  rw [BitVec.getLsbD] at h
  rw [Bool.eq_iff_iff, h, decide_eq_true_iff, Nat.lt_size]
  constructor
  · rintro ⟨j, hj, hb⟩
    have := Nat.ge_two_pow_of_testBit hb
    exact le_trans (Nat.pow_le_pow_right (by omega) hj) this
  · intro hi
    have hn : n.toNat ≠ 0 := by
      have : 0 < 2 ^ i := Nat.two_pow_pos i
      omega
    have hs : 0 < n.toNat.size := Nat.size_pos.2 (by omega)
    refine ⟨n.toNat.size - 1, ?_, ?_⟩
    · have := Nat.lt_size.2 hi; omega
    · have h1 : 2 ^ (n.toNat.size - 1) ≤ n.toNat := Nat.lt_size.1 (by omega)
      have h2 : n.toNat < 2 ^ (n.toNat.size - 1 + 1) := by
        rw [Nat.sub_add_cancel hs]; exact Nat.lt_size_self _
      rw [BitVec.getLsbD]
      exact Nat.testBit_of_two_pow_le_and_two_pow_add_one_gt h1 h2

theorem and_smear_of_le (n v : Word) (h : v ≤ n) : v &&& smear n = v := by
  apply BitVec.eq_of_toNat_eq
  rw [BitVec.toNat_and, smear_toNat, Nat.and_two_pow_sub_one_eq_mod]
  apply Nat.mod_eq_of_lt
  have : v.toNat ≤ n.toNat := h
  exact lt_of_le_of_lt this (Nat.lt_size_self _)

/-- exchange the residues `v` and `v'` of the masked word -/
def swapRes (m v v' w : Word) : Word :=
  if w &&& m = v then w ^^^ (v ^^^ v') else if w &&& m = v' then w ^^^ (v ^^^ v') else w

theorem and_xor_distrib (w x m : Word) : (w ^^^ x) &&& m = (w &&& m) ^^^ (x &&& m) := by
  apply BitVec.eq_of_getLsbD_eq
  intro i hi
  simp only [BitVec.getLsbD_and, BitVec.getLsbD_xor]
  cases w.getLsbD i <;> cases x.getLsbD i <;> cases m.getLsbD i <;> rfl

theorem swapRes_and (m v v' w : Word) (hv : v &&& m = v) (hv' : v' &&& m = v') :
    swapRes m v v' w &&& m = if w &&& m = v then v' else if w &&& m = v' then v else w &&& m := by
  have e : (v ^^^ v') &&& m = v ^^^ v' := by rw [and_xor_distrib, hv, hv']
  unfold swapRes
  by_cases h1 : w &&& m = v
  · rw [if_pos h1, if_pos h1, and_xor_distrib, e, h1, ← BitVec.xor_assoc, BitVec.xor_self,
      BitVec.zero_xor]
  · rw [if_neg h1, if_neg h1]
    by_cases h2 : w &&& m = v'
    · rw [if_pos h2, if_pos h2, and_xor_distrib, e, h2, BitVec.xor_comm v, ← BitVec.xor_assoc,
        BitVec.xor_self, BitVec.zero_xor]
    · rw [if_neg h2, if_neg h2]

theorem swapRes_invol (m v v' w : Word) (hv : v &&& m = v) (hv' : v' &&& m = v') :
    swapRes m v v' (swapRes m v v' w) = w := by
  have ha := swapRes_and m v v' w hv hv'
  have inv : ∀ x y : Word, x ^^^ y ^^^ y = x := by
    intro x y; rw [BitVec.xor_assoc, BitVec.xor_self, BitVec.xor_zero]
  conv_lhs => rw [swapRes]
  rw [ha]
  by_cases h1 : w &&& m = v
  · have hs : swapRes m v v' w = w ^^^ (v ^^^ v') := by rw [swapRes, if_pos h1]
    rw [if_pos h1, hs]
    by_cases h3 : v' = v
    · rw [if_pos h3, inv]
    · rw [if_neg h3, if_pos rfl, inv]
  · rw [if_neg h1]
    by_cases h2 : w &&& m = v'
    · have hs : swapRes m v v' w = w ^^^ (v ^^^ v') := by rw [swapRes, if_neg h1, if_pos h2]
      rw [if_pos h2, if_pos rfl, hs, inv]
    · rw [if_neg h2, if_neg h1, if_neg h2, swapRes, if_neg h1, if_neg h2]

theorem randIntFrom_swap (n v v' : Word) (hv : v ≤ n) (hv' : v' ≤ n) (ws : List Word) :
    (randIntFrom n (ws.map (swapRes (smear n) v v'))).map Prod.fst =
      (randIntFrom n ws).map (fun r => if r.1 = v then v' else if r.1 = v' then v else r.1) := by
  have ev := and_smear_of_le n v hv
  have ev' := and_smear_of_le n v' hv'
  induction ws with
  | nil => rfl
  | cons w t ih =>
    simp only [List.map_cons, randIntFrom]
    rw [swapRes_and _ _ _ _ ev ev']
    by_cases h1 : w &&& smear n = v
    · have : ¬ (v' > n) := by simpa using hv'
      have : ¬ (v > n) := by simpa using hv
      simp [h1, *]
    · by_cases h2 : w &&& smear n = v'
      · have : ¬ (v' > n) := by simpa using hv'
        have : ¬ (v > n) := by simpa using hv
        have h3 : ¬ v' = v := fun e => h1 (h2.trans e)
        simp [h2, h3, *]
      · simp only [h1, h2, if_false]
        by_cases hr : w &&& smear n > n
        · simp only [hr, if_true]; exact ih
        · simp [hr, h1, h2]

theorem randIntFrom_le (n : Word) (ws : List Word) (r : Word) (rest : List Word)
    (h : randIntFrom n ws = some (r, rest)) : r ≤ n := by
  induction ws with
  | nil => simp [randIntFrom] at h
  | cons w t ih =>
    simp only [randIntFrom] at h
    split at h
    · exact ih h
    · rename_i hn
      simp at h
      rw [← h.1]
      simpa using hn

theorem randIntN_draws (n : Word) (k : Nat) (g g' : MTRand) (ws : List Word)
    (h : draws k g = some (ws, g')) :
    ∃ g'', randIntN n k g = some ((randIntFrom n ws).map Prod.fst, g'') := by
  induction k generalizing g ws with
  | zero => simp [draws] at h; rw [h.1]; exact ⟨g, rfl⟩
  | succ k ih =>
    simp only [draws, Option.bind_eq_some_iff, Option.map_eq_some_iff] at h
    obtain ⟨⟨w, g1⟩, e1, ⟨ws', g2⟩, e2, e3⟩ := h
    simp at e3
    obtain ⟨rfl, rfl⟩ := e3
    obtain ⟨g'', e⟩ := ih g1 ws' e2
    simp only [randIntN, e1, Option.bind_some, randIntFrom]
    by_cases hr : w &&& smear n > n
    · simp only [hr, if_true]; exact ⟨g'', e⟩
    · simp only [hr, if_false]; exact ⟨g1, rfl⟩

end WFMath.MT
