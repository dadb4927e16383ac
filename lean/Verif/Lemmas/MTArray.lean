import Verif.Lemmas.MTRand

namespace WFMath.MT
open WFMath.Spec

theorem trunc_mul64 (c p k : Word) :
    (c.setWidth 64 ^^^ (p.setWidth 64 * k.setWidth 64)).setWidth 32 = c ^^^ (p * k) := by
  rw [BitVec.setWidth_xor, BitVec.setWidth_setWidth_of_le _ (by decide), BitVec.setWidth_eq]
  congr 1
  apply BitVec.eq_of_toNat_eq
  simp only [BitVec.toNat_setWidth, BitVec.toNat_mul]
  rw [Nat.mod_mod_of_dvd _ (by decide)]
  rw [Nat.mod_eq_of_lt (show p.toNat < 2 ^ 64 by have := p.isLt; omega),
    Nat.mod_eq_of_lt (show k.toNat < 2 ^ 64 by have := k.isLt; omega)]

theorem trunc_add64 (c k j : Word) :
    (c.setWidth 64 + ((k.setWidth 64 &&& 0xffffffff#64) + j.setWidth 64)).setWidth 32 = c + (k + j) := by
  have hk : k.setWidth 64 &&& 0xffffffff#64 = k.setWidth 64 := by
    apply BitVec.eq_of_toNat_eq
    simp only [BitVec.toNat_and, BitVec.toNat_setWidth, BitVec.toNat_ofNat]
    have := k.isLt
    rw [Nat.mod_eq_of_lt (show k.toNat < 2 ^ 64 by omega),
      show 4294967295 % 2 ^ 64 = 2 ^ 32 - 1 by decide, Nat.and_two_pow_sub_one_eq_mod,
      Nat.mod_eq_of_lt this]
  rw [hk]
  apply BitVec.eq_of_toNat_eq
  simp only [BitVec.toNat_setWidth, BitVec.toNat_add]
  have := k.isLt; have := j.isLt; have := c.isLt
  omega

/-- word before the one produced at step `t` -/
def prevWord (key : List Word) (t : Nat) : Word :=
  if t = 0 then seedWords 19650218 0 else arrayWords key (t + 622)

/-- table after `t` rounds -/
def AInv (key : List Word) (t : Nat) (st : Fin 624 → Word) (i : Word) : Prop :=
  i.toNat = 1 + t % 623 ∧
  (∀ n, t ≤ n → n < t + 623 → ∀ r : Fin 624, r.val = 1 + n % 623 → st r = arrayWords key n) ∧
  (t % 623 = 0 → st ⟨0, by omega⟩ = prevWord key t)

theorem AInv.prev {key : List Word} {t : Nat} {st : Fin 624 → Word} {i : Word} (h : AInv key t st i)
    (hlt : i.toNat - 1 < 624) : st ⟨i.toNat - 1, hlt⟩ = prevWord key t := by
  obtain ⟨hi, hw, h0⟩ := h
  by_cases ht : t % 623 = 0
  · rw [← h0 ht]
    exact congrArg st (Fin.ext (by simp only; omega))
  · have hmod : (t + 622) % 623 = t % 623 - 1 := by omega
    rw [prevWord, if_neg (by intro h; subst h; exact ht rfl)]
    exact hw (t + 622) (by omega) (by omega) _ (by simp only; omega)

theorem AInv.cur {key : List Word} {t : Nat} {st : Fin 624 → Word} {i : Word} (h : AInv key t st i)
    (hlt : i.toNat < 624) : st ⟨i.toNat, hlt⟩ = arrayWords key t := by
  obtain ⟨hi, hw, h0⟩ := h
  exact hw t (by omega) (by omega) _ hi

theorem wrap_inv (key : List Word) (t : Nat) (st : Fin 624 → Word) (i : Word) (h : AInv key t st i)
    (hlt : i.toNat < 624) :
    ∃ st' i', wrapIndex (Function.update st ⟨i.toNat, hlt⟩ (arrayWords key (t + 623))) (i + 1) =
      some (st', i') ∧ AInv key (t + 1) st' i' := by
  obtain ⟨hi, hw, h0⟩ := h
  have ti := toNat_add_one i (by omega)
  -- invariant of the updated table
  have hup : ∀ n, t + 1 ≤ n → n < t + 1 + 623 → ∀ r : Fin 624, r.val = 1 + n % 623 →
      Function.update st ⟨i.toNat, hlt⟩ (arrayWords key (t + 623)) r = arrayWords key n := by
    intro n hn1 hn2 r hr
    by_cases hlast : n = t + 623
    · subst hlast
      have : r = ⟨i.toNat, hlt⟩ := Fin.ext (by simp only; omega)
      rw [this, Function.update_self]
    · rw [Function.update_of_ne (by
        intro e
        have := congrArg Fin.val e
        simp only at this
        omega)]
      exact hw n (by omega) (by omega) r hr
  unfold wrapIndex
  have h624 : (624 : Word).toNat = 624 := rfl
  by_cases hge : i + 1 ≥ 624
  · have hge' : (624 : Word).toNat ≤ (i + 1).toNat := hge
    rw [if_pos hge, rd_nat _ 623 623 (by decide) rfl]
    simp only [Option.bind_some]
    rw [wr_nat _ 0 _ 0 (by decide) rfl]
    refine ⟨_, _, rfl, ?_, ?_, ?_⟩
    · show 1 = _; omega
    · intro n hn1 hn2 r hr
      rw [Function.update_of_ne (by
        intro e
        have := congrArg Fin.val e
        simp only at this
        omega)]
      exact hup n hn1 hn2 r hr
    · intro _
      rw [Function.update_self]
      have : (⟨623, by decide⟩ : Fin 624) = ⟨i.toNat, hlt⟩ := Fin.ext (by simp only; omega)
      rw [this, Function.update_self, prevWord, if_neg (by omega)]
  · have hge' : ¬ (624 : Word).toNat ≤ (i + 1).toNat := hge
    rw [if_neg hge]
    refine ⟨_, _, rfl, by omega, hup, ?_⟩
    intro hz
    omega

theorem arrayWords_step (key : List Word) (t : Nat) :
    arrayWords key (t + 623) =
      if t < max 624 key.length then
        (arrayWords key t ^^^ ((prevWord key t ^^^ (prevWord key t >>> 30)) * 1664525#32)) +
          (key[t % key.length]?.getD 0 + BitVec.ofNat 32 (t % key.length))
      else
        (arrayWords key t ^^^ ((prevWord key t ^^^ (prevWord key t >>> 30)) * 1566083941#32)) -
          BitVec.ofNat 32 (1 + t % 623) := by
  rw [arrayWords]
  simp only [show ¬ (t + 623 < 623) by omega, if_false, Nat.add_sub_cancel]
  have : (if t + 623 = 623 then seedWords 19650218 0 else arrayWords key (t + 623 - 1)) = prevWord key t := by
    unfold prevWord
    by_cases h : t = 0
    · subst h; simp
    · rw [if_neg (by omega), if_neg h]; rfl
  rw [this]

theorem arrayStep1_inv (key : List Word) (hk : key ≠ []) (hl : key.length < 2 ^ 32) (t : Nat)
    (ht : t < max 624 key.length)
    (x : (Fin 624 → Word) × Word × Word) (h : AInv key t x.1 x.2.1) (hj : x.2.2.toNat = t % key.length) :
    ∃ x', arrayStep1 key x = some x' ∧ AInv key (t + 1) x'.1 x'.2.1 ∧
      x'.2.2.toNat = (t + 1) % key.length := by
  obtain ⟨st, i, j⟩ := x
  dsimp only at h hj
  have hpos : 0 < key.length := List.length_pos_iff.2 hk
  have hi1 : 1 ≤ i.toNat := by have := h.1; omega
  have hi2 : i.toNat < 624 := by have := h.1; omega
  have hjl : j.toNat < key.length := by rw [hj]; exact Nat.mod_lt _ hpos
  unfold arrayStep1
  dsimp only
  rw [rd_nat st (i - 1) (i.toNat - 1) (by omega) (toNat_sub_one i hi1), h.prev (by omega)]
  simp only [Option.bind_some]
  rw [rd_of_lt st i hi2, h.cur hi2]; simp only [Option.bind_some]
  rw [wr_nat st i _ i.toNat hi2 rfl]; simp only [Option.bind_some]
  rw [List.getElem?_eq_getElem hjl]; simp only [Option.bind_some]
  rw [rd_of_lt _ i hi2, Function.update_self]; simp only [Option.bind_some]
  rw [wr_nat _ i _ i.toNat hi2 rfl, Function.update_idem]; simp only [Option.bind_some]
  have e1 := trunc_mul64 (arrayWords key t) (prevWord key t ^^^ prevWord key t >>> 30) 1664525#32
  have e2 : (1664525#32 : Word).setWidth 64 = 1664525#64 := by decide
  rw [e2] at e1
  rw [e1, trunc_add64]
  have e3 : (arrayWords key t ^^^ (prevWord key t ^^^ prevWord key t >>> 30) * 1664525#32) + (key[j.toNat] + j)
      = arrayWords key (t + 623) := by
    rw [arrayWords_step, if_pos ht]
    have hjj : BitVec.ofNat 32 (t % key.length) = j := by rw [← hj]; simp
    rw [hjj, ← hj, List.getElem?_eq_getElem hjl]; rfl
  rw [e3]
  obtain ⟨st', i', e, hinv⟩ := wrap_inv key t st i h hi2
  rw [e]; simp only [Option.bind_some]
  refine ⟨_, rfl, hinv, ?_⟩
  dsimp only
  have tj := toNat_add_one j (by omega)
  have tl : (BitVec.ofNat 32 key.length).toNat = key.length := toNat_ofNat_lt _ hl
  have hmod : (t + 1) % key.length = if t % key.length + 1 = key.length then 0 else t % key.length + 1 := by
    by_cases h1 : key.length = 1
    · rw [h1]; simp only [Nat.mod_one]; rfl
    · rw [Nat.add_mod_eq_ite, Nat.mod_eq_of_lt (show 1 < key.length by omega)]
      split <;> split <;> omega
  split
  · rename_i hge
    have : (BitVec.ofNat 32 key.length).toNat ≤ (j + 1).toNat := hge
    rw [hmod, if_pos (by omega)]; rfl
  · rename_i hlt
    have : ¬ (BitVec.ofNat 32 key.length).toNat ≤ (j + 1).toNat := hlt
    rw [hmod, if_neg (by omega)]; omega

theorem arrayStep2_inv (key : List Word) (t : Nat) (ht : ¬ t < max 624 key.length)
    (x : (Fin 624 → Word) × Word) (h : AInv key t x.1 x.2) :
    ∃ x', arrayStep2 x = some x' ∧ AInv key (t + 1) x'.1 x'.2 := by
  obtain ⟨st, i⟩ := x
  dsimp only at h
  have hi1 : 1 ≤ i.toNat := by have := h.1; omega
  have hi2 : i.toNat < 624 := by have := h.1; omega
  unfold arrayStep2
  dsimp only
  rw [rd_nat st (i - 1) (i.toNat - 1) (by omega) (toNat_sub_one i hi1), h.prev (by omega)]
  simp only [Option.bind_some]
  rw [rd_of_lt st i hi2, h.cur hi2]; simp only [Option.bind_some]
  rw [wr_nat st i _ i.toNat hi2 rfl]; simp only [Option.bind_some]
  rw [rd_of_lt _ i hi2, Function.update_self]; simp only [Option.bind_some]
  rw [wr_nat _ i _ i.toNat hi2 rfl, Function.update_idem]; simp only [Option.bind_some]
  have e1 := trunc_mul64 (arrayWords key t) (prevWord key t ^^^ prevWord key t >>> 30) 1566083941#32
  have e2 : (1566083941#32 : Word).setWidth 64 = 1566083941#64 := by decide
  rw [e2] at e1
  rw [e1]
  have e3 : (arrayWords key t ^^^ (prevWord key t ^^^ prevWord key t >>> 30) * 1566083941#32) - i
      = arrayWords key (t + 623) := by
    rw [arrayWords_step, if_neg ht]
    have hjj : BitVec.ofNat 32 (1 + t % 623) = i := by rw [← h.1]; simp
    rw [hjj]
  rw [e3]
  obtain ⟨st', i', e, hinv⟩ := wrap_inv key t st i h hi2
  exact ⟨_, e, hinv⟩

attribute [local irreducible] loop

theorem ainv_init (key : List Word) : AInv key 0 (fun i : Fin 624 => seedWords 19650218 i.val) 1 := by
  refine ⟨rfl, ?_, ?_⟩
  · intro n _ hn r hr
    show seedWords 19650218 r.val = _
    rw [arrayWords, if_pos (by omega), hr, Nat.mod_eq_of_lt (by omega), Nat.add_comm]
  · intro _; rfl

theorem seedArray_words (g : MTRand) (key : List Word) (hk : key ≠ []) (hl : key.length < 2 ^ 32) :
    ∃ st, seedArray g key = some ⟨st, 624⟩ ∧ st ⟨0, by omega⟩ = 0x80000000#32 ∧
      ∀ t, max 624 key.length ≤ t → t < max 624 key.length + 623 → ∀ h : 1 + t % 623 < 624,
        st ⟨1 + t % 623, h⟩ = arrayWords key (t + 623) := by
  obtain ⟨x, e1, h1⟩ := loop_inv (fun _ x => arrayStep1 key x)
    (fun t x => t ≤ max 624 key.length → AInv key t x.1 x.2.1 ∧ x.2.2.toNat = t % key.length)
    0 (max 624 key.length) ((fun i : Fin 624 => seedWords 19650218 i.val), (1 : Word), (0 : Word))
    (fun _ => ⟨ainv_init key, by simp⟩)
    (fun t s _ ht hs => by
      obtain ⟨ha, hj⟩ := hs (by omega)
      obtain ⟨x', e, h1, h2⟩ := arrayStep1_inv key hk hl t (by omega) s ha hj
      exact ⟨x', e, fun _ => ⟨h1, h2⟩⟩)
  rw [Nat.zero_add] at h1
  obtain ⟨h1, _⟩ := h1 (le_refl _)
  obtain ⟨y, e2, h2⟩ := loop_inv (fun _ x => arrayStep2 x)
    (fun t x => AInv key (max 624 key.length + t) x.1 x.2) 0 623 (x.1, x.2.1) h1
    (fun t s _ _ hs => arrayStep2_inv key _ (Nat.not_lt.2 (Nat.le_add_right _ _)) s hs)
  rw [Nat.zero_add] at h2
  have e3 := wr_nat y.1 0 0x80000000#32 0 (by omega) rfl
  refine ⟨Function.update y.1 ⟨0, by omega⟩ 0x80000000#32, ?_, Function.update_self _ _ _, ?_⟩
  · unfold seedArray
    simp only [seed_eq, Option.bind_some, e1, e2, e3, Option.map_some]
  · intro t ht1 ht2 hh
    rw [Function.update_of_ne (by
        intro e
        have := congrArg Fin.val e
        simp only at this
        omega)]
    exact h2.2.1 (t + 623) (by omega) (by omega) _ (by simp only [Nat.add_mod_right])

end WFMath.MT
