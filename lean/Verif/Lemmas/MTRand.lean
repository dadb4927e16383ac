import Verif.Model.MTRand
import Verif.Spec.MT
import Verif.Spec.Numeral
import Verif.Lemmas.IntToString
import Mathlib.Tactic.Ring
import Mathlib.Logic.Function.Basic

namespace WFMath.MT
open WFMath.Spec

theorem loop_inv {σ : Type} (body : Nat → σ → Option σ) (Inv : Nat → σ → Prop) (start n : Nat) (s : σ)
    (h0 : Inv start s)
    (hstep : ∀ k s, start ≤ k → k < start + n → Inv k s → ∃ s', body k s = some s' ∧ Inv (k + 1) s') :
    ∃ s', loop body start n s = some s' ∧ Inv (start + n) s' := by
  induction n generalizing start s with
  | zero => exact ⟨s, rfl, h0⟩
  | succ n ih =>
    obtain ⟨s1, h1, h2⟩ := hstep start s (le_refl _) (by omega) h0
    obtain ⟨s2, h3, h4⟩ := ih (start + 1) s1 h2 (fun k s hk1 hk2 => hstep k s (by omega) (by omega))
    refine ⟨s2, ?_, ?_⟩
    · simp only [loop, h1, Option.bind_some]; exact h3
    · have : start + (n + 1) = start + 1 + n := by omega
      rw [this]; exact h4

theorem rd_of_lt (st : Fin 624 → Word) (i : Word) (h : i.toNat < 624) :
    rd st i = some (st ⟨i.toNat, h⟩) := by simp [rd, h]

theorem rd_nat (st : Fin 624 → Word) (i : Word) (k : Nat) (hk : k < 624) (h : i.toNat = k) :
    rd st i = some (st ⟨k, hk⟩) := by subst h; exact rd_of_lt st i hk

theorem wr_nat (st : Fin 624 → Word) (i : Word) (w : Word) (k : Nat) (hk : k < 624) (h : i.toNat = k) :
    wr st i w = some (Function.update st ⟨k, hk⟩ w) := by subst h; simp [wr, hk]

theorem toNat_ofNat_lt (k : Nat) (h : k < 2 ^ 32) : (BitVec.ofNat 32 k).toNat = k := by
  simp; omega

theorem seedStep_eq (p idx : Word) :
    seedStep p idx = 1812433253#32 * (p ^^^ (p >>> 30)) + idx := by
  unfold seedStep
  apply BitVec.eq_of_toNat_eq
  simp only [BitVec.toNat_setWidth, BitVec.toNat_add, BitVec.toNat_mul, BitVec.toNat_ofNat]
  rw [Nat.mod_mod_of_dvd _ (by decide)]
  conv_lhs => rw [Nat.add_mod, Nat.mod_mod_of_dvd _ (by decide)]
  conv_rhs => rw [Nat.add_mod, Nat.mod_mod]
  congr 2
  · rw [Nat.mod_eq_of_lt (show (p ^^^ p >>> 30).toNat < 2 ^ 64 by
      have := (p ^^^ p >>> 30).isLt; omega)]
  · rw [Nat.mod_eq_of_lt (show idx.toNat < 2 ^ 64 by have := idx.isLt; omega)]

theorem seed_eq (g : MTRand) (s : Word) : seed g s = some ⟨fun i => seedWords s i.val, 624⟩ := by
  unfold seed
  rw [wr_nat g.state 0 s 0 (by decide) rfl]
  simp only [Option.bind_some]
  obtain ⟨st, h1, h2⟩ := loop_inv
    (fun k st => (rd st (BitVec.ofNat 32 k - 1)).bind fun p =>
          wr st (BitVec.ofNat 32 k) (seedStep p (BitVec.ofNat 32 k)))
    (fun k st => ∀ j : Fin 624, j.val < k → st j = seedWords s j.val) 1 623
    (Function.update g.state ⟨0, by decide⟩ s)
    (by
      intro j hj
      have : j = ⟨0, by decide⟩ := Fin.ext (by simp; omega)
      subst this; simp [seedWords])
    (by
      intro k st hk1 hk2 hinv
      have e1 : (BitVec.ofNat 32 k - 1).toNat = k - 1 := by
        rw [BitVec.toNat_sub, toNat_ofNat_lt k (by omega)]
        simp; omega
      refine ⟨Function.update st ⟨k, by omega⟩ (seedStep (st ⟨k - 1, by omega⟩) (BitVec.ofNat 32 k)), ?_, ?_⟩
      · rw [rd_nat st _ (k - 1) (by omega) e1]
        simp only [Option.bind_some]
        rw [wr_nat st _ _ k (by omega) (toNat_ofNat_lt k (by omega))]
      · intro j hj
        by_cases hjk : j.val = k
        · have : j = ⟨k, by omega⟩ := Fin.ext hjk
          subst this
          rw [Function.update_self, seedStep_eq, hinv ⟨k - 1, by omega⟩ (by simp; omega)]
          obtain ⟨m, rfl⟩ : ∃ m, k = m + 1 := ⟨k - 1, by omega⟩
          simp [seedWords]
        · rw [Function.update_of_ne (fun e => hjk (by rw [e])), hinv j (by omega)])
  rw [h1]
  simp only [Option.map_some, Option.some.injEq, MTRand.mk.injEq, and_true]
  funext i
  exact h2 i (by omega)

theorem mag01_bit (y : Word) :
    mag01 (y &&& 0x01#32) = some (if y.getLsbD 0 then 0x9908b0df#64 else 0#64) := by
  have h : y &&& 0x01#32 = if y.getLsbD 0 then 1#32 else 0#32 := by
    apply BitVec.eq_of_getLsbD_eq
    intro i hi
    rcases Nat.eq_zero_or_pos i with h0 | h0
    · subst h0
      cases h : y.getLsbD 0 <;> simpa using h
    · have : (1#32).getLsbD i = false := by
        rw [BitVec.getLsbD_one]; simp; omega
      cases y.getLsbD 0 <;> simp [this]
  rw [h]
  split <;> rfl

theorem regenWord_eq (st : Fin 624 → Word) (k kn kp : Word) (a b c : Nat) (ha : a < 624) (hb : b < 624)
    (hc : c < 624) (hk : k.toNat = a) (hkn : kn.toNat = b) (hkp : kp.toNat = c) :
    regenWord st k kn kp = some (Function.update st ⟨a, ha⟩
      (st ⟨c, hc⟩ ^^^ twistA (joinUL (st ⟨a, ha⟩) (st ⟨b, hb⟩)))) := by
  unfold regenWord
  rw [rd_nat st k a ha hk, rd_nat st kn b hb hkn, rd_nat st kp c hc hkp]
  simp only [Option.bind_some]
  rw [mag01_bit]
  simp only [Option.bind_some]
  rw [wr_nat st k _ a ha hk]
  congr 2
  unfold twistA joinUL
  generalize st ⟨a, ha⟩ &&& 2147483648#32 ||| st ⟨b, hb⟩ &&& 2147483647#32 = y
  rw [BitVec.setWidth_xor]
  rw [BitVec.setWidth_setWidth_of_le _ (by decide), BitVec.setWidth_eq]
  split
  · rw [BitVec.xor_assoc]; rfl
  · simp

attribute [local irreducible] loop

/-- The table at base position `b` of the sequence `x`. -/
def AtBase (x : Nat → Word) (b : Nat) (st : Fin 624 → Word) : Prop := ∀ j : Fin 624, st j = x (b + j.val)

/-- Loop invariant of the regeneration: words below `k` are new, the others old. -/
def Inv (x : Nat → Word) (b k : Nat) (st : Fin 624 → Word) : Prop :=
  ∀ j : Fin 624, st j = if j.val < k then x (b + 624 + j.val) else x (b + j.val)

theorem inv_step (x : Nat → Word) (hx : IsMTSequence x) (b k kn kp : Nat) (st : Fin 624 → Word)
    (hk : k < 624) (hn : kn < 624) (hp : kp < 624) (hinv : Inv x b k st)
    (h1 : st ⟨kn, hn⟩ = x (b + k + 1)) (h2 : st ⟨kp, hp⟩ = x (b + k + 397)) :
    Inv x b (k + 1) (Function.update st ⟨k, hk⟩
        (st ⟨kp, hp⟩ ^^^ twistA (joinUL (st ⟨k, hk⟩) (st ⟨kn, hn⟩)))) := by
  intro j
  by_cases hjk : j.val = k
  · have : j = ⟨k, hk⟩ := Fin.ext hjk
    subst this
    have hrec := hx (b + k)
    rw [Nat.add_right_comm] at hrec
    rw [Function.update_self, h1, h2, hinv ⟨k, hk⟩, if_neg (by simp), if_pos (by simp), hrec]
  · rw [Function.update_of_ne (fun e => hjk (by rw [e])), hinv j]
    by_cases hlt : j.val < k
    · rw [if_pos hlt, if_pos (by omega)]
    · rw [if_neg hlt, if_neg (by omega)]

theorem regen1 (x : Nat → Word) (hx : IsMTSequence x) (b k : Nat) (hk : k < 227) (st : Fin 624 → Word)
    (hinv : Inv x b k st) :
    ∃ st', regenWord st (BitVec.ofNat 32 k) (BitVec.ofNat 32 k + 1) (BitVec.ofNat 32 k + 397) = some st' ∧
      Inv x b (k + 1) st' := by
  have t1 : (BitVec.ofNat 32 k).toNat = k := toNat_ofNat_lt k (by omega)
  have t2 : (BitVec.ofNat 32 k + 1).toNat = k + 1 := by
    rw [BitVec.toNat_add, t1]; simp; omega
  have t3 : (BitVec.ofNat 32 k + 397).toNat = k + 397 := by
    rw [BitVec.toNat_add, t1]; simp; omega
  refine ⟨_, regenWord_eq st _ _ _ k (k + 1) (k + 397) (by omega) (by omega) (by omega) t1 t2 t3, ?_⟩
  apply inv_step x hx b k (k + 1) (k + 397) st _ _ _ hinv
  · rw [hinv, if_neg (by simp)]; rfl
  · rw [hinv, if_neg (by simp), Nat.add_assoc b k 397]

theorem regen2 (x : Nat → Word) (hx : IsMTSequence x) (b k : Nat) (hk1 : 227 ≤ k) (hk : k < 623)
    (st : Fin 624 → Word) (hinv : Inv x b k st) :
    ∃ st', regenWord st (BitVec.ofNat 32 k) (BitVec.ofNat 32 k + 1) (BitVec.ofNat 32 k + (397 - 624))
      = some st' ∧ Inv x b (k + 1) st' := by
  have t1 : (BitVec.ofNat 32 k).toNat = k := toNat_ofNat_lt k (by omega)
  have t2 : (BitVec.ofNat 32 k + 1).toNat = k + 1 := by
    rw [BitVec.toNat_add, t1]; simp; omega
  have t3 : (BitVec.ofNat 32 k + (397 - 624)).toNat = k - 227 := by
    rw [BitVec.toNat_add, t1]
    have : ((397 : Word) - 624).toNat = 2 ^ 32 - 227 := by decide
    rw [this]; omega
  refine ⟨_, regenWord_eq st _ _ _ k (k + 1) (k - 227) (by omega) (by omega) (by omega) t1 t2 t3, ?_⟩
  apply inv_step x hx b k (k + 1) (k - 227) st _ _ _ hinv
  · rw [hinv, if_neg (by simp)]; rfl
  · rw [hinv, if_pos (by dsimp only; omega)]
    dsimp only
    rw [show b + 624 + (k - 227) = b + k + 397 by omega]

theorem regen3 (x : Nat → Word) (hx : IsMTSequence x) (b : Nat)
    (st : Fin 624 → Word) (hinv : Inv x b 623 st) :
    ∃ st', regenWord st (624 - 1) 0 (397 - 1) = some st' ∧ Inv x b 624 st' := by
  refine ⟨_, regenWord_eq st _ _ _ 623 0 396 (by omega) (by omega) (by omega)
    (by decide) (by decide) (by decide), ?_⟩
  apply inv_step x hx b 623 0 396 st _ _ _ hinv
  · rw [hinv, if_pos (by simp)]; exact congrArg x (by dsimp only)
  · rw [hinv, if_pos (by simp)]; exact congrArg x (by dsimp only)

theorem regenLoop1_eq (x : Nat → Word) (hx : IsMTSequence x) (b : Nat) (st : Fin 624 → Word)
    (h0 : Inv x b 0 st) : ∃ st', regenLoop1 st = some st' ∧ Inv x b 227 st' := by
  obtain ⟨s1, e1, i1⟩ := loop_inv
    (fun k st => regenWord st (BitVec.ofNat 32 k) (BitVec.ofNat 32 k + 1) (BitVec.ofNat 32 k + 397))
    (Inv x b) 0 (624 - 397) st h0 (fun k st _ hk hinv => regen1 x hx b k (by omega) st hinv)
  exact ⟨s1, e1, i1⟩

theorem regenLoop2_eq (x : Nat → Word) (hx : IsMTSequence x) (b : Nat) (st : Fin 624 → Word)
    (h0 : Inv x b 227 st) : ∃ st', regenLoop2 st = some st' ∧ Inv x b 623 st' := by
  obtain ⟨s2, e2, i2⟩ := loop_inv
    (fun k st => regenWord st (BitVec.ofNat 32 k) (BitVec.ofNat 32 k + 1)
      (BitVec.ofNat 32 k + (397 - 624)))
    (Inv x b) (624 - 397) (623 - (624 - 397)) st h0
    (fun k st hk1 hk hinv => regen2 x hx b k (by omega) (by omega) st hinv)
  exact ⟨s2, e2, i2⟩

theorem regen_eq (x : Nat → Word) (hx : IsMTSequence x) (b : Nat) (st : Fin 624 → Word)
    (h : AtBase x b st) : ∃ st', regen st = some st' ∧ AtBase x (b + 624) st' := by
  have h0 : Inv x b 0 st := fun j => by rw [if_neg (by omega)]; exact h j
  obtain ⟨s1, e1, i1⟩ := regenLoop1_eq x hx b st h0
  obtain ⟨s2, e2, i2⟩ := regenLoop2_eq x hx b s1 i1
  obtain ⟨s3, e3, i3⟩ := regen3 x hx b s2 i2
  refine ⟨s3, Option.bind_eq_some_iff.2 ⟨s1, e1, Option.bind_eq_some_iff.2 ⟨s2, e2, e3⟩⟩, fun j => ?_⟩
  rw [i3 j, if_pos (by omega)]

theorem temper_eq (y : Word) : temperCode y = temper y := rfl

/-- generator `g` is about to emit the (tempered) word number `p` of `x` -/
def Pos (x : Nat → Word) (p : Nat) (g : MTRand) : Prop :=
  ∃ b, AtBase x b g.state ∧ g.index.toNat ≤ 624 ∧ p = b + g.index.toNat

theorem randInt_pos (x : Nat → Word) (hx : IsMTSequence x) (p : Nat) (g : MTRand) (h : Pos x p g) :
    ∃ g', randInt g = some (temper (x p), g') ∧ Pos x (p + 1) g' := by
  obtain ⟨b, hb, hi, rfl⟩ := h
  unfold randInt
  by_cases hge : g.index ≥ 624
  · have hge' : g.index.toNat = 624 := by
      have : (624 : Word).toNat ≤ g.index.toNat := hge
      have h2 : (624 : Word).toNat = 624 := rfl
      omega
    obtain ⟨st', e, hb'⟩ := regen_eq x hx b g.state hb
    rw [if_pos hge, e]
    simp only [Option.map_some, Option.bind_some]
    rw [rd_nat st' 0 0 (by decide) rfl]
    simp only [Option.bind_some]
    refine ⟨_, by rw [temper_eq, hb' ⟨0, by decide⟩, hge']; rfl, b + 624, hb', ?_, ?_⟩
    · simp
    · rw [hge']; rfl
  · have hlt : g.index.toNat < 624 := by
      have : ¬ (624 : Word).toNat ≤ g.index.toNat := hge
      have h2 : (624 : Word).toNat = 624 := rfl
      omega
    rw [if_neg hge]
    simp only [Option.bind_some]
    rw [rd_of_lt _ _ hlt]
    simp only [Option.bind_some]
    have t2 : (g.index + 1).toNat = g.index.toNat + 1 := by
      rw [BitVec.toNat_add]; simp; omega
    refine ⟨⟨g.state, g.index + 1⟩, by rw [temper_eq, hb], b, hb, ?_, ?_⟩
    · dsimp only; omega
    · dsimp only; omega

theorem draws_pos (x : Nat → Word) (hx : IsMTSequence x) (k p : Nat) (g : MTRand) (h : Pos x p g) :
    ∃ g', draws k g = some (List.ofFn (fun i : Fin k => temper (x (p + i.val))), g') ∧ Pos x (p + k) g' := by
  induction k generalizing p g with
  | zero => exact ⟨g, by simp [draws], h⟩
  | succ k ih =>
    obtain ⟨g1, e1, h1⟩ := randInt_pos x hx p g h
    obtain ⟨g2, e2, h2⟩ := ih (p + 1) g1 h1
    refine ⟨g2, ?_, ?_⟩
    · simp only [draws, e1, Option.bind_some, e2, Option.map_some]
      rw [List.ofFn_succ]
      simp [Nat.add_assoc, Nat.add_comm 1]
    · rw [show p + (k + 1) = p + 1 + k by omega]; exact h2

theorem mtSequence_isMT (init : Nat → Word) : IsMTSequence (mtSequence init) := by
  intro k
  rw [mtSequence]
  simp

theorem mtSequence_init (init : Nat → Word) (k : Nat) (h : k < 624) : mtSequence init k = init k := by
  rw [mtSequence]; simp [h]

theorem mt_unique (x y : Nat → Word) (hx : IsMTSequence x) (hy : IsMTSequence y)
    (h : ∀ k, k < 624 → x k = y k) : x = y := by
  funext k
  induction k using Nat.strongRecOn with
  | _ k ih =>
    by_cases hk : k < 624
    · exact h k hk
    · obtain ⟨m, rfl⟩ : ∃ m, k = m + 624 := ⟨k - 624, by omega⟩
      rw [hx, hy, ih (m + 397) (by omega), ih m (by omega), ih (m + 1) (by omega)]

theorem seeded_unique (s : Word) (x : Nat → Word) (h : IsSeeded s x) :
    ∀ k, k < 624 → x k = seedWords s k := by
  intro k hk
  induction k with
  | zero => exact h.1
  | succ k ih => rw [h.2 k (by omega), seedWords, ih (by omega)]

/-- Position of an arbitrary table: it is at base 0 of its own continuation. -/
theorem pos_any (g : MTRand) (h : g.index.toNat ≤ 624) :
    Pos (mtSequence fun k => if h : k < 624 then g.state ⟨k, h⟩ else 0) g.index.toNat g :=
  ⟨0, fun j => by rw [mtSequence_init _ _ (by omega)]; simp, h, by omega⟩

/-! ### array seeding is in bounds -/

theorem wrapIndex_ok (st : Fin 624 → Word) (i : Word) (h1 : 1 ≤ i.toNat) (h2 : i.toNat ≤ 624) :
    ∃ st' i', wrapIndex st i = some (st', i') ∧ 1 ≤ i'.toNat ∧ i'.toNat < 624 := by
  unfold wrapIndex
  have h624 : (624 : Word).toNat = 624 := rfl
  by_cases h : i ≥ 624
  · rw [if_pos h, rd_nat st 623 623 (by decide) rfl]
    simp only [Option.bind_some]
    rw [wr_nat st 0 _ 0 (by decide) rfl]
    exact ⟨_, _, rfl, by decide, by decide⟩
  · rw [if_neg h]
    refine ⟨_, _, rfl, h1, ?_⟩
    have : ¬ (624 : Word).toNat ≤ i.toNat := h
    omega

theorem toNat_sub_one (i : Word) (h1 : 1 ≤ i.toNat) : (i - 1).toNat = i.toNat - 1 := by
  have := i.isLt
  rw [BitVec.toNat_sub]; simp; omega

theorem toNat_add_one (i : Word) (h1 : i.toNat < 2 ^ 32 - 1) : (i + 1).toNat = i.toNat + 1 := by
  rw [BitVec.toNat_add]; simp; omega

theorem arrayStep1_ok (key : List Word) (hk : key ≠ []) (hl : key.length < 2 ^ 32)
    (x : (Fin 624 → Word) × Word × Word)
    (hi1 : 1 ≤ x.2.1.toNat) (hi2 : x.2.1.toNat < 624) (hj : x.2.2.toNat < key.length) :
    ∃ x', arrayStep1 key x = some x' ∧ 1 ≤ x'.2.1.toNat ∧ x'.2.1.toNat < 624 ∧
      x'.2.2.toNat < key.length := by
  obtain ⟨st, i, j⟩ := x
  dsimp only at hi1 hi2 hj
  unfold arrayStep1
  dsimp only
  rw [rd_nat st (i - 1) (i.toNat - 1) (by omega) (toNat_sub_one i hi1)]
  simp only [Option.bind_some]
  rw [rd_of_lt st i hi2]; simp only [Option.bind_some]
  rw [wr_nat st i _ i.toNat hi2 rfl]; simp only [Option.bind_some]
  rw [List.getElem?_eq_getElem hj]; simp only [Option.bind_some]
  rw [rd_of_lt _ i hi2]; simp only [Option.bind_some]
  rw [wr_nat _ i _ i.toNat hi2 rfl]; simp only [Option.bind_some]
  have ti := toNat_add_one i (by omega)
  obtain ⟨st', i', e, h1, h2⟩ := wrapIndex_ok
    (Function.update (Function.update st ⟨i.toNat, hi2⟩ _) ⟨i.toNat, hi2⟩ _) (i + 1) (by omega) (by omega)
  rw [e]; simp only [Option.bind_some]
  refine ⟨_, rfl, h1, h2, ?_⟩
  dsimp only
  have tj := toNat_add_one j (by omega)
  have tl : (BitVec.ofNat 32 key.length).toNat = key.length := toNat_ofNat_lt _ hl
  have hpos : 0 < key.length := List.length_pos_iff.2 hk
  split
  · simpa using hpos
  · rename_i hlt
    have : ¬ (BitVec.ofNat 32 key.length).toNat ≤ (j + 1).toNat := hlt
    omega

theorem arrayStep2_ok (x : (Fin 624 → Word) × Word) (hi1 : 1 ≤ x.2.toNat) (hi2 : x.2.toNat < 624) :
    ∃ x', arrayStep2 x = some x' ∧ 1 ≤ x'.2.toNat ∧ x'.2.toNat < 624 := by
  obtain ⟨st, i⟩ := x
  dsimp only at hi1 hi2
  unfold arrayStep2
  dsimp only
  rw [rd_nat st (i - 1) (i.toNat - 1) (by omega) (toNat_sub_one i hi1)]
  simp only [Option.bind_some]
  rw [rd_of_lt st i hi2]; simp only [Option.bind_some]
  rw [wr_nat st i _ i.toNat hi2 rfl]; simp only [Option.bind_some]
  rw [rd_of_lt _ i hi2]; simp only [Option.bind_some]
  rw [wr_nat _ i _ i.toNat hi2 rfl]; simp only [Option.bind_some]
  have ti := toNat_add_one i (by omega)
  obtain ⟨st', i', e, h1, h2⟩ := wrapIndex_ok
    (Function.update (Function.update st ⟨i.toNat, hi2⟩ _) ⟨i.toNat, hi2⟩ _) (i + 1) (by omega) (by omega)
  exact ⟨_, e, h1, h2⟩

theorem seedArray_ok (g : MTRand) (key : List Word) (hk : key ≠ []) (hl : key.length < 2 ^ 32) :
    ∃ g', seedArray g key = some g' ∧ g'.index = 624 ∧ g'.state ⟨0, by decide⟩ = 0x80000000#32 := by
  unfold seedArray
  rw [seed_eq]; simp only [Option.bind_some]
  obtain ⟨x, e1, h1⟩ := loop_inv (fun _ x => arrayStep1 key x)
    (fun _ x => 1 ≤ x.2.1.toNat ∧ x.2.1.toNat < 624 ∧ x.2.2.toNat < key.length)
    0 (max 624 key.length) ((fun i : Fin 624 => seedWords 19650218 i.val), (1 : Word), (0 : Word))
    ⟨by decide, by decide, by simpa using List.length_pos_iff.2 hk⟩
    (fun k s _ _ hs => arrayStep1_ok key hk hl s hs.1 hs.2.1 hs.2.2)
  rw [e1]; simp only [Option.bind_some]
  obtain ⟨y, e2, h2⟩ := loop_inv (fun _ x => arrayStep2 x)
    (fun _ x => 1 ≤ x.2.toNat ∧ x.2.toNat < 624) 0 623 (x.1, x.2.1) ⟨h1.1, h1.2.1⟩
    (fun k s _ _ hs => arrayStep2_ok s hs.1 hs.2)
  rw [e2]; simp only [Option.bind_some]
  rw [wr_nat y.1 0 _ 0 (by decide) rfl]
  exact ⟨_, rfl, rfl, by simp⟩

/-- Every access is in bounds from every state whatsoever. -/
theorem randInt_total (g : MTRand) : ∃ r, randInt g = some r := by
  by_cases h : g.index.toNat ≤ 624
  · obtain ⟨g', e, _⟩ := randInt_pos _ (mtSequence_isMT _) _ g (pos_any g h)
    exact ⟨_, e⟩
  · -- index above 624 (only after loading foreign data): same as 624
    have hge : g.index ≥ 624 := by
      show (624 : Word).toNat ≤ g.index.toNat
      have h2 : (624 : Word).toNat = 624 := rfl
      omega
    obtain ⟨st', e, hb'⟩ := regen_eq (mtSequence fun k => if h : k < 624 then g.state ⟨k, h⟩ else 0)
      (mtSequence_isMT _) 0 g.state (fun j => by rw [mtSequence_init _ _ (by omega)]; simp)
    refine ⟨(temperCode (st' ⟨0, by decide⟩), ⟨st', 1⟩), ?_⟩
    unfold randInt
    rw [if_pos hge, e]
    simp only [Option.map_some, Option.bind_some]
    rw [rd_nat st' 0 0 (by decide) rfl]
    rfl

/-! ### text -/

theorem isDigit_not_space (c : Char) (h : '0' ≤ c ∧ c ≤ '9') : isSpace c = false := by
  have hne : ∀ d : Char, ¬ ('0' ≤ d) → c ≠ d := fun d hd e => hd (e ▸ h.1)
  unfold isSpace
  have h1 := hne ' ' (by decide)
  have h2 := hne '\t' (by decide)
  have h3 := hne '\n' (by decide)
  have h4 := hne '\r' (by decide)
  have h5 := hne '\x0b' (by decide)
  have h6 := hne '\x0c' (by decide)
  simp [h1, h2, h3, h4, h5, h6]

theorem takeWhile_append_stop {α : Type} (p : α → Bool) (l r : List α) (hl : ∀ a ∈ l, p a = true)
    (hr : ∀ a, r.head? = some a → p a = false) :
    (l ++ r).takeWhile p = l ∧ (l ++ r).dropWhile p = r := by
  induction l with
  | nil =>
    cases r with
    | nil => simp
    | cons a t => have := hr a rfl; simp [this]
  | cons a t ih =>
    have ha := hl a (by simp)
    have := ih (fun b hb => hl b (by simp [hb]))
    simp [ha, this.1, this.2]

theorem readWord_decimal (n : Nat) (hn : n < 2 ^ 32) (ds pre rest : List Char) (hd : IsDecimal n ds)
    (hpre : ∀ c ∈ pre, isSpace c = true)
    (hrest : ∀ c, rest.head? = some c → isDigit c = false) :
    readWord (pre ++ ds ++ rest) = some (BitVec.ofNat 32 n, rest) := by
  obtain ⟨hne, hdig, _, hval⟩ := hd
  have e1 : (pre ++ ds ++ rest).dropWhile isSpace = ds ++ rest := by
    rw [List.append_assoc]
    refine (takeWhile_append_stop isSpace pre (ds ++ rest) hpre ?_).2
    intro c hc
    cases ds with
    | nil => exact absurd rfl hne
    | cons a t =>
      simp at hc; subst hc
      exact isDigit_not_space _ (hdig a (by simp))
  have e2 := takeWhile_append_stop isDigit ds rest
    (fun c hc => by have := hdig c hc; simp [isDigit, this.1, this.2]) hrest
  unfold readWord
  simp only [e1, e2.1, e2.2]
  have hv : List.foldl (fun a c => 10 * a + (c.toNat - 48)) 0 ds = n := hval
  rw [hv, if_neg hne, if_pos hn]

theorem readWords_save (fmt : Nat → List Char) (hf : ∀ n, IsDecimal n (fmt n)) (ws : List Word)
    (pre rest : List Char) (hpre : ∀ c ∈ pre, isSpace c = true) :
    ws ≠ [] → readWords ws.length (pre ++ (ws.map fun w => fmt w.toNat ++ ['\t']).flatten ++ rest) =
      some (ws, '\t' :: rest) := by
  induction ws generalizing pre with
  | nil => intro h; exact absurd rfl h
  | cons w t ih =>
    intro _
    have step : readWord (pre ++ fmt w.toNat ++
        ('\t' :: ((t.map fun w => fmt w.toNat ++ ['\t']).flatten ++ rest))) =
        some (w, '\t' :: ((t.map fun w => fmt w.toNat ++ ['\t']).flatten ++ rest)) := by
      rw [readWord_decimal w.toNat w.isLt _ _ _ (hf _) hpre
        (by intro c hc; simp at hc; subst hc; decide)]
      simp
    have e : pre ++ ((w :: t).map fun w => fmt w.toNat ++ ['\t']).flatten ++ rest =
        pre ++ fmt w.toNat ++ ('\t' :: ((t.map fun w => fmt w.toNat ++ ['\t']).flatten ++ rest)) := by
      simp
    rw [e]
    simp only [List.length_cons, readWords, step, Option.bind_some]
    by_cases ht : t = []
    · subst ht; simp [readWords]
    · have := ih ['\t'] (by decide) ht
      simp only [List.cons_append, List.nil_append] at this
      rw [this]; simp

attribute [local irreducible] readWords

theorem load_save (fmt : Nat → List Char) (hf : ∀ n, IsDecimal n (fmt n)) (g : MTRand)
    (rest : List Char) (hrest : ∀ c, rest.head? = some c → isDigit c = false) :
    load (save fmt g ++ rest) = some (g, rest) := by
  unfold load save
  have hlen : (List.ofFn g.state).length = 624 := List.length_ofFn
  have := readWords_save fmt hf (List.ofFn g.state) [] (fmt g.index.toNat ++ rest) (by simp)
    (by intro h; rw [h] at hlen; simp at hlen)
  rw [hlen, List.map_ofFn] at this
  simp only [List.nil_append] at this
  rw [List.append_assoc]
  have h2 : ((fun w : Word => fmt w.toNat ++ ['\t']) ∘ g.state) =
      fun i => fmt (g.state i).toNat ++ ['\t'] := rfl
  rw [h2] at this
  simp only [this, Option.bind_some]
  have h3 := readWord_decimal g.index.toNat g.index.isLt (fmt g.index.toNat) ['\t'] rest (hf _)
    (by decide) hrest
  simp only [List.cons_append, List.nil_append] at h3
  simp only [h3, Option.bind_some, hlen, dite_true, Option.some.injEq, Prod.mk.injEq, and_true]
  cases g
  simp only [BitVec.ofNat_toNat, BitVec.setWidth_eq, MTRand.mk.injEq, and_true]
  funext k
  exact List.getElem_ofFn (by rw [hlen]; exact k.isLt)

end WFMath.MT
