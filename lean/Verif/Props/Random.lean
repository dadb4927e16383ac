import Verif.Lemmas.MTArray
import Verif.Lemmas.RandRange
import Verif.Lemmas.Shuffle
import Mathlib.Tactic.Linarith
import Mathlib.Tactic.Positivity
import Mathlib.Tactic.FieldSimp

namespace WFMath
open Spec MT

/-! ## C08 -/

/-- C08. Seed a generator (whatever its old state) with `s` and draw any number `k` of words: no
access leaves the table, and the results are the tempered words number 624, 625, ... of the MT19937
sequence started from the standard initialisation of `s`. -/
theorem C08_mt19937 (g : MTRand) (s : BitVec 32) (k : Nat) (x : Nat → BitVec 32)
    (hx : IsMTSequence x) (hs : IsSeeded s x) :
    ∃ g1 g2, seed g s = some g1 ∧
      draws k g1 = some (List.ofFn (fun i : Fin k => temper (x (624 + i.val))), g2) := by
  have hw := seeded_unique s x hs
  obtain ⟨g2, e, _⟩ := draws_pos x hx k 624 ⟨fun i => seedWords s i.val, 624⟩
    ⟨0, fun j => by rw [Nat.zero_add, hw j.val j.isLt], le_refl 624, rfl⟩
  exact ⟨_, g2, seed_eq g s, e⟩

/-- The specification determines the sequence: for every seed exactly one exists. -/
theorem C08_spec_determines (s : BitVec 32) : ∃! x, IsMTSequence x ∧ IsSeeded s x := by
  refine ⟨mt19937 s, ⟨mtSequence_isMT _, ?_, ?_⟩, ?_⟩
  · show mtSequence _ 0 = s
    rw [mtSequence_init _ _ (by omega)]; rfl
  · intro i hi
    show mtSequence _ (i + 1) = _ * (mtSequence _ i ^^^ (mtSequence _ i >>> 30)) + _
    rw [mtSequence_init _ _ (by omega), mtSequence_init _ _ (by omega)]; rfl
  · rintro y ⟨h1, h2⟩
    refine mt_unique y _ h1 (mtSequence_isMT _) (fun k hk => ?_)
    rw [seeded_unique s y h2 k hk]; exact (mtSequence_init _ _ hk).symm

/-- C08, array seeding. Seeded with a nonempty array, the generator emits the tempered words
624, 625, ... of the MT19937 sequence started from the published initialisation by array. -/
theorem C08_mt19937_array (g : MTRand) (key : List (BitVec 32)) (hk : key ≠ [])
    (hl : key.length < 2 ^ 32) (k : Nat) (x : Nat → BitVec 32) (hx : IsMTSequence x)
    (hs : IsArraySeeded key x) :
    ∃ g1 g2, seedArray g key = some g1 ∧
      draws k g1 = some (List.ofFn (fun i : Fin k => temper (x (624 + i.val))), g2) := by
  obtain ⟨st, e, h0, hw⟩ := seedArray_words g key hk hl
  obtain ⟨g2, e2, _⟩ := draws_pos x hx k 624 ⟨st, 624⟩
    ⟨0, fun j => by
      rw [Nat.zero_add]
      by_cases hj : j.val = 0
      · have : j = ⟨0, Nat.zero_lt_succ _⟩ := Fin.ext hj
        rw [this]
        exact h0.trans hs.1.symm
      · -- the step that wrote word `j`
        obtain ⟨t, ht1, ht2, ht3⟩ : ∃ t, max 624 key.length ≤ t ∧ t < max 624 key.length + 623 ∧
            1 + t % 623 = j.val := by
          have hjl := j.isLt
          generalize max 624 key.length = K
          refine ⟨K + (j.val - 1 + 623 - K % 623) % 623, by omega, by omega, by omega⟩
        have h1 := hw t ht1 ht2 (by omega)
        have h2 := hs.2 t ht1 ht2
        have h3 : st j = st ⟨1 + t % 623, by omega⟩ := congrArg st (Fin.ext ht3.symm)
        rw [← ht3, h2, ← h1]
        exact h3, le_refl 624, rfl⟩
  exact ⟨_, g2, e, e2⟩

/-- tail recursive form of the initialisation, for evaluation only -/
def seedIter : Nat → Nat → BitVec 32 → BitVec 32
  | 0, _, w => w
  | n + 1, i, w => seedIter n (i + 1) (1812433253#32 * (w ^^^ (w >>> 30)) + BitVec.ofNat 32 (i + 1))

theorem seedIter_eq (s : BitVec 32) (n i : Nat) : seedIter n i (seedWords s i) = seedWords s (i + n) := by
  induction n generalizing i with
  | zero => rfl
  | succ n ih =>
    rw [seedIter, show 1812433253#32 * (seedWords s i ^^^ (seedWords s i >>> 30)) +
      BitVec.ofNat 32 (i + 1) = seedWords s (i + 1) from rfl, ih]
    rw [show i + 1 + n = i + (n + 1) by omega]

/-- Sanity check of the specification against the published first output for seed 5489. -/
example : temper (mt19937 5489#32 624) = 3499211612#32 := by
  have h : mt19937 5489#32 624 = seedWords 5489#32 397 ^^^
      twistA (joinUL (seedWords 5489#32 0) (seedWords 5489#32 1)) := by
    have := mtSequence_isMT (seedWords 5489#32) 0
    rw [Nat.zero_add, Nat.zero_add, mtSequence_init _ 397 (by omega), mtSequence_init _ 0 (by omega),
      mtSequence_init _ 1 (by omega)] at this
    exact this
  have h2 := seedIter_eq 5489#32 397 0
  rw [Nat.zero_add] at h2
  rw [h, ← h2]
  decide +kernel

/-- Hypotheses of the array version are met: such a sequence exists for every nonempty key. -/
theorem C08_array_spec_inhabited (key : List (BitVec 32)) (hk : key ≠ []) (hl : key.length < 2 ^ 32) :
    ∃ x, IsMTSequence x ∧ IsArraySeeded key x := by
  obtain ⟨st, e, h0, hw⟩ := seedArray_words ⟨fun _ => 0, 0⟩ key hk hl
  refine ⟨mtSequence fun k => if h : k < 624 then st ⟨k, h⟩ else 0, mtSequence_isMT _, ?_, ?_⟩
  · rw [mtSequence_init _ _ (by omega)]; simpa using h0
  · intro t h1 h2
    rw [mtSequence_init _ _ (by omega)]
    simpa [show 1 + t % 623 < 624 by omega] using hw t h1 h2 (by omega)

/-! ## C09 -/

/-- One call on a generator. -/
inductive GenOp where
  | seed (s : BitVec 32)
  /-- nonempty array, its length passed as `uint32` -/
  | seedArray (key : List (BitVec 32)) (hk : key ≠ []) (hl : key.length < 2 ^ 32)
  | randInt
  | randIntN (n : BitVec 32) (rounds : Nat)
  /-- `load` from any stream, good or bad: it can leave any words in the table and the index -/
  | load (g : MTRand)

def genStep (g : MTRand) : GenOp → Option MTRand
  | .seed s => MT.seed g s
  | .seedArray key _ _ => MT.seedArray g key
  | .randInt => (MT.randInt g).map Prod.snd
  | .randIntN n r => (MT.randIntN n r g).map Prod.snd
  | .load g' => some g'

/-- C09. Whatever the initial table and whatever the history of calls, no access leaves the table
(the run never becomes `none`). -/
theorem C09_no_out_of_bounds (ops : List GenOp) (g : MTRand) :
    ∃ g', ops.foldlM genStep g = some g' := by
  have step : ∀ g o, ∃ g', genStep g o = some g' := by
    intro g o
    cases o with
    | seed s => exact ⟨_, seed_eq g s⟩
    | seedArray key hk hl =>
      obtain ⟨g', e, _⟩ := seedArray_ok g key hk hl
      exact ⟨g', e⟩
    | randInt =>
      obtain ⟨r, e⟩ := randInt_total g
      exact ⟨r.2, by simp [genStep, e]⟩
    | randIntN n r =>
      have : ∀ r g, ∃ x, MT.randIntN n r g = some x := by
        intro r
        induction r with
        | zero => intro g; exact ⟨_, rfl⟩
        | succ r ih =>
          intro g
          obtain ⟨⟨w, g1⟩, e⟩ := randInt_total g
          simp only [MT.randIntN, e, Option.bind_some]
          split
          · exact ih g1
          · exact ⟨_, rfl⟩
      obtain ⟨x, e⟩ := this r g
      exact ⟨x.2, by simp [genStep, e]⟩
    | load g' => exact ⟨g', rfl⟩
  induction ops generalizing g with
  | nil => exact ⟨g, rfl⟩
  | cons o t ih =>
    obtain ⟨g1, e⟩ := step g o
    obtain ⟨g2, e2⟩ := ih g1
    exact ⟨g2, by simp only [List.foldlM_cons, e]; exact e2⟩

/-- C09. The precondition of array seeding is needed: with an empty array the code reads
`init_vector[0]`, which does not exist. -/
theorem C09_empty_array_reads_outside (g : MTRand) : seedArray g [] = none := by
  unfold seedArray
  rw [seed_eq]
  simp only [Option.bind_some, List.length_nil]
  have : loop (fun _ x => arrayStep1 [] x) 0 (max 624 0)
      ((fun i : Fin 624 => seedWords 19650218 i.val), (1 : Word), (0 : Word)) = none := by
    rw [show max 624 0 = 623 + 1 by rfl, loop]
    unfold arrayStep1
    dsimp only
    rw [rd_nat _ (1 - 1) 0 (by omega) rfl]; simp only [Option.bind_some]
    rw [rd_nat _ 1 1 (by omega) rfl]; simp only [Option.bind_some]
    rw [wr_nat _ 1 _ 1 (by omega) rfl]; simp only [Option.bind_some]
    rfl
  rw [this]; rfl

example : ∃ g', [GenOp.seed 1, .randInt, .seedArray [0x123, 0x234] (by decide) (by decide), .randInt].foldlM
    genStep ⟨fun _ => 0, 0⟩ = some g' := C09_no_out_of_bounds _ _

/-! ## C10 -/

/-- C10. Write a generator as text with any formatter that prints numbers in decimal, follow it by any
text that does not begin with a digit, and read it back: the generator read equals the one written,
the rest of the text is left, and hence all future output is the same. -/
theorem C10_save_load (fmt : Nat → List Char) (hf : ∀ n, IsDecimal n (fmt n)) (g : MTRand)
    (rest : List Char) (hrest : ∀ c, rest.head? = some c → ¬ ('0' ≤ c ∧ c ≤ '9')) :
    ∃ g', load (save fmt g ++ rest) = some (g', rest) ∧ g' = g ∧ ∀ k, draws k g' = draws k g := by
  refine ⟨g, load_save fmt hf g rest ?_, rfl, fun _ => rfl⟩
  intro c hc
  have := hrest c hc
  simp only [isDigit, Bool.and_eq_false_iff, decide_eq_false_iff_not]
  by_contra h
  simp only [not_or, not_not] at h
  exact this h

/-- The library's own integer formatter is such a formatter. -/
example : ∃ g', load (save IntToString.numeral ⟨fun i => BitVec.ofNat 32 (i.val * 7), 5⟩ ++ []) =
    some (g', []) ∧ g' = ⟨fun i => BitVec.ofNat 32 (i.val * 7), 5⟩ ∧
    ∀ k, draws k g' = draws k ⟨fun i => BitVec.ofNat 32 (i.val * 7), 5⟩ :=
  C10_save_load _ IntToString.numeral_isDecimal _ [] (by simp)

/-! ## C11 -/

/-- C11. When `randInt(n)` returns, its value is at most `n`. -/
theorem C11_in_range (n : BitVec 32) (fuel : Nat) (g g' : MTRand) (r : BitVec 32)
    (h : randIntN n fuel g = some (some r, g')) : r ≤ n := by
  induction fuel generalizing g with
  | zero => simp [randIntN] at h
  | succ k ih =>
    simp only [randIntN, Option.bind_eq_some_iff] at h
    obtain ⟨⟨w, g1⟩, e1, h⟩ := h
    dsimp only at h
    split at h
    · exact ih g1 h
    · rename_i hn
      simp at h
      rw [← h.1]
      simpa using hn

/-- C11. `randInt(n)` uses the words the generator draws, in order. -/
theorem C11_uses_draws (n : BitVec 32) (k : Nat) (g g' : MTRand) (ws : List (BitVec 32))
    (h : draws k g = some (ws, g')) :
    ∃ g'', randIntN n k g = some ((randIntFrom n ws).map Prod.fst, g'') :=
  randIntN_draws n k g g' ws h

/-- C11. Unbiased, one word: every result `v ≤ n` is produced by the same number of 32-bit words. -/
theorem C11_unbiased_word (n v v' : BitVec 32) (hv : v ≤ n) (hv' : v' ≤ n) :
    (Finset.univ.filter fun w : Fin (2 ^ 32) =>
        (randIntFrom n [BitVec.ofFin w]).map Prod.fst = some v).card =
    (Finset.univ.filter fun w : Fin (2 ^ 32) =>
        (randIntFrom n [BitVec.ofFin w]).map Prod.fst = some v').card := by
  have ev := and_smear_of_le n v hv
  have ev' := and_smear_of_le n v' hv'
  have key := fun ws => randIntFrom_swap n v v' hv hv' ws
  have swap_some : ∀ (o : Option (Word × List Word)) ,
      (o.map Prod.fst = some v → o.map (fun r => if r.1 = v then v' else if r.1 = v' then v else r.1) = some v') ∧
      (o.map Prod.fst = some v' → o.map (fun r => if r.1 = v then v' else if r.1 = v' then v else r.1) = some v) := by
    intro o
    cases o with
    | none => simp
    | some r =>
      simp only [Option.map_some, Option.some.injEq]
      constructor
      · intro h; simp [h]
      · intro h
        by_cases hvv : v' = v
        · simp [h, hvv]
        · simp [h, hvv]
  refine Finset.card_bij' (fun w _ => (swapRes (smear n) v v' (BitVec.ofFin w)).toFin)
    (fun w _ => (swapRes (smear n) v v' (BitVec.ofFin w)).toFin) ?_ ?_ ?_ ?_
  · intro w hw
    simp only [Finset.mem_filter, Finset.mem_univ, true_and] at hw ⊢
    have := key [BitVec.ofFin w]
    simp only [List.map_cons, List.map_nil] at this
    rw [show BitVec.ofFin (swapRes (smear n) v v' (BitVec.ofFin w)).toFin =
      swapRes (smear n) v v' (BitVec.ofFin w) from rfl, this]
    exact (swap_some _).1 hw
  · intro w hw
    simp only [Finset.mem_filter, Finset.mem_univ, true_and] at hw ⊢
    have := key [BitVec.ofFin w]
    simp only [List.map_cons, List.map_nil] at this
    rw [show BitVec.ofFin (swapRes (smear n) v v' (BitVec.ofFin w)).toFin =
      swapRes (smear n) v v' (BitVec.ofFin w) from rfl, this]
    exact (swap_some _).2 hw
  · intro w _
    have := swapRes_invol (smear n) v v' (BitVec.ofFin w) ev ev'
    exact congrArg BitVec.toFin this
  · intro w _
    have := swapRes_invol (smear n) v v' (BitVec.ofFin w) ev ev'
    exact congrArg BitVec.toFin this

/-- C11. Unbiased over streams, with the rejection loop: among all sequences of `k` generator words,
as many lead to the result `v` as to any other `v' ≤ n`. -/
theorem C11_unbiased_stream (n v v' : BitVec 32) (hv : v ≤ n) (hv' : v' ≤ n) (k : Nat) :
    (Finset.univ.filter fun ws : Fin k → Fin (2 ^ 32) =>
        (randIntFrom n (List.ofFn fun i => BitVec.ofFin (ws i))).map Prod.fst = some v).card =
    (Finset.univ.filter fun ws : Fin k → Fin (2 ^ 32) =>
        (randIntFrom n (List.ofFn fun i => BitVec.ofFin (ws i))).map Prod.fst = some v').card := by
  have ev := and_smear_of_le n v hv
  have ev' := and_smear_of_le n v' hv'
  have key : ∀ ws : Fin k → Fin (2 ^ 32),
      (randIntFrom n (List.ofFn fun i => swapRes (smear n) v v' (BitVec.ofFin (ws i)))).map Prod.fst =
      (randIntFrom n (List.ofFn fun i => BitVec.ofFin (ws i))).map
        (fun r => if r.1 = v then v' else if r.1 = v' then v else r.1) := by
    intro ws
    have := randIntFrom_swap n v v' hv hv' (List.ofFn fun i => BitVec.ofFin (ws i))
    rwa [List.map_ofFn] at this
  have swap_some : ∀ (o : Option (Word × List Word)) ,
      (o.map Prod.fst = some v → o.map (fun r => if r.1 = v then v' else if r.1 = v' then v else r.1) = some v') ∧
      (o.map Prod.fst = some v' → o.map (fun r => if r.1 = v then v' else if r.1 = v' then v else r.1) = some v) := by
    intro o
    cases o with
    | none => simp
    | some r =>
      simp only [Option.map_some, Option.some.injEq]
      constructor
      · intro h; simp [h]
      · intro h
        by_cases hvv : v' = v
        · simp [h, hvv]
        · simp [h, hvv]
  refine Finset.card_bij' (fun ws _ => fun i => (swapRes (smear n) v v' (BitVec.ofFin (ws i))).toFin)
    (fun ws _ => fun i => (swapRes (smear n) v v' (BitVec.ofFin (ws i))).toFin) ?_ ?_ ?_ ?_
  · intro w hw
    simp only [Finset.mem_filter, Finset.mem_univ, true_and] at hw ⊢
    exact (key w).trans ((swap_some _).1 hw)
  · intro w hw
    simp only [Finset.mem_filter, Finset.mem_univ, true_and] at hw ⊢
    exact (key w).trans ((swap_some _).2 hw)
  · intro w _
    funext i
    exact congrArg BitVec.toFin (swapRes_invol (smear n) v v' (BitVec.ofFin (w i)) ev ev')
  · intro w _
    funext i
    exact congrArg BitVec.toFin (swapRes_invol (smear n) v v' (BitVec.ofFin (w i)) ev ev')

/-- C11. Every value up to `n` can occur, and the mask is the least all-ones word covering `n`, so more
than half of all masked values are accepted (the expected number of draws is below two). -/
theorem C11_mask (n : BitVec 32) :
    (∃ k, (smear n).toNat = 2 ^ k - 1) ∧ n.toNat ≤ (smear n).toNat ∧
    (smear n).toNat < 2 * (n.toNat + 1) ∧
    ∀ v, v ≤ n → (randIntFrom n [v]).map Prod.fst = some v := by
  have h := smear_toNat n
  have hlt := Nat.lt_size_self n.toNat
  refine ⟨⟨_, h⟩, by omega, ?_, ?_⟩
  · by_cases h0 : n.toNat = 0
    · rw [h, h0]; simp
    · have hs : 0 < n.toNat.size := Nat.size_pos.2 (by omega)
      have h1 : 2 ^ (n.toNat.size - 1) ≤ n.toNat := Nat.lt_size.1 (by omega)
      have h2 : 2 ^ n.toNat.size = 2 * 2 ^ (n.toNat.size - 1) := by
        rw [← Nat.pow_succ']; congr 1; omega
      rw [h]; omega
  · intro v hv
    have hm := and_smear_of_le n v hv
    have : ¬ (v > n) := by simpa using hv
    simp [randIntFrom, hm, this]

example : (randIntFrom 5#32 [0xffffffff#32, 0x1006#32, 0x100b#32]).map Prod.fst = some 3#32 := by decide

/-! ## C12 -/

/-- C12. `rand()` lies in `[0,1]`, is strictly increasing in the underlying word, and the extreme words
give exactly 0 and 1; `rand(m)` lies in `[0,m]` for `m ≥ 0`. -/
theorem C12_rand_interval (w w' : BitVec 32) (m : ℝ) (hm : 0 ≤ m) :
    0 ≤ rand w ∧ rand w ≤ 1 ∧ (w < w' → rand w < rand w') ∧
    0 ≤ randMax w m ∧ randMax w m ≤ m ∧
    rand 0#32 = 0 ∧ rand 0xffffffff#32 = 1 ∧ randMax 0xffffffff#32 m = m := by
  have hw : w.toNat ≤ 4294967295 := by have := w.isLt; omega
  have hw' : (w.toNat : ℝ) ≤ 4294967295 := by exact_mod_cast hw
  have h0 : 0 ≤ rand w := by unfold rand; positivity
  have h1 : rand w ≤ 1 := by unfold rand; rw [mul_one_div, div_le_one (by norm_num)]; exact hw'
  have htop : rand 0xffffffff#32 = 1 := by
    unfold rand
    rw [show (0xffffffff#32 : BitVec 32).toNat = 4294967295 by decide]
    norm_num
  refine ⟨h0, h1, ?_, mul_nonneg h0 hm, mul_le_of_le_one_left hm h1, by simp [rand], htop, ?_⟩
  · intro h
    have h' : w.toNat < w'.toNat := h
    have : (w.toNat : ℝ) < w'.toNat := by exact_mod_cast h'
    unfold rand
    apply mul_lt_mul_of_pos_right this (by norm_num)
  · unfold randMax; rw [htop, one_mul]

example : rand 0x80000000#32 > 1 / 2 := by
  unfold rand
  rw [show (0x80000000#32 : BitVec 32).toNat = 2147483648 by decide]
  norm_num

/-! ## C13 -/
open Shuffle in
/-- C13. Whatever numbers the generator returns (within its contract), no index leaves the vector and
the result is a rearrangement of the input. -/
theorem C13_permutation {n : Nat} {α : Type} (rnd : Nat → Nat) (hr : ValidChoices n rnd)
    (v : Fin n → α) : ∃ σ : Equiv.Perm (Fin n), shuffle rnd v = some (v ∘ σ) := by
  unfold shuffle
  split
  · exact ⟨1, rfl⟩
  · exact ⟨_, shuffleLoop_eq rnd n (le_refl _)
      (fun p hp hp' => le_trans (hr p hp hp') (Nat.mod_le _ _)) v⟩

open Shuffle in
/-- C13. Fair: for a vector of at most `2^32` elements every permutation of the positions is produced by
exactly one sequence of choices `rnd 1, ..., rnd (n-1)` (each `rnd p` one of the `p+1` numbers
`0..p`). -/
theorem C13_fair (n : Nat) (hn : n ≤ 2 ^ 32) (σ : Equiv.Perm (Fin n)) :
    ∃ rnd, ValidChoices n rnd ∧ (∀ (α : Type) (v : Fin n → α), shuffle rnd v = some (v ∘ σ)) ∧
      ∀ rnd', ValidChoices n rnd' → (∀ (α : Type) (v : Fin n → α), shuffle rnd' v = some (v ∘ σ)) →
        ∀ p, 0 < p → p < n → rnd' p = rnd p := by
  obtain ⟨r, h1, h2⟩ := loopPerm_surj n (le_refl n) σ (fun i hi => by omega)
  have sh : ∀ r' : Nat → Nat, (∀ p, 0 < p → p < n → r' p ≤ p) → ∀ (α : Type) (v : Fin n → α),
      shuffle r' v = some (v ∘ loopPerm r' n) := by
    intro r' hr' α v
    unfold shuffle
    split
    · rename_i h0; subst h0; rfl
    · exact shuffleLoop_eq r' n (le_refl _) hr' v
  refine ⟨r, fun p hp hp' => ?_, fun α v => by rw [sh r h1, h2], ?_⟩
  · rw [Nat.mod_eq_of_lt (by omega)]; exact h1 p hp hp'
  · intro r' hv' heq p hp hp'
    have hr' : ∀ p, 0 < p → p < n → r' p ≤ p := fun p hp hp' => le_trans (hv' p hp hp') (Nat.mod_le _ _)
    refine loopPerm_inj r' r n (le_refl _) hr' h1 ?_ p hp hp'
    have e := heq (Fin n) id
    rw [sh r' hr'] at e
    rw [h2]
    ext i
    have := congrFun (Option.some.inj e) i
    exact congrArg Fin.val this

open Shuffle in
/-- C13. Above `2^32` elements fairness is lost: the position is truncated to 32 bits, so position
`2^32` is always exchanged with position 0 and the identity is never produced. -/
theorem C13_unfair_above_uint32 (n : Nat) (hn : 2 ^ 32 < n) :
    ¬ ∃ rnd, ValidChoices n rnd ∧ ∀ v : Fin n → Fin n, shuffle rnd v = some v := by
  rintro ⟨r, hv, he⟩
  have hr : ∀ p, 0 < p → p < n → r p ≤ p := fun p hp hp' => le_trans (hv p hp hp') (Nat.mod_le _ _)
  have e := he id
  unfold shuffle at e
  rw [if_neg (by omega), shuffleLoop_eq r n (le_refl _) hr] at e
  have hid : (loopPerm r n : Equiv.Perm (Fin n)) = 1 := by
    ext i; exact congrArg Fin.val (congrFun (Option.some.inj e) i)
  -- the identity forces the choice `p` at every position `p`
  have hone : (loopPerm (fun p => p) n : Equiv.Perm (Fin n)) = 1 := by
    have : ∀ m, m ≤ n → (loopPerm (fun p => p) m : Equiv.Perm (Fin n)) = 1 := by
      intro m
      induction m with
      | zero => intro _; rfl
      | succ m ih =>
        intro hm
        cases m with
        | zero => rfl
        | succ m => rw [loopPerm, dif_pos ⟨by omega, by omega⟩, ih (by omega), Equiv.swap_self]; rfl
    exact this n (le_refl _)
  have := loopPerm_inj r (fun p => p) n (le_refl _) hr (fun p _ _ => le_refl _) (hid.trans hone.symm)
    (2 ^ 32) (by decide) hn
  have h2 := hv (2 ^ 32) (by decide) hn
  rw [this, Nat.mod_self] at h2
  exact absurd h2 (by decide)

open Shuffle in
example : ValidChoices 3 (fun p => p - 1) ∧
    shuffle (fun p => p - 1) (fun i : Fin 3 => i.val) = some (fun i => [2, 0, 1][i.val]) := by
  constructor
  · intro p h1 h2; simp only; try omega
  · have h := shuffleLoop_eq (n := 3) (fun p => p - 1) 3 (le_refl _) (fun p _ _ => Nat.sub_le _ _)
      (fun i : Fin 3 => i.val)
    unfold shuffle
    rw [if_neg (by decide), h]
    congr 1; funext i; revert i; decide

end WFMath
