/- Property theorems C127: different seeds give different streams, 624 results determine the rest, the generator never dies out. -/
import Verif.Props.Random

namespace WFMath
open Spec MT

namespace MT

theorem shr_inj {k : Nat} (hk : 0 < k) {y z : Word} (h : y ^^^ (y >>> k) = z ^^^ (z >>> k)) : y = z := by
  have key : ∀ j i, i + j = 31 → y.getLsbD i = z.getLsbD i := by
    intro j
    induction j using Nat.strong_induction_on with
    | _ j ih =>
      intro i hij
      have hb := congrArg (fun w => w.getLsbD i) h
      simp only [BitVec.getLsbD_xor, BitVec.getLsbD_ushiftRight] at hb
      by_cases hi : k + i < 32
      · rw [ih (31 - (k + i)) (by omega) (k + i) (by omega)] at hb
        simpa using hb
      · rw [BitVec.getLsbD_of_ge y (k + i) (by omega), BitVec.getLsbD_of_ge z (k + i) (by omega)] at hb
        simpa using hb
  exact BitVec.eq_of_getLsbD_eq fun i hi => key (31 - i) i (by omega)

theorem shl_inj {k : Nat} (hk : 0 < k) (m : Word) {y z : Word} (h : y ^^^ ((y <<< k) &&& m) = z ^^^ ((z <<< k) &&& m)) : y = z := by
  have key : ∀ i, i < 32 → y.getLsbD i = z.getLsbD i := by
    intro i
    induction i using Nat.strong_induction_on with
    | _ i ih =>
      intro hi
      have hb := congrArg (fun w => w.getLsbD i) h
      simp only [BitVec.getLsbD_xor, BitVec.getLsbD_and, BitVec.getLsbD_shiftLeft] at hb
      by_cases hik : i < k
      · simpa [hik] using hb
      · rw [ih (i - k) (by omega) (by omega)] at hb
        simpa using hb
  exact BitVec.eq_of_getLsbD_eq fun i hi => key i hi

theorem temper_inj {y z : Word} (h : temper y = temper z) : y = z :=
  shr_inj (by decide) (shl_inj (by decide) _ (shl_inj (by decide) _ (shr_inj (by decide) h)))

theorem twist_inj {y z : Word} (h : twistA y = twistA z) : y = z := by
  have hbit : ∀ w : Word, ∀ i, i < 32 → (twistA w).getLsbD i = (w.getLsbD (1 + i) ^^ (w.getLsbD 0 && (0x9908b0df#32).getLsbD i)) := by
    intro w i hi
    unfold twistA
    split <;> rename_i h0
    · rw [BitVec.getLsbD_xor, BitVec.getLsbD_ushiftRight, h0, Bool.true_and]
    · rw [Bool.not_eq_true] at h0
      rw [BitVec.getLsbD_ushiftRight, h0, Bool.false_and, Bool.xor_false]
  have h0 : y.getLsbD 0 = z.getLsbD 0 := by
    have := congrArg (fun w => w.getLsbD 31) h
    simp only [hbit _ 31 (by omega)] at this
    rw [BitVec.getLsbD_of_ge y _ (by omega), BitVec.getLsbD_of_ge z _ (by omega)] at this
    simpa using this
  refine BitVec.eq_of_getLsbD_eq fun i hi => ?_
  rcases Nat.eq_zero_or_pos i with rfl | hp
  · exact h0
  · have := congrArg (fun w => w.getLsbD (i - 1)) h
    simp only [hbit _ (i - 1) (by omega), h0, show 1 + (i - 1) = i by omega] at this
    simpa using this

theorem join_bit (a b : Word) (i : Nat) (hi : i < 32) : (joinUL a b).getLsbD i = if i = 31 then a.getLsbD 31 else b.getLsbD i := by
  have h1 : ∀ i, i < 32 → (0x80000000#32).getLsbD i = decide (i = 31) := by decide
  have h2 : ∀ i, i < 32 → (0x7fffffff#32).getLsbD i = !decide (i = 31) := by decide
  unfold joinUL
  rw [BitVec.getLsbD_or, BitVec.getLsbD_and, BitVec.getLsbD_and, h1 i hi, h2 i hi]
  by_cases h : i = 31
  · subst h; simp
  · simp [h]

theorem join_inj {a b a' b' : Word} (h : joinUL a b = joinUL a' b') : a.getLsbD 31 = a'.getLsbD 31 ∧ ∀ i, i < 31 → b.getLsbD i = b'.getLsbD i := by
  constructor
  · have := congrArg (fun w => w.getLsbD 31) h
    simpa only [join_bit _ _ 31 (by omega), if_true] using this
  · intro i hi
    have := congrArg (fun w => w.getLsbD i) h
    simp only [join_bit _ _ i (by omega), if_neg (show i ≠ 31 by omega)] at this
    exact this

/-- What the words after `k` say about words `k` and `k + 1`. -/
theorem back_join {x x' : Nat → Word} (hx : IsMTSequence x) (hx' : IsMTSequence x') {k : Nat} (h1 : x (k + 624) = x' (k + 624)) (h2 : x (k + 397) = x' (k + 397)) :
    (x k).getLsbD 31 = (x' k).getLsbD 31 ∧ ∀ i, i < 31 → (x (k + 1)).getLsbD i = (x' (k + 1)).getLsbD i := by
  refine join_inj (twist_inj ?_)
  have := h1
  rw [hx, hx', h2] at this
  exact (BitVec.xor_right_inj _).1 this

/-- The sequence can be run backwards. -/
theorem back_step {x x' : Nat → Word} (hx : IsMTSequence x) (hx' : IsMTSequence x') {k : Nat} (h : ∀ i, k + 1 < i → i ≤ k + 1 + 624 → x i = x' i) :
    x (k + 1) = x' (k + 1) := by
  have a := (back_join hx hx' (h (k + 1 + 624) (by omega) (by omega)) (h (k + 1 + 397) (by omega) (by omega))).1
  have b := (back_join hx hx' (k := k) (h (k + 624) (by omega) (by omega)) (h (k + 397) (by omega) (by omega))).2
  refine BitVec.eq_of_getLsbD_eq fun i hi => ?_
  by_cases h31 : i = 31
  · rw [h31]; exact a
  · exact b i (by omega)

theorem fore_step {x x' : Nat → Word} (hx : IsMTSequence x) (hx' : IsMTSequence x') {k : Nat} (h : ∀ i, k ≤ i → i < k + 624 → x i = x' i) : x (k + 624) = x' (k + 624) := by
  rw [hx, hx', h (k + 397) (by omega) (by omega), h k (by omega) (by omega), h (k + 1) (by omega) (by omega)]

/-- Sequences with 624 consecutive words in common are equal, but for the 31 lowest bits of the first word, which are never used. -/
theorem window {x x' : Nat → Word} (hx : IsMTSequence x) (hx' : IsMTSequence x') {k : Nat} (h : ∀ i, k ≤ i → i < k + 624 → x i = x' i) :
    (∀ i, 0 < i → x i = x' i) ∧ (x 0).getLsbD 31 = (x' 0).getLsbD 31 := by
  have fore : ∀ i, k ≤ i → x i = x' i := by
    intro i
    induction i using Nat.strong_induction_on with
    | _ i ih =>
      intro hi
      by_cases hlt : i < k + 624
      · exact h i hi hlt
      · have := fore_step hx hx' (k := i - 624) fun j h1 h2 => ih j (by omega) (by omega)
        rwa [show i - 624 + 624 = i by omega] at this
  have all : ∀ i, 0 < i → x i = x' i := by
    have : ∀ d i, 0 < i → k ≤ i + d → x i = x' i := by
      intro d
      induction d with
      | zero => intro i _ hi; exact fore i (by omega)
      | succ d ih =>
        intro i h0 hi
        have := back_step hx hx' (k := i - 1) fun j h1 _ => ih j (by omega) (by omega)
        rwa [show i - 1 + 1 = i by omega] at this
    intro i h0; exact this k i h0 (by omega)
  exact ⟨all, (back_join hx hx' (all _ (by omega)) (all _ (by omega))).1⟩

theorem seed_inj {s s' : Word} (h : seedWords s 1 = seedWords s' 1) : s = s' := by
  simp only [seedWords, BitVec.add_left_inj] at h
  have := congrArg (fun w => 2520285293#32 * w) h
  simp only [← BitVec.mul_assoc, show 2520285293#32 * 1812433253#32 = 1#32 by decide, BitVec.one_mul] at this
  exact shr_inj (by decide) this

/-- Every generator, whatever its table and index, continues some sequence. -/
theorem runs_any (g : MTRand) : ∃ x p, IsMTSequence x ∧ ∀ k, ∃ g', draws k g = some (List.ofFn (fun i : Fin k => temper (x (p + i.val))), g') := by
  by_cases h : g.index.toNat ≤ 624
  · refine ⟨mtSequence fun k => if h : k < 624 then g.state ⟨k, h⟩ else 0, g.index.toNat, mtSequence_isMT _, fun k => ?_⟩
    obtain ⟨g', e, _⟩ := draws_pos _ (mtSequence_isMT _) k _ _ (pos_any g h)
    exact ⟨g', e⟩
  · have hge : g.index ≥ 624 := by show (624 : Word).toNat ≤ _; rw [show (624 : Word).toNat = 624 from rfl]; omega
    have e0 : randInt g = randInt ⟨g.state, 624⟩ := by
      unfold randInt
      rw [if_pos hge, if_pos (show (624 : Word) ≥ 624 by decide)]
    refine ⟨mtSequence fun k => if h : k < 624 then g.state ⟨k, h⟩ else 0, 624, mtSequence_isMT _, fun k => ?_⟩
    obtain ⟨g', e, _⟩ := draws_pos _ (mtSequence_isMT _) k _ _ (pos_any ⟨g.state, 624⟩ (le_refl _))
    cases k with
    | zero => exact ⟨g, by simp [draws]⟩
    | succ k => exact ⟨g', by rw [show draws (k + 1) g = draws (k + 1) ⟨g.state, 624⟩ by simp only [draws, e0], e]; rfl⟩

theorem ofFn_window {x x' : Nat → Word} {p p' k : Nat} (h : List.ofFn (fun i : Fin k => temper (x (p + i.val))) = List.ofFn fun i : Fin k => temper (x' (p' + i.val))) :
    ∀ i, i < k → x (p + i) = x' (p' + i) := by
  intro i hi
  have := List.ofFn_injective h
  exact temper_inj (congrFun this ⟨i, hi⟩)

theorem shift_mt {x : Nat → Word} (hx : IsMTSequence x) (p : Nat) : IsMTSequence fun k => x (p + k) := fun k => by
  show x (p + (k + 624)) = x (p + (k + 397)) ^^^ twistA (joinUL (x (p + k)) (x (p + (k + 1))))
  rw [← Nat.add_assoc, ← Nat.add_assoc, ← Nat.add_assoc, hx]

theorem some_fst {α β : Type} {a c : α} {b d : β} (h : some (a, b) = some (c, d)) : a = c := by
  rw [Option.some.injEq, Prod.mk.injEq] at h
  exact h.1

theorem zero_mt : IsMTSequence fun _ => 0#32 := fun _ => show 0#32 = 0#32 ^^^ twistA (joinUL 0#32 0#32) by decide

end MT

/-- C127: two generators seeded with different words produce different streams: already the first 624 results differ. -/
theorem C127_seeds (g g' : MTRand) (s s' : BitVec 32) (h : s ≠ s') : ∃ g1 g1' g2 g2' ws ws', MT.seed g s = some g1 ∧ MT.seed g' s' = some g1' ∧
    draws 624 g1 = some (ws, g2) ∧ draws 624 g1' = some (ws', g2') ∧ ws ≠ ws' := by
  obtain ⟨x, ⟨hx, hs⟩, _⟩ := C08_spec_determines s
  obtain ⟨x', ⟨hx', hs'⟩, _⟩ := C08_spec_determines s'
  obtain ⟨g1, g2, e1, e2⟩ := C08_mt19937 g s 624 x hx hs
  obtain ⟨g1', g2', e1', e2'⟩ := C08_mt19937 g' s' 624 x' hx' hs'
  refine ⟨g1, g1', g2, g2', _, _, e1, e1', e2, e2', fun he => h ?_⟩
  have hw := ofFn_window he
  have := (window hx hx' (k := 624) fun i h1 h2 => by have := hw (i - 624) (by omega); rwa [show 624 + (i - 624) = i by omega] at this).1 1 (by omega)
  rw [seeded_unique s x hs 1 (by omega), seeded_unique s' x' hs' 1 (by omega)] at this
  exact seed_inj this

/-- C127: whatever happened to two generators before, if their next 624 results agree then all their results agree. -/
theorem C127_window (g g' : MTRand) (ws : List (BitVec 32)) (h1 h1' : MTRand) (h : draws 624 g = some (ws, h1)) (h' : draws 624 g' = some (ws, h1')) (k : Nat) :
    ∃ us g2 g2', draws k g = some (us, g2) ∧ draws k g' = some (us, g2') := by
  obtain ⟨x, p, hx, hd⟩ := runs_any g
  obtain ⟨x', p', hx', hd'⟩ := runs_any g'
  obtain ⟨a, ea⟩ := hd 624
  obtain ⟨a', ea'⟩ := hd' 624
  rw [h] at ea; rw [h'] at ea'
  have e : List.ofFn (fun i : Fin 624 => temper (x (p + i.val))) = List.ofFn fun i : Fin 624 => temper (x' (p' + i.val)) :=
    (some_fst ea).symm.trans (some_fst ea')
  have hw := ofFn_window e
  have key : ∀ i, x (p + i) = x' (p' + i) := by
    have hs := window (shift_mt hx p) (shift_mt hx' p') (k := 0) fun i _ h2 => hw i (by omega)
    intro i
    rcases Nat.eq_zero_or_pos i with rfl | hi
    · exact hw 0 (by omega)
    · exact hs.1 i hi
  obtain ⟨b, eb⟩ := hd k
  obtain ⟨b', eb'⟩ := hd' k
  have ek : (fun i : Fin k => temper (x' (p' + i.val))) = fun i => temper (x (p + i.val)) := funext fun i => by rw [key]
  exact ⟨_, b, b', eb, by rw [eb', ek]⟩

/-- C127: a generator seeded with a word or with an array never dies out: at any time one of the next 624 results is not 0. -/
theorem C127_alive (g g1 : MTRand) (h : (∃ s, MT.seed g s = some g1) ∨ ∃ key, key ≠ [] ∧ key.length < 2 ^ 32 ∧ MT.seedArray g key = some g1) (k : Nat) :
    ∃ ws us g2, draws (k + 624) g1 = some (ws ++ us, g2) ∧ us.length = 624 ∧ ∃ w ∈ us, w ≠ 0 := by
  have t0 : temper 0#32 = 0 := by decide
  have main : ∀ x, IsMTSequence x → (∃ g2, draws (k + 624) g1 = some (List.ofFn (fun i : Fin (k + 624) => temper (x (624 + i.val))), g2)) →
      ((∀ i, 0 < i → x i = 0#32) → (x 0).getLsbD 31 = false → False) →
      ∃ ws us g2, draws (k + 624) g1 = some (ws ++ us, g2) ∧ us.length = 624 ∧ ∃ w ∈ us, w ≠ 0 := by
    rintro x hx ⟨g2, e⟩ hne
    refine ⟨List.ofFn fun i : Fin k => temper (x (624 + i.val)), List.ofFn fun i : Fin 624 => temper (x (624 + (k + i.val))), g2, ?_, List.length_ofFn, ?_⟩
    · rw [e, List.ofFn_add]; rfl
    · by_contra hc
      push Not at hc
      have hz : ∀ i, 624 + k ≤ i → i < 624 + k + 624 → x i = 0#32 := by
        intro i h1 h2
        have := hc (temper (x (624 + (k + (i - (624 + k)))))) (List.mem_ofFn.2 ⟨⟨i - (624 + k), by omega⟩, rfl⟩)
        rw [show 624 + (k + (i - (624 + k))) = i by omega] at this
        exact temper_inj (this.trans t0.symm)
      obtain ⟨a, b⟩ := window hx zero_mt hz
      exact hne a (by simpa using b)
  rcases h with ⟨s, hs⟩ | ⟨key, hk, hl, hs⟩
  · obtain ⟨x, ⟨hx, hx2⟩, _⟩ := C08_spec_determines s
    obtain ⟨g1', g2, e1, e2⟩ := C08_mt19937 g s (k + 624) x hx hx2
    obtain rfl := Option.some.inj (hs.symm.trans e1)
    refine main x hx ⟨g2, e2⟩ fun ha _ => ?_
    have := hx2.2 1 (by omega)
    rw [ha 1 (by omega), ha (1 + 1) (by omega)] at this
    exact absurd this (by decide)
  · obtain ⟨x, hx, hx2⟩ := C08_array_spec_inhabited key hk hl
    obtain ⟨g1', g2, e1, e2⟩ := C08_mt19937_array g key hk hl (k + 624) x hx hx2
    obtain rfl := Option.some.inj (hs.symm.trans e1)
    refine main x hx ⟨g2, e2⟩ fun _ hb => ?_
    rw [hx2.1] at hb
    exact absurd hb (by decide)

/-- The 31 low bits of the first word of a table are never used: generators that differ in them only give the same results. With `C127_window`: the state of
a generator that is about to make new words is exactly its next 624 results. -/
theorem C127_low_bits (g g' : MTRand) (hi : g.index = 624) (hi' : g'.index = 624) (h0 : (g.state 0).getLsbD 31 = (g'.state 0).getLsbD 31)
    (h : ∀ i : Fin 624, i ≠ 0 → g.state i = g'.state i) (k : Nat) : ∃ us g2 g2', draws k g = some (us, g2) ∧ draws k g' = some (us, g2') := by
  have hd := fun g : MTRand => fun hi : g.index = 624 => draws_pos _ (mtSequence_isMT _) k _ _ (pos_any g (by rw [hi]; exact le_refl _))
  obtain ⟨a, ea, _⟩ := hd g hi
  obtain ⟨a', ea', _⟩ := hd g' hi'
  have i1 : g.index.toNat = 624 := by rw [hi]; rfl
  have i2 : g'.index.toNat = 624 := by rw [hi']; rfl
  rw [i1] at ea
  rw [i2] at ea'
  have hx := mtSequence_isMT fun k => if h : k < 624 then g.state ⟨k, h⟩ else 0
  have hx' := mtSequence_isMT fun k => if h : k < 624 then g'.state ⟨k, h⟩ else 0
  have s0 : ∀ i, 0 < i → i < 624 → mtSequence (fun k => if h : k < 624 then g.state ⟨k, h⟩ else 0) i = mtSequence (fun k => if h : k < 624 then g'.state ⟨k, h⟩ else 0) i := by
    intro i p0 p1
    rw [mtSequence_init _ _ p1, mtSequence_init _ _ p1, dif_pos p1, dif_pos p1]
    exact h ⟨i, p1⟩ (by intro e; rw [Fin.ext_iff] at e; simp at e; omega)
  have t0 : (mtSequence (fun k => if h : k < 624 then g.state ⟨k, h⟩ else 0) 0).getLsbD 31 = (mtSequence (fun k => if h : k < 624 then g'.state ⟨k, h⟩ else 0) 0).getLsbD 31 := by
    rw [mtSequence_init _ _ (by omega), mtSequence_init _ _ (by omega), dif_pos (by omega), dif_pos (by omega)]; exact h0
  generalize mtSequence (fun k => if h : k < 624 then g.state ⟨k, h⟩ else 0) = x at *
  generalize mtSequence (fun k => if h : k < 624 then g'.state ⟨k, h⟩ else 0) = x' at *
  have all : ∀ i, 0 < i → x i = x' i := by
    intro i
    induction i using Nat.strong_induction_on with
    | _ i ih =>
      intro p0
      by_cases p1 : i < 624
      · exact s0 i p0 p1
      · obtain ⟨j, rfl⟩ : ∃ j, i = j + 624 := ⟨i - 624, by omega⟩
        rw [hx, hx', ih (j + 397) (by omega) (by omega), show joinUL (x j) (x (j + 1)) = joinUL (x' j) (x' (j + 1)) from ?_]
        refine BitVec.eq_of_getLsbD_eq fun b hb => ?_
        rw [join_bit _ _ b hb, join_bit _ _ b hb, ih (j + 1) (by omega) (by omega)]
        rcases Nat.eq_zero_or_pos j with rfl | hj
        · rw [t0]
        · rw [ih j (by omega) hj]
  have ek : (fun i : Fin k => temper (x' (624 + i.val))) = fun i => temper (x (624 + i.val)) := funext fun i => by rw [all _ (by omega)]
  exact ⟨_, a, a', ea, by rw [ea', ek]⟩

/-- Two generators with different tables that satisfy the hypotheses of `C127_low_bits`. -/
example : ∃ g g' : MTRand, g.state ≠ g'.state ∧ g.index = 624 ∧ g'.index = 624 ∧ (g.state 0).getLsbD 31 = (g'.state 0).getLsbD 31 ∧
    ∀ i : Fin 624, i ≠ 0 → g.state i = g'.state i :=
  ⟨⟨fun i => BitVec.ofNat 32 i.val, 624⟩, ⟨fun i => if i = 0 then 5 else BitVec.ofNat 32 i.val, 624⟩, fun h => absurd (congrFun h 0) (by simp), rfl, rfl, by simp,
    fun i hi => by simp [hi]⟩

/-! ## C128 -/

namespace MT

theorem fillVector_eq (i pos : Nat) (hip : i + pos = 624) (src : List Word) (buf : Fin 624 → Word) :
    (i ≤ src.length → ∃ b, fillVector i pos src buf = some (true, b) ∧ ∀ j : Fin 624, b j = if pos ≤ j.val then src.getD (j.val - pos) 0 else buf j) ∧
    (src.length < i → ∃ b, fillVector i pos src buf = some (false, b)) := by
  induction i generalizing pos src buf with
  | zero => exact ⟨fun _ => ⟨buf, rfl, fun j => by rw [if_neg (by omega)]⟩, fun h => absurd h (by omega)⟩
  | succ i ih =>
    have hp : pos < 624 := by omega
    rw [fillVector, dif_pos hp]
    cases src with
    | nil => exact ⟨fun h => absurd h (by simp), fun _ => ⟨buf, rfl⟩⟩
    | cons w src =>
      obtain ⟨i1, i2⟩ := ih (pos + 1) (by omega) src (Function.update buf ⟨pos, hp⟩ w)
      refine ⟨fun h => ?_, fun h => i2 (by simpa using h)⟩
      obtain ⟨b, eb, hb⟩ := i1 (by simpa using h)
      refine ⟨b, eb, fun j => ?_⟩
      rw [hb j]
      rcases lt_trichotomy j.val pos with hl | he | hg
      · rw [if_neg (by omega), if_neg (by omega), Function.update_of_ne]
        intro e; rw [Fin.ext_iff] at e; simp at e; omega
      · rw [if_neg (by omega), if_pos (by omega)]
        obtain rfl : j = ⟨pos, hp⟩ := Fin.ext he
        simp
      · rw [if_pos (by omega), if_pos (by omega), show j.val - pos = (j.val - (pos + 1)) + 1 by omega, List.getD_cons_succ]

end MT

/-- C128: when `/dev/urandom` gives 624 words or more, `seed()` is `seed` with the first 624 of them; otherwise it is `seed` with the hash of the time, the
clock and the number of such calls before. Whatever was in memory. -/
theorem C128_seed (g : MTRand) (differ : BitVec 32) (urandom : Option (List (BitVec 32))) (t c : List (BitVec 8)) (buf : Fin 624 → BitVec 32) :
    (∀ src, urandom = some src → 624 ≤ src.length → ∃ g1, MT.seedArray g (src.take 624) = some g1 ∧ seedDefault g differ urandom t c buf = some (g1, differ)) ∧
    ((∀ src, urandom = some src → src.length < 624) → ∃ g1, MT.seed g ((hashBytes t + differ) ^^^ hashBytes c) = some g1 ∧
      seedDefault g differ urandom t c buf = some (g1, differ + 1)) := by
  constructor
  · rintro src rfl hl
    obtain ⟨b, eb, hb⟩ := (fillVector_eq 624 0 rfl src buf).1 hl
    have e : List.ofFn b = src.take 624 := by
      refine List.ext_getElem (by rw [List.length_ofFn, List.length_take]; omega) fun i h1 h2 => ?_
      rw [List.getElem_ofFn, hb, if_pos (Nat.zero_le _), List.getElem_take, List.getD_eq_getElem?_getD]
      rw [List.length_ofFn] at h1
      simp [List.getElem?_eq_getElem (show i < src.length by omega)]
    have hne : src.take 624 ≠ [] := fun h => by
      have := congrArg List.length h
      rw [List.length_take, List.length_nil] at this; omega
    obtain ⟨st, es, _⟩ := seedArray_words g (src.take 624) hne (by rw [List.length_take]; omega)
    exact ⟨_, es, by simp only [seedDefault, eb, Option.bind_some, if_true, e, es, Option.map_some]⟩
  · intro h
    refine ⟨_, seed_eq g _, ?_⟩
    cases urandom with
    | none => simp only [seedDefault, MT.hash, seed_eq, Option.map_some]
    | some src =>
      obtain ⟨b, eb⟩ := (fillVector_eq 624 0 rfl src buf).2 (h src rfl)
      simp only [seedDefault, eb, Option.bind_some, Bool.false_eq_true, if_false, MT.hash, seed_eq, Option.map_some]

/-- C128: after `seed()` the generator works, whatever the file, the time and the clock: it never reads outside its table and never dies out. -/
theorem C128_works (g : MTRand) (differ : BitVec 32) (urandom : Option (List (BitVec 32))) (t c : List (BitVec 8)) (buf : Fin 624 → BitVec 32) :
    ∃ g1 d, seedDefault g differ urandom t c buf = some (g1, d) ∧ ∀ k, ∃ ws us g2, draws (k + 624) g1 = some (ws ++ us, g2) ∧ us.length = 624 ∧ ∃ w ∈ us, w ≠ 0 := by
  obtain ⟨h1, h2⟩ := C128_seed g differ urandom t c buf
  by_cases h : ∃ src, urandom = some src ∧ 624 ≤ src.length
  · obtain ⟨src, hs, hl⟩ := h
    obtain ⟨g1, e1, e2⟩ := h1 src hs hl
    refine ⟨g1, differ, e2, C127_alive g g1 (Or.inr ⟨src.take 624, ?_, ?_, e1⟩)⟩
    · intro h
      have := congrArg List.length h
      rw [List.length_take, List.length_nil] at this; omega
    · rw [List.length_take]; omega
  · push Not at h
    obtain ⟨g1, e1, e2⟩ := h2 h
    exact ⟨g1, _, e2, C127_alive g g1 (Or.inl ⟨_, e1⟩)⟩

/-- C128: calls of `seed()` that cannot use the file and happen at the same time and clock give different streams, as long as there are less than 2^32 such
calls between them: `a` and `b` are the numbers of such calls before. -/
theorem C128_changes (g g' : MTRand) (t c : List (BitVec 8)) (buf buf' : Fin 624 → BitVec 32) (a b : Nat) (hab : a < b) (hb : b < a + 2 ^ 32) :
    ∃ g1 g1' d d' ws ws' g2 g2', seedDefault g (BitVec.ofNat 32 a) none t c buf = some (g1, d) ∧ seedDefault g' (BitVec.ofNat 32 b) none t c buf' = some (g1', d') ∧
      d = BitVec.ofNat 32 (a + 1) ∧ draws 624 g1 = some (ws, g2) ∧ draws 624 g1' = some (ws', g2') ∧ ws ≠ ws' := by
  have hne : (hashBytes t + BitVec.ofNat 32 a) ^^^ hashBytes c ≠ (hashBytes t + BitVec.ofNat 32 b) ^^^ hashBytes c := by
    intro h
    have h1 := (BitVec.xor_left_inj _).1 h
    have h2 := (BitVec.add_right_inj _).1 h1
    have h3 := congrArg BitVec.toNat h2
    rw [BitVec.toNat_ofNat, BitVec.toNat_ofNat] at h3
    omega
  obtain ⟨g1, e1, e2⟩ := (C128_seed g (BitVec.ofNat 32 a) none t c buf).2 (by simp)
  obtain ⟨g1', e1', e2'⟩ := (C128_seed g' (BitVec.ofNat 32 b) none t c buf').2 (by simp)
  obtain ⟨k1, k1', g2, g2', ws, ws', f1, f2, f3, f4, f5⟩ := C127_seeds g g' _ _ hne
  obtain rfl := Option.some.inj (f1.symm.trans e1)
  obtain rfl := Option.some.inj (f2.symm.trans e1')
  exact ⟨_, _, _, _, ws, ws', g2, g2', e2, e2', by rw [BitVec.ofNat_add]; rfl, f3, f4, f5⟩

/-- The bytes of a 64-bit number in memory, least significant first. -/
def Spec.littleEndian (x : Nat) : List (BitVec 8) := (List.range 8).map fun i => BitVec.ofNat 8 (x / 256 ^ i)

/-- C128, the comment in the code that time-based seeds are guaranteed to change is not true: two calls in a row in the same second, the first two of a program, at
28131 and at 36385 clock ticks, leave equal generators. -/
theorem C128_false (g : MTRand) (buf : Fin 624 → BitVec 32) : ∃ g1 d, seedDefault g 0 none (littleEndian 1760032442) (littleEndian 28131) buf = some (g1, d) ∧
    ∃ d', seedDefault g1 d none (littleEndian 1760032442) (littleEndian 36385) buf = some (g1, d') := by
  have e : ∀ g d t c, seedDefault g d none t c buf = some (⟨fun i => seedWords ((hashBytes t + d) ^^^ hashBytes c) i.val, 624⟩, d + 1) := by
    intro g d t c
    simp only [seedDefault, MT.hash, seed_eq, Option.map_some]
  refine ⟨_, _, e _ _ _ _, 0 + 1 + 1, ?_⟩
  rw [e]
  have : (hashBytes (littleEndian 1760032442) + (0 + 1)) ^^^ hashBytes (littleEndian 36385) = (hashBytes (littleEndian 1760032442) + 0) ^^^ hashBytes (littleEndian 28131) := by
    decide
  rw [this]

end WFMath
