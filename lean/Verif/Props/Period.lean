/- Property theorems C133: streams of the generator are periodic from their start. -/
import Verif.Props.SeedStreams
import Mathlib.Combinatorics.Pigeonhole

namespace WFMath
open Spec MT

namespace MT

/-- All that matters of a table before new words are made: the top bit of the first word and the other words. -/
theorem fore_low {x x' : Nat → Word} (hx : IsMTSequence x) (hx' : IsMTSequence x') (t0 : (x 0).getLsbD 31 = (x' 0).getLsbD 31) (s0 : ∀ i, 0 < i → i < 624 → x i = x' i) :
    ∀ i, 0 < i → x i = x' i := by
  intro i
  induction i using Nat.strong_induction_on with
  | _ i ih =>
    intro p0
    by_cases p1 : i < 624
    · exact s0 i p0 p1
    · obtain ⟨j, rfl⟩ : ∃ j, i = j + 624 := ⟨i - 624, by omega⟩
      rw [hx, hx', ih (j + 397) (by omega) (by omega), show joinUL (x j) (x (j + 1)) = joinUL (x' j) (x' (j + 1)) from ?_]
      refine BitVec.eq_of_getLsbD_eq fun b hb => ?_
      rw [join_bit _ _ b hb, join_bit _ _ b hb, ih (j + 1) (by omega) (by omega)]
      rcases Nat.eq_zero_or_pos j with rfl | hj
      · rw [t0]
      · rw [ih j (by omega) hj]

/-- As `runs_any`; the position is not the first when the index is not 0. -/
theorem runs_pos (g : MTRand) (h0 : g.index ≠ 0) : ∃ x p, 0 < p ∧ IsMTSequence x ∧ ∀ k, ∃ g', draws k g = some (List.ofFn (fun i : Fin k => temper (x (p + i.val))), g') := by
  by_cases h : g.index.toNat ≤ 624
  · refine ⟨mtSequence fun k => if h : k < 624 then g.state ⟨k, h⟩ else 0, g.index.toNat, Nat.pos_of_ne_zero fun hc => h0 (BitVec.eq_of_toNat_eq (by simpa using hc)), mtSequence_isMT _, fun k => ?_⟩
    obtain ⟨g', e, _⟩ := draws_pos _ (mtSequence_isMT _) k _ _ (pos_any g h)
    exact ⟨g', e⟩
  · have hge : g.index ≥ 624 := by show (624 : Word).toNat ≤ _; rw [show (624 : Word).toNat = 624 from rfl]; omega
    have e0 : randInt g = randInt ⟨g.state, 624⟩ := by
      unfold randInt
      rw [if_pos hge, if_pos (show (624 : Word) ≥ 624 by decide)]
    refine ⟨mtSequence fun k => if h : k < 624 then g.state ⟨k, h⟩ else 0, 624, by omega, mtSequence_isMT _, fun k => ?_⟩
    obtain ⟨g', e, _⟩ := draws_pos _ (mtSequence_isMT _) k _ _ (pos_any ⟨g.state, 624⟩ (le_refl _))
    cases k with
    | zero => exact ⟨g, by simp [draws]⟩
    | succ k => exact ⟨g', by rw [show draws (k + 1) g = draws (k + 1) ⟨g.state, 624⟩ by simp only [draws, e0], e]; rfl⟩

/-- The state of a sequence at `k`. -/
def stateAt (x : Nat → Word) (k : Nat) : (Fin 623 → Fin (2 ^ 32)) × Bool := (fun i => (x (k + 1 + i.val)).toFin, (x k).getLsbD 31)

theorem card_state : Fintype.card ((Fin 623 → Fin (2 ^ 32)) × Bool) = 2 ^ 19937 := by
  rw [Fintype.card_prod, Fintype.card_fun, Fintype.card_fin, Fintype.card_fin, Fintype.card_bool, ← pow_mul, ← pow_succ]

theorem stateAt_shift {x x' : Nat → Word} (hx : IsMTSequence x) (hx' : IsMTSequence x') {a b : Nat} (h : stateAt x a = stateAt x' b) : ∀ i, 0 < i → x (a + i) = x' (b + i) := by
  unfold stateAt at h
  rw [Prod.mk.injEq] at h
  refine fore_low (shift_mt hx a) (shift_mt hx' b) h.2 fun i p0 p1 => ?_
  have := BitVec.toFin_inj.1 (congrFun h.1 ⟨i - 1, by omega⟩)
  simp only at this
  rwa [show a + 1 + (i - 1) = a + i by omega, show b + 1 + (i - 1) = b + i by omega] at this

theorem periodic_of {x : Nat → Word} (hx : IsMTSequence x) {a b : Nat} (hab : a < b) (h : stateAt x a = stateAt x b) : ∀ i, 0 < i → x i = x (i + (b - a)) := by
  have h1 := stateAt_shift hx hx h
  have h2 := (window hx (shift_mt hx (b - a)) (k := a + 1) fun i p0 p1 => by
    have := h1 (i - a) (by omega)
    rw [show a + (i - a) = i by omega] at this
    rw [this]
    congr 1; omega).1
  intro i p0
  rw [h2 i p0]; congr 1; omega

theorem pigeon {S : Type} [Fintype S] (f : Nat → S) (z : S) (h : ∀ k, f k ≠ z) : ∃ a b, a < b ∧ b < Fintype.card S ∧ f a = f b := by
  classical
  have hc : (Finset.univ.erase z).card < (Finset.range (Fintype.card S)).card := by
    have h2 := Finset.card_erase_lt_of_mem (Finset.mem_univ z)
    rwa [Finset.card_univ, ← Finset.card_range (Fintype.card S)] at h2
  obtain ⟨a, ha, b, hb, hne, he⟩ := Finset.exists_ne_map_eq_of_card_lt_of_maps_to hc (f := f) fun k _ =>
    Finset.mem_coe.2 (Finset.mem_erase.2 ⟨h k, Finset.mem_univ _⟩)
  rw [Finset.mem_range] at ha hb
  rcases lt_or_gt_of_ne hne with h | h
  · exact ⟨a, b, h, hb, he⟩
  · exact ⟨b, a, h, ha, he.symm⟩

theorem exists_period {x : Nat → Word} (hx : IsMTSequence x) : ∃ P, 0 < P ∧ P ≤ 2 ^ 19937 ∧ (∀ i, 0 < i → x i = x (i + P)) ∧ ((∃ i, 0 < i ∧ x i ≠ 0#32) → P < 2 ^ 19937) := by
  have hcard := card_state
  have hpos : 0 < 2 ^ 19937 := Nat.two_pow_pos _
  have dead : ∀ k, stateAt x k = stateAt (fun _ => 0#32) 0 → ∀ i, 0 < i → x i = 0#32 := by
    intro k hk
    have h1 := stateAt_shift (a := k) (b := 0) hx zero_mt hk
    exact (window hx zero_mt (k := k + 1) fun i p0 p1 => by
      have := h1 (i - k) (by omega)
      rwa [show k + (i - k) = i by omega] at this).1
  by_cases hd : ∃ i, 0 < i ∧ x i ≠ 0#32
  · obtain ⟨a, b, h, hb, he⟩ := pigeon (stateAt x) (stateAt (fun _ => 0#32) 0) fun k hk => by
      obtain ⟨i, p0, hi⟩ := hd
      exact hi (dead k hk i p0)
    rw [hcard] at hb
    generalize 2 ^ 19937 = N at *
    exact ⟨b - a, by omega, by omega, periodic_of hx h he, fun _ => by omega⟩
  · push Not at hd
    exact ⟨1, by omega, hpos, fun i p0 => by rw [hd i p0, hd (i + 1) (by omega)], fun ⟨i, p0, h⟩ => absurd (hd i p0) h⟩

theorem stream_period {g : MTRand} {x : Nat → Word} {p P : Nat} (p0 : 0 < p) (hd : ∀ k, ∃ g', draws k g = some (List.ofFn (fun i : Fin k => temper (x (p + i.val))), g'))
    (h : ∀ i, 0 < i → x i = x (i + P)) (k : Nat) : ∃ ws us g1 g2, ws.length = P ∧ draws k g = some (us, g1) ∧ draws (P + k) g = some (ws ++ us, g2) := by
  obtain ⟨g1, e1⟩ := hd k
  obtain ⟨g2, e2⟩ := hd (P + k)
  refine ⟨List.ofFn fun i : Fin P => temper (x (p + i.val)), _, g1, g2, List.length_ofFn, e1, ?_⟩
  rw [e2, List.ofFn_add]
  congr 3
  refine congrArg List.ofFn (funext fun i => ?_)
  show temper (x (p + (P + i.val))) = temper (x (p + i.val))
  rw [h (p + i.val) (by omega)]; congr 2; omega

end MT

/-- C133: the stream of a generator that is not at the first word of its table repeats from its very start, with a period of at most 2^19937 results: there is a `P`
for which, after `P` results, the stream is the one that began at the first. -/
theorem C133_periodic (g : MTRand) (h0 : g.index ≠ 0) : ∃ P, 0 < P ∧ P ≤ 2 ^ 19937 ∧
    ∀ k, ∃ ws us g1 g2, ws.length = P ∧ draws k g = some (us, g1) ∧ draws (P + k) g = some (ws ++ us, g2) := by
  obtain ⟨x, p, p0, hx, hd⟩ := runs_pos g h0
  obtain ⟨P, h1, h2, h3, _⟩ := exists_period hx
  exact ⟨P, h1, h2, stream_period p0 hd h3⟩

/-- C133, seeded generators: whatever the seed or the key, the stream repeats from its start with a period below 2^19937. -/
theorem C133_seeded (g g1 : MTRand) (h : (∃ s, MT.seed g s = some g1) ∨ ∃ key, key ≠ [] ∧ key.length < 2 ^ 32 ∧ MT.seedArray g key = some g1) :
    ∃ P, 0 < P ∧ P < 2 ^ 19937 ∧ ∀ k, ∃ ws us g2 g3, ws.length = P ∧ draws k g1 = some (us, g2) ∧ draws (P + k) g1 = some (ws ++ us, g3) := by
  have h0 : g1.index ≠ 0 := by
    rcases h with ⟨s, e⟩ | ⟨key, hk, hl, e⟩
    · rw [seed_eq] at e
      rw [← Option.some.inj e]
      exact show (624 : BitVec 32) ≠ 0 by decide
    · obtain ⟨st, e', _⟩ := seedArray_words g key hk hl
      rw [e'] at e
      rw [← Option.some.inj e]
      exact show (624 : BitVec 32) ≠ 0 by decide
  obtain ⟨x, p, p0, hx, hd⟩ := runs_pos g1 h0
  obtain ⟨P, h1, h2, h3, h4⟩ := exists_period hx
  refine ⟨P, h1, h4 ?_, stream_period p0 hd h3⟩
  obtain ⟨ws, us, g2, e, hl, w, hw, hne⟩ := C127_alive g g1 h 0
  obtain ⟨g3, e3⟩ := hd (0 + 624)
  have hww := some_fst (e.symm.trans e3)
  have hm : w ∈ List.ofFn fun i : Fin (0 + 624) => temper (x (p + i.val)) := by rw [← hww]; exact List.mem_append_right _ hw
  obtain ⟨i, hi⟩ := (List.mem_ofFn' _ _).1 hm
  refine ⟨p + i.val, by omega, fun hz => hne ?_⟩
  rw [← hi]
  show temper (x (p + i.val)) = 0
  rw [hz]; decide

/-- C133, why not at the first word: of that word only the top bit goes into later ones. A generator at the start of a table with 1 there and 0 elsewhere gives one word
that is not 0 and then 0 for ever. -/
theorem C133_first (P : Nat) (hP : 0 < P) : ¬ ∀ k, ∃ ws us g1 g2, ws.length = P ∧ draws k ⟨fun i => if i = 0 then 1 else 0, 0⟩ = some (us, g1) ∧
    draws (P + k) ⟨fun i => if i = 0 then 1 else 0, 0⟩ = some (ws ++ us, g2) := by
  intro h
  have hd := fun k => draws_pos _ (mtSequence_isMT _) k _ _ (pos_any ⟨fun i => if i = 0 then 1 else 0, 0⟩ (Nat.zero_le _))
  generalize hx : (mtSequence fun k => if h : k < 624 then (⟨fun i => if i = 0 then 1 else 0, 0⟩ : MTRand).state ⟨k, h⟩ else 0) = x at hd
  have hm : IsMTSequence x := hx ▸ mtSequence_isMT _
  have x0 : x 0 = 1 := by rw [← hx, mtSequence_init _ _ (by omega)]; rfl
  have xs : ∀ i, 0 < i → x i = 0#32 := fore_low hm zero_mt (by rw [x0]; decide) fun i p0 p1 => by
    rw [← hx, mtSequence_init _ _ p1, dif_pos p1]
    exact if_neg fun hc => by have := congrArg Fin.val hc; simp at this; omega
  obtain ⟨ws, us, g1, g2, hl, e1, e2⟩ := h 1
  obtain ⟨g3, e3, _⟩ := hd 1
  obtain ⟨g4, e4, _⟩ := hd (P + 1)
  have f1 := some_fst (e1.symm.trans e3)
  have f2 := some_fst (e2.symm.trans e4)
  rw [f1, List.ofFn_add] at f2
  have f3 := List.append_inj_right f2 (by rw [hl, List.length_ofFn])
  have f4 := congrFun (List.ofFn_injective f3) 0
  have f5 : temper (x (0 + 0)) = temper (x (0 + (P + 0))) := f4
  rw [Nat.zero_add, Nat.add_zero, Nat.zero_add, x0, xs P hP] at f5
  exact absurd (temper_inj f5) (by decide)

/-- A generator in use, and a seeded one. -/
example : (∃ P, 0 < P ∧ P ≤ 2 ^ 19937 ∧ ∀ k, ∃ ws us g1 g2, ws.length = P ∧ draws k ⟨fun i => i.val, 17⟩ = some (us, g1) ∧ draws (P + k) ⟨fun i => i.val, 17⟩ = some (ws ++ us, g2)) ∧
    ∃ g1, MT.seed ⟨fun _ => 0, 0⟩ 5489 = some g1 ∧ ∃ P, 0 < P ∧ P < 2 ^ 19937 ∧ ∀ k, ∃ ws us g2 g3, ws.length = P ∧ draws k g1 = some (us, g2) ∧ draws (P + k) g1 = some (ws ++ us, g3) :=
  ⟨C133_periodic _ (show (17 : BitVec 32) ≠ 0 by decide), _, seed_eq _ _, C133_seeded ⟨fun _ => 0, 0⟩ _ (Or.inl ⟨5489, seed_eq _ _⟩)⟩

end WFMath
