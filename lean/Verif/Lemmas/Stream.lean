/- Lemmas on the stream model. -/
import Verif.Spec.Stream

namespace WFMath
open Spec
variable {n : Nat}

theorem isSpace_eq : MT.isSpace = white := by
  funext c
  unfold MT.isSpace white
  rw [Bool.eq_iff_iff]
  have h : ∀ d : Char, c = d ↔ c.toNat = d.toNat := fun d => ⟨fun h => by rw [h], fun h => Char.toNat_inj.1 h⟩
  simp only [Bool.or_eq_true, decide_eq_true_eq, h]
  rw [show (' ' : Char).toNat = 32 from rfl, show ('\t' : Char).toNat = 9 from rfl, show ('\n' : Char).toNat = 10 from rfl, show ('\r' : Char).toNat = 13 from rfl,
    show ('\x0b' : Char).toNat = 11 from rfl, show ('\x0c' : Char).toNat = 12 from rfl]
  omega

theorem getChar_def (prev : Char) (s : IStream) : getChar prev s = if s.fail then (prev, s) else match s.rest.dropWhile white with
    | [] => (prev, ⟨[], true⟩)
    | c :: r => (c, ⟨r, false⟩) := by
  rw [← isSpace_eq]; rfl

theorem getChar_space (prev c : Char) (r : List Char) (h : white c = true) :
    getChar prev ⟨c :: r, false⟩ = getChar prev ⟨r, false⟩ := by
  rw [getChar_def, getChar_def]
  simp [h]

theorem getChar_char (prev c : Char) (r : List Char) (h : white c = false) :
    getChar prev ⟨c :: r, false⟩ = (c, ⟨r, false⟩) := by
  rw [getChar_def]
  simp [h]

theorem getChar_nil (prev : Char) : getChar prev ⟨[], false⟩ = (prev, ⟨[], true⟩) := by rw [getChar_def]; simp

theorem getChar_fail (prev : Char) (r : List Char) : getChar prev ⟨r, true⟩ = (prev, ⟨r, true⟩) := by rw [getChar_def]; simp

/-- A character other than the previous one was really read. -/
theorem getChar_eq_iff {prev c : Char} {s : IStream} (hc : c ≠ prev) :
    (getChar prev s).1 = c ↔ s.fail = false ∧ ∃ r, s.rest.dropWhile white = c :: r ∧ (getChar prev s).2 = ⟨r, false⟩ := by
  obtain ⟨r, f⟩ := s
  rw [getChar_def]
  cases f with
  | true => simp [Ne.symm hc]
  | false =>
    simp only [Bool.false_eq_true, if_false, true_and]
    cases h : List.dropWhile white r with
    | nil => simp [Ne.symm hc]
    | cons x t =>
      simp only [List.cons.injEq]
      constructor
      · rintro rfl; exact ⟨t, ⟨rfl, rfl⟩, rfl⟩
      · rintro ⟨r', ⟨rfl, rfl⟩, -⟩; rfl

theorem getChar_failed {prev : Char} {s : IStream} (h : s.fail = true) : getChar prev s = (prev, s) := by
  rw [getChar_def]; simp [h]

theorem getNum_fail {N : NumIO} {s : IStream} (h : N.parse s.rest = none ∨ s.fail = true) : (getNum N s).2.fail = true := by
  unfold getNum
  by_cases hf : s.fail = true
  · simp [hf]
  · rw [Bool.not_eq_true] at hf
    rcases h with h | h
    · simp [hf, h]
    · simp [hf] at h

theorem getNum_ok {N : NumIO} {t r : List Char} {x : ℝ} (h : N.parse t = some (x, r)) :
    getNum N ⟨t, false⟩ = (some x, ⟨r, false⟩) := by
  unfold getNum; simp [h]

/-! ### The skipping loops -/

theorem rounds_succ (prev : Char) (s : IStream) (k : Nat) :
    rounds prev s (k + 1) = rounds (getChar prev s).1 (getChar prev s).2 k := by
  unfold rounds; rw [Function.iterate_succ_apply]

/-- One round of the loop. -/
theorem skipTo_step (stop : Char → Bool) (prev : Char) (s : IStream) :
    skipTo stop prev s = if stop (getChar prev s).1 = true then some (getChar prev s)
      else skipTo stop (getChar prev s).1 (getChar prev s).2 := by
  classical
  by_cases h0 : stop (getChar prev s).1 = true
  · have hx : ∃ k, stop (rounds prev s (k + 1)).1 = true := ⟨0, by rw [rounds_succ]; exact h0⟩
    rw [if_pos h0]
    unfold skipTo
    rw [dif_pos hx]
    have : Nat.find hx = 0 := (Nat.find_eq_zero hx).2 (by rw [rounds_succ]; exact h0)
    rw [this, rounds_succ]; rfl
  · rw [if_neg h0]
    unfold skipTo
    by_cases hx : ∃ k, stop (rounds prev s (k + 1)).1 = true
    · have hy : ∃ k, stop (rounds (getChar prev s).1 (getChar prev s).2 (k + 1)).1 = true := by
        obtain ⟨k, hk⟩ := hx
        cases k with
        | zero => rw [rounds_succ] at hk; exact absurd hk h0
        | succ k => exact ⟨k, by rw [← rounds_succ]; exact hk⟩
      rw [dif_pos hx, dif_pos hy]
      have : Nat.find hx = Nat.find hy + 1 := by
        rw [Nat.find_eq_iff]
        refine ⟨?_, ?_⟩
        · rw [rounds_succ]; exact Nat.find_spec hy
        · intro m hm
          cases m with
          | zero => rw [rounds_succ]; exact h0
          | succ m => rw [rounds_succ]; exact Nat.find_min hy (by omega)
      rw [this, rounds_succ]
    · have hy : ¬ ∃ k, stop (rounds (getChar prev s).1 (getChar prev s).2 (k + 1)).1 = true := by
        rintro ⟨k, hk⟩
        exact hx ⟨k + 1, by rw [rounds_succ]; exact hk⟩
      rw [dif_neg hx, dif_neg hy]

theorem rounds_fail (prev : Char) (r : List Char) (k : Nat) : rounds prev ⟨r, true⟩ k = (prev, ⟨r, true⟩) := by
  induction k with
  | zero => rfl
  | succ k ih => rw [rounds_succ, getChar_fail]; exact ih

theorem skipTo_fail (stop : Char → Bool) (prev : Char) (r : List Char) :
    skipTo stop prev ⟨r, true⟩ = if stop prev = true then some (prev, ⟨r, true⟩) else none := by
  by_cases h : stop prev = true
  · rw [skipTo_step, getChar_fail]; simp [h]
  · unfold skipTo
    rw [dif_neg, if_neg h]
    rintro ⟨k, hk⟩
    rw [rounds_fail] at hk
    exact h hk

theorem skipTo_nil (stop : Char → Bool) (prev : Char) :
    skipTo stop prev ⟨[], false⟩ = if stop prev = true then some (prev, ⟨[], true⟩) else none := by
  rw [skipTo_step, getChar_nil, skipTo_fail]
  split <;> simp_all

theorem skipTo_space (stop : Char → Bool) (prev c : Char) (r : List Char) (h : white c = true) :
    skipTo stop prev ⟨c :: r, false⟩ = skipTo stop prev ⟨r, false⟩ := by
  rw [skipTo_step, skipTo_step stop prev ⟨r, false⟩, getChar_space _ _ _ h]

theorem skipTo_char (stop : Char → Bool) (prev c : Char) (r : List Char) (h : white c = false) :
    skipTo stop prev ⟨c :: r, false⟩ = if stop c = true then some (c, ⟨r, false⟩) else skipTo stop c ⟨r, false⟩ := by
  rw [skipTo_step, getChar_char _ _ _ h]

/-- A label without the character looked for is skipped. -/
theorem skipTo_label (stop : Char → Bool) (c : Char) (rest : List Char) (hc : white c = false) (hs : stop c = true) :
    ∀ (lbl : List Char) (prev : Char), (∀ x ∈ lbl, stop x = false) →
      skipTo stop prev ⟨lbl ++ c :: rest, false⟩ = some (c, ⟨rest, false⟩) := by
  intro lbl
  induction lbl with
  | nil => intro prev _; rw [List.nil_append, skipTo_char _ _ _ _ hc, if_pos hs]
  | cons x l ih =>
    intro prev h
    rw [List.cons_append]
    by_cases hx : white x = true
    · rw [skipTo_space _ _ _ _ hx]; exact ih prev (fun y hy => h y (by simp [hy]))
    · rw [Bool.not_eq_true] at hx
      rw [skipTo_char _ _ _ _ hx, if_neg (by simp [h x (by simp)])]
      exact ih x (fun y hy => h y (by simp [hy]))

/-- The loop never ends when the rest of the text does not have the character and neither has `next`. -/
theorem skipTo_none (stop : Char → Bool) (t : List Char) : ∀ (prev : Char), stop prev = false → (∀ x ∈ t, stop x = false) →
    skipTo stop prev ⟨t, false⟩ = none := by
  induction t with
  | nil => intro prev hp _; rw [skipTo_nil, if_neg (by simp [hp])]
  | cons x l ih =>
    intro prev hp h
    by_cases hx : white x = true
    · rw [skipTo_space _ _ _ _ hx]; exact ih prev hp (fun y hy => h y (by simp [hy]))
    · rw [Bool.not_eq_true] at hx
      rw [skipTo_char _ _ _ _ hx, if_neg (by simp [h x (by simp)])]
      exact ih x (h x (by simp)) (fun y hy => h y (by simp [hy]))

/-- The loop ends when the rest of the text has the character. -/
theorem skipTo_some (stop : Char → Bool) (hsp : ∀ c, white c = true → stop c = false) (t : List Char) :
    ∀ (prev : Char), (∃ x ∈ t, stop x = true) → ∃ lbl c rest, t = lbl ++ c :: rest ∧ (∀ x ∈ lbl, stop x = false) ∧ stop c = true ∧
      skipTo stop prev ⟨t, false⟩ = some (c, ⟨rest, false⟩) := by
  induction t with
  | nil => rintro prev ⟨x, hx, -⟩; simp at hx
  | cons a l ih =>
    rintro prev ⟨x, hx, hs⟩
    by_cases ha : stop a = true
    · have hna : white a = false := by
        by_contra hc; rw [Bool.not_eq_false] at hc; simp [hsp a hc] at ha
      exact ⟨[], a, l, rfl, by simp, ha, by rw [skipTo_char _ _ _ _ hna, if_pos ha]⟩
    · have hmem : ∃ x ∈ l, stop x = true := by
        rcases List.mem_cons.1 hx with rfl | h
        · exact absurd hs ha
        · exact ⟨x, h, hs⟩
      by_cases hx : white a = true
      · obtain ⟨lbl, c, rest, e, h1, h2, h3⟩ := ih prev hmem
        refine ⟨a :: lbl, c, rest, by rw [e]; rfl, ?_, h2, by rw [skipTo_space _ _ _ _ hx]; exact h3⟩
        intro y hy; rcases List.mem_cons.1 hy with rfl | hy
        · simpa using ha
        · exact h1 y hy
      · rw [Bool.not_eq_true] at hx
        obtain ⟨lbl, c, rest, e, h1, h2, h3⟩ := ih a hmem
        refine ⟨a :: lbl, c, rest, by rw [e]; rfl, ?_, h2, by rw [skipTo_char _ _ _ _ hx, if_neg ha]; exact h3⟩
        intro y hy; rcases List.mem_cons.1 hy with rfl | hy
        · simpa using ha
        · exact h1 y hy

/-! ### Coordinate lists -/

theorem readItems_succ (N : NumIO) (k : Nat) (prev : Char) (s : IStream) : readItems N (k + 1) prev s =
    if (getChar prev (getNum N s).2).1 ≠ (if k = 0 then ')' else ',') then .parseError
    else (readItems N k (getChar prev (getNum N s).2).1 (getChar prev (getNum N s).2).2).bind
      fun xs s' => .ok ((getNum N s).1.getD 0 :: xs) s' := rfl

theorem readItems_failed (N : NumIO) : ∀ (k : Nat) (prev : Char) (s : IStream), prev ≠ ')' → s.fail = true →
    readItems N (k + 1) prev s = .parseError := by
  intro k
  induction k with
  | zero =>
    intro prev s hp hs
    rw [readItems_succ]
    rw [getChar_failed (getNum_fail (Or.inr hs)), if_pos (by simpa using hp)]
  | succ k ih =>
    intro prev s hp hs
    rw [readItems_succ]
    rw [getChar_failed (getNum_fail (Or.inr hs))]
    simp only [Nat.add_eq_zero_iff, one_ne_zero, and_false, if_false]
    split
    · rfl
    · rw [ih prev _ hp (getNum_fail (Or.inr hs))]; rfl

/-- Reading a coordinate list: exactly the texts of the grammar are accepted, everything else raises the exception. -/
theorem readItems_spec (N : NumIO) (k : Nat) : ∀ (prev : Char) (t : List Char) , prev ≠ ')' →
    (∃ xs rest, xs.length = k + 1 ∧ Items N xs t rest ∧ readItems N (k + 1) prev ⟨t, false⟩ = .ok xs ⟨rest, false⟩) ∨
    ((∀ xs rest, xs.length = k + 1 → ¬ Items N xs t rest) ∧ readItems N (k + 1) prev ⟨t, false⟩ = .parseError) := by
  induction k with
  | zero =>
    intro prev t hp
    cases hq : N.parse t with
    | none =>
      right
      refine ⟨?_, ?_⟩
      · rintro xs rest hl hi
        match xs, hl with
        | [x], _ => obtain ⟨t', ht', -⟩ := hi; rw [hq] at ht'; simp at ht'
      · rw [readItems_succ]
        rw [getChar_failed (getNum_fail (s := ⟨t, false⟩) (Or.inl hq)), if_pos (by simpa using hp)]
    | some p =>
      obtain ⟨x, t1⟩ := p
      by_cases hc : (getChar prev ⟨t1, false⟩).1 = ')'
      · obtain ⟨-, r, h1, h2⟩ := (getChar_eq_iff (Ne.symm hp)).1 hc
        left
        refine ⟨[x], r, rfl, ⟨t1, hq, by simpa using h1⟩, ?_⟩
        rw [readItems_succ]
        rw [getNum_ok hq]
        simp only [if_true, hc, ne_eq, not_true_eq_false, if_false, readItems, h2]
        rfl
      · right
        refine ⟨?_, ?_⟩
        · rintro xs rest hl hi
          match xs, hl with
          | [y], _ =>
            obtain ⟨t', ht', hd⟩ := hi
            rw [hq] at ht'
            obtain ⟨-, rfl⟩ := Prod.mk.inj (Option.some.inj ht')
            rw [if_pos rfl] at hd
            refine hc ?_
            rw [getChar_def]; simp [hd]
        · rw [readItems_succ]
          rw [getNum_ok hq, if_pos (by simpa using hc)]
  | succ k ih =>
    intro prev t hp
    cases hq : N.parse t with
    | none =>
      right
      refine ⟨?_, ?_⟩
      · rintro xs rest hl hi
        match xs, hl with
        | x :: ys, _ => obtain ⟨t', ht', -⟩ := hi; rw [hq] at ht'; simp at ht'
      · rw [readItems_succ]
        rw [getChar_failed (getNum_fail (s := ⟨t, false⟩) (Or.inl hq))]
        simp only [Nat.add_eq_zero_iff, one_ne_zero, and_false, if_false]
        split
        · rfl
        · rw [readItems_failed N k prev _ hp (getNum_fail (s := ⟨t, false⟩) (Or.inl hq))]; rfl
    | some p =>
      obtain ⟨x, t1⟩ := p
      have hread : readItems N (k + 1 + 1) prev ⟨t, false⟩ =
          if (getChar prev ⟨t1, false⟩).1 ≠ ',' then .parseError
          else (readItems N (k + 1) (getChar prev ⟨t1, false⟩).1 (getChar prev ⟨t1, false⟩).2).bind fun xs s' => .ok (x :: xs) s' := by
        rw [readItems_succ, getNum_ok hq]
        simp only [Nat.add_eq_zero_iff, one_ne_zero, and_false, if_false, Option.getD_some]
      rw [hread]
      cases hd : List.dropWhile white t1 with
      | nil =>
        have hg : getChar prev ⟨t1, false⟩ = (prev, ⟨[], true⟩) := by rw [getChar_def]; simp [hd]
        right
        refine ⟨?_, ?_⟩
        · rintro xs rest hl hi
          match xs, hl with
          | y :: z :: ys, _ =>
            obtain ⟨t', ht', h2⟩ := hi
            rw [hq] at ht'
            obtain ⟨-, rfl⟩ := Prod.mk.inj (Option.some.inj ht')
            rw [if_neg (by simp), hd] at h2
            obtain ⟨_, h2, -⟩ := h2; simp at h2
        · rw [hg]
          split
          · rfl
          · rw [readItems_failed N k prev _ hp rfl]; rfl
      | cons a t2 =>
        have hg : getChar prev ⟨t1, false⟩ = (a, ⟨t2, false⟩) := by rw [getChar_def]; simp [hd]
        rw [hg]
        by_cases ha : a = ','
        · subst ha
          rw [if_neg (by simp)]
          rcases ih ',' t2 (by decide) with ⟨xs, rest, h1, h2, h3⟩ | ⟨h1, h2⟩
          · left
            refine ⟨x :: xs, rest, by simp [h1], ⟨t1, hq, ?_⟩, by rw [h3]; rfl⟩
            rw [if_neg (by intro h; rw [h] at h1; simp at h1)]
            exact ⟨t2, hd, h2⟩
          · right
            refine ⟨?_, by rw [h2]; rfl⟩
            rintro xs rest hl hi
            match xs, hl with
            | y :: z :: ys, hl =>
              obtain ⟨t', ht', h3⟩ := hi
              rw [hq] at ht'
              obtain ⟨-, rfl⟩ := Prod.mk.inj (Option.some.inj ht')
              rw [if_neg (by simp), hd] at h3
              obtain ⟨t3, h4, h5⟩ := h3
              obtain ⟨-, rfl⟩ := List.cons.inj h4
              exact h1 _ rest (by simpa using hl) h5
        · right
          rw [if_pos (by simpa using ha)]
          refine ⟨?_, rfl⟩
          rintro xs rest hl hi
          match xs, hl with
          | y :: z :: ys, hl =>
            obtain ⟨t', ht', h3⟩ := hi
            rw [hq] at ht'
            obtain ⟨-, rfl⟩ := Prod.mk.inj (Option.some.inj ht')
            rw [if_neg (by simp), hd] at h3
            obtain ⟨t3, h4, h5⟩ := h3
            exact ha (List.cons.inj h4).1

/-- On a failed stream every read of a coordinate list raises the exception. -/
theorem readCoords_failed (N : NumIO) (junk : Char) (n : Nat) (s : IStream) (hs : s.fail = true) :
    readCoords N junk (n + 1) s = .parseError := by
  unfold readCoords
  rw [getChar_failed hs]
  by_cases h : junk = '('
  · simp only [h, ne_eq, not_true_eq_false, if_false]
    rw [readItems_failed N n '(' s (by decide) hs]; rfl
  · simp [h]

theorem ofFn_getD (xs : List ℝ) (k : Nat) (h : xs.length = k) : List.ofFn (fun i : Fin k => xs.getD i.val 0) = xs := by
  subst h
  apply List.ext_getElem
  · simp
  · intro i h1 h2
    simp

theorem readCoords_spec (N : NumIO) (junk : Char) (n : Nat) (t : List Char) :
    (∃ d rest, CoordText N (List.ofFn d) t rest ∧ readCoords N junk (n + 1) ⟨t, false⟩ = .ok d ⟨rest, false⟩) ∨
    ((∀ d : Fin (n + 1) → ℝ, ∀ rest, ¬ CoordText N (List.ofFn d) t rest) ∧ readCoords N junk (n + 1) ⟨t, false⟩ = .parseError) := by
  cases hd : List.dropWhile white t with
  | nil =>
    right
    refine ⟨?_, ?_⟩
    · rintro d rest ⟨t', h, -⟩; rw [hd] at h; simp at h
    · unfold readCoords
      have hg : getChar junk ⟨t, false⟩ = (junk, ⟨[], true⟩) := by rw [getChar_def]; simp [hd]
      rw [hg]
      by_cases h : junk = '('
      · simp only [h, ne_eq, not_true_eq_false, if_false]
        rw [readItems_failed N n '(' _ (by decide) rfl]; rfl
      · simp [h]
  | cons a t1 =>
    have hg : getChar junk ⟨t, false⟩ = (a, ⟨t1, false⟩) := by rw [getChar_def]; simp [hd]
    unfold readCoords
    rw [hg]
    by_cases ha : a = '('
    · subst ha
      simp only [ne_eq, not_true_eq_false, if_false]
      rcases readItems_spec N n '(' t1 (by decide) with ⟨xs, rest, h1, h2, h3⟩ | ⟨h1, h2⟩
      · left
        refine ⟨fun i => xs.getD i.val 0, rest, ⟨t1, hd, ?_⟩, by rw [h3]; rfl⟩
        rw [ofFn_getD xs _ h1]; exact h2
      · right
        refine ⟨?_, by rw [h2]; rfl⟩
        rintro d rest ⟨t', h3, h4⟩
        rw [hd] at h3
        obtain ⟨-, rfl⟩ := List.cons.inj h3
        exact h1 _ rest (by simp) h4
    · right
      refine ⟨?_, by simp [ha]⟩
      rintro d rest ⟨t', h3, -⟩
      rw [hd] at h3
      exact ha (List.cons.inj h3).1

theorem items_write {N : NumIO} {rnd : ℝ → ℝ} (hN : PrintsBack N rnd) (rest : List Char) : ∀ xs : List ℝ, xs ≠ [] →
    Items N (xs.map rnd) (writeItems N xs ++ rest) rest := by
  intro xs
  induction xs with
  | nil => intro h; exact absurd rfl h
  | cons x ys ih =>
    intro _
    by_cases hy : ys = []
    · subst hy
      refine ⟨')' :: rest, ?_, ?_⟩
      · simp only [writeItems, if_true, List.append_assoc, List.cons_append, List.nil_append]
        exact hN x _ (by intro c hc; simp at hc; right; exact hc.symm)
      · simp [white]
    · refine ⟨',' :: (writeItems N ys ++ rest), ?_, ?_⟩
      · simp only [writeItems, if_neg hy, List.append_assoc, List.cons_append]
        exact hN x _ (by intro c hc; simp at hc; left; exact hc.symm)
      · rw [if_neg (by simpa using hy)]
        exact ⟨_, by simp [white], ih hy⟩

/-- The grammar determines the numbers and the rest. -/
theorem items_unique {N : NumIO} : ∀ (xs ys : List ℝ) (t r1 r2 : List Char), xs.length = ys.length → Items N xs t r1 → Items N ys t r2 →
    xs = ys ∧ r1 = r2 := by
  intro xs
  induction xs with
  | nil => intro ys t r1 r2 _ h; exact absurd h (by simp [Items])
  | cons x xs ih =>
    intro ys t r1 r2 hl h1 h2
    match ys, hl with
    | y :: ys, hl =>
      obtain ⟨t1, h3, h4⟩ := h1
      obtain ⟨t2, h5, h6⟩ := h2
      rw [h3] at h5
      obtain ⟨rfl, rfl⟩ := Prod.mk.inj (Option.some.inj h5)
      by_cases hx : xs = []
      · have hy : ys = [] := by subst hx; simpa using hl.symm
        subst hx hy
        rw [if_pos rfl] at h4 h6
        rw [h4] at h6
        exact ⟨rfl, (List.cons.inj h6).2⟩
      · have hy : ys ≠ [] := by
          rintro rfl; simp at hl; exact hx hl
        rw [if_neg hx] at h4
        rw [if_neg hy] at h6
        obtain ⟨a, ha, ha'⟩ := h4
        obtain ⟨b, hb, hb'⟩ := h6
        rw [ha] at hb
        obtain ⟨-, rfl⟩ := List.cons.inj hb
        obtain ⟨e1, e2⟩ := ih ys a r1 r2 (by simpa using hl) ha' hb'
        exact ⟨by rw [e1], e2⟩

theorem readCoords_write {N : NumIO} {rnd : ℝ → ℝ} (hN : PrintsBack N rnd) (junk : Char) (d : Fin (n + 1) → ℝ) (pre rest : List Char)
    (hpre : ∀ c ∈ pre, white c = true) :
    readCoords N junk (n + 1) ⟨pre ++ (writeCoords N d ++ rest), false⟩ = .ok (fun i => rnd (d i)) ⟨rest, false⟩ := by
  have hc : CoordText N (List.ofFn fun i => rnd (d i)) (pre ++ (writeCoords N d ++ rest)) rest := by
    refine ⟨writeItems N (List.ofFn d) ++ rest, ?_, ?_⟩
    · rw [List.dropWhile_append_of_pos hpre]
      unfold writeCoords
      simp [white]
    · have := items_write hN rest (List.ofFn d) (by simp)
      rw [List.map_ofFn] at this
      exact this
  rcases readCoords_spec N junk n (pre ++ (writeCoords N d ++ rest)) with ⟨d', r', h1, h2⟩ | ⟨h1, -⟩
  · obtain ⟨t1, e1, i1⟩ := hc
    obtain ⟨t2, e2, i2⟩ := h1
    rw [e1] at e2
    obtain ⟨-, rfl⟩ := List.cons.inj e2
    obtain ⟨e3, rfl⟩ := items_unique _ _ _ _ _ (by simp) i1 i2
    rw [h2, List.ofFn_injective e3]
  · exact absurd hc (h1 _ _)

theorem Pt.read_print {N : NumIO} {rnd : ℝ → ℝ} (hN : PrintsBack N rnd) (junk : Char) (p : Pt (n + 1)) (pre rest : List Char)
    (hpre : ∀ c ∈ pre, white c = true) :
    Pt.read N junk (n + 1) ⟨pre ++ (p.print N ++ rest), false⟩ = .ok ⟨fun i => rnd (p.elem i), true⟩ ⟨rest, false⟩ := by
  unfold Pt.read Pt.print
  rw [readCoords_write hN junk p.elem pre rest hpre]; rfl

theorem Vec.read_print {N : NumIO} {rnd : ℝ → ℝ} (hN : PrintsBack N rnd) (junk : Char) (v : Vec (n + 1)) (pre rest : List Char)
    (hpre : ∀ c ∈ pre, white c = true) :
    Vec.read N junk (n + 1) ⟨pre ++ (v.print N ++ rest), false⟩ = .ok ⟨fun i => rnd (v.elem i), true⟩ ⟨rest, false⟩ := by
  unfold Vec.read Vec.print
  rw [readCoords_write hN junk v.elem pre rest hpre]; rfl

/-! ### Matrices -/

theorem readRows_write {N : NumIO} {rnd : ℝ → ℝ} (hN : PrintsBack N rnd) (junk : Char) (rest : List Char) :
    ∀ (rows : List (Fin (n + 1) → ℝ)) (prev : Char), rows ≠ [] →
      readRows N junk (n + 1) rows.length prev ⟨writeRows N rows ++ rest, false⟩ = .ok (rows.map fun r i => rnd (r i)) ⟨rest, false⟩ := by
  intro rows
  induction rows with
  | nil => intro _ h; exact absurd rfl h
  | cons r rs ih =>
    intro prev _
    have e : writeRows N (r :: rs) ++ rest =
        [] ++ (writeCoords N r ++ ((if rs = [] then ')' else ',') :: (writeRows N rs ++ rest))) := by
      simp [writeRows]
    rw [List.length_cons, readRows, e, readCoords_write hN junk r [] _ (by simp)]
    simp only [Read.bind]
    by_cases hr : rs = []
    · subst hr
      simp only [if_true, writeRows, List.nil_append, List.length_nil]
      rw [getChar_char _ _ _ (by decide)]
      simp [readRows, Read.bind]
    · have hl : rs.length ≠ 0 := by simpa using hr
      simp only [if_neg hr, if_neg hl]
      rw [getChar_char _ _ _ (by decide)]
      simp only [ne_eq, not_true_eq_false, if_false]
      rw [ih ',' hr]
      rfl

end WFMath
