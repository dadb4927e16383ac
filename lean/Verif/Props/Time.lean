import Verif.Lemmas.Time

namespace WFMath
open Spec Time

/-! ## C03 normalisation invariant -/

/-- C03. Whatever sequence of public operations a client performs, starting from default constructed
variables, every valid time stamp and time difference has its microseconds in `[0, 1000000)`. -/
theorem C03_normalised_history (ops : List Op) (i : Nat) :
    (((run .init ops).stamp i).valid = true → Normal ((run .init ops).stamp i).usec) ∧
    (((run .init ops).tdiff i).valid = true → Normal ((run .init ops).tdiff i).usec) :=
  ⟨(run_normal _ init_normal ops).1 i, (run_normal _ init_normal ops).2 i⟩

/-- C03. The internal constructors normalise every microsecond argument in `[-1000000, 2000000)`
and keep the time denoted. -/
theorem C03_constructor (sec usec : Int) (h1 : -1000000 ≤ usec) (h2 : usec < 2000000) :
    Normal (TimeDiff.mk3 sec usec true).usec ∧
    micros (TimeDiff.mk3 sec usec true).sec (TimeDiff.mk3 sec usec true).usec = micros sec usec ∧
    Normal (TimeStamp.mk3 sec usec true).usec ∧
    micros (TimeStamp.mk3 sec usec true).sec (TimeStamp.mk3 sec usec true).usec = micros sec usec := by
  have hn := regularize_normal sec usec h1 h2
  have hm := regularize_micros sec usec
  exact ⟨by simpa [TimeDiff.mk3] using hn, by simpa [TimeDiff.mk3] using hm,
    by simpa [TimeStamp.mk3] using hn, by simpa [TimeStamp.mk3] using hm⟩

/-- A history with carries and borrows: `now` at .900000 plus 1000 ms minus the epoch, negated. -/
example : let s := run .init [.tNow 0 5 900000 (by decide), .dMillis 0 1999, .tAddAssign 0 0,
      .tEpoch 1, .tDiff 1 0 1, .dNeg 2 1]
    (s.tdiff 2).valid = true ∧ (s.tdiff 2).usec = 99001 ∧ (s.tdiff 2).sec = -7 := by decide

/-! ## C04 exactness -/

/-- C04/C07. Every client history acts on the variables exactly as integer arithmetic on microsecond
counts, with "no value" (invalid) contagious. (`ms` is whatever number of microseconds the
constructor `TimeDiff(msec)` stores; see C06.) -/
theorem C04_history_exact : ∃ ms : Int → Int, ∀ (s : Store) (ops : List Op),
    storeMeaning (run s ops) = arun ms (storeMeaning s) ops :=
  ⟨msMicros, run_meaning⟩

/-- C04. Single operations: the result denotes the exact integer sum or difference. -/
theorem C04_operations_exact (t u : TimeStamp) (d e : TimeDiff) :
    stampMeaning (t.add d) = oadd (stampMeaning t) (diffMeaning d) ∧
    stampMeaning (t.sub d) = osub (stampMeaning t) (diffMeaning d) ∧
    diffMeaning (t.diff u) = osub (stampMeaning t) (stampMeaning u) ∧
    diffMeaning (d.add e) = oadd (diffMeaning d) (diffMeaning e) ∧
    diffMeaning (d.sub e) = osub (diffMeaning d) (diffMeaning e) ∧
    diffMeaning d.neg = (diffMeaning d).map (- ·) ∧
    t.addAssign d = t.add d ∧ t.subAssign d = t.sub d ∧
    d.addAssign e = d.add e ∧ d.subAssign e = d.sub e :=
  ⟨add_t_meaning t d, sub_t_meaning t d, diff_meaning t u, add_d_meaning d e, sub_d_meaning d e,
    neg_d_meaning d, addAssign_t t d, subAssign_t t d, addAssign_d d e, subAssign_d d e⟩

theorem diff_ext_of_meaning {d e : TimeDiff} (hd : d.valid = true) (he : e.valid = true)
    (hn : Normal d.usec) (hm : Normal e.usec) (h : diffMeaning d = diffMeaning e) : d = e := by
  simp only [diffMeaning, hd, he, if_true, Option.some.injEq] at h
  obtain ⟨h1, h2⟩ := (micros_eq hn hm).1 h
  cases d; cases e; simp_all

theorem stamp_ext_of_meaning {d e : TimeStamp} (hd : d.valid = true) (he : e.valid = true)
    (hn : Normal d.usec) (hm : Normal e.usec) (h : stampMeaning d = stampMeaning e) : d = e := by
  simp only [stampMeaning, hd, he, if_true, Option.some.injEq] at h
  obtain ⟨h1, h2⟩ := (micros_eq hn hm).1 h
  cases d; cases e; simp_all

theorem valid_add_t {t : TimeStamp} {d : TimeDiff} (ht : t.valid = true) (hd : d.valid = true) :
    (t.add d).valid = true := by simp [TimeStamp.add, TimeStamp.mk3, ht, hd]
theorem valid_sub_t {t : TimeStamp} {d : TimeDiff} (ht : t.valid = true) (hd : d.valid = true) :
    (t.sub d).valid = true := by simp [TimeStamp.sub, TimeStamp.mk3, ht, hd]
theorem valid_diff {t u : TimeStamp} (ht : t.valid = true) (hu : u.valid = true) :
    (t.diff u).valid = true := by simp [TimeStamp.diff, TimeDiff.mk3, ht, hu]
theorem valid_add_d {d e : TimeDiff} (hd : d.valid = true) (he : e.valid = true) :
    (d.add e).valid = true := by simp [TimeDiff.add, TimeDiff.mk3, hd, he]

/-- C04. `(t + d) - t` is `d`, field by field. -/
theorem C04_add_then_difference (t : TimeStamp) (d : TimeDiff) (ht : t.valid = true)
    (hd : d.valid = true) (nt : Normal t.usec) (nd : Normal d.usec) : (t.add d).diff t = d := by
  have nt' : NormalT t := fun _ => nt
  have nd' : NormalD d := fun _ => nd
  have hv := valid_diff (valid_add_t ht hd) ht
  refine diff_ext_of_meaning hv hd (diff_normal (add_t_normal nt' nd') nt' hv) nd ?_
  rw [diff_meaning, add_t_meaning]
  simp [stampMeaning, diffMeaning, ht, hd, oadd, osub]

/-- C04. `(t - d) + d` is `t`. -/
theorem C04_sub_then_add (t : TimeStamp) (d : TimeDiff) (ht : t.valid = true)
    (hd : d.valid = true) (nt : Normal t.usec) (nd : Normal d.usec) : (t.sub d).add d = t := by
  have nt' : NormalT t := fun _ => nt
  have nd' : NormalD d := fun _ => nd
  have hv := valid_add_t (valid_sub_t ht hd) hd
  refine stamp_ext_of_meaning hv ht (add_t_normal (sub_t_normal nt' nd') nd' hv) nt ?_
  rw [add_t_meaning, sub_t_meaning]
  simp [stampMeaning, diffMeaning, ht, hd, oadd, osub]

/-- C04. `b + (a - b)` is `a`. -/
theorem C04_difference_then_add (a b : TimeStamp) (ha : a.valid = true)
    (hb : b.valid = true) (na : Normal a.usec) (nb : Normal b.usec) : b.add (a.diff b) = a := by
  have na' : NormalT a := fun _ => na
  have nb' : NormalT b := fun _ => nb
  have hv := valid_add_t hb (valid_diff ha hb)
  refine stamp_ext_of_meaning hv ha (add_t_normal nb' (diff_normal na' nb') hv) na ?_
  rw [add_t_meaning, diff_meaning]
  simp [stampMeaning, ha, hb, oadd, osub]

/-- C04. Addition of differences is commutative (even on invalid values) and, on valid normalised
values, associative. -/
theorem C04_add_comm_assoc (d e f : TimeDiff) :
    d.add e = e.add d ∧
    (d.valid = true → e.valid = true → f.valid = true → Normal d.usec → Normal e.usec →
      Normal f.usec → (d.add e).add f = d.add (e.add f)) := by
  constructor
  · unfold TimeDiff.add
    rw [Int.add_comm d.sec, Int.add_comm d.usec, Bool.and_comm]
  · intro hd he hf nd ne nf
    have nd' : NormalD d := fun _ => nd
    have ne' : NormalD e := fun _ => ne
    have nf' : NormalD f := fun _ => nf
    have h1 := valid_add_d (valid_add_d hd he) hf
    have h2 := valid_add_d hd (valid_add_d he hf)
    refine diff_ext_of_meaning h1 h2 (add_d_normal (add_d_normal nd' ne') nf' h1)
      (add_d_normal nd' (add_d_normal ne' nf') h2) ?_
    simp only [add_d_meaning]
    simp [diffMeaning, hd, he, hf, oadd, Int.add_assoc]

example : (TimeStamp.mk 3 999999 true).valid = true ∧ Normal (TimeStamp.mk 3 999999 true).usec ∧
    (TimeStamp.mk 3 999999 true).add ⟨true, -2, 1⟩ = ⟨2, 0, true⟩ := by unfold Normal; decide

/-! ## C05 order -/

/-- C05. All six comparisons of valid normalised time differences agree with the comparison of
microsecond counts. -/
theorem C05_diff_order (a b : TimeDiff) (na : Normal a.usec) (nb : Normal b.usec) :
    (a.lt b = true ↔ micros a.sec a.usec < micros b.sec b.usec) ∧
    (a.eq b = true ↔ micros a.sec a.usec = micros b.sec b.usec) ∧
    (a.gt b = true ↔ micros a.sec a.usec > micros b.sec b.usec) ∧
    (a.le b = true ↔ micros a.sec a.usec ≤ micros b.sec b.usec) ∧
    (a.ge b = true ↔ micros a.sec a.usec ≥ micros b.sec b.usec) ∧
    (a.ne b = true ↔ micros a.sec a.usec ≠ micros b.sec b.usec) := by
  have lt : ∀ a b : TimeDiff, Normal a.usec → Normal b.usec →
      (a.lt b = true ↔ micros a.sec a.usec < micros b.sec b.usec) := by
    intro a b na nb
    rw [micros_lt na nb]; simp [TimeDiff.lt]
  have eq : ∀ a b : TimeDiff, Normal a.usec → Normal b.usec →
      (a.eq b = true ↔ micros a.sec a.usec = micros b.sec b.usec) := by
    intro a b na nb
    rw [micros_eq na nb]; simp [TimeDiff.eq]
  refine ⟨lt a b na nb, eq a b na nb, lt b a nb na, ?_, ?_, ?_⟩
  · have := lt b a nb na
    unfold TimeDiff.le
    rw [Bool.not_eq_true', ← Bool.not_eq_true, this]; omega
  · have := lt a b na nb
    unfold TimeDiff.ge
    rw [Bool.not_eq_true', ← Bool.not_eq_true, this]; omega
  · have := eq b a nb na
    unfold TimeDiff.ne
    rw [Bool.not_eq_true', ← Bool.not_eq_true, this]; omega

/-- C05. The same for time stamps. -/
theorem C05_stamp_order (a b : TimeStamp) (na : Normal a.usec) (nb : Normal b.usec) :
    (a.lt b = true ↔ micros a.sec a.usec < micros b.sec b.usec) ∧
    (a.eq b = true ↔ micros a.sec a.usec = micros b.sec b.usec) ∧
    (a.gt b = true ↔ micros a.sec a.usec > micros b.sec b.usec) ∧
    (a.le b = true ↔ micros a.sec a.usec ≤ micros b.sec b.usec) ∧
    (a.ge b = true ↔ micros a.sec a.usec ≥ micros b.sec b.usec) ∧
    (a.ne b = true ↔ micros a.sec a.usec ≠ micros b.sec b.usec) := by
  have lt : ∀ a b : TimeStamp, Normal a.usec → Normal b.usec →
      (a.lt b = true ↔ micros a.sec a.usec < micros b.sec b.usec) := by
    intro a b na nb
    rw [micros_lt na nb]; unfold TimeStamp.lt
    split <;> simp <;> omega
  have eq : ∀ a b : TimeStamp, Normal a.usec → Normal b.usec →
      (a.eq b = true ↔ micros a.sec a.usec = micros b.sec b.usec) := by
    intro a b na nb
    rw [micros_eq na nb]; simp [TimeStamp.eq]
  refine ⟨lt a b na nb, eq a b na nb, lt b a nb na, ?_, ?_, ?_⟩
  · have := lt b a nb na
    unfold TimeStamp.le
    rw [Bool.not_eq_true', ← Bool.not_eq_true, this]; omega
  · have := lt a b na nb
    unfold TimeStamp.ge
    rw [Bool.not_eq_true', ← Bool.not_eq_true, this]; omega
  · have := eq b a nb na
    unfold TimeStamp.ne
    rw [Bool.not_eq_true', ← Bool.not_eq_true, this]; omega

/-- C05. `<` on time stamps is a strict total order (even without normalisation). -/
theorem C05_strict_total (a b c : TimeStamp) :
    a.lt a = false ∧ (a.lt b = true → b.lt c = true → a.lt c = true) ∧
    (a.lt b = true ∨ a.eq b = true ∨ b.lt a = true) := by
  unfold TimeStamp.lt TimeStamp.eq
  refine ⟨by simp, ?_, ?_⟩
  · split <;> split <;> split <;> simp <;> omega
  · by_cases h : a.sec = b.sec
    · simp [h]
      omega
    · have : b.sec ≠ a.sec := fun e => h e.symm
      simp [h, this]

/-- C05. Adding the same valid difference to two valid stamps keeps their order. -/
theorem C05_add_monotone (t u : TimeStamp) (d : TimeDiff) (ht : t.valid = true) (hu : u.valid = true)
    (hd : d.valid = true) (nt : Normal t.usec) (nu : Normal u.usec) (nd : Normal d.usec) :
    (t.add d).lt (u.add d) = t.lt u := by
  have nd' : NormalD d := fun _ => nd
  have n1 := add_t_normal (fun _ => nt) nd' (valid_add_t ht hd)
  have n2 := add_t_normal (fun _ => nu) nd' (valid_add_t hu hd)
  have m1 := add_t_meaning t d
  have m2 := add_t_meaning u d
  simp only [stampMeaning, diffMeaning, ht, hu, hd, valid_add_t ht hd, valid_add_t hu hd, if_true,
    oadd, Option.bind_some, Option.map_some, Option.some.injEq] at m1 m2
  rw [Bool.eq_iff_iff, (C05_stamp_order _ _ n1 n2).1, (C05_stamp_order _ _ nt nu).1, m1, m2]
  omega

example : (TimeStamp.mk 1 999999 true).lt ⟨2, 0, true⟩ = true ∧
    (TimeStamp.mk 1 999999 true).eq ⟨2, 0, true⟩ = false := by decide

/-! ## C06 millisecond constructor -/

/-- C06 is false of the code: `TimeDiff(1).milliseconds()` is 0 and `TimeDiff(-1000).milliseconds()`
is -2000. -/
theorem C06_millis_roundtrip_false :
    ¬ (∀ m : Int, (TimeDiff.ofMillis m).milliseconds = m) ∧
    (TimeDiff.ofMillis 1).milliseconds = 0 ∧ (TimeDiff.ofMillis (-1000)).milliseconds = -2000 := by
  have h1 : (TimeDiff.ofMillis 1).milliseconds = 0 := by decide
  have h2 : (TimeDiff.ofMillis (-1000)).milliseconds = -2000 := by decide
  refine ⟨fun h => ?_, h1, h2⟩
  have := h 1
  rw [h1] at this
  exact absurd this (by decide)

/-- C06, exact extent of the round trip: it holds precisely for the non-negative whole seconds and for
the negative values that are one millisecond below a whole second. The full claim (all `m`) is
refuted above. -/
theorem C06_millis_roundtrip_partial (m : Int) :
    (TimeDiff.ofMillis m).milliseconds = m ↔
      (0 ≤ m ∧ m % 1000 = 0) ∨ (m < 0 ∧ m % 1000 = 999) := by
  unfold TimeDiff.ofMillis TimeDiff.milliseconds million
  by_cases hm : m < 0
  · obtain ⟨k, rfl⟩ : ∃ k : Int, m = -k := ⟨-m, by omega⟩
    have hk : 0 < k := by omega
    simp only [hm, if_true, Int.neg_tdiv, Int.neg_tmod,
      Int.tmod_eq_emod_of_nonneg hk.le, Int.tdiv_eq_ediv_of_nonneg hk.le]
    split
    · dsimp only
      rw [Int.tdiv_eq_ediv_of_nonneg (by omega)]
      simp only [true_and]
      omega
    · have : k % 1000 = 0 := by omega
      rw [this]; simp only [neg_zero, Int.zero_tdiv]; omega
  · simp only [hm, if_false]
    have h0 : 0 ≤ m := by omega
    rw [Int.tmod_eq_emod_of_nonneg h0, Int.tdiv_eq_ediv_of_nonneg h0,
      Int.tdiv_eq_ediv_of_nonneg (by omega)]
    simp only [false_and, or_false]
    omega

/-- C06. The constructed value is always valid. -/
theorem C06_millis_valid (m : Int) : (TimeDiff.ofMillis m).valid = true := by
  have := ofMillis_meaning m
  unfold diffMeaning at this
  split at this
  · assumption
  · simp at this

example : (TimeDiff.ofMillis 5000).milliseconds = 5000 := by decide

/-! ## C07 validity -/

/-- C07. Each operation's result is valid exactly when all operands are. -/
theorem C07_valid_iff (t u : TimeStamp) (d e : TimeDiff) :
    (t.add d).valid = (t.valid && d.valid) ∧ (t.sub d).valid = (t.valid && d.valid) ∧
    (t.diff u).valid = (t.valid && u.valid) ∧ (d.add e).valid = (d.valid && e.valid) ∧
    (d.sub e).valid = (d.valid && e.valid) ∧ d.neg.valid = d.valid ∧
    (t.addAssign d).valid = (t.valid && d.valid) ∧ (t.subAssign d).valid = (t.valid && d.valid) ∧
    (d.addAssign e).valid = (d.valid && e.valid) ∧ (d.subAssign e).valid = (d.valid && e.valid) := by
  have hd : ∀ a b v, (TimeDiff.mk3 a b v).valid = v := by intro a b v; cases v <;> rfl
  have ht : ∀ a b v, (TimeStamp.mk3 a b v).valid = v := by intro a b v; cases v <;> rfl
  rw [addAssign_t, subAssign_t, addAssign_d, subAssign_d]
  exact ⟨ht _ _ _, ht _ _ _, hd _ _ _, hd _ _ _, hd _ _ _, hd _ _ _, ht _ _ _, ht _ _ _, hd _ _ _, hd _ _ _⟩

/-- Expressions over time values. -/
inductive DExpr where
  | lit (d : TimeDiff)
  | add (a b : DExpr)
  | sub (a b : DExpr)
  | neg (a : DExpr)

def DExpr.eval : DExpr → TimeDiff
  | .lit d => d
  | .add a b => a.eval.add b.eval
  | .sub a b => a.eval.sub b.eval
  | .neg a => a.eval.neg

/-- All leaves of the expression are valid. -/
def DExpr.allValid : DExpr → Prop
  | .lit d => d.valid = true
  | .add a b => a.allValid ∧ b.allValid
  | .sub a b => a.allValid ∧ b.allValid
  | .neg a => a.allValid

/-- C07. An expression of any shape is valid exactly when every leaf is. (For programs with variables
and time stamps see `C04_history_exact`, where "no value" is contagious.) -/
theorem C07_expression_valid (e : DExpr) : e.eval.valid = true ↔ e.allValid := by
  have h := C07_valid_iff
  induction e with
  | lit d => exact Iff.rfl
  | add a b iha ihb =>
    simp only [DExpr.eval, DExpr.allValid, (h ⟨0,0,true⟩ ⟨0,0,true⟩ a.eval b.eval).2.2.2.1,
      Bool.and_eq_true, iha, ihb]
  | sub a b iha ihb =>
    simp only [DExpr.eval, DExpr.allValid, (h ⟨0,0,true⟩ ⟨0,0,true⟩ a.eval b.eval).2.2.2.2.1,
      Bool.and_eq_true, iha, ihb]
  | neg a iha =>
    simp only [DExpr.eval, DExpr.allValid, (h ⟨0,0,true⟩ ⟨0,0,true⟩ a.eval a.eval).2.2.2.2.2.1, iha]

example : (DExpr.add (.lit (.ofMillis 3)) (.neg (.lit ⟨false, 7, 7⟩))).eval.valid = false := by decide

end WFMath
