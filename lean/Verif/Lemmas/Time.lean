import Verif.Spec.Time

namespace WFMath.Time
open WFMath.Spec

def NormalD (d : TimeDiff) : Prop := d.valid = true → Normal d.usec
def NormalT (t : TimeStamp) : Prop := t.valid = true → Normal t.usec
def NormalStore (s : Store) : Prop := (∀ i, NormalT (s.stamp i)) ∧ ∀ i, NormalD (s.tdiff i)

theorem regularize_micros (a b : Int) :
    micros (regularize a b).1 (regularize a b).2 = micros a b := by
  unfold regularize micros million
  split
  · dsimp only; omega
  · split <;> dsimp only <;> omega

theorem regularize_normal (a b : Int) (h1 : -1000000 ≤ b) (h2 : b < 2000000) :
    Normal (regularize a b).2 := by
  unfold regularize Normal million
  split
  · dsimp only; omega
  · split <;> dsimp only <;> omega

theorem mk3d_meaning (a b : Int) (v : Bool) :
    diffMeaning (TimeDiff.mk3 a b v) = if v then some (micros a b) else none := by
  cases v <;> simp [TimeDiff.mk3, diffMeaning, regularize_micros]

theorem mk3t_meaning (a b : Int) (v : Bool) :
    stampMeaning (TimeStamp.mk3 a b v) = if v then some (micros a b) else none := by
  cases v <;> simp [TimeStamp.mk3, stampMeaning, regularize_micros]

theorem mk3d_normal (a b : Int) (v : Bool) (h : v = true → -1000000 ≤ b ∧ b < 2000000) :
    NormalD (TimeDiff.mk3 a b v) := by
  intro hv
  cases v with
  | false => simp [TimeDiff.mk3] at hv
  | true =>
    have := h rfl
    simpa [TimeDiff.mk3] using regularize_normal a b this.1 this.2

theorem mk3t_normal (a b : Int) (v : Bool) (h : v = true → -1000000 ≤ b ∧ b < 2000000) :
    NormalT (TimeStamp.mk3 a b v) := by
  intro hv
  cases v with
  | false => simp [TimeStamp.mk3] at hv
  | true =>
    have := h rfl
    simpa [TimeStamp.mk3] using regularize_normal a b this.1 this.2

theorem addAssign_d (a b : TimeDiff) : a.addAssign b = a.add b := by
  simp [TimeDiff.addAssign, TimeDiff.add, TimeDiff.mk3]
theorem subAssign_d (a b : TimeDiff) : a.subAssign b = a.sub b := by
  simp [TimeDiff.subAssign, TimeDiff.sub, TimeDiff.mk3]
theorem addAssign_t (a : TimeStamp) (b : TimeDiff) : a.addAssign b = a.add b := by
  simp [TimeStamp.addAssign, TimeStamp.add, TimeStamp.mk3]
theorem subAssign_t (a : TimeStamp) (b : TimeDiff) : a.subAssign b = a.sub b := by
  simp [TimeStamp.subAssign, TimeStamp.sub, TimeStamp.mk3]

theorem micros_add (a b c d : Int) : micros (a + b) (c + d) = micros a c + micros b d := by
  unfold micros; omega
theorem micros_sub (a b c d : Int) : micros (a - b) (c - d) = micros a c - micros b d := by
  unfold micros; omega

theorem add_d_meaning (a b : TimeDiff) :
    diffMeaning (a.add b) = oadd (diffMeaning a) (diffMeaning b) := by
  rw [TimeDiff.add, mk3d_meaning]
  cases ha : a.valid <;> cases hb : b.valid <;> simp [diffMeaning, ha, hb, oadd, micros_add]
theorem sub_d_meaning (a b : TimeDiff) :
    diffMeaning (a.sub b) = osub (diffMeaning a) (diffMeaning b) := by
  rw [TimeDiff.sub, mk3d_meaning]
  cases ha : a.valid <;> cases hb : b.valid <;> simp [diffMeaning, ha, hb, osub, micros_sub]
theorem neg_d_meaning (a : TimeDiff) : diffMeaning a.neg = (diffMeaning a).map (- ·) := by
  rw [TimeDiff.neg, mk3d_meaning]
  cases ha : a.valid <;> simp [diffMeaning, ha, micros]; omega
theorem add_t_meaning (a : TimeStamp) (b : TimeDiff) :
    stampMeaning (a.add b) = oadd (stampMeaning a) (diffMeaning b) := by
  rw [TimeStamp.add, mk3t_meaning]
  cases ha : a.valid <;> cases hb : b.valid <;>
    simp [stampMeaning, diffMeaning, ha, hb, oadd, micros_add]
theorem sub_t_meaning (a : TimeStamp) (b : TimeDiff) :
    stampMeaning (a.sub b) = osub (stampMeaning a) (diffMeaning b) := by
  rw [TimeStamp.sub, mk3t_meaning]
  cases ha : a.valid <;> cases hb : b.valid <;>
    simp [stampMeaning, diffMeaning, ha, hb, osub, micros_sub]
theorem diff_meaning (a b : TimeStamp) :
    diffMeaning (a.diff b) = osub (stampMeaning a) (stampMeaning b) := by
  rw [TimeStamp.diff, mk3d_meaning]
  cases ha : a.valid <;> cases hb : b.valid <;> simp [stampMeaning, ha, hb, osub, micros_sub]

section normal
variable {a b : TimeDiff} {s t : TimeStamp}
theorem add_d_normal (ha : NormalD a) (hb : NormalD b) : NormalD (a.add b) :=
  mk3d_normal _ _ _ (by
    intro h; rw [Bool.and_eq_true] at h
    have := ha h.1; have := hb h.2; unfold Normal at *; omega)
theorem sub_d_normal (ha : NormalD a) (hb : NormalD b) : NormalD (a.sub b) :=
  mk3d_normal _ _ _ (by
    intro h; rw [Bool.and_eq_true] at h
    have := ha h.1; have := hb h.2; unfold Normal at *; omega)
theorem neg_d_normal (ha : NormalD a) : NormalD a.neg :=
  mk3d_normal _ _ _ (by
    intro h; have := ha h; unfold Normal at *; omega)
theorem add_t_normal (ha : NormalT s) (hb : NormalD b) : NormalT (s.add b) :=
  mk3t_normal _ _ _ (by
    intro h; rw [Bool.and_eq_true] at h
    have := ha h.1; have := hb h.2; unfold Normal at *; omega)
theorem sub_t_normal (ha : NormalT s) (hb : NormalD b) : NormalT (s.sub b) :=
  mk3t_normal _ _ _ (by
    intro h; rw [Bool.and_eq_true] at h
    have := ha h.1; have := hb h.2; unfold Normal at *; omega)
theorem diff_normal (ha : NormalT s) (hb : NormalT t) : NormalD (s.diff t) :=
  mk3d_normal _ _ _ (by
    intro h; rw [Bool.and_eq_true] at h
    have := ha h.1; have := hb h.2; unfold Normal at *; omega)
end normal

theorem ofMillis_normal (m : Int) : NormalD (TimeDiff.ofMillis m) := by
  intro _
  unfold TimeDiff.ofMillis Normal million
  have h1 := Int.tmod_lt_of_pos m (show (0 : Int) < 1000 by decide)
  have h2 : -1000 < Int.tmod m 1000 := by
    have := Int.tmod_lt_of_pos (-m) (show (0 : Int) < 1000 by decide)
    rw [Int.neg_tmod] at this; omega
  by_cases hm : m < 0
  · simp only [hm, if_true]
    split <;> dsimp only <;> omega
  · simp only [hm, if_false]
    have := Int.tmod_nonneg 1000 (show 0 ≤ m by omega)
    omega

theorem setAt_all {α : Type} {P : α → Prop} {f : Nat → α} (hf : ∀ i, P (f i)) (i : Nat) {a : α}
    (ha : P a) : ∀ j, P (setAt f i a j) := by
  intro j; unfold setAt; split
  · exact ha
  · exact hf j

theorem step_normal (s : Store) (h : NormalStore s) (o : Op) : NormalStore (step s o) := by
  obtain ⟨hs, hd⟩ := h
  cases o with
  | dDefault i a b => exact ⟨hs, setAt_all hd i (by intro h; simp at h)⟩
  | dMillis i m => exact ⟨hs, setAt_all hd i (ofMillis_normal m)⟩
  | dAddAssign i j => exact ⟨hs, setAt_all hd i (by rw [addAssign_d]; exact add_d_normal (hd _) (hd _))⟩
  | dSubAssign i j => exact ⟨hs, setAt_all hd i (by rw [subAssign_d]; exact sub_d_normal (hd _) (hd _))⟩
  | dAdd i j k => exact ⟨hs, setAt_all hd i (add_d_normal (hd _) (hd _))⟩
  | dSub i j k => exact ⟨hs, setAt_all hd i (sub_d_normal (hd _) (hd _))⟩
  | dNeg i j => exact ⟨hs, setAt_all hd i (neg_d_normal (hd _))⟩
  | tDefault i => exact ⟨setAt_all hs i (by intro h; simp at h), hd⟩
  | tEpoch i => exact ⟨setAt_all hs i (by intro _; simp [TimeStamp.epochStart, Normal]), hd⟩
  | tNow i cs cu h => exact ⟨setAt_all hs i (by intro _; simp [TimeStamp.now, Normal]; omega), hd⟩
  | tAddAssign i j => exact ⟨setAt_all hs i (by rw [addAssign_t]; exact add_t_normal (hs _) (hd _)), hd⟩
  | tSubAssign i j => exact ⟨setAt_all hs i (by rw [subAssign_t]; exact sub_t_normal (hs _) (hd _)), hd⟩
  | tAdd i j k => exact ⟨setAt_all hs i (add_t_normal (hs _) (hd _)), hd⟩
  | tSub i j k => exact ⟨setAt_all hs i (sub_t_normal (hs _) (hd _)), hd⟩
  | tDiff i j k => exact ⟨hs, setAt_all hd i (diff_normal (hs _) (hs _))⟩

theorem run_normal (s : Store) (h : NormalStore s) (ops : List Op) : NormalStore (run s ops) := by
  induction ops generalizing s with
  | nil => exact h
  | cons o l ih => exact ih (step s o) (step_normal s h o)

theorem init_normal : NormalStore Store.init :=
  ⟨fun _ h => by simp [Store.init] at h, fun _ h => by simp [Store.init] at h⟩

/-- microseconds actually stored by `TimeDiff(msec)` -/
def msMicros (m : Int) : Int := micros (TimeDiff.ofMillis m).sec (TimeDiff.ofMillis m).usec

theorem setAt_map {α β : Type} (g : α → β) (f : Nat → α) (i : Nat) (a : α) :
    (fun j => g (setAt f i a j)) = setAt (fun j => g (f j)) i (g a) := by
  funext j; unfold setAt; split <;> rfl

theorem ofMillis_meaning (m : Int) : diffMeaning (TimeDiff.ofMillis m) = some (msMicros m) := by
  have : (TimeDiff.ofMillis m).valid = true := by
    unfold TimeDiff.ofMillis; dsimp only; split
    · split <;> rfl
    · rfl
  simp [diffMeaning, this, msMicros]

theorem step_meaning (s : Store) (o : Op) :
    storeMeaning (step s o) = astep msMicros (storeMeaning s) o := by
  cases o <;> simp only [step, astep, storeMeaning, setAt_map, addAssign_d, subAssign_d, addAssign_t,
    subAssign_t, add_d_meaning, sub_d_meaning, neg_d_meaning, add_t_meaning, sub_t_meaning,
    diff_meaning, ofMillis_meaning] <;> rfl

theorem run_meaning (s : Store) (ops : List Op) :
    storeMeaning (run s ops) = arun msMicros (storeMeaning s) ops := by
  induction ops generalizing s with
  | nil => rfl
  | cons o l ih =>
    simp only [run, arun, List.foldl_cons] at ih ⊢
    rw [ih, step_meaning]

theorem micros_lt {a b c d : Int} (hb : Normal b) (hd : Normal d) :
    micros a b < micros c d ↔ a < c ∨ (a = c ∧ b < d) := by
  unfold micros Normal at *; omega

theorem micros_eq {a b c d : Int} (hb : Normal b) (hd : Normal d) :
    micros a b = micros c d ↔ a = c ∧ b = d := by
  unfold micros Normal at *; omega

end WFMath.Time
