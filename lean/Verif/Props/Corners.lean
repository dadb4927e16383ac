/- Property theorem C71: lines and plane polygons behave as point lists. -/
import Verif.Model.Polygon
import Verif.Spec.Polygon
import Verif.Props.AxisBox

namespace WFMath
open Spec
variable {n : Nat}

/-- One edit of a line or plane polygon through its member functions. -/
def Corners.apply (ps : Corners n) : Edit n → Option (Corners n)
  | .add i p => ps.addCorner i p
  | .remove i => ps.removeCorner i
  | .move i p => ps.moveCorner i p

/-- A history of edits; `none` when an index was out of range. -/
def Corners.run : Corners n → List (Edit n) → Option (Corners n)
  | ps, [] => some ps
  | ps, e :: es => (ps.apply e).bind fun qs => Corners.run qs es

/-- The line or polygon shows exactly this many corners, each at its index. -/
def Shows (ps : Corners n) (s : Indexed n) : Prop :=
  ps.length = s.count ∧ ∀ j, j < s.count → ps.getCorner j = some (s.corner j)

theorem shows_edit {ps : Corners n} {s : Indexed n} (h : Shows ps s) (e : Edit n) :
    (ps.apply e = none ↔ s.edit e = none) ∧ ∀ qs t, ps.apply e = some qs → s.edit e = some t → Shows qs t := by
  obtain ⟨hl, hc⟩ := h
  unfold Corners.getCorner at hc
  cases e with
  | add i p =>
    simp only [Corners.apply, Corners.addCorner, Indexed.edit, hl]
    split_ifs with hi
    · refine ⟨by simp, fun qs t h1 h2 => ?_⟩
      rw [← Option.some.inj h1, ← Option.some.inj h2]
      have hlt : (ps.take i).length = i := by rw [List.length_take]; omega
      refine ⟨by simp; omega, fun j hj => ?_⟩
      simp only [Corners.getCorner]
      simp only at hj
      rw [List.getElem?_append, hlt]
      by_cases h3 : j < i
      · rw [if_pos h3, if_pos h3, List.getElem?_take, if_pos h3, hc j (by omega)]
      · rw [if_neg h3, if_neg h3]
        by_cases h4 : j = i
        · rw [if_pos h4, h4, Nat.sub_self]; rfl
        · rw [if_neg h4]
          obtain ⟨k, rfl⟩ : ∃ k, j = i + k + 1 := ⟨j - i - 1, by omega⟩
          rw [show i + k + 1 - i = k + 1 by omega, List.getElem?_cons_succ, List.getElem?_drop, show i + k + 1 - 1 = i + k by omega]
          exact hc _ (by omega)
    · exact ⟨by simp, fun _ _ h => by simp at h⟩
  | remove i =>
    simp only [Corners.apply, Corners.removeCorner, Indexed.edit, hl]
    split_ifs with hi
    · refine ⟨by simp, fun qs t h1 h2 => ?_⟩
      rw [← Option.some.inj h1, ← Option.some.inj h2]
      have hlt : (ps.take i).length = i := by rw [List.length_take]; omega
      refine ⟨by simp; omega, fun j hj => ?_⟩
      simp only [Corners.getCorner]
      simp only at hj
      rw [List.getElem?_append, hlt]
      by_cases h3 : j < i
      · rw [if_pos h3, if_pos h3, List.getElem?_take, if_pos h3, hc j (by omega)]
      · rw [if_neg h3, if_neg h3, List.getElem?_drop, show i + 1 + (j - i) = j + 1 by omega]
        exact hc _ (by omega)
    · exact ⟨by simp, fun _ _ h => by simp at h⟩
  | move i p =>
    simp only [Corners.apply, Corners.moveCorner, Indexed.edit, hl]
    split_ifs with hi
    · refine ⟨by simp, fun qs t h1 h2 => ?_⟩
      rw [← Option.some.inj h1, ← Option.some.inj h2]
      refine ⟨by simp [hl], fun j hj => ?_⟩
      simp only [Corners.getCorner]
      simp only at hj
      rw [List.getElem?_set]
      by_cases h3 : i = j
      · rw [if_pos h3, if_pos (by omega), if_pos h3.symm]
      · rw [if_neg h3, if_neg (Ne.symm h3)]; exact hc j hj
    · exact ⟨by simp, fun _ _ h => by simp at h⟩

/-- C71: after any history of edits the numbers of corners and the corners are those of the specification, and an edit is
refused (undefined behaviour) exactly when its index is out of range. -/
theorem C71_edits (ps : Corners n) (s : Indexed n) (h : Shows ps s) (es : List (Edit n)) :
    (ps.run es = none ↔ s.edits es = none) ∧ ∀ qs t, ps.run es = some qs → s.edits es = some t → Shows qs t := by
  induction es generalizing ps s with
  | nil =>
    refine ⟨by simp [Corners.run, Indexed.edits], fun qs t h1 h2 => ?_⟩
    rw [← Option.some.inj h1, ← Option.some.inj h2]; exact h
  | cons e es ih =>
    have he := shows_edit h e
    simp only [Corners.run, Indexed.edits]
    cases h1 : ps.apply e with
    | none => simp [he.1.1 h1]
    | some qs =>
      cases h2 : s.edit e with
      | none => rw [he.1.2 h2] at h1; simp at h1
      | some t => simpa using ih qs t (he.2 qs t h1 h2)

/-- C71: an empty line or polygon shows nothing, so the theorem applies to every history from the start. -/
theorem C71_empty (p : Pt n) : Shows ([] : Corners n) ⟨0, fun _ => p⟩ := ⟨rfl, fun j hj => by simp at hj⟩

/-- C71: equality compares the lists corner by corner with the tolerance. -/
theorem C71_equal (ps qs : Corners n) (eps : ℝ) : ps.isEqualTo qs eps = true ↔
    ps.length = qs.length ∧ ∀ j p q, ps.getCorner j = some p → qs.getCorner j = some q → p.isEqualTo q eps = true := by
  have key : ∀ (ps qs : Corners n), ps.length = qs.length → (Corners.isEqualToLoop eps ps qs = true ↔
      ∀ j p q, ps.getCorner j = some p → qs.getCorner j = some q → p.isEqualTo q eps = true) := by
    intro ps
    induction ps with
    | nil => intro qs _; simp [Corners.isEqualToLoop, Corners.getCorner]
    | cons a ps ih =>
      intro qs hl
      cases qs with
      | nil => simp at hl
      | cons b qs =>
        simp only [List.length_cons, Nat.succ.injEq, Nat.add_right_cancel_iff] at hl
        unfold Corners.isEqualToLoop
        constructor
        · intro h j p q hp hq
          split_ifs at h with h1
          cases j with
          | zero =>
            simp only [Corners.getCorner, List.getElem?_cons_zero, Option.some.injEq] at hp hq
            rw [← hp, ← hq]; simpa using h1
          | succ j => exact (ih qs hl).1 h j p q (by simpa [Corners.getCorner] using hp) (by simpa [Corners.getCorner] using hq)
        · intro h
          rw [if_neg]
          · refine (ih qs hl).2 fun j p q hp hq => h (j + 1) p q ?_ ?_
            · simpa [Corners.getCorner] using hp
            · simpa [Corners.getCorner] using hq
          · simp [h 0 a b rfl rfl]
  unfold Corners.isEqualTo
  by_cases hl : ps.length = qs.length
  · simp [hl, key ps qs hl]
  · simp [hl]

/-- C71: `isValid` of a plane polygon says that all its corners are valid; of a line, that it has at least two points. -/
theorem C71_valid (ps : Corners n) : (ps.polyValid = true ↔ ∀ j p, ps.getCorner j = some p → p.valid = true) ∧
    (ps.lineValid = true ↔ 2 ≤ ps.length) := by
  constructor
  · unfold Corners.polyValid Corners.getCorner
    rw [List.all_eq_true]
    constructor
    · intro h j p hp; exact h p (List.mem_of_getElem? hp)
    · intro h p hp
      obtain ⟨j, hj⟩ := List.getElem?_of_mem hp
      exact h j p hj
  · unfold Corners.lineValid; simp; omega

/-- A history: three points, the middle one taken out again, the last one moved. -/
example (a b c d : Pt 2) : Corners.run ([] : Corners 2) [.add 0 a, .add 1 b, .add 1 c, .remove 1, .move 1 d] = some [a, d] := by
  simp [Corners.run, Corners.apply, Corners.addCorner, Corners.removeCorner, Corners.moveCorner]
/-- An index out of range is refused. -/
example (a : Pt 2) : Corners.run ([] : Corners 2) [.add 0 a, .remove 1] = none := by
  simp [Corners.run, Corners.apply, Corners.addCorner, Corners.removeCorner]

end WFMath
