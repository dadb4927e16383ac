/- Property theorems C134: segments against boxes, balls and points, computed in doubles. -/
import Verif.Model.RoundedSeg
import Verif.Props.RoundBall
import Verif.Props.RoundVector
import Verif.Props.Segment

namespace WFMath
open Spec Matrix Rounding
variable {n : Nat}

namespace Fl

/-- The face of a box that the exact test would have to have for the answer of the rounded test: lower faces. -/
noncomputable def lowFace (r : Rounding 53) (a c x : ℝ) : ℝ :=
  if c = a then (if x - a > epsilon ∧ ¬ r (x - a) > epsilon then a + epsilon else x) else a + r (r (x - a) / r (c - a)) * (c - a)
/-- The same for upper faces. -/
noncomputable def highFace (r : Rounding 53) (a c x : ℝ) : ℝ :=
  if c = a then (if a - x > epsilon ∧ ¬ r (a - x) > epsilon then a - epsilon else x) else a + r (r (x - a) / r (c - a)) * (c - a)

theorem quot_err (r : Rounding 53) {a c x : ℝ} (h : c ≠ a) : |a + r (r (x - a) / r (c - a)) * (c - a) - x| ≤ 3 * 2 ^ (-52 : ℤ) * |x - a| := by
  have hd : c - a ≠ 0 := sub_ne_zero.2 h
  have h1 := ((Close.round_self pos53 r (x - a)).div pos53 (Close.round_self pos53 r (c - a))).round pos53 r
  have h2 := Close_err' h1 (by norm_num)
  have e : a + r (r (x - a) / r (c - a)) * (c - a) - x = (r (r (x - a) / r (c - a)) - (x - a) / (c - a)) * (c - a) := by field_simp; ring
  rw [e, abs_mul]
  refine (mul_le_mul_of_nonneg_right h2 (abs_nonneg _)).trans (le_of_eq ?_)
  rw [abs_div, mul_assoc, div_mul_cancel₀ _ (abs_ne_zero.2 hd)]; norm_num

theorem past_eps (r : Rounding 53) {x : ℝ} (h1 : x > epsilon) (h2 : ¬ r x > epsilon) : x - epsilon ≤ 3 * 2 ^ (-52 : ℤ) * |x| := by
  have h := r.err pos53 x
  rw [u53] at h
  have h0 := neg_le_abs (r x - x)
  have : (2 : ℝ) ^ (-53 : ℤ) * |x| ≤ 3 * 2 ^ (-52 : ℤ) * |x| := mul_le_mul_of_nonneg_right (by norm_num) (abs_nonneg _)
  push Not at h2
  linarith

theorem lowFace_err (r : Rounding 53) (a c x : ℝ) : |lowFace r a c x - x| ≤ 3 * 2 ^ (-52 : ℤ) * |x - a| := by
  unfold lowFace
  split_ifs with h1 h2
  · have := past_eps r h2.1 h2.2
    rw [abs_of_nonpos (by linarith [h2.1])]; linarith
  · rw [sub_self, abs_zero]; positivity
  · exact quot_err r h1

theorem highFace_err (r : Rounding 53) (a c x : ℝ) : |highFace r a c x - x| ≤ 3 * 2 ^ (-52 : ℤ) * |x - a| := by
  unfold highFace
  split_ifs with h1 h2
  · have := past_eps r h2.1 h2.2
    rw [abs_sub_comm] at this
    rw [abs_of_nonneg (by linarith [h2.1])]; linarith
  · rw [sub_self, abs_zero]; positivity
  · exact quot_err r h1

theorem face_le (r : Rounding 53) {a c x y : ℝ} (h : x ≤ y) : lowFace r a c x ≤ highFace r a c y := by
  have he := epsilon_pos
  unfold lowFace highFace
  split_ifs with h1 h2 h3 h3
  · linarith [h2.1, h3.1]
  · linarith [h2.1]
  · linarith [h3.1]
  · exact h
  · have hm : r (x - a) ≤ r (y - a) := r.mono (by linarith)
    rcases lt_or_gt_of_ne h1 with hc | hc
    · have : r (c - a) ≤ 0 := r.nonpos (by linarith)
      have := r.mono (div_le_div_of_nonpos_of_le this hm)
      nlinarith
    · have : 0 ≤ r (c - a) := r.nonneg (by linarith)
      have := r.mono (div_le_div_of_nonneg_right hm this)
      nlinarith

theorem less_face (r : Rounding 53) (a x : ℝ) (proper : Bool) : less r a x proper = WFMath.less a (lowFace r a a x) proper := by
  have he := epsilon_pos
  have hE : IsFl 53 epsilon := isFl_epsilon
  unfold less WFMath.less lowFace
  rw [if_pos (show a = a from rfl)]
  cases proper
  · simp only [Bool.false_eq_true, if_false, decide_eq_decide]
    split_ifs with h
    · constructor
      · intro hc; exact absurd hc h.2
      · intro hc; linarith
    · constructor
      · intro hc; by_contra hx; exact absurd hc (not_lt.2 (r.le_fl hE (not_lt.1 hx)))
      · intro hc; by_contra hx; exact h ⟨hc, hx⟩
  · simp only [if_true, decide_eq_decide]
    split_ifs with h
    · constructor <;> intro <;> linarith [h.1]
    · rfl

theorem greater_face (r : Rounding 53) (a x : ℝ) (proper : Bool) : greater r a x proper = WFMath.greater a (highFace r a a x) proper := by
  have he := epsilon_pos
  have hE : IsFl 53 epsilon := isFl_epsilon
  unfold greater WFMath.greater highFace
  rw [if_pos (show a = a from rfl)]
  cases proper
  · simp only [Bool.false_eq_true, if_false, decide_eq_decide]
    split_ifs with h
    · constructor
      · intro hc; exact absurd hc h.2
      · intro hc; linarith
    · constructor
      · intro hc; by_contra hx; exact absurd hc (not_lt.2 (r.le_fl hE (not_lt.1 hx)))
      · intro hc; by_contra hx; exact h ⟨hc, hx⟩
  · simp only [if_true, decide_eq_decide]
    split_ifs with h
    · constructor <;> intro <;> linarith [h.1]
    · rfl

/-- The box whose exact test is the rounded test of `b`. -/
noncomputable def seenBox (r : Rounding 53) (s : Seg n) (b : Box n) : Box n :=
  ⟨⟨fun i => lowFace r (s.p1.elem i) (s.p2.elem i) (b.low.elem i), b.low.valid⟩, ⟨fun i => highFace r (s.p1.elem i) (s.p2.elem i) (b.high.elem i), b.high.valid⟩⟩

theorem segBoxLoop_seen (r : Rounding 53) (s : Seg n) (b : Box n) (proper : Bool) (l : List (Fin n)) (st : ℝ × ℝ) :
    segBoxLoop r s b proper l st = WFMath.segBoxLoop s (seenBox r s b) proper l st := by
  induction l generalizing st with
  | nil => rfl
  | cons i l ih =>
    obtain ⟨mn, mx⟩ := st
    rw [segBoxLoop, WFMath.segBoxLoop]
    simp only [seenBox]
    by_cases hd : s.p2.elem i = s.p1.elem i
    · have e0 : s.p2.elem i - s.p1.elem i = 0 := by rw [hd, sub_self]
      have e1 : r (s.p2.elem i - s.p1.elem i) = 0 := by rw [e0, r.zero]
      rw [if_pos e1, if_pos e0, ih, less_face, greater_face]
      simp only [hd, seenBox]
    · have hd' : s.p2.elem i - s.p1.elem i ≠ 0 := sub_ne_zero.2 hd
      have hr : r (s.p2.elem i - s.p1.elem i) ≠ 0 := fun hc => hd' (((Close.round_self pos53 r _).eq_zero pos53).1 hc)
      have q : ∀ z : ℝ, (s.p1.elem i + z * (s.p2.elem i - s.p1.elem i) - s.p1.elem i) / (s.p2.elem i - s.p1.elem i) = z := fun z => by field_simp; ring
      rw [if_neg hr, if_neg hd', ih]
      simp only [lowFace, highFace, if_neg hd, q, seenBox]

end Fl

/-- C134, segment and box: the answer computed in doubles is the exact answer for a box each of whose faces is moved by at most 3 units in the last place of its
distance from the start of the segment, so that it is wrong only when the segment all but touches the box. -/
theorem C134_box_backward (r : Rounding 53) (s : Seg n) (b : Box n) (ho : Ordered b) : ∃ b', Ordered b' ∧
    (∀ i, |b'.low.elem i - b.low.elem i| ≤ 3 * 2 ^ (-52 : ℤ) * |b.low.elem i - s.p1.elem i| ∧
      |b'.high.elem i - b.high.elem i| ≤ 3 * 2 ^ (-52 : ℤ) * |b.high.elem i - s.p1.elem i|) ∧
    ∀ proper, Fl.interSB r s b proper = interSB s b' proper := by
  refine ⟨Fl.seenBox r s b, fun i => Fl.face_le r (ho i), fun i => ⟨Fl.lowFace_err r _ _ _, Fl.highFace_err r _ _ _⟩, fun proper => ?_⟩
  unfold Fl.interSB interSB
  rw [Fl.segBoxLoop_seen]
  rfl

/-- C134, segment and box: a segment with a point in the box by a margin of 3 units in the last place is found to meet it, and a segment found to meet it has a point
that is in the box up to that margin, and up to epsilon in the tolerant test. -/
theorem C134_box (r : Rounding 53) (s : Seg n) (b : Box n) (ho : Ordered b) :
    ((∃ x ∈ segSet s, ∀ i, b.low.elem i + 3 * 2 ^ (-52 : ℤ) * |b.low.elem i - s.p1.elem i| ≤ x i ∧
      x i ≤ b.high.elem i - 3 * 2 ^ (-52 : ℤ) * |b.high.elem i - s.p1.elem i|) → Fl.interSB r s b false = true) ∧
    ((∃ x ∈ segSet s, ∀ i, b.low.elem i + 3 * 2 ^ (-52 : ℤ) * |b.low.elem i - s.p1.elem i| < x i ∧
      x i < b.high.elem i - 3 * 2 ^ (-52 : ℤ) * |b.high.elem i - s.p1.elem i|) → Fl.interSB r s b true = true) ∧
    (Fl.interSB r s b false = true → ∃ x ∈ segSet s, ∀ i, b.low.elem i - 3 * 2 ^ (-52 : ℤ) * |b.low.elem i - s.p1.elem i| - epsilon ≤ x i ∧
      x i ≤ b.high.elem i + 3 * 2 ^ (-52 : ℤ) * |b.high.elem i - s.p1.elem i| + epsilon) ∧
    (Fl.interSB r s b true = true → ∃ x ∈ segSet s, ∀ i, b.low.elem i - 3 * 2 ^ (-52 : ℤ) * |b.low.elem i - s.p1.elem i| < x i ∧
      x i < b.high.elem i + 3 * 2 ^ (-52 : ℤ) * |b.high.elem i - s.p1.elem i|) := by
  obtain ⟨b', ho', hb, he⟩ := C134_box_backward r s b ho
  rw [he, he, C59_proper s b' ho']
  have he0 := epsilon_pos
  refine ⟨?_, ?_, ?_, ?_⟩
  · rintro ⟨x, h1, h2⟩
    refine (C59_tolerance s b' ho').1 ⟨x, h1, fun i => ?_⟩
    have h := hb i
    rw [_root_.abs_le, _root_.abs_le] at h
    constructor <;> linarith [h2 i, h.1.1, h.1.2, h.2.1, h.2.2]
  · rintro ⟨x, h1, h2⟩
    refine ⟨x, h1, fun i => ?_⟩
    have h := hb i
    rw [_root_.abs_le, _root_.abs_le] at h
    constructor <;> linarith [h2 i, h.1.1, h.1.2, h.2.1, h.2.2]
  · intro h
    obtain ⟨x, h1, h2⟩ := (C59_closed s b' ho').1 h
    refine ⟨x, h1, fun i => ?_⟩
    have h := hb i
    rw [_root_.abs_le, _root_.abs_le] at h
    by_cases hc : s.p2.elem i = s.p1.elem i
    · have h3 := (h2 i).2 hc
      constructor <;> linarith [h.1.1, h.1.2, h.2.1, h.2.2]
    · have h3 := (h2 i).1 hc
      constructor <;> linarith [h.1.1, h.1.2, h.2.1, h.2.2]
  · rintro ⟨x, h1, h2⟩
    refine ⟨x, h1, fun i => ?_⟩
    have h := hb i
    rw [_root_.abs_le, _root_.abs_le] at h
    constructor <;> linarith [h2 i, h.1.1, h.1.2, h.2.1, h.2.2]

end WFMath
