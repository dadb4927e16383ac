/- Concrete cases for the theorems about shapes moved and turned in floating point (C141). -/
import Verif.Props.RoundShapeCoords
import Verif.Cases.RotatedRounding
import Verif.Cases.Rounding

namespace WFMath.Cases
open Spec Matrix Rounding

/-- The triangle (0, 0), (3, 0), (0, 3/2). -/
noncomputable def tri : Corners 2 := [⟨![0, 0], true⟩, ⟨![3, 0], true⟩, ⟨![0, 3 / 2], true⟩]
noncomputable def segA : Seg 2 := ⟨⟨![1, 1], true⟩, ⟨![4, 5], true⟩⟩

/-- C141_shift: the corner (3, 0) of the triangle shifted by (1/10, 5) comes near (31/10, 5), and a segment shifted there and back is back up to 10^-14. -/
example (r : Rounding 53) : (∃ y, (Fl.lineShift r tri ⟨![1 / 10, 5], true⟩)[1]? = some y ∧ |y.elem 0 - 31 / 10| ≤ 2 ^ (-53 : ℤ) * (31 / 10)) ∧
    |((Fl.segShift r (Fl.segShift r segA ⟨![1 / 10, 5], true⟩) ⟨![-(1 / 10), -5], true⟩).getCorner 1).elem 1 - 5| ≤ 3 * 2 ^ (-53 : ℤ) * 10 := by
  obtain ⟨h1, h2, -⟩ := C141_shift r (⟨![1 / 10, 5], true⟩ : Vec 2) ⟨![-(1 / 10), -5], true⟩ (by intro i; fin_cases i <;> simp)
  constructor
  · refine ⟨_, rfl, ?_⟩
    have := (h2 tri).2 1 _ _ rfl rfl 0
    simp only [cons_val_zero] at this
    rw [show (3 : ℝ) + 1 / 10 = 31 / 10 by norm_num, abs_of_pos (by norm_num : (0 : ℝ) < 31 / 10)] at this
    exact this
  · have := (h1 segA 1 1).2
    simp only [segA, Seg.getCorner, ne_eq, one_ne_zero, not_false_eq_true, if_true, cons_val_one] at this
    refine this.trans (le_of_eq ?_)
    simp only [cons_val_zero]; rw [show |(5 : ℝ)| = 5 by norm_num]; norm_num

/-- C141_move_corner: the second end of the segment moved to (1/10, 0) is exactly there, and there is no third end. -/
example (r : Rounding 53) : (∃ b, Fl.segMoveCorner r segA ⟨![1 / 10, 0], true⟩ 1 = some ⟨b, ⟨![1 / 10, 0], true⟩⟩ ∧ |b.elem 0 - (1 / 10 - 3)| ≤ 1 / 10 ^ 10) ∧
    Fl.segMoveCorner r segA ⟨![1 / 10, 0], true⟩ 2 = none ∧ Fl.lineMoveCorner r tri ⟨![1, 1], true⟩ 3 = none ∧
    ∃ qs, Fl.lineMoveCorner r tri ⟨![1 / 10, 7], true⟩ 1 = some qs ∧ qs.length = 3 := by
  obtain ⟨h1, h2⟩ := C141_move_corner r (⟨![1 / 10, 0], true⟩ : Pt 2)
  obtain ⟨a, b, -, hb, -, hb2, hn⟩ := h1 segA
  refine ⟨⟨b, hb, ?_⟩, hn 2 (by norm_num), (C141_move_corner r (⟨![1, 1], true⟩ : Pt 2)).2 tri 3 |>.1 (by simp [tri]), ?_⟩
  · have := hb2 0
    simp only [segA, cons_val_zero] at this
    rw [show (4 : ℝ) - 1 = 3 by norm_num] at this
    exact this.trans (by rw [show |(1 : ℝ) / 10 - 3| = 29 / 10 by rw [abs_of_neg] <;> norm_num, show |(3 : ℝ)| = 3 by norm_num]; norm_num)
  · obtain ⟨qs, hq, hl, -⟩ := ((C141_move_corner r (⟨![1 / 10, 7], true⟩ : Pt 2)).2 tri 1).2 _ rfl
    exact ⟨qs, hq, hl⟩

/-- C141_move_center: the centre of the triangle, (1, 1/2), moved to (2, 2): the corner (3, 0) comes near (4, 3/2). -/
example (r : Rounding 53) : (Fl.lineMoveCenter r tri ⟨![2, 2], true⟩).length = 3 ∧
    ∃ y, (Fl.lineMoveCenter r tri ⟨![2, 2], true⟩)[1]? = some y ∧ |y.elem 0 - 4| ≤ 2 ^ (-50 : ℤ) * 5 := by
  obtain ⟨h1, h2⟩ := (C141_move_center r (⟨![2, 2], true⟩ : Pt 2)).2 tri (by simp [tri]) (by simp [tri])
  refine ⟨h1, _, rfl, ?_⟩
  have := h2 1 _ _ rfl rfl 0
  simp [tri] at this
  norm_num at this ⊢
  exact this
example (r : Rounding 53) (p : Pt 2) := (C141_move_center r p).1 segA 1 0

example (r : Rounding 53) (p : Pt 2) := C141_rotate r (Fl.turn35 r) exact35 (13 * 2 ^ (-52 : ℤ)) (by norm_num) exact35_orth (by norm_num) (by norm_num) (stands35 r (by norm_num)) p

/-- C141_rotate_corner: the triangle turned about its corner (0, 3/2): that corner stays. -/
example (r : Rounding 53) : ∃ qs, Fl.lineRotateCorner r tri (Fl.turn35 r) 2 = some qs ∧ ∀ c, qs[2]? = some c → c.elem = ![0, 3 / 2] := by
  obtain ⟨qs, hq, -, hc, -⟩ := ((C141_rotate_corner r (Fl.turn35 r) exact35 (13 * 2 ^ (-52 : ℤ)) (by norm_num) exact35_orth (by norm_num) (by norm_num)
    (stands35 r (by norm_num))).2 tri 2).2 _ rfl
  refine ⟨qs, hq, hc ?_⟩
  intro i
  fin_cases i
  · exact IsFl.zero
  · exact ⟨3, -1, by norm_num, by norm_num⟩

/-- C141_rotate_center. -/
example (r : Rounding 53) := (C141_rotate_center r (Fl.turn35 r) exact35 (13 * 2 ^ (-52 : ℤ)) (by norm_num) exact35_orth (by norm_num) (by norm_num)
  (stands35 r (by norm_num))).1 segA ![5 / 2, 3] _ (by intro i; fin_cases i <;> simp [segA] <;> norm_num) rfl 1
example (r : Rounding 53) := (C141_rotate_center r (Fl.turn35 r) exact35 (13 * 2 ^ (-52 : ℤ)) (by norm_num) exact35_orth (by norm_num) (by norm_num)
  (stands35 r (by norm_num))).2 tri ![1, 1 / 2] _ (by simp [tri]) (by simp [tri]) (by intro i; fin_cases i <;> simp [tri] <;> norm_num) rfl

/-- C141_rotbox_move, C141_rotbox_rotate. -/
example (r : Rounding 53) (p : Pt 2) := C141_rotbox_move r (rb35 r) R35 (13 * 2 ^ (-52 : ℤ)) (by norm_num) hR35 (by norm_num) (by norm_num) (hm35 r) p
example (r : Rounding 53) := C141_rotbox_rotate r (rb35 r) (Fl.turn35 r) R35 exact35 (13 * 2 ^ (-52 : ℤ)) (13 * 2 ^ (-52 : ℤ)) (by norm_num) hR35 exact35_orth
  (by norm_num) (by norm_num) (hm35 r) (by norm_num) (by norm_num) (stands35 r (by norm_num))

/-- C141_quaternion, C141_coords, C141_box_frame. -/
example (r : Rounding 53) := C141_quaternion r quatB (toH quatB) 0 _ quatB_norm quatB_near (by norm_num) rfl
example (r : Rounding 53) (o : Pt 2) := C141_coords r (Fl.turn35 r) exact35 (13 * 2 ^ (-52 : ℤ)) (by norm_num) exact35_orth (by norm_num) (by norm_num) (stands35 r (by norm_num)) o
example (r : Rounding 53) (c : Box 1) := C141_box_frame r c ⟨![3 / 2], true⟩ (by intro i; fin_cases i; exact ⟨3, -1, by norm_num, by norm_num⟩) 0

end WFMath.Cases
