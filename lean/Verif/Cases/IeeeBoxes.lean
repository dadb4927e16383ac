/- Cases that meet the hypotheses of C148: a half plane, a square and the whole plane. -/
import Verif.Props.IeeeBox

namespace WFMath.Cases
open Spec

theorem fine_small {x : ℝ} (k : ℤ) (hx : x = k) (h : |k| < 2 ^ 53) : (Dbl.num x).Fine := by
  refine ⟨⟨k, 0, h, by norm_num, by rw [hx]; simp⟩, ?_⟩
  have : |x| < 2 ^ (53 : ℤ) := by rw [hx]; exact_mod_cast h
  exact this.trans (zpow_lt_zpow_right₀ one_lt_two (by norm_num))

/-- The half plane to the right of the line x = 2, the unit square, and the plane. -/
noncomputable def right : Ie.DBox 2 := ⟨⟨![.num 2, .inf true], true⟩, ⟨![.inf false, .inf false], true⟩⟩
noncomputable def square : Ie.DBox 2 := ⟨⟨![.num 0, .num 0], true⟩, ⟨![.num 1, .num 1], true⟩⟩
noncomputable def plane : Ie.DBox 2 := ⟨⟨![.inf true, .inf true], true⟩, ⟨![.inf false, .inf false], true⟩⟩

theorem right_fine : FineBox right := by
  constructor <;> intro i <;> fin_cases i
  · exact fine_small 2 (by norm_num) (by norm_num)
  all_goals trivial
theorem square_fine : FineBox square := by
  constructor <;> intro i <;> fin_cases i
  · exact fine_small 0 (by norm_num) (by norm_num)
  · exact fine_small 0 (by norm_num) (by norm_num)
  · exact fine_small 1 (by norm_num) (by norm_num)
  · exact fine_small 1 (by norm_num) (by norm_num)
theorem plane_fine : FineBox plane := by constructor <;> intro i <;> fin_cases i <;> trivial

/-- C148_overlap: the square does not meet the half plane. C148_inside: both are in the plane. -/
example (g : Nearest) : Ie.interBB g square right false = false := by
  rw [← Bool.not_eq_true]
  intro h
  have := ((C148_overlap g square right square_fine right_fine).2.2.1 h 0).2
  have he2 := epsilon_lt
  norm_num at he2
  have h1 : epsilon * (1 + 2 ^ (-52 : ℤ)) < 1 := by
    have : (2 : ℝ) ^ (-52 : ℤ) < 1 := zpow_lt_one_of_neg₀ one_lt_two (by norm_num)
    nlinarith [epsilon_pos]
  generalize epsilon * (1 + 2 ^ (-52 : ℤ)) = E at *
  simp only [right, square, Dbl.ext, Matrix.cons_val_zero, ← EReal.coe_add, EReal.coe_le_coe_iff] at this
  linarith
example (g : Nearest) : Ie.containsBB g plane right false = true :=
  (C148_inside g plane right plane_fine right_fine).2.2.2.2 fun i => by fin_cases i <;> exact ⟨rfl, rfl⟩
/-- C148_point, C148_union, C148_intersection, C148_bounding, C148_corners, C148_nan. -/
example (g : Nearest) : Ie.interBP g right.low.elem right.high.elem ![.num 3, .num 0] true = true :=
  (C148_point g _ _ _ right_fine.1 right_fine.2 (by intro i; fin_cases i <;> [exact fine_small 3 (by norm_num) (by norm_num); exact fine_small 0 (by norm_num) (by norm_num)])).1.2
    (by intro i; fin_cases i <;> simp [right, Dbl.ext] <;> exact_mod_cast (by norm_num : (2 : ℝ) < 3))
example := C148_union right square right_fine square_fine
example : (Ie.boxIntersection plane square).isSome := (C148_intersection plane square plane_fine square_fine).2.1
  ⟨0, fun i => by fin_cases i <;> simp [plane, Dbl.ext], fun i => by fin_cases i <;> simp [square, Dbl.ext]⟩
example := C148_bounding right [square, plane] (by intro c hc; fin_cases hc <;> [exact right_fine; exact square_fine; exact plane_fine]) square.low [square.high]
  (by intro q hq; fin_cases hq <;> [exact square_fine.1; exact square_fine.2])
example := C148_corners square.high square.low square_fine.2 square_fine.1 0
example (g : Nearest) := C148_nan g ⟨⟨fun _ => .nan, true⟩, ⟨fun _ => .nan, true⟩⟩ right (fun _ => ⟨rfl, rfl⟩) right_fine true

end WFMath.Cases
