/- Cases that meet the hypotheses of C147: a box turned by a quarter in space and turned on by a unit quaternion, and boxes in the plane turned by 3/5, 4/5. -/
import Verif.Cases.ShapeMoves
import Verif.Props.RoundRBoxFrame
import Verif.Props.Separating

namespace WFMath.Cases
open Spec Matrix Rounding
open scoped Quaternion

theorem exRot_stands {α : ℝ} (h : α = 0) : Stands exRot.orient.elem quarter3.elem α := fun v => by
  subst h
  simp [exRot, len]

theorem exRot_orth : quarter3.elemᵀ * quarter3.elem = 1 := mul_eq_one_comm.1 quarter3_isRotation.orth

example (r : Rounding 53) := C147_quaternion r exRot quatB (toH quatB) quarter3.elem (24 * 2 ^ (-52 : ℤ)) 0 _ exRot_orth (by norm_num) (by norm_num)
  (exRot_stands (by norm_num)) quatB_norm quatB_near (by norm_num) rfl
example (r : Rounding 53) (o : Pt 3) := C147_quaternion_frames r exRot o quatB (toH quatB) quarter3.elem 0 0 _ exRot_orth le_rfl (by norm_num)
  (exRot_stands rfl) quatB_norm quatB_near (by norm_num) rfl
example (r : Rounding 53) (o : Pt 2) := C147_parent r (rb35 r) o (Fl.turn35 r) R35 exact35 (13 * 2 ^ (-52 : ℤ)) (13 * 2 ^ (-52 : ℤ)) (by norm_num) hR35 exact35_orth
  (by norm_num) (by norm_num) (hm35 r) (by norm_num) (by norm_num) (stands35 r (by norm_num))
example (r : Rounding 53) (o : Pt 2) := C147_local_partial r (rb35 r) o (Fl.turn35 r) R35 exact35 (13 * 2 ^ (-52 : ℤ)) (13 * 2 ^ (-52 : ℤ)) (by norm_num) hR35 exact35_orth
  (by norm_num) (by norm_num) (hm35 r) (by norm_num) (by norm_num) (stands35 r (by norm_num))
example (r : Rounding 53) (c : Box 3) := C147_box_frame r exRot c quarter3.elem (by intro i; fin_cases i <;> exact ⟨1, 0, by norm_num, by norm_num [exRot]⟩)

end WFMath.Cases
