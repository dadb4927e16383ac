/- Cases of the theorems of Props/Atlas, Props/AxisBox, Props/Ball, Props/BoxTests: their hypotheses hold for concrete objects. -/
import Verif.Cases.Common
import Verif.Props.Atlas
import Verif.Props.Ball
import Verif.Props.BoxTests

namespace WFMath.Cases
open WFMath Spec Matrix

/-! ### Props/Atlas -/

example (p : XPt 3) := C78_vector ⟨![1, -2, 1 / 2], true⟩ rfl p
example (p : XPt 3) := C78_point ⟨![1, -2, 1 / 2], true⟩ rfl p
example (q : XQuat) := C78_quaternion quatA quatA_unit q
example (b : XBox 2) := C78_box (by norm_num) boxA rfl rfl boxA_ordered b
example (b : XBall 2) := C78_ball ballA rfl b
/-- A message of the integers 3, 4, 1, 2: the corners (3, 4) and (1, 2). -/
example (b : XBox 2) := C79_box_corners (by norm_num) b ![3, 4] ![1, 2] (.list [.int 3, .int 4, .int 1, .int 2])
  ⟨_, rfl, by simp [Elem.num?, List.ofFn_succ]⟩
example (b : XBox 2) := C79_box_origin (by norm_num) b ![3, -4] (.list [.int 3, .int (-4)]) ⟨_, rfl, by simp [Elem.num?, List.ofFn_succ]⟩
example (b : XBox 2) := (C79_box b (.list [.int 3]) (by norm_num)).1 (by rintro l ⟨⟩; simp)
example (b : XBall 1) := C79_ball_partial b [("radius", .int 2), ("position", .list [.int 7])] (.fin 2) (.list [.int 7])
  (by simp [Elem.find, Elem.num?]) (by simp [Elem.find]) (by simp [Elem.list?])
  (by simp [XBall.fromAtlas, Elem.map?, Elem.find, Elem.num?, XNum.isFinite, XBall.position, Elem.list?, XPt.fromAtlas, arrayFromAtlas, List.finRange_succ, arrayLoop])
example := C78_polygon_partial [⟨![0, 0], true⟩, ⟨![1, 0], true⟩, ⟨![0, 1], true⟩] (by simp) (by simp)
example := C78_line_partial [(⟨![0, 0, 0], true⟩ : Pt 3), ⟨![1, 0, 5], true⟩] (by simp) (by simp)
example (junk : XPt 2) (r0 : XRBox 2) := C78_rotbox_partial ⟨⟨![1, 2], true⟩, ⟨![3, 4], true⟩, RotMat.identity⟩ rfl rfl rfl junk r0

/-! ### Props/AxisBox -/

example := C49_ordered ⟨![0, 1], true⟩ ⟨![2, 1], true⟩ (fun i => by fin_cases i <;> simp)
example (out : Box 2) : (Box.intersection boxA boxB out).1 = true :=
  (C50_disjoint boxA boxB out boxA_ordered boxB_ordered).2 ⟨![3 / 2, 3 / 2], fun i => by fin_cases i <;> simp [boxA] <;> norm_num,
    fun i => by fin_cases i <;> simp [boxB] <;> norm_num⟩
example (out : Box 2) := C50_points boxA boxB out
  ((C50_disjoint boxA boxB out boxA_ordered boxB_ordered).2 ⟨![3 / 2, 3 / 2], fun i => by fin_cases i <;> simp [boxA] <;> norm_num,
    fun i => by fin_cases i <;> simp [boxB] <;> norm_num⟩)
example (c : Box 2) := C51_least boxA boxB c boxA_ordered boxB_ordered
example := C52_boxes [boxA, boxB] (by simp) (by simp [boxA_ordered, boxB_ordered])
example : Box.boundingBoxes [boxA, boxB] = Box.boundingBoxes [boxB, boxA] := C52_boxes_order _ _ (List.Perm.swap _ _ _)
example := C52_points [(⟨![0, 1], true⟩ : Pt 2), ⟨![2, -1], true⟩] (by simp)
example : Box.boundingPoints [(⟨![0, 1], true⟩ : Pt 2), ⟨![2, -1], true⟩] = Box.boundingPoints [⟨![2, -1], true⟩, ⟨![0, 1], true⟩] :=
  C52_points_order _ _ (List.Perm.swap _ _ _)
example := C52_barycenter [(⟨![0, 1], true⟩ : Pt 2), ⟨![2, -1], true⟩] (by simp)
example := C53_in_box boxA boxA_ordered 3
example := C53_injective boxA boxA_solid 3 3 (by norm_num) (by norm_num) rfl
example : (boxA.getCorner 1).elem ≠ (boxA.getCorner 2).elem := fun h => absurd (C53_injective boxA boxA_solid 1 2 (by norm_num) (by norm_num) h) (by norm_num)
example := C53_opposite boxA 1 (by norm_num)
example := C53_center boxA boxA_ordered
example := C53_valid boxA 2 rfl

/-! ### Props/Ball -/

example := C55_point ballA ⟨![2, 1], true⟩ (by norm_num [ballA])
example := C55_box ballA boxA (by norm_num [ballA]) boxA_ordered
example := C55_box_solid ballA boxA (by norm_num [ballA]) boxA_solid
example := C55_contains_box ballA boxA (by norm_num [ballA]) boxA_ordered
example := C55_box_contains boxA ballA (by norm_num [ballA])
example := (C55_contains_ball (by norm_num) ballA ballB (by norm_num [ballB])).1 (by norm_num [ballA, ballB])
example := C87_ball_box ballA boxB (by norm_num [ballA])

end WFMath.Cases
