/-
Axis-aligned boxes of `/repo/src/wfmath` with IEEE 754 doubles as numbers, as in `Model/Ieee.lean`; coordinates may be infinite or NaN.
-/
import Verif.Model.Ieee

namespace WFMath.Ie
open Spec
variable (g : Nearest) (fe : ℤ) {n : Nat}

/-- axisbox.h: the members `m_low` and `m_high` of `AxisBox<dim>`. -/
structure DBox (n : Nat) where
  low : DVec n
  high : DVec n

/-- const.h 168-169 `FloatMax`. -/
noncomputable def floatMax (a b : Dbl) : Dbl := if Dbl.lt b a then a else b
/-- const.h 170-171 `FloatMin`. -/
noncomputable def floatMin (a b : Dbl) : Dbl := if Dbl.lt a b then a else b

/-- axisbox_funcs.h 72-96 `setCorners(p1, p2, ordered)`. -/
noncomputable def setCorners (p1 p2 : DVec n) (ordered : Bool) : DBox n :=
  if ordered then ⟨p1, p2⟩
  else ⟨⟨fun i => if Dbl.lt (p2.elem i) (p1.elem i) then p2.elem i else p1.elem i, true⟩, ⟨fun i => if Dbl.lt (p2.elem i) (p1.elem i) then p1.elem i else p2.elem i, true⟩⟩
/-- axisbox_funcs.h 56-70 `Union`. -/
noncomputable def boxUnion (a b : DBox n) : DBox n :=
  ⟨⟨fun i => floatMin (a.low.elem i) (b.low.elem i), a.low.valid && b.low.valid⟩, ⟨fun i => floatMax (a.high.elem i) (b.high.elem i), a.high.valid && b.high.valid⟩⟩
/-- axisbox_funcs.h 38-53 `Intersection`; `none`: it returns false. Simplification: what is left in `out` then is not modelled. -/
noncomputable def boxIntersection (a b : DBox n) : Option (DBox n) :=
  let lo := fun i => floatMax (a.low.elem i) (b.low.elem i)
  let hi := fun i => floatMin (a.high.elem i) (b.high.elem i)
  if (List.finRange n).any fun i => Dbl.lt (hi i) (lo i) then none
  else some ⟨⟨lo, a.low.valid && b.low.valid⟩, ⟨hi, a.high.valid && b.high.valid⟩⟩
/-- axisbox_funcs.h 129-155 `BoundingBox` of the boxes `b :: bs`. -/
noncomputable def boundingBoxes (b : DBox n) (bs : List (DBox n)) : DBox n := bs.foldl boxUnion b
/-- axisbox_funcs.h 157-181 `BoundingBox` of the points `p :: ps`. -/
noncomputable def boundingPoints (p : DVec n) (ps : List (DVec n)) : DBox n :=
  ps.foldl (fun b q => ⟨⟨fun i => floatMin (b.low.elem i) (q.elem i), b.low.valid && q.valid⟩, ⟨fun i => floatMax (b.high.elem i) (q.elem i), b.high.valid && q.valid⟩⟩) ⟨p, p⟩

/-- intersect.h 88-97 `Intersect(AxisBox, AxisBox)`. -/
noncomputable def interBB (a b : DBox n) (proper : Bool) : Bool :=
  (List.finRange n).all fun i => !(greater g (a.low.elem i) (b.high.elem i) proper || less g (a.high.elem i) (b.low.elem i) proper)
/-- intersect.h 99-108 `Contains(AxisBox, AxisBox)`. -/
noncomputable def containsBB (outer inner : DBox n) (proper : Bool) : Bool :=
  (List.finRange n).all fun i => !(less g (inner.low.elem i) (outer.low.elem i) proper || greater g (inner.high.elem i) (outer.high.elem i) proper)

end WFMath.Ie
