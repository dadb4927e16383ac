/-
`/repo/src/wfmath/polygon.h` and `polygon_funcs.h`: polygons in space, with every arithmetic operation rounded to a double.

The functions are those of `Model/Polygon.lean` with the same branches. Overflow and underflow are not modelled.
-/
import Verif.Model.Rounded
import Verif.Model.Polygon

namespace WFMath.Fl
open Spec
variable {n : Nat} (r : Rounding 53)

/-- polygon_funcs.h 59-76 `Poly2Orient::convert`; `none`: failed assertion. -/
noncomputable def convert (o : Orient n) (p : Pt 2) : Option (Pt n) :=
  if o.origin.valid = false then none
  else if o.ax0.valid = false ∧ p.elem 0 ≠ 0 then none
  else if o.ax1.valid = false ∧ p.elem 1 ≠ 0 then none
  else
    let out0 := if o.ax0.valid then addVec r o.origin (scale r o.ax0 (p.elem 0)) else o.origin
    let out1 := if o.ax1.valid then addVec r out0 (scale r o.ax1 (p.elem 1)) else out0
    some ⟨out1.elem, p.valid⟩

/-- polygon_funcs.h 78-116 `Poly2Orient::expand`, the loop `j = 0, 1, 2` unrolled: (success, new orientation, plane point). -/
noncomputable def expand (o : Orient n) (pd : Pt n) (eps : ℝ) : Bool × Orient n × Pt 2 :=
  if o.origin.valid = false then (true, { o with origin := ⟨pd.elem, true⟩ }, ⟨![0, 0], true⟩)
  else
    let start := ptSub r pd o.origin
    let bound := r (sqrMag r start * eps)
    if dot r start start ≤ bound then (true, o, ⟨![0, 0], true⟩)
    else if o.ax0.valid = false then
      (true, { o with ax0 := ⟨(divBy r start (mag r start)).elem, true⟩ }, ⟨![mag r start, 0], true⟩)
    else
      let c0 := dot r start o.ax0
      let shift1 := sub r start (scale r o.ax0 c0)
      if dot r shift1 start ≤ bound then (true, o, ⟨![c0, 0], true⟩)
      else if o.ax1.valid = false then
        (true, { o with ax1 := ⟨(divBy r shift1 (mag r shift1)).elem, true⟩ }, ⟨![c0, mag r shift1], true⟩)
      else
        let c1 := dot r shift1 o.ax1
        let shift2 := sub r shift1 (scale r o.ax1 c1)
        if dot r shift2 start ≤ bound then (true, o, ⟨![c0, c1], true⟩)
        else (false, o, ⟨![c0, c1], false⟩)

/-- polygon.h 329 `Polygon<dim>::getCorner`; `none`: access outside the vector or failed assertion. -/
noncomputable def polyCorner (s : Poly n) (i : Nat) : Option (Pt n) := (s.poly.getCorner i).bind (convert r s.orient)
/-- polygon.h 439-447 `Polygon<dim>::addCorner`: (success, polygon); `none`: iterator out of range. -/
noncomputable def polyAddCorner (s : Poly n) (i : Nat) (p : Pt n) (eps : ℝ) : Option (Bool × Poly n) :=
  let (succ, o, p2) := expand r s.orient p eps
  if succ then (s.poly.addCorner i p2).map fun ps => (true, ⟨o, ps⟩) else some (false, ⟨o, s.poly⟩)

end WFMath.Fl
