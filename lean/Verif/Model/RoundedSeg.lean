/-
Segments against points, boxes and balls (`/repo/src/wfmath/intersect.h`) once more, with every arithmetic operation rounded to a `double`. The conventions are
those of `Model/Rounded.lean`.
-/
import Verif.Model.Rounded

namespace WFMath.Fl
open Spec
variable (r : Rounding 53) {n : Nat}

/-- intersect.h 193-207 `Intersect(Segment, Point)`. -/
noncomputable def interSP (s : Seg n) (p : Pt n) (proper : Bool) : Bool :=
  let v1 := ptSub r s.p1 p
  let v2 := ptSub r s.p2 p
  let proj := dot r v1 v2
  if greater r proj 0 proper then false else equal r (r (proj * proj)) (r (sqrMag r v1 * sqrMag r v2)) epsilon

/-- intersect.h 228-248: the loop of `Intersect(Segment, AxisBox)` over the axes still to be done; `none`: returned false. -/
noncomputable def segBoxLoop (s : Seg n) (b : Box n) (proper : Bool) : List (Fin n) → ℝ × ℝ → Option (ℝ × ℝ)
  | [], st => some st
  | i :: is, (mn, mx) =>
    let dist := r (s.p2.elem i - s.p1.elem i)
    if dist = 0 then
      if less r (s.p1.elem i) (b.low.elem i) proper || greater r (s.p1.elem i) (b.high.elem i) proper then none
      else segBoxLoop s b proper is (mn, mx)
    else
      let low := r (r (b.low.elem i - s.p1.elem i) / dist)
      let high := r (r (b.high.elem i - s.p1.elem i) / dist)
      let (low, high) := if low > high then (high, low) else (low, high)
      segBoxLoop s b proper is (if low > mn then low else mn, if high < mx then high else mx)
/-- intersect.h 215-251 `Intersect(Segment, AxisBox)`. -/
noncomputable def interSB (s : Seg n) (b : Box n) (proper : Bool) : Bool :=
  match segBoxLoop r s b proper (List.finRange n) (0, 1) with
  | none => false
  | some (mn, mx) => lessEq mn mx proper

/-- intersect.h 253-272 `Contains(Segment, AxisBox)`; the loop compares copies and is `WFMath.diffLoop`. -/
noncomputable def containsSB (s : Seg n) (b : Box n) (proper : Bool) : Bool :=
  match diffLoop b (List.finRange n) false with
  | none => false
  | some got => interSP r s b.low proper && (if got then interSP r s b.high proper else true)
/-- intersect.h 274-278 `Contains(AxisBox, Segment)`. -/
noncomputable def containsBS (b : Box n) (s : Seg n) (proper : Bool) : Bool := interBP r b s.p1 proper && interBP r b s.p2 proper
/-- intersect.h 280-304 `Intersect(Segment, Ball)`. -/
noncomputable def interSBall (s : Seg n) (b : Ball n) (proper : Bool) : Bool :=
  let line := ptSub r s.p2 s.p1
  let offset := ptSub r b.center s.p1
  let proj := dot r line offset
  if proj ≤ 0 then interBallP r b s.p1 proper
  else if proj ≥ sqrMag r line then interBallP r b s.p2 proper
  else
    let perp := sub r offset (scale r line (r (proj / sqrMag r line)))
    lessEq (sqrMag r perp) (r (b.radius * b.radius)) proper
/-- intersect.h 306-310 `Contains(Ball, Segment)`. -/
noncomputable def containsBallS (b : Ball n) (s : Seg n) (proper : Bool) : Bool := interBallP r b s.p1 proper && interBallP r b s.p2 proper
/-- intersect.h 312-316 `Contains(Segment, Ball)`. -/
noncomputable def containsSBall (s : Seg n) (b : Ball n) (proper : Bool) : Bool := decide (b.radius = 0) && interSP r s b.center proper
/-- intersect.h 360-364 `Contains(Segment, Segment)`. -/
noncomputable def containsSS (s1 s2 : Seg n) (proper : Bool) : Bool := interSP r s1 s2.p1 proper && interSP r s1 s2.p2 proper

end WFMath.Fl
