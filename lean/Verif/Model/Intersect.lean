/-
Model of `/repo/src/wfmath/intersect_decls.h`, `intersect.h`, `intersect.cpp`.

`Intersect(s1, s2)` for the argument orders not listed forwards to the listed order (intersect.h 44-48), and
`Contains(s, p)` for a point `p` is `Intersect(p, s)` (intersect.h 58-62), so each unordered pair is modelled once.
-/
import Verif.Model.Shapes

namespace WFMath
open Matrix Gauss
variable {n : Nat}

/-- intersect_decls.h 35-38 `_Less`. -/
noncomputable def less (x1 x2 : ℝ) (proper : Bool) : Bool := if proper then decide (x1 ≤ x2) else decide (x2 - x1 > epsilon)
/-- intersect_decls.h 40-43 `_LessEq`. -/
noncomputable def lessEq (x1 x2 : ℝ) (proper : Bool) : Bool := if !proper then decide (x1 ≤ x2) else decide (x1 < x2)
/-- intersect_decls.h 45-48 `_Greater`. -/
noncomputable def greater (x1 x2 : ℝ) (proper : Bool) : Bool := if proper then decide (x1 ≥ x2) else decide (x1 - x2 > epsilon)
/-- intersect_decls.h 50-53 `_GreaterEq`. -/
noncomputable def greaterEq (x1 x2 : ℝ) (proper : Bool) : Bool := if !proper then decide (x1 ≥ x2) else decide (x1 > x2)

/-! ### Points -/

/-- intersect.h 52-56 `Intersect(Point, Point)`, 64-68 `Contains(Point, Point)`. -/
noncomputable def interPP (p1 p2 : Pt n) (proper : Bool) : Bool := !proper && p1.isEqualTo p2 epsilon

/-! ### Boxes -/

/-- intersect.h 72-80 `Intersect(AxisBox, Point)`. -/
noncomputable def interBP (b : Box n) (p : Pt n) (proper : Bool) : Bool :=
  (List.finRange n).all fun i => !(greater (b.low.elem i) (p.elem i) proper || less (b.high.elem i) (p.elem i) proper)
/-- intersect.h 82-86 `Contains(Point, AxisBox)`. -/
noncomputable def containsPB (p : Pt n) (b : Box n) (proper : Bool) : Bool :=
  !proper && p.isEqualTo b.low epsilon && p.isEqualTo b.high epsilon
/-- intersect.h 88-97 `Intersect(AxisBox, AxisBox)`. -/
noncomputable def interBB (b1 b2 : Box n) (proper : Bool) : Bool :=
  (List.finRange n).all fun i =>
    !(greater (b1.low.elem i) (b2.high.elem i) proper || less (b1.high.elem i) (b2.low.elem i) proper)
/-- intersect.h 99-108 `Contains(AxisBox, AxisBox)`. -/
noncomputable def containsBB (outer inner : Box n) (proper : Bool) : Bool :=
  (List.finRange n).all fun i =>
    !(less (inner.low.elem i) (outer.low.elem i) proper || greater (inner.high.elem i) (outer.high.elem i) proper)

/-! ### Balls -/

/-- intersect.h 112-117 `Intersect(Ball, Point)`. -/
noncomputable def interBallP (b : Ball n) (p : Pt n) (proper : Bool) : Bool :=
  lessEq (b.center.sqDist p) (b.radius * b.radius * (1 + epsilon)) proper
/-- intersect.h 119-123 `Contains(Point, Ball)`. -/
noncomputable def containsPBall (p : Pt n) (b : Ball n) (proper : Bool) : Bool :=
  !proper && decide (b.radius = 0) && p.isEqualTo b.center epsilon
/-- intersect.h 129-139: the contribution of one axis to the squared distance. -/
noncomputable def axisDistSq (c lo hi : ℝ) : ℝ :=
  if c < lo then (c - lo) * (c - lo) else if c > hi then (c - hi) * (c - hi) else 0
/-- intersect.h 125-142 `Intersect(Ball, AxisBox)`. -/
noncomputable def interBallB (b : Ball n) (a : Box n) (proper : Bool) : Bool :=
  lessEq (∑ i, axisDistSq (b.center.elem i) (a.low.elem i) (a.high.elem i)) (b.radius * b.radius) proper
/-- intersect.h 144-156 `Contains(Ball, AxisBox)`. -/
noncomputable def containsBallB (b : Ball n) (a : Box n) (proper : Bool) : Bool :=
  lessEq (∑ i, floatMax |b.center.elem i - a.low.elem i| |b.center.elem i - a.high.elem i| *
      floatMax |b.center.elem i - a.low.elem i| |b.center.elem i - a.high.elem i|)
    (b.radius * b.radius * (1 + epsilon)) proper
/-- intersect.h 158-167 `Contains(AxisBox, Ball)`. -/
noncomputable def containsBBall (a : Box n) (b : Ball n) (proper : Bool) : Bool :=
  (List.finRange n).all fun i =>
    !(less (b.center.elem i - b.radius) (a.low.elem i) proper || greater (b.center.elem i + b.radius) (a.high.elem i) proper)
/-- intersect.h 169-176 `Intersect(Ball, Ball)`. -/
noncomputable def interBallBall (b1 b2 : Ball n) (proper : Bool) : Bool :=
  lessEq (b1.center.sqDist b2.center) ((b1.radius + b2.radius) * (b1.radius + b2.radius)) proper
/-- intersect.h 178-189 `Contains(Ball, Ball)`. -/
noncomputable def containsBallBall (outer inner : Ball n) (proper : Bool) : Bool :=
  let d := outer.radius - inner.radius
  if less d 0 proper then false else lessEq (outer.center.sqDist inner.center) (d * d) proper

/-! ### Segments -/

/-- intersect.h 193-207 `Intersect(Segment, Point)`. -/
noncomputable def interSP (s : Seg n) (p : Pt n) (proper : Bool) : Bool :=
  let v1 := s.p1.sub p
  let v2 := s.p2.sub p
  let proj := v1.dot v2
  if greater proj 0 proper then false else equal (proj * proj) (v1.sqrMag * v2.sqrMag) epsilon
/-- intersect.h 209-213 `Contains(Point, Segment)`. -/
noncomputable def containsPS (p : Pt n) (s : Seg n) (proper : Bool) : Bool :=
  !proper && p.isEqualTo s.p1 epsilon && p.isEqualTo s.p2 epsilon

/-- intersect.h 228-248: the loop of `Intersect(Segment, AxisBox)` over the axes still to be done; `none`: returned false. -/
noncomputable def segBoxLoop (s : Seg n) (b : Box n) (proper : Bool) : List (Fin n) → ℝ × ℝ → Option (ℝ × ℝ)
  | [], st => some st
  | i :: is, (mn, mx) =>
    let dist := s.p2.elem i - s.p1.elem i
    if dist = 0 then
      if less (s.p1.elem i) (b.low.elem i) proper || greater (s.p1.elem i) (b.high.elem i) proper then none
      else segBoxLoop s b proper is (mn, mx)
    else
      let low := (b.low.elem i - s.p1.elem i) / dist
      let high := (b.high.elem i - s.p1.elem i) / dist
      let (low, high) := if low > high then (high, low) else (low, high)
      segBoxLoop s b proper is (if low > mn then low else mn, if high < mx then high else mx)
/-- intersect.h 215-251 `Intersect(Segment, AxisBox)`. -/
noncomputable def interSB (s : Seg n) (b : Box n) (proper : Bool) : Bool :=
  match segBoxLoop s b proper (List.finRange n) (0, 1) with
  | none => false
  | some (mn, mx) => lessEq mn mx proper

/-- intersect.h 259-268: the loop of `Contains(Segment, AxisBox)`: `none` when two axes differ, otherwise whether one does. -/
noncomputable def diffLoop (b : Box n) : List (Fin n) → Bool → Option Bool
  | [], got => some got
  | i :: is, got =>
    if b.low.elem i = b.high.elem i then diffLoop b is got
    else if got then none else diffLoop b is true
/-- intersect.h 253-272 `Contains(Segment, AxisBox)`. -/
noncomputable def containsSB (s : Seg n) (b : Box n) (proper : Bool) : Bool :=
  match diffLoop b (List.finRange n) false with
  | none => false
  | some got => interSP s b.low proper && (if got then interSP s b.high proper else true)
/-- intersect.h 274-278 `Contains(AxisBox, Segment)`. -/
noncomputable def containsBS (b : Box n) (s : Seg n) (proper : Bool) : Bool := interBP b s.p1 proper && interBP b s.p2 proper
/-- intersect.h 280-304 `Intersect(Segment, Ball)`. -/
noncomputable def interSBall (s : Seg n) (b : Ball n) (proper : Bool) : Bool :=
  let line := s.p2.sub s.p1
  let offset := b.center.sub s.p1
  let proj := line.dot offset
  if proj ≤ 0 then interBallP b s.p1 proper
  else if proj ≥ line.sqrMag then interBallP b s.p2 proper
  else
    let perp := offset - line.scale (proj / line.sqrMag)
    lessEq perp.sqrMag (b.radius * b.radius) proper
/-- intersect.h 306-310 `Contains(Ball, Segment)`. -/
noncomputable def containsBallS (b : Ball n) (s : Seg n) (proper : Bool) : Bool :=
  interBallP b s.p1 proper && interBallP b s.p2 proper
/-- intersect.h 312-316 `Contains(Segment, Ball)`. -/
noncomputable def containsSBall (s : Seg n) (b : Ball n) (proper : Bool) : Bool :=
  decide (b.radius = 0) && interSP s b.center proper
/-- intersect.h 318-358 `Intersect(Segment, Segment)`. -/
noncomputable def interSS (s1 s2 : Seg n) (proper : Bool) : Bool :=
  let v1 := s1.p2.sub s1.p1
  let v2 := s2.p2.sub s2.p1
  let deltav := s2.p1.sub s1.p1
  let v1sqr := v1.sqrMag
  let v2sqr := v2.sqrMag
  let proj12 := v1.dot v2
  let proj1delta := v1.dot deltav
  let proj2delta := v2.dot deltav
  let denom := v1sqr * v2sqr - proj12 * proj12
  if decide (n > 2) && !equal (v2sqr * proj1delta * proj1delta + v1sqr * proj2delta * proj2delta)
      (2 * proj12 * proj1delta * proj2delta + deltav.sqrMag * denom) epsilon then false
  else if denom > 0 then
    let coord1 := (v2sqr * proj1delta - proj12 * proj2delta) / denom
    let coord2 := -(v1sqr * proj2delta - proj12 * proj1delta) / denom
    lessEq coord1 0 proper && lessEq coord1 1 proper && greaterEq coord2 0 proper && greaterEq coord2 1 proper
  else
    interSP s1 s2.p1 proper || interSP s1 s2.p2 proper || interSP s2 s1.p1 proper || interSP s2 s1.p2 proper ||
      ((proper && !s1.p1.isEqualTo s1.p2 epsilon) &&
        ((s1.p1.isEqualTo s2.p1 epsilon && s1.p2.isEqualTo s2.p2 epsilon) ||
          (s1.p1.isEqualTo s2.p2 epsilon && s1.p2.isEqualTo s2.p1 epsilon)))
/-- intersect.h 360-364 `Contains(Segment, Segment)`. -/
noncomputable def containsSS (s1 s2 : Seg n) (proper : Bool) : Bool := interSP s1 s2.p1 proper && interSP s1 s2.p2 proper

/-! ### Rotated boxes -/

/-- intersect.h 368-387 `Intersect(RotBox, Point)`. -/
noncomputable def interRP (r : RBox n) (p : Pt n) (proper : Bool) : Bool :=
  let shift := (p.sub r.corner).prodInvM r.orient
  (List.finRange n).all fun i =>
    if r.size.elem i < 0 then
      !(less (shift.elem i) (r.size.elem i) proper || greater (shift.elem i) 0 proper)
    else
      !(greater (shift.elem i) (r.size.elem i) proper || less (shift.elem i) 0 proper)
/-- intersect.h 389-400 `Contains(Point, RotBox)`. -/
noncomputable def containsPR (p : Pt n) (r : RBox n) (proper : Bool) : Bool :=
  if proper then false
  else (List.finRange n).all (fun i => !decide (r.size.elem i ≠ 0)) && p.isEqualTo r.corner epsilon
/-- The box `AxisBox(corner0, corner0 + size)` used throughout intersect.h 405-489. -/
noncomputable def RBox.flat (r : RBox n) : Box n := Box.ofCorners r.corner (r.corner.addVec r.size)
/-- The point `corner0 + ProdInv(p - corner0, orient)` used throughout intersect.h 421-473. -/
noncomputable def RBox.unrotate (r : RBox n) (p : Pt n) : Pt n := r.corner.addVec ((p.sub r.corner).prodInvM r.orient)
/-- intersect.h 415-419 `Contains(AxisBox, RotBox)`. -/
noncomputable def containsBR (b : Box n) (r : RBox n) (proper : Bool) : Bool := containsBB b r.boundingBox proper
/-- The rotated box standing for the axis box `b` in the coordinates of `r`, intersect.h 408-412, intersect.cpp 75-76 and
125-126. -/
noncomputable def RBox.boxSeen (r : RBox n) (b : Box n) : RBox n :=
  ⟨b.low.rotate r.orient.inverse r.corner, b.high.sub b.low, r.orient.inverse⟩
/-- intersect.h 405-413 `Contains(RotBox, AxisBox)`. -/
noncomputable def containsRB (r : RBox n) (b : Box n) (proper : Bool) : Bool := containsBR r.flat (r.boxSeen b) proper
/-- intersect.h 421-427 `Intersect(RotBox, Ball)`. -/
noncomputable def interRBall (r : RBox n) (b : Ball n) (proper : Bool) : Bool :=
  interBallB (Ball.mk' (r.unrotate b.center) b.radius) r.flat proper
/-- intersect.h 429-435 `Contains(RotBox, Ball)`. -/
noncomputable def containsRBall (r : RBox n) (b : Ball n) (proper : Bool) : Bool :=
  containsBBall r.flat (Ball.mk' (r.unrotate b.center) b.radius) proper
/-- intersect.h 437-443 `Contains(Ball, RotBox)`. -/
noncomputable def containsBallR (b : Ball n) (r : RBox n) (proper : Bool) : Bool :=
  containsBallB (Ball.mk' (r.unrotate b.center) b.radius) r.flat proper
/-- intersect.h 445-453 `Intersect(RotBox, Segment)`. -/
noncomputable def interRS (r : RBox n) (s : Seg n) (proper : Bool) : Bool :=
  interSB ⟨r.unrotate s.p1, r.unrotate s.p2⟩ r.flat proper
/-- intersect.h 455-463 `Contains(RotBox, Segment)`. -/
noncomputable def containsRS (r : RBox n) (s : Seg n) (proper : Bool) : Bool :=
  containsBS r.flat ⟨r.unrotate s.p1, r.unrotate s.p2⟩ proper
/-- intersect.h 465-473 `Contains(Segment, RotBox)`. -/
noncomputable def containsSR (s : Seg n) (r : RBox n) (proper : Bool) : Bool :=
  containsSB ⟨r.unrotate s.p1, r.unrotate s.p2⟩ r.flat proper
/-- intersect.h 483-489 `Contains(RotBox, RotBox)`. -/
noncomputable def containsRR (L : Limits) (outer inner : RBox n) (proper : Bool) : Bool :=
  containsBR outer.flat (inner.rotatePoint L outer.orient.inverse outer.corner) proper

/-- intersect.cpp 67-80 `Intersect(RotBox<2>, AxisBox<2>)`. -/
noncomputable def interRB2 (r : RBox 2) (b : Box 2) (proper : Bool) : Bool :=
  if !interBB r.boundingBox b proper then false
  else interBB (r.boxSeen b).boundingBox r.flat proper

/-- intersect.cpp 144-166: the normal tried for edge `i` of the rotated box and axis `j`. -/
noncomputable def satAxis (m : RotMat 3) (i j : Fin 3) : Vec 3 :=
  ⟨if j = 0 then ![0, -m.elem i 2, m.elem i 1] else if j = 1 then ![m.elem i 2, 0, -m.elem i 0] else ![-m.elem i 1, m.elem i 0, 0],
    false⟩
/-- intersect.cpp 186-208 and 212-234: the two running sums (lower, upper) from two contributions. -/
noncomputable def satSums (v1 v2 : ℝ) : ℝ × ℝ :=
  let s := if v1 > 0 then (0, v1) else (v1, 0)
  if v2 > 0 then (s.1, s.2 + v2) else (s.1 + v2, s.2)
/-- intersect.cpp 168-242: one of the nine tests. `none`: parallel edges, the whole function returns true; otherwise
whether the loop goes on (`some false`: separated, the function returns false). `next` is addition of 1 modulo 3. -/
noncomputable def satStep (r : RBox 3) (b : Box 3) (proper : Bool) (i j : Fin 3) : Option Bool :=
  let axis := satAxis r.orient i j
  if axis.sqrMag < epsilon * epsilon then none
  else
    let bSize := b.high.sub b.low
    let sep := b.low.sub r.corner
    let bs := satSums (axis.elem (j + 1) * bSize.elem (j + 1)) (axis.elem (j + 1 + 1) * bSize.elem (j + 1 + 1))
    let rs := satSums ((r.orient.row (i + 1)).dot axis * r.size.elem (i + 1))
      ((r.orient.row (i + 1 + 1)).dot axis * r.size.elem (i + 1 + 1))
    let dist := sep.dot axis
    some (!(greater (rs.1 - dist) bs.2 proper || less (rs.2 - dist) bs.1 proper))
/-- intersect.cpp 136-243: the loops over the nine normals. -/
noncomputable def satLoop (r : RBox 3) (b : Box 3) (proper : Bool) : List (Fin 3 × Fin 3) → Bool
  | [] => true
  | (i, j) :: ps =>
    match satStep r b proper i j with
    | none => true
    | some false => false
    | some true => satLoop r b proper ps
/-- intersect.cpp 136-141: the order in which the normals are tried. -/
def satPairs : List (Fin 3 × Fin 3) := [(0, 0), (0, 1), (0, 2), (1, 0), (1, 1), (1, 2), (2, 0), (2, 1), (2, 2)]
/-- intersect.cpp 112-246 `Intersect(RotBox<3>, AxisBox<3>)`. -/
noncomputable def interRB3 (r : RBox 3) (b : Box 3) (proper : Bool) : Bool :=
  if !interBB r.boundingBox b proper then false
  else if !interBB (r.boxSeen b).boundingBox r.flat proper then false
  else satLoop r b proper satPairs

/-- intersect.h 475-481 `Intersect(RotBox, RotBox)` in two dimensions. -/
noncomputable def interRR2 (L : Limits) (r1 r2 : RBox 2) (proper : Bool) : Bool :=
  interRB2 (r1.rotatePoint L r2.orient.inverse r2.corner) r2.flat proper
/-- intersect.h 475-481 `Intersect(RotBox, RotBox)` in three dimensions. -/
noncomputable def interRR3 (L : Limits) (r1 r2 : RBox 3) (proper : Bool) : Bool :=
  interRB3 (r1.rotatePoint L r2.orient.inverse r2.corner) r2.flat proper

end WFMath
