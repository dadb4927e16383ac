/-
Model of `/repo/src/wfmath/axisbox.h`, `axisbox_funcs.h`, `ball.h`, `ball_funcs.h`, `segment.h`, `segment_funcs.h`,
`rotbox.h`, `rotbox_funcs.h`, `rotbox.cpp`.
-/
import Verif.Model.Point

namespace WFMath
open Matrix Gauss
variable {n : Nat}

/-! ### AxisBox -/

/-- axisbox.h 60-178 `class AxisBox<dim>`. -/
@[ext] structure Box (n : Nat) where
  low : Pt n
  high : Pt n

namespace Box

/-- axisbox.h 65 default constructor. -/
def default : Box n := ⟨Pt.default, Pt.default⟩
/-- axisbox_funcs.h 71-79 `setCorners(p1, p2, true)`. -/
def ofOrdered (p1 p2 : Pt n) : Box n := ⟨p1, p2⟩
/-- axisbox_funcs.h 71-96 `setCorners(p1, p2)`, axisbox.h 67-69 the constructor. -/
noncomputable def ofCorners (p1 p2 : Pt n) : Box n :=
  ⟨⟨fun i => if p1.elem i > p2.elem i then p2.elem i else p1.elem i, true⟩,
   ⟨fun i => if p1.elem i > p2.elem i then p1.elem i else p2.elem i, true⟩⟩
/-- axisbox.h 89 `isValid`. -/
def valid (b : Box n) : Bool := b.low.valid && b.high.valid
/-- axisbox.h 180-185 `isEqualTo`. -/
noncomputable def isEqualTo (a b : Box n) (eps : ℝ) : Bool := a.low.isEqualTo b.low eps && a.high.isEqualTo b.high eps
/-- axisbox_funcs.h 98-114 `getCorner`. -/
noncomputable def getCorner (b : Box n) (i : Nat) : Pt n :=
  if i < 1 then b.low
  else if i ≥ 2 ^ n - 1 then b.high
  else ⟨fun j => if i.testBit j then b.high.elem j else b.low.elem j, b.low.valid && b.high.valid⟩
/-- axisbox.h 95 `getCenter`. -/
noncomputable def getCenter (b : Box n) : Pt n := Pt.midpoint b.low b.high (1 / 2)
/-- axisbox.h 120-121 `shift`. -/
noncomputable def shift (b : Box n) (v : Vec n) : Box n := ⟨b.low.addVec v, b.high.addVec v⟩
/-- axisbox.h 122-123 `moveCornerTo`. -/
noncomputable def moveCornerTo (b : Box n) (p : Pt n) (i : Nat) : Box n := b.shift (p.sub (b.getCorner i))
/-- axisbox.h 124-125 `moveCenterTo`. -/
noncomputable def moveCenterTo (b : Box n) (p : Pt n) : Box n := b.shift (p.sub b.getCenter)

/-- axisbox_funcs.h 41-46: the loop of `Intersection`, over the axes still to be done; `out` is the result so far. The
flag tells whether the loop ran to its end. -/
noncomputable def interLoop (a1 a2 : Box n) : List (Fin n) → Box n → Bool × Box n
  | [], out => (true, out)
  | i :: is, out =>
    let lo := floatMax (a1.low.elem i) (a2.low.elem i)
    let hi := floatMin (a1.high.elem i) (a2.high.elem i)
    let out' : Box n := ⟨⟨Function.update out.low.elem i lo, out.low.valid⟩, ⟨Function.update out.high.elem i hi, out.high.valid⟩⟩
    if lo > hi then (false, out') else interLoop a1 a2 is out'

/-- axisbox_funcs.h 38-53 `Intersection(a1, a2, out)`: the returned flag and the final value of `out`. -/
noncomputable def intersection (a1 a2 out : Box n) : Bool × Box n :=
  match interLoop a1 a2 (List.finRange n) out with
  | (false, o) => (false, o)
  | (true, o) => (true, ⟨⟨o.low.elem, a1.low.valid && a2.low.valid⟩, ⟨o.high.elem, a1.high.valid && a2.high.valid⟩⟩)

/-- axisbox_funcs.h 55-69 `Union`. -/
noncomputable def union (a1 a2 : Box n) : Box n :=
  ⟨⟨fun i => floatMin (a1.low.elem i) (a2.low.elem i), a1.low.valid && a2.low.valid⟩,
   ⟨fun i => floatMax (a1.high.elem i) (a2.high.elem i), a1.high.valid && a2.high.valid⟩⟩

/-- axisbox_funcs.h 141-149: the loop of `BoundingBox` over the remaining boxes. -/
noncomputable def bbLoop : Box n → List (Box n) → Box n
  | s, [] => s
  | s, b :: bs => bbLoop
      ⟨⟨fun j => floatMin (s.low.elem j) (b.low.elem j), s.low.valid && b.low.valid⟩,
       ⟨fun j => floatMax (s.high.elem j) (b.high.elem j), s.high.valid && b.high.valid⟩⟩ bs

/-- axisbox_funcs.h 129-155 `BoundingBox(container of boxes)`. -/
noncomputable def boundingBoxes : List (Box n) → Box n
  | [] => default
  | b :: bs => bbLoop b bs

/-- axisbox_funcs.h 169-175: the loop of `BoundingBox` over the remaining points. -/
noncomputable def bpLoop : Bool × (Fin n → ℝ) × (Fin n → ℝ) → List (Pt n) → Bool × (Fin n → ℝ) × (Fin n → ℝ)
  | s, [] => s
  | (ok, low, high), p :: ps =>
    bpLoop (ok && p.valid, fun j => floatMin (low j) (p.elem j), fun j => floatMax (high j) (p.elem j)) ps

/-- axisbox_funcs.h 157-181 `BoundingBox(container of points)`. -/
noncomputable def boundingPoints : List (Pt n) → Box n
  | [] => default
  | p :: ps =>
    let (ok, low, high) := bpLoop (p.valid, p.elem, p.elem) ps
    ⟨⟨low, ok⟩, ⟨high, ok⟩⟩

end Box

/-- axisbox_funcs.h 186-190 `Point::boundingBox`. -/
def Pt.boundingBox (p : Pt n) : Box n := ⟨p, p⟩
/-- axisbox_funcs.h 192-196 `Point::toParentCoords(AxisBox)`. -/
noncomputable def Pt.toParentBox (p : Pt n) (c : Box n) : Pt n := c.low.addVec (p.sub Pt.origin)
/-- axisbox_funcs.h 198-202 `Point::toLocalCoords(AxisBox)`. -/
noncomputable def Pt.toLocalBox (p : Pt n) (c : Box n) : Pt n := Pt.origin.addVec (p.sub c.low)

/-- axisbox.h 135-138 `toParentCoords(AxisBox)`. -/
noncomputable def Box.toParentBox (b c : Box n) : Box n := ⟨b.low.toParentBox c, b.high.toParentBox c⟩
/-- axisbox.h 144-147 `toLocalCoords(AxisBox)`. -/
noncomputable def Box.toLocalBox (b c : Box n) : Box n := ⟨b.low.toLocalBox c, b.high.toLocalBox c⟩

/-! ### Ball -/

/-- ball.h 60-182 `class Ball<dim>`. -/
@[ext] structure Ball (n : Nat) where
  center : Pt n
  radius : ℝ

namespace Ball
/-- ball.h 64 default constructor. -/
def default : Ball n := ⟨Pt.default, 0⟩
/-- ball.h 66-67 `Ball(center, radius)`: a negative radius makes the ball invalid. -/
noncomputable def mk' (c : Pt n) (r : ℝ) : Ball n := ⟨if r < 0 then ⟨c.elem, false⟩ else c, r⟩
/-- ball.h 90 `isValid`. -/
def valid (b : Ball n) : Bool := b.center.valid
/-- ball.h 184-189 `isEqualTo`. -/
noncomputable def isEqualTo (a b : Ball n) (eps : ℝ) : Bool := a.center.isEqualTo b.center eps && equal a.radius b.radius eps
/-- ball.h 113 `shift`. -/
noncomputable def shift (b : Ball n) (v : Vec n) : Ball n := ⟨b.center.addVec v, b.radius⟩
/-- ball.h 114 `moveCornerTo`. -/
def moveCornerTo (b : Ball n) (_ : Pt n) (_ : Nat) : Ball n := b
/-- ball.h 115 `moveCenterTo`. -/
def moveCenterTo (b : Ball n) (p : Pt n) : Ball n := ⟨p, b.radius⟩
/-- ball.h 117 `rotateCorner(m, corner)`. -/
def rotateCorner (b : Ball n) (_ : RotMat n) (_ : Nat) : Ball n := b
/-- ball.h 118 `rotateCenter(m)`. -/
def rotateCenter (b : Ball n) (_ : RotMat n) : Ball n := b
/-- ball.h 119-120 `rotatePoint(m, p)`. -/
noncomputable def rotatePoint (b : Ball n) (m : RotMat n) (p : Pt n) : Ball n := ⟨b.center.rotate m p, b.radius⟩
/-- ball_funcs.h 37-54 `boundingBox`. -/
noncomputable def boundingBox (b : Ball n) : Box n :=
  ⟨⟨fun i => b.center.elem i - b.radius, b.center.valid⟩, ⟨fun i => b.center.elem i + b.radius, b.center.valid⟩⟩
/-- ball.h 133-135 `toParentCoords(origin, rotation)`. -/
noncomputable def toParent (b : Ball n) (o : Pt n) (m : RotMat n) : Ball n := mk' (b.center.toParent o m) b.radius
/-- ball.h 145-147 `toLocalCoords(origin, rotation)`. -/
noncomputable def toLocal (b : Ball n) (o : Pt n) (m : RotMat n) : Ball n := mk' (b.center.toLocal o m) b.radius
/-- ball.h 136-137 `toParentCoords(AxisBox)`. -/
noncomputable def toParentBox (b : Ball n) (c : Box n) : Ball n := mk' (b.center.toParentBox c) b.radius
/-- ball.h 148-149 `toLocalCoords(AxisBox)`. -/
noncomputable def toLocalBox (b : Ball n) (c : Box n) : Ball n := mk' (b.center.toLocalBox c) b.radius
/-- ball.cpp 49-52 `rotatePoint(q, p)` (39-47 `rotateCorner(q, corner)` and `rotateCenter(q)` leave the ball alone). -/
noncomputable def rotatePointQ (b : Ball 3) (q : Quat) (p : Pt 3) : Ball 3 := ⟨b.center.rotateQ q p, b.radius⟩
/-- ball.cpp 54-58 `toParentCoords(origin, q)`. -/
noncomputable def toParentQ (b : Ball 3) (o : Pt 3) (q : Quat) : Ball 3 := mk' (b.center.toParentQ o q) b.radius
/-- ball.cpp 60-64 `toLocalCoords(origin, q)`. -/
noncomputable def toLocalQ (b : Ball 3) (o : Pt 3) (q : Quat) : Ball 3 := mk' (b.center.toLocalQ o q) b.radius
end Ball

namespace Box
/-- axisbox_funcs.h 116-120 `boundingSphere`. -/
noncomputable def boundingSphere (b : Box n) : Ball n := Ball.mk' b.getCenter (b.low.dist b.high / 2)
/-- axisbox_funcs.h 122-126 `boundingSphereSloppy`, with `SloppyDistance` in two dimensions. -/
noncomputable def boundingSphereSloppy2 (b : Box 2) : Ball 2 := Ball.mk' b.getCenter (Pt.sloppyDist2 b.low b.high / 2)
/-- axisbox_funcs.h 122-126 `boundingSphereSloppy`, with `SloppyDistance` in three dimensions. -/
noncomputable def boundingSphereSloppy3 (b : Box 3) : Ball 3 := Ball.mk' b.getCenter (Pt.sloppyDist3 b.low b.high / 2)
end Box

/-! ### Segment -/

/-- segment.h 44-158 `class Segment<dim>`. -/
@[ext] structure Seg (n : Nat) where
  p1 : Pt n
  p2 : Pt n

namespace Seg
/-- segment.h 67 `isValid`. -/
def valid (s : Seg n) : Bool := s.p1.valid && s.p2.valid
/-- segment.h 160-166 `isEqualTo`. -/
noncomputable def isEqualTo (s t : Seg n) (eps : ℝ) : Bool := s.p1.isEqualTo t.p1 eps && s.p2.isEqualTo t.p2 eps
/-- segment.h 72 `getCorner`, 76-78 `endpoint`. -/
def getCorner (s : Seg n) (i : Nat) : Pt n := if i ≠ 0 then s.p2 else s.p1
/-- segment.h 73 `getCenter`. -/
noncomputable def getCenter (s : Seg n) : Pt n := Pt.midpoint s.p1 s.p2 (1 / 2)
/-- segment.h 82-83 `shift`. -/
noncomputable def shift (s : Seg n) (v : Vec n) : Seg n := ⟨s.p1.addVec v, s.p2.addVec v⟩
/-- segment_funcs.h 35-52 `moveCornerTo`; `none`: failed assertion. -/
noncomputable def moveCornerTo (s : Seg n) (p : Pt n) (i : Nat) : Option (Seg n) :=
  if i = 0 ∨ i = 1 then
    let diff := s.p2.sub s.p1
    some (if i = 0 then ⟨p, p.addVec diff⟩ else ⟨p.subVec diff, p⟩)
  else none
/-- segment.h 85-86 `moveCenterTo`. -/
noncomputable def moveCenterTo (s : Seg n) (p : Pt n) : Seg n := s.shift (p.sub s.getCenter)
/-- segment_funcs.h 54-65 `rotateCorner(m, corner)`; `none`: failed assertion. -/
noncomputable def rotateCorner (s : Seg n) (m : RotMat n) (i : Nat) : Option (Seg n) :=
  if i = 0 ∨ i = 1 then some (if i ≠ 0 then ⟨s.p1.rotate m s.p2, s.p2⟩ else ⟨s.p1, s.p2.rotate m s.p1⟩) else none
/-- segment.h 91-92 `rotatePoint(m, p)`. -/
noncomputable def rotatePoint (s : Seg n) (m : RotMat n) (p : Pt n) : Seg n := ⟨s.p1.rotate m p, s.p2.rotate m p⟩
/-- segment.h 89-90 `rotateCenter(m)`. -/
noncomputable def rotateCenter (s : Seg n) (m : RotMat n) : Seg n := s.rotatePoint m s.getCenter
/-- segment_funcs.h 67-78 `rotateCorner(q, corner)`; `none`: failed assertion. -/
noncomputable def rotateCornerQ (s : Seg 3) (q : Quat) (i : Nat) : Option (Seg 3) :=
  if i = 0 ∨ i = 1 then some (if i ≠ 0 then ⟨s.p1.rotateQ q s.p2, s.p2⟩ else ⟨s.p1, s.p2.rotateQ q s.p1⟩) else none
/-- segment.cpp 40-46 `rotatePoint(q, p)`. -/
noncomputable def rotatePointQ (s : Seg 3) (q : Quat) (p : Pt 3) : Seg 3 := ⟨s.p1.rotateQ q p, s.p2.rotateQ q p⟩
/-- segment.cpp 48-52 `rotateCenter(q)`. -/
noncomputable def rotateCenterQ (s : Seg 3) (q : Quat) : Seg 3 := s.rotatePointQ q s.getCenter
/-- segment.h 101 `boundingBox`. -/
noncomputable def boundingBox (s : Seg n) : Box n := Box.ofCorners s.p1 s.p2
/-- segment.h 102-103 `boundingSphere`. -/
noncomputable def boundingSphere (s : Seg n) : Ball n := Ball.mk' s.getCenter (s.p1.dist s.p2 / 2)
/-- segment.h 104-105 `boundingSphereSloppy` in two dimensions. -/
noncomputable def boundingSphereSloppy2 (s : Seg 2) : Ball 2 := Ball.mk' s.getCenter (Pt.sloppyDist2 s.p1 s.p2 / 2)
/-- segment.h 104-105 `boundingSphereSloppy` in three dimensions. -/
noncomputable def boundingSphereSloppy3 (s : Seg 3) : Ball 3 := Ball.mk' s.getCenter (Pt.sloppyDist3 s.p1 s.p2 / 2)
/-- segment.h 107-110 `toParentCoords(origin, rotation)`. -/
noncomputable def toParent (s : Seg n) (o : Pt n) (m : RotMat n) : Seg n := ⟨s.p1.toParent o m, s.p2.toParent o m⟩
/-- segment.h 120-123 `toLocalCoords(origin, rotation)`. -/
noncomputable def toLocal (s : Seg n) (o : Pt n) (m : RotMat n) : Seg n := ⟨s.p1.toLocal o m, s.p2.toLocal o m⟩
/-- segment.h 111-112 `toParentCoords(AxisBox)`. -/
noncomputable def toParentBox (s : Seg n) (c : Box n) : Seg n := ⟨s.p1.toParentBox c, s.p2.toParentBox c⟩
/-- segment.h 124-125 `toLocalCoords(AxisBox)`. -/
noncomputable def toLocalBox (s : Seg n) (c : Box n) : Seg n := ⟨s.p1.toLocalBox c, s.p2.toLocalBox c⟩
/-- segment.cpp 54-59 `toParentCoords(origin, q)`. -/
noncomputable def toParentQ (s : Seg 3) (o : Pt 3) (q : Quat) : Seg 3 := ⟨s.p1.toParentQ o q, s.p2.toParentQ o q⟩
/-- segment.cpp 61-66 `toLocalCoords(origin, q)`. -/
noncomputable def toLocalQ (s : Seg 3) (o : Pt 3) (q : Quat) : Seg 3 := ⟨s.p1.toLocalQ o q, s.p2.toLocalQ o q⟩
end Seg

/-! ### RotBox -/

/-- rotbox.h 45-190 `class RotBox<dim>`. -/
@[ext] structure RBox (n : Nat) where
  corner : Pt n
  size : Vec n
  orient : RotMat n

namespace RBox
/-- rotbox.h 82-83 `isValid`. -/
def valid (r : RBox n) : Bool := r.corner.valid && r.size.valid && r.orient.valid
/-- rotbox.h 191-196 `isEqualTo`; `none`: failed assertion in the comparison of the orientations. -/
noncomputable def isEqualTo (r s : RBox n) (eps : ℝ) : Option Bool :=
  if r.corner.isEqualTo s.corner eps && r.size.isEqualTo s.size eps then r.orient.isEqualTo s.orient eps else some false
/-- rotbox_funcs.h 39-56 `getCorner`; `none`: failed assertion. -/
noncomputable def getCorner (r : RBox n) (i : Nat) : Option (Pt n) :=
  if i < 2 ^ n then
    if i = 0 then some r.corner
    else
      let dist : Vec n := ⟨fun j => if i.testBit j then r.size.elem j else 0, r.size.valid⟩
      some (r.corner.addVec (dist.rotateM r.orient))
  else none
/-- rotbox.h 89 `getCenter`. -/
noncomputable def getCenter (r : RBox n) : Pt n := r.corner.addVec ((r.size.divBy 2).rotateM r.orient)
/-- rotbox.h 106-107 `shift`. -/
noncomputable def shift (r : RBox n) (v : Vec n) : RBox n := { r with corner := r.corner.addVec v }
/-- rotbox.h 108-109 `moveCornerTo`. -/
noncomputable def moveCornerTo (r : RBox n) (p : Pt n) (i : Nat) : Option (RBox n) :=
  (r.getCorner i).map fun c => r.shift (p.sub c)
/-- rotbox.h 110-111 `moveCenterTo`. -/
noncomputable def moveCenterTo (r : RBox n) (p : Pt n) : RBox n := r.shift (p.sub r.getCenter)
/-- rotbox.h 117-118 `rotatePoint(m, p)`. -/
noncomputable def rotatePoint (L : Limits) (r : RBox n) (m : RotMat n) (p : Pt n) : RBox n :=
  ⟨r.corner.rotate m p, r.size, RotMat.prod L r.orient m⟩
/-- rotbox.h 113-114 `rotateCorner(m, corner)`. -/
noncomputable def rotateCorner (L : Limits) (r : RBox n) (m : RotMat n) (i : Nat) : Option (RBox n) :=
  (r.getCorner i).map fun c => r.rotatePoint L m c
/-- rotbox.h 115-116 `rotateCenter(m)`. -/
noncomputable def rotateCenter (L : Limits) (r : RBox n) (m : RotMat n) : RBox n := r.rotatePoint L m r.getCenter
/-- rotbox.cpp 38-41 `rotatePoint(q, p)`. -/
noncomputable def rotatePointQ (L : Limits) (r : RBox 3) (q : Quat) (p : Pt 3) : RBox 3 :=
  ⟨r.corner.rotateQ q p, r.size, r.orient.rotateQ L q⟩
/-- rotbox.cpp 43-46 `rotateCorner(q, corner)`. -/
noncomputable def rotateCornerQ (L : Limits) (r : RBox 3) (q : Quat) (i : Nat) : Option (RBox 3) :=
  (r.getCorner i).map fun c => r.rotatePointQ L q c
/-- rotbox.cpp 48-51 `rotateCenter(q)`. -/
noncomputable def rotateCenterQ (L : Limits) (r : RBox 3) (q : Quat) : RBox 3 := r.rotatePointQ L q r.getCenter

/-- rotbox_funcs.h 78-86: the two running sums for coordinate `i`. -/
noncomputable def bbSums (r : RBox n) (i : Fin n) : List (Fin n) → ℝ × ℝ → ℝ × ℝ
  | [], s => s
  | j :: js, (mn, mx) =>
    let value := r.orient.elem j i * r.size.elem j
    bbSums r i js (if value < 0 then (mn + value, mx) else (mn, mx + value))

/-- rotbox_funcs.h 58-97 `boundingBox`. -/
noncomputable def boundingBox (r : RBox n) : Box n :=
  ⟨⟨fun i => (bbSums r i (List.finRange n) (r.corner.elem i, r.corner.elem i)).1, r.valid⟩,
   ⟨fun i => (bbSums r i (List.finRange n) (r.corner.elem i, r.corner.elem i)).2, r.valid⟩⟩
/-- rotbox.h 128-129 `boundingSphere`. -/
noncomputable def boundingSphere (r : RBox n) : Ball n := Ball.mk' r.getCenter (r.size.mag / 2)
/-- rotbox.h 130-131 `boundingSphereSloppy`. -/
noncomputable def boundingSphereSloppy (r : RBox n) : Ball n := Ball.mk' r.getCenter (r.size.sqrMag / 2)
/-- rotbox.h 133-136 `toParentCoords(origin, rotation)`. -/
noncomputable def toParent (L : Limits) (r : RBox n) (o : Pt n) (m : RotMat n) : RBox n :=
  ⟨r.corner.toParent o m, r.size, RotMat.prod L r.orient m⟩
/-- rotbox.h 147-150 `toLocalCoords(origin, rotation)`. -/
noncomputable def toLocal (L : Limits) (r : RBox n) (o : Pt n) (m : RotMat n) : RBox n :=
  ⟨r.corner.toLocal o m, r.size, RotMat.prod L m r.orient⟩
/-- rotbox.h 137-138 `toParentCoords(AxisBox)`. -/
noncomputable def toParentBox (r : RBox n) (c : Box n) : RBox n := ⟨r.corner.toParentBox c, r.size, r.orient⟩
/-- rotbox.h 151-152 `toLocalCoords(AxisBox)`. -/
noncomputable def toLocalBox (r : RBox n) (c : Box n) : RBox n := ⟨r.corner.toLocalBox c, r.size, r.orient⟩
/-- rotbox.cpp 53-58 `toParentCoords(origin, q)`. -/
noncomputable def toParentQ (L : Limits) (r : RBox 3) (o : Pt 3) (q : Quat) : RBox 3 :=
  ⟨r.corner.toParentQ o q, r.size, r.orient.rotateQ L q⟩
/-- rotbox.cpp 60-65 `toLocalCoords(origin, q)`. -/
noncomputable def toLocalQ (L : Limits) (r : RBox 3) (o : Pt 3) (q : Quat) : RBox 3 :=
  ⟨r.corner.toLocalQ o q, r.size, r.orient.rotateQ L q.inverse⟩
end RBox

/-- rotbox_funcs.h 102-106 `Point::toParentCoords(RotBox)`. -/
noncomputable def Pt.toParentRBox (p : Pt n) (c : RBox n) : Pt n := c.corner.addVec ((p.sub Pt.origin).rotateM c.orient)
/-- rotbox_funcs.h 108-112 `Point::toLocalCoords(RotBox)`. -/
noncomputable def Pt.toLocalRBox (p : Pt n) (c : RBox n) : Pt n := Pt.origin.addVec (c.orient.mulVec (p.sub c.corner))
/-- ball.h 138-139 `toParentCoords(RotBox)`. -/
noncomputable def Ball.toParentRBox (b : Ball n) (c : RBox n) : Ball n := Ball.mk' (b.center.toParentRBox c) b.radius
/-- ball.h 150-151 `toLocalCoords(RotBox)`. -/
noncomputable def Ball.toLocalRBox (b : Ball n) (c : RBox n) : Ball n := Ball.mk' (b.center.toLocalRBox c) b.radius
/-- segment.h 113-114 `toParentCoords(RotBox)`. -/
noncomputable def Seg.toParentRBox (s : Seg n) (c : RBox n) : Seg n := ⟨s.p1.toParentRBox c, s.p2.toParentRBox c⟩
/-- segment.h 126-127 `toLocalCoords(RotBox)`. -/
noncomputable def Seg.toLocalRBox (s : Seg n) (c : RBox n) : Seg n := ⟨s.p1.toLocalRBox c, s.p2.toLocalRBox c⟩
/-- rotbox.h 139-141 `toParentCoords(RotBox)`. -/
noncomputable def RBox.toParentRBox (L : Limits) (r : RBox n) (c : RBox n) : RBox n :=
  ⟨r.corner.toParentRBox c, r.size, RotMat.prod L r.orient c.orient⟩
/-- rotbox.h 153-155 `toLocalCoords(RotBox)`. -/
noncomputable def RBox.toLocalRBox (L : Limits) (r : RBox n) (c : RBox n) : RBox n :=
  ⟨r.corner.toLocalRBox c, r.size, RotMat.prod L c.orient r.orient⟩

end WFMath
