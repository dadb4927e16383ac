/-
Model of `/repo/src/wfmath/point.h`, `point_funcs.h`, `point.cpp`.
-/
import Verif.Model.Quaternion

namespace WFMath
variable {n : Nat}

/-- point.h 92-263 `class Point<dim>`: the array and the validity flag. -/
@[ext] structure Pt (n : Nat) where
  elem : Fin n → ℝ
  valid : Bool

namespace Pt

/-- point.h 100 default constructor. -/
def default : Pt n := ⟨fun _ => 0, false⟩
/-- point_funcs.h 39-45 `Point(v)`. -/
def ofVec (v : Vec n) : Pt n := ⟨fun i => v.elem i, v.valid⟩
/-- vector_funcs.h 43-49 `Vector(p)`. -/
def toVec (p : Pt n) : Vec n := ⟨fun i => p.elem i, p.valid⟩
/-- point_funcs.h 55-65 `setToOrigin()`, 47-52 `ZERO()`. -/
def origin : Pt n := ⟨fun _ => 0, true⟩

/-- point_funcs.h 67-83 `isEqualTo`. -/
noncomputable def isEqualTo (p q : Pt n) (eps : ℝ) : Bool :=
  if !q.valid || !p.valid then false
  else
    let delta := scaleEpsilonArr p.elem q.elem eps
    (List.finRange n).all fun i => !decide (|p.elem i - q.elem i| > delta)

/-- point_funcs.h 85-97 `operator-(Point, Point)`. -/
noncomputable def sub (p q : Pt n) : Vec n := ⟨fun i => p.elem i - q.elem i, p.valid && q.valid⟩
/-- point_funcs.h 99-109 `operator+=`, point.h 277-295 `operator+` in both argument orders. -/
noncomputable def addVec (p : Pt n) (v : Vec n) : Pt n := ⟨fun i => p.elem i + v.elem i, p.valid && v.valid⟩
/-- point_funcs.h 111-121 `operator-=`, point.h 297-305 `operator-`. -/
noncomputable def subVec (p : Pt n) (v : Vec n) : Pt n := ⟨fun i => p.elem i - v.elem i, p.valid && v.valid⟩

/-- point_funcs.h 123-134 `SquaredDistance`. -/
noncomputable def sqDist (p q : Pt n) : ℝ :=
  let ans := ∑ i, (p.elem i - q.elem i) * (p.elem i - q.elem i)
  if |ans| ≥ scaleEpsilonArr p.elem q.elem epsilon then ans else 0

/-- point.h 54-56 `Distance`. -/
noncomputable def dist (p q : Pt n) : ℝ := Real.sqrt (sqDist p q)

/-- point_funcs.h 157-170: the loop of the weighted `Barycenter` over the remaining points and weights.
The state is (sum of weights, largest |weight|, all valid, weighted coordinate sums). -/
noncomputable def wLoop : ℝ × ℝ × Bool × (Fin n → ℝ) → List (Pt n) → List ℝ → ℝ × ℝ × Bool × (Fin n → ℝ)
  | (tot, mx, ok, out), p :: ps, w :: ws =>
    wLoop (tot + w, if |w| > mx then |w| else mx, ok && p.valid, fun j => out j + p.elem j * w) ps ws
  | s, _, _ => s

/-- point_funcs.h 136-183 `Barycenter(points, weights)`. -/
noncomputable def barycenterW : List (Pt n) → List ℝ → Pt n
  | p :: ps, w :: ws =>
    let (tot, mx, ok, out) := wLoop (w, |w|, p.valid, fun j => p.elem j * w) ps ws
    if mx ≤ 0 ∨ |tot| ≤ mx * epsilon then ⟨out, false⟩
    else ⟨fun j => out j / tot, ok⟩
  | _, _ => default

/-- point_funcs.h 202-208: the loop of `Barycenter`: (number of points, all valid, coordinate sums). -/
noncomputable def bLoop : ℝ × Bool × (Fin n → ℝ) → List (Pt n) → ℝ × Bool × (Fin n → ℝ)
  | s, [] => s
  | (num, ok, out), p :: ps => bLoop (num + 1, ok && p.valid, fun j => out j + p.elem j) ps

/-- point_funcs.h 185-216 `Barycenter(points)`. -/
noncomputable def barycenter : List (Pt n) → Pt n
  | [] => default
  | p :: ps =>
    let (num, ok, out) := bLoop (1, p.valid, p.elem) ps
    ⟨fun j => out j / num, ok⟩

/-- point_funcs.h 218-231 `Midpoint`. -/
noncomputable def midpoint (p q : Pt n) (d : ℝ) : Pt n :=
  ⟨fun i => p.elem i * (1 - d) + q.elem i * d, p.valid && q.valid⟩

/-- point.h 146-147 `rotate(m, p)`, 163 `rotatePoint`. -/
noncomputable def rotate (x : Pt n) (m : RotMat n) (p : Pt n) : Pt n := p.addVec ((x.sub p).rotateM m)
/-- point.h 178-180 `toParentCoords(origin, rotation)`. -/
noncomputable def toParent (x o : Pt n) (m : RotMat n) : Pt n := o.addVec ((x.sub origin).rotateM m)
/-- point.h 188-190 `toLocalCoords(origin, rotation)`. -/
noncomputable def toLocal (x o : Pt n) (m : RotMat n) : Pt n := origin.addVec (m.mulVec (x.sub o))

/-- point.cpp 99-109 `rotate(q, p)`, `rotatePoint(q, p)`. -/
noncomputable def rotateQ (x : Pt 3) (q : Quat) (p : Pt 3) : Pt 3 := p.addVec ((x.sub p).rotateQ q)
/-- point.cpp 118-123 `toParentCoords(origin, q)`. -/
noncomputable def toParentQ (x o : Pt 3) (q : Quat) : Pt 3 := o.addVec ((x.sub origin).rotateQ q)
/-- point.cpp 111-116 `toLocalCoords(origin, q)`. -/
noncomputable def toLocalQ (x o : Pt 3) (q : Quat) : Pt 3 := origin.addVec ((x.sub o).rotateQ q.inverse)

end Pt

/-- point.h 58-59 `SloppyDistance` in two and three dimensions. -/
noncomputable def Pt.sloppyDist2 (p q : Pt 2) : ℝ := (p.sub q).sloppyMag2
noncomputable def Pt.sloppyDist3 (p q : Pt 3) : ℝ := (p.sub q).sloppyMag3

end WFMath
