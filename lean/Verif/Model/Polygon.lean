/-
Model of `/repo/src/wfmath/line.h`, `line_funcs.h`, `polygon.h`, `polygon_funcs.h`, `polygon.cpp`: lines, plane
polygons, and polygons in `n` dimensions kept as a plane polygon plus an orientation.
-/
import Verif.Model.Shapes

namespace WFMath
variable {n : Nat}

/-! ### Line and Polygon<2>: vectors of points -/

/-- The member `m_points` of `Line<dim>` (line.h 140) and `Polygon<2>` (polygon.h 161): a `std::vector` of points. The two
classes have textually identical members for everything below; both places are cited. -/
abbrev Corners (n : Nat) := List (Pt n)

namespace Corners
/-- line.h 82, polygon.h 78 `getCorner`, polygon.h 99-100 `operator[]`; `none`: access outside the vector. -/
def getCorner (ps : Corners n) (i : Nat) : Option (Pt n) := ps[i]?
/-- line.h 84, polygon.h 79 `getCenter`. -/
noncomputable def getCenter (ps : Corners n) : Pt n := Pt.barycenter ps
/-- line.h 87-88, polygon.h 86-87 `addCorner`: `vector::insert` at `begin() + i`; `none`: iterator out of range. -/
def addCorner (ps : Corners n) (i : Nat) (p : Pt n) : Option (Corners n) :=
  if i ≤ ps.length then some (ps.take i ++ p :: ps.drop i) else none
/-- line.h 91, polygon.h 90 `removeCorner`: `vector::erase` at `begin() + i`; `none`: iterator out of range. -/
def removeCorner (ps : Corners n) (i : Nat) : Option (Corners n) :=
  if i < ps.length then some (ps.take i ++ ps.drop (i + 1)) else none
/-- line.h 93-96, polygon.h 93-94 `moveCorner`: assignment to element `i`; `none`: access outside the vector. -/
def moveCorner (ps : Corners n) (i : Nat) (p : Pt n) : Option (Corners n) :=
  if i < ps.length then some (ps.set i p) else none
/-- line_funcs.h 33-48, polygon.cpp 76-92 `isEqualTo`: the loop over both vectors, entered only when the sizes agree. -/
noncomputable def isEqualToLoop (eps : ℝ) : Corners n → Corners n → Bool
  | p :: ps, q :: qs => if !p.isEqualTo q eps then false else isEqualToLoop eps ps qs
  | _, _ => true
noncomputable def isEqualTo (ps qs : Corners n) (eps : ℝ) : Bool :=
  if ps.length ≠ qs.length then false else isEqualToLoop eps ps qs
/-- line.h 70 `Line::isValid`. -/
def lineValid (ps : Corners n) : Bool := decide (ps.length > 1)
/-- polygon.cpp 94-102 `Polygon<2>::isValid`. -/
def polyValid (ps : Corners n) : Bool := ps.all fun p => p.valid
/-- line_funcs.h 50-58, polygon.cpp 105-111 `shift`. -/
noncomputable def shift (ps : Corners n) (v : Vec n) : Corners n := ps.map fun p => p.addVec v
/-- line.h 106-107, polygon.h 107-108 `moveCornerTo`. -/
noncomputable def moveCornerTo (ps : Corners n) (p : Pt n) (i : Nat) : Option (Corners n) :=
  (ps.getCorner i).map fun c => ps.shift (p.sub c)
/-- line.h 112-113, polygon.h 109-110 `moveCenterTo`. -/
noncomputable def moveCenterTo (ps : Corners n) (p : Pt n) : Corners n := ps.shift (p.sub ps.getCenter)
/-- line_funcs.h 60-69, polygon.cpp 114-120 `rotatePoint`. -/
noncomputable def rotatePoint (ps : Corners n) (m : RotMat n) (p : Pt n) : Corners n := ps.map fun x => x.rotate m p
/-- line.h 120-121, polygon.h 112-113 `rotateCorner`; `getCorner` returns a copy. -/
noncomputable def rotateCorner (ps : Corners n) (m : RotMat n) (i : Nat) : Option (Corners n) :=
  (ps.getCorner i).map fun c => ps.rotatePoint m c
/-- line.h 126-127, polygon.h 114-115 `rotateCenter`. -/
noncomputable def rotateCenter (ps : Corners n) (m : RotMat n) : Corners n := ps.rotatePoint m ps.getCenter
/-- line.h 135, polygon.h 120 `boundingBox`. -/
noncomputable def boundingBox (ps : Corners n) : Box n := Box.boundingPoints ps
/-- polygon.cpp 123-131 `toParentCoords(origin, rotation)`. -/
noncomputable def toParent (ps : Corners n) (o : Pt n) (m : RotMat n) : Corners n := ps.map fun p => p.toParent o m
/-- polygon.cpp 134-141 `toParentCoords(AxisBox)`. -/
noncomputable def toParentBox (ps : Corners n) (c : Box n) : Corners n := ps.map fun p => p.toParentBox c
/-- polygon.cpp 144-151 `toParentCoords(RotBox)`. -/
noncomputable def toParentRBox (ps : Corners n) (c : RBox n) : Corners n := ps.map fun p => p.toParentRBox c
/-- polygon.cpp 154-162 `toLocalCoords(origin, rotation)`. -/
noncomputable def toLocal (ps : Corners n) (o : Pt n) (m : RotMat n) : Corners n := ps.map fun p => p.toLocal o m
/-- polygon.cpp 165-172 `toLocalCoords(AxisBox)`. -/
noncomputable def toLocalBox (ps : Corners n) (c : Box n) : Corners n := ps.map fun p => p.toLocalBox c
/-- polygon.cpp 175-182 `toLocalCoords(RotBox)`. -/
noncomputable def toLocalRBox (ps : Corners n) (c : RBox n) : Corners n := ps.map fun p => p.toLocalRBox c
end Corners

/-! ### Reorientation of a plane polygon -/

/-- polygon.h 170-176 `Poly2ReorientType`, with the scale of polygon.h 180-192 where it is used. -/
inductive Reorient where
  | none
  | clearAxis2
  | clearBoth
  | moveAxis2
  | scale1 (scale : ℝ)

/-- polygon.cpp 31-73 `Poly2Reorient::reorient`: what is done to each corner that is not skipped. -/
noncomputable def Reorient.point : Reorient → Pt 2 → Pt 2
  | .none, p => p
  | .clearAxis2, p => ⟨![p.elem 0, 0], p.valid⟩
  | .clearBoth, p => ⟨![0, 0], p.valid⟩
  | .moveAxis2, p => ⟨![p.elem 1, 0], p.valid⟩
  | .scale1 s, p => ⟨![p.elem 0 * s, 0], p.valid⟩

/-! ### Poly2Orient -/

/-- polygon.h 212-301 `class Poly2Orient<dim>`: the plane of a polygon. -/
@[ext] structure Orient (n : Nat) where
  origin : Pt n
  ax0 : Vec n
  ax1 : Vec n

namespace Orient
/-- polygon.h 216 `Poly2Orient()`: everything invalid. -/
def empty : Orient n := ⟨Pt.default, Vec.default, Vec.default⟩

/-- polygon_funcs.h 59-76 `convert`, the loop over the two axes unrolled; `none`: failed assertion. -/
noncomputable def convert (o : Orient n) (p : Pt 2) : Option (Pt n) :=
  if o.origin.valid = false then none
  else if o.ax0.valid = false ∧ p.elem 0 ≠ 0 then none
  else if o.ax1.valid = false ∧ p.elem 1 ≠ 0 then none
  else
    let out0 := if o.ax0.valid then o.origin.addVec (o.ax0.scale (p.elem 0)) else o.origin
    let out1 := if o.ax1.valid then out0.addVec (o.ax1.scale (p.elem 1)) else out0
    some ⟨out1.elem, p.valid⟩

/-- polygon_funcs.h 78-116 `expand`, the loop `j = 0, 1, 2` unrolled: (success, new orientation, plane point). -/
noncomputable def expand (o : Orient n) (pd : Pt n) (eps : ℝ) : Bool × Orient n × Pt 2 :=
  if o.origin.valid = false then (true, { o with origin := ⟨pd.elem, true⟩ }, ⟨![0, 0], true⟩)
  else
    let start := pd.sub o.origin
    let bound := start.sqrMag * eps
    if start.dot start ≤ bound then (true, o, ⟨![0, 0], true⟩)
    else if o.ax0.valid = false then
      (true, { o with ax0 := ⟨(start.divBy start.mag).elem, true⟩ }, ⟨![start.mag, 0], true⟩)
    else
      let c0 := start.dot o.ax0
      let shift1 := start - o.ax0.scale c0
      if shift1.dot start ≤ bound then (true, o, ⟨![c0, 0], true⟩)
      else if o.ax1.valid = false then
        (true, { o with ax1 := ⟨(shift1.divBy shift1.mag).elem, true⟩ }, ⟨![c0, shift1.mag], true⟩)
      else
        let c1 := shift1.dot o.ax1
        let shift2 := shift1 - o.ax1.scale c1
        if shift2.dot start ≤ bound then (true, o, ⟨![c0, c1], true⟩)
        else (false, o, ⟨![c0, c1], false⟩)

/-- polygon_funcs.h 134-161 `reduce`: the tolerance, `ldexp(epsilon, exponent of the smallest "larger coordinate")`. The
starting value `max()` of the running minimum is not modelled: no coordinate exceeds it. -/
noncomputable def reduceEps : Corners 2 → ℝ
  | [] => ldexp epsilon (frexpExp 0)
  | p :: ps =>
    let larger := fun q : Pt 2 => if |q.elem 0| > |q.elem 1| then |q.elem 0| else |q.elem 1|
    ldexp epsilon (frexpExp (ps.foldl (fun size q => if larger q < size then larger q else size) (larger p)))

/-- How the scan of polygon_funcs.h 170-199 ends: it returned "nothing to change" (`spans`), an assertion failed
(`fail`), or it ran off the end with these values of `still_valid[0]`, `still_valid[1]`, `got_ratio`, `ratio`. -/
inductive Scan where
  | spans
  | fail
  | done (still0 still1 got : Bool) (ratio : ℝ)

/-- polygon_funcs.h 170-199, the scan over the remaining corners. `dbg`: assertions are compiled in. `axis2`:
`m_axes[1].isValid()`. The inner loop over `j` is unrolled; after it the code falls through, there is no `continue`. -/
noncomputable def scan (dbg axis2 : Bool) (eps : ℝ) (first : Pt 2) : Corners 2 → Bool → Bool → Bool → ℝ → Scan
  | [], still0, still1, got, ratio => .done still0 still1 got ratio
  | p :: ps, still0, still1, got, ratio =>
    let diff := p.sub first
    if diff.sqrMag < eps * eps then scan dbg axis2 eps first ps still0 still1 got ratio
    else if axis2 = false then .spans
    else if |diff.elem 0| < eps ∧ dbg = true ∧ ¬ diff.elem 1 ≥ eps then .fail
    else if |diff.elem 0| < eps ∧ (still1 = true ∨ got = true) then .spans
    else
      let still0' := if |diff.elem 0| < eps then true else still0
      if |diff.elem 1| < eps ∧ dbg = true ∧ ¬ diff.elem 0 ≥ eps then .fail
      else if |diff.elem 1| < eps ∧ (still0' = true ∨ got = true) then .spans
      else
        let still1' := if |diff.elem 1| < eps then true else still1
        if still0' = true ∨ still1' = true then .spans
        else if got = false then scan dbg axis2 eps first ps still0' still1' true (diff.elem 1 / diff.elem 0)
        else if equal ratio (diff.elem 1 / diff.elem 0) epsilon = false then .spans
        else scan dbg axis2 eps first ps still0' still1' got ratio

/-- polygon_funcs.h 118-246 `reduce(poly, skip)`. `kept` lists the corners of `poly` other than `skip`, in order (the loops
of the code step over index `skip`). `dbg`: assertions are compiled in; `none`: one failed. -/
noncomputable def reduce (dbg : Bool) (o : Orient n) (kept : Corners 2) : Option (Orient n × Reorient) :=
  match kept with
  | [] => some (⟨⟨o.origin.elem, false⟩, ⟨o.ax0.elem, false⟩, ⟨o.ax1.elem, false⟩⟩, .none)
  | p :: ps =>
    if dbg = true ∧ o.origin.valid = false then none
    else if o.ax0.valid = false then some (o, .none)
    else
      let first : Pt 2 := ⟨p.elem, true⟩
      match scan dbg o.ax1.valid (reduceEps kept) first ps false false false 0 with
      | .fail => none
      | .spans => some (o, .none)
      | .done still0 still1 got ratio =>
        if still0 then
          some (⟨o.origin.addVec (o.ax1.scale (first.elem 1)), o.ax0, ⟨o.ax1.elem, false⟩⟩, .clearAxis2)
        else if still1 then
          some (⟨o.origin.addVec (o.ax0.scale (first.elem 0)), o.ax1, ⟨o.ax1.elem, false⟩⟩, .moveAxis2)
        else if got = false then
          let org := o.origin.addVec (o.ax0.scale (first.elem 0))
          let org' := if o.ax1.valid then org.addVec (o.ax1.scale (first.elem 1)) else org
          some (⟨org', ⟨o.ax0.elem, false⟩, ⟨o.ax1.elem, false⟩⟩, .clearBoth)
        else
          let new0 := o.ax0 + o.ax1.scale ratio
          let norm := new0.mag
          some (⟨o.origin.addVec (o.ax1.scale (first.elem 1 - ratio * first.elem 0)), new0.divBy norm, ⟨o.ax1.elem, false⟩⟩,
            .scale1 norm)

/-- polygon.h 235 `shift`. -/
noncomputable def shift (o : Orient n) (v : Vec n) : Orient n :=
  if o.origin.valid then { o with origin := o.origin.addVec v } else o
/-- polygon_funcs.h 248-255 `rotate(m, p)`. -/
noncomputable def rotate (o : Orient n) (m : RotMat n) (p : Pt n) : Orient n :=
  ⟨o.origin.rotate m p, o.ax0.rotateM m, o.ax1.rotateM m⟩
/-- polygon_funcs.h 257-278 `rotate2(m, p)`; `none`: failed assertion. -/
noncomputable def rotate2 (o : Orient n) (m : RotMat n) (p : Pt 2) : Option (Orient n) :=
  if o.origin.valid = false then none
  else if o.ax0.valid = false then (if p.elem 0 = 0 ∧ p.elem 1 = 0 then some o else none)
  else if o.ax1.valid then
    let sh := o.ax0.scale (p.elem 0) + o.ax1.scale (p.elem 1)
    some ⟨o.origin.addVec (sh - sh.rotateM m), o.ax0.rotateM m, o.ax1.rotateM m⟩
  else if p.elem 1 ≠ 0 then none
  else
    let sh := o.ax0.scale (p.elem 0)
    some ⟨o.origin.addVec (sh - sh.rotateM m), o.ax0.rotateM m, o.ax1⟩
/-- polygon_funcs.h 280-287 `rotate(q, p)`. -/
noncomputable def rotateQ (o : Orient 3) (q : Quat) (p : Pt 3) : Orient 3 :=
  ⟨o.origin.rotateQ q p, o.ax0.rotateQ q, o.ax1.rotateQ q⟩
/-- polygon_funcs.h 289-310 `rotate2(q, p)`; `none`: failed assertion. `shift - shift.rotate(q)` passes `shift` by
reference and rotates it in place before the subtraction runs, so both operands are the rotated vector. -/
noncomputable def rotate2Q (o : Orient 3) (q : Quat) (p : Pt 2) : Option (Orient 3) :=
  if o.origin.valid = false then none
  else if o.ax0.valid = false then (if p.elem 0 = 0 ∧ p.elem 1 = 0 then some o else none)
  else if o.ax1.valid then
    let sh := (o.ax0.scale (p.elem 0) + o.ax1.scale (p.elem 1)).rotateQ q
    some ⟨o.origin.addVec (sh - sh), o.ax0.rotateQ q, o.ax1.rotateQ q⟩
  else if p.elem 1 ≠ 0 then none
  else
    let sh := (o.ax0.scale (p.elem 0)).rotateQ q
    some ⟨o.origin.addVec (sh - sh), o.ax0.rotateQ q, o.ax1⟩
/-- polygon.h 245-248 `toParentCoords(origin, rotation)`. -/
noncomputable def toParent (o : Orient n) (org : Pt n) (m : RotMat n) : Orient n :=
  ⟨o.origin.toParent org m, o.ax0.rotateM m, o.ax1.rotateM m⟩
/-- polygon.h 249-250 `toParentCoords(AxisBox)`. -/
noncomputable def toParentBox (o : Orient n) (c : Box n) : Orient n := { o with origin := o.origin.toParentBox c }
/-- polygon.h 251-254 `toParentCoords(RotBox)`. -/
noncomputable def toParentRBox (o : Orient n) (c : RBox n) : Orient n :=
  ⟨o.origin.toParentRBox c, o.ax0.rotateM c.orient, o.ax1.rotateM c.orient⟩
/-- polygon.h 260-264 `toLocalCoords(origin, rotation)`. -/
noncomputable def toLocal (o : Orient n) (org : Pt n) (m : RotMat n) : Orient n :=
  ⟨o.origin.toLocal org m, m.mulVec o.ax0, m.mulVec o.ax1⟩
/-- polygon.h 265-266 `toLocalCoords(AxisBox)`. -/
noncomputable def toLocalBox (o : Orient n) (c : Box n) : Orient n := { o with origin := o.origin.toLocalBox c }
/-- polygon.h 267-270 `toLocalCoords(RotBox)`. -/
noncomputable def toLocalRBox (o : Orient n) (c : RBox n) : Orient n :=
  ⟨o.origin.toLocalRBox c, c.orient.mulVec o.ax0, c.orient.mulVec o.ax1⟩
/-- polygon.h 273-275 `toParentCoords(origin, q)`; the first axis is rotated twice, the second not at all. -/
noncomputable def toParentQ (o : Orient 3) (org : Pt 3) (q : Quat) : Orient 3 :=
  ⟨o.origin.toParentQ org q, (o.ax0.rotateQ q).rotateQ q, o.ax1⟩
/-- polygon.h 276-279 `toLocalCoords(origin, q)`; the first axis is rotated twice, the second not at all. -/
noncomputable def toLocalQ (o : Orient 3) (org : Pt 3) (q : Quat) : Orient 3 :=
  ⟨o.origin.toLocalQ org q, (o.ax0.rotateQ q.inverse).rotateQ q.inverse, o.ax1⟩
end Orient

/-! ### Polygon<dim> -/

/-- polygon.h 304-437 `class Polygon<dim>`. -/
@[ext] structure Poly (n : Nat) where
  orient : Orient n
  poly : Corners 2

namespace Poly
/-- polygon.h 308 `Polygon()`, 349 `clear`. -/
def empty : Poly n := ⟨Orient.empty, []⟩
/-- polygon.h 324 `isValid`. -/
def valid (s : Poly n) : Bool := s.poly.polyValid
/-- polygon.h 328 `numCorners`. -/
def numCorners (s : Poly n) : Nat := s.poly.length
/-- polygon.h 329 `getCorner`; `none`: access outside the vector or failed assertion. -/
noncomputable def getCorner (s : Poly n) (i : Nat) : Option (Pt n) := (s.poly.getCorner i).bind s.orient.convert
/-- polygon.h 330 `getCenter`. -/
noncomputable def getCenter (s : Poly n) : Option (Pt n) := s.orient.convert s.poly.getCenter
/-- polygon.h 439-447 `addCorner`: (success, polygon); `none`: iterator out of range. -/
noncomputable def addCorner (s : Poly n) (i : Nat) (p : Pt n) (eps : ℝ) : Option (Bool × Poly n) :=
  let (succ, o, p2) := s.orient.expand p eps
  if succ then (s.poly.addCorner i p2).map fun ps => (true, ⟨o, ps⟩) else some (false, ⟨o, s.poly⟩)
/-- polygon.h 449-455 `removeCorner`; `none`: iterator out of range or failed assertion. -/
noncomputable def removeCorner (dbg : Bool) (s : Poly n) (i : Nat) : Option (Poly n) :=
  (s.poly.removeCorner i).bind fun ps => (s.orient.reduce dbg ps).map fun (o, r) => ⟨o, ps.map r.point⟩
/-- polygon.h 457-472 `moveCorner`: (success, polygon); `none`: access outside the vector or failed assertion. -/
noncomputable def moveCorner (dbg : Bool) (s : Poly n) (i : Nat) (p : Pt n) (eps : ℝ) : Option (Bool × Poly n) :=
  (s.poly.removeCorner i).bind fun kept => (s.orient.reduce dbg kept).bind fun (o, r) =>
    let (succ, o', p2) := o.expand p eps
    if succ then some (true, ⟨o', (s.poly.map r.point).set i p2⟩) else some (false, s)
/-- polygon.h 353-354 `shift`. -/
noncomputable def shift (s : Poly n) (v : Vec n) : Poly n := { s with orient := s.orient.shift v }
/-- polygon.h 355-356 `moveCornerTo`. -/
noncomputable def moveCornerTo (s : Poly n) (p : Pt n) (i : Nat) : Option (Poly n) :=
  (s.getCorner i).map fun c => s.shift (p.sub c)
/-- polygon.h 357-358 `moveCenterTo`. -/
noncomputable def moveCenterTo (s : Poly n) (p : Pt n) : Option (Poly n) :=
  s.getCenter.map fun c => s.shift (p.sub c)
/-- polygon.h 360-361 `rotateCorner(m, corner)`. -/
noncomputable def rotateCorner (s : Poly n) (m : RotMat n) (i : Nat) : Option (Poly n) :=
  (s.poly.getCorner i).bind fun p => (s.orient.rotate2 m p).map fun o => { s with orient := o }
/-- polygon.h 362-365 `rotateCenter(m)`. -/
noncomputable def rotateCenter (s : Poly n) (m : RotMat n) : Option (Poly n) :=
  if s.poly.length > 0 then (s.orient.rotate2 m s.poly.getCenter).map fun o => { s with orient := o } else some s
/-- polygon.h 366-367 `rotatePoint(m, p)`. -/
noncomputable def rotatePoint (s : Poly n) (m : RotMat n) (p : Pt n) : Poly n := { s with orient := s.orient.rotate m p }
/-- polygon.h 370-371 `rotateCorner(q, corner)`. -/
noncomputable def rotateCornerQ (s : Poly 3) (q : Quat) (i : Nat) : Option (Poly 3) :=
  (s.poly.getCorner i).bind fun p => (s.orient.rotate2Q q p).map fun o => { s with orient := o }
/-- polygon.h 372-375 `rotateCenter(q)`. -/
noncomputable def rotateCenterQ (s : Poly 3) (q : Quat) : Option (Poly 3) :=
  if s.poly.length > 0 then (s.orient.rotate2Q q s.poly.getCenter).map fun o => { s with orient := o } else some s
/-- polygon.h 376-377 `rotatePoint(q, p)`. -/
noncomputable def rotatePointQ (s : Poly 3) (q : Quat) (p : Pt 3) : Poly 3 := { s with orient := s.orient.rotateQ q p }
/-- polygon.h 385-387 `toParentCoords(origin, rotation)`. -/
noncomputable def toParent (s : Poly n) (o : Pt n) (m : RotMat n) : Poly n := { s with orient := s.orient.toParent o m }
/-- polygon.h 388-389 `toParentCoords(AxisBox)`. -/
noncomputable def toParentBox (s : Poly n) (c : Box n) : Poly n := { s with orient := s.orient.toParentBox c }
/-- polygon.h 390-391 `toParentCoords(RotBox)`. -/
noncomputable def toParentRBox (s : Poly n) (c : RBox n) : Poly n := { s with orient := s.orient.toParentRBox c }
/-- polygon.h 397-399 `toLocalCoords(origin, rotation)`. -/
noncomputable def toLocal (s : Poly n) (o : Pt n) (m : RotMat n) : Poly n := { s with orient := s.orient.toLocal o m }
/-- polygon.h 400-401 `toLocalCoords(AxisBox)`. -/
noncomputable def toLocalBox (s : Poly n) (c : Box n) : Poly n := { s with orient := s.orient.toLocalBox c }
/-- polygon.h 402-403 `toLocalCoords(RotBox)`. -/
noncomputable def toLocalRBox (s : Poly n) (c : RBox n) : Poly n := { s with orient := s.orient.toLocalRBox c }
/-- polygon.h 406-407 `toParentCoords(origin, q)`. -/
noncomputable def toParentQ (s : Poly 3) (o : Pt 3) (q : Quat) : Poly 3 := { s with orient := s.orient.toParentQ o q }
/-- polygon.h 408-409 `toLocalCoords(origin, q)`. -/
noncomputable def toLocalQ (s : Poly 3) (o : Pt 3) (q : Quat) : Poly 3 := { s with orient := s.orient.toLocalQ o q }
/-- polygon_funcs.h 42-57 `isEqualTo`: the loop over the corners; `none`: failed assertion in `getCorner`. -/
noncomputable def isEqualToLoop (eps : ℝ) : List (Option (Pt n)) → List (Option (Pt n)) → Option Bool
  | p :: ps, q :: qs => p.bind fun a => q.bind fun b => if !a.isEqualTo b eps then some false else isEqualToLoop eps ps qs
  | _, _ => some true
noncomputable def isEqualTo (s t : Poly n) (eps : ℝ) : Option Bool :=
  if s.poly.length ≠ t.poly.length then some false
  else isEqualToLoop eps (s.poly.map s.orient.convert) (t.poly.map t.orient.convert)
/-- polygon_funcs.h 312-335 `boundingBox`; the loop is that of `BoundingBox` over the corners. `none`: failed assertion. -/
noncomputable def boundingBox (s : Poly n) : Option (Box n) :=
  if s.poly.length > 0 then (s.poly.mapM s.orient.convert).map Box.boundingPoints else none
/-- polygon_funcs.h 337-343 `boundingSphere` and 345-351 `boundingSphereSloppy`, given the ball of the plane polygon. -/
noncomputable def liftBall (s : Poly n) (b : Ball 2) : Option (Ball n) :=
  (s.orient.convert b.center).map fun c => Ball.mk' c b.radius
end Poly

end WFMath
