/-
Model of the rest of `/repo/src/wfmath/polygon_intersect.cpp`: intersection and containment of two polygons in space.

`none` means that the call gives no answer: a failed assertion, access outside a vector or list, or use of a value that was never set.
-/
import Verif.Model.PolyIntersect

namespace WFMath
open Gauss
variable {n : Nat}

/-! ### Two planes -/

/-- polygon_intersect.cpp 172-201: the number of directions common to both bases, `basis1` and `sqrmag1`. -/
noncomputable def commonDir (o1 o2 : Orient n) : Nat × Vec n × ℝ :=
  let proj := fun v : Vec n =>
    if o2.ax1.valid then o2.ax0.scale (o2.ax0.dot v) + o2.ax1.scale (o2.ax1.dot v) else o2.ax0.scale (o2.ax0.dot v)
  let b1 := proj o1.ax0
  let size := if b1.sqrMag > epsilon * epsilon then 1 else 0
  if o1.ax1.valid then
    let b2 := proj o1.ax1
    let b2 := if size = 1 then b2 - b1.scale (b1.dot b2 / b1.sqrMag) else b2
    if b2.sqrMag > epsilon * epsilon then (size + 1, if size = 0 then (b2, b2.sqrMag) else (b1, b1.sqrMag)) else (size, b1, b1.sqrMag)
  else (size, b1, b1.sqrMag)

/-- polygon.h 196-201: `data` as its constructor leaves it. The two flags have no value then; they are only read after case 1 has set them,
except where `planesMeet` says so. -/
def PlanesData.start : PlanesData := ⟨Pt.default, Pt.default, Vec.default, Vec.default, Vec.default, false, false⟩

/-- polygon_intersect.cpp 234-306: case 1 of `Intersect(Poly2Orient, Poly2Orient)`, with `basis1` and `sqrmag1`. -/
noncomputable def planesLine (o1 o2 : Orient n) (off basis1 : Vec n) (sqrmag1 : ℝ) (d : PlanesData) : ℤ × PlanesData :=
  let d := { d with line1 := !o1.ax1.valid, line2 := !o2.ax1.valid }
  let p0 : Pt 2 := ⟨![0, 0], d.p1.valid⟩
  let vx : Vec 2 := ⟨![1, 0], d.v1.valid⟩
  if o1.ax1.valid = false ∧ o2.ax1.valid = false then
    let proj := off.dot o2.ax0
    if off.isEqualTo (o2.ax0.scale proj) epsilon = false then (-1, d)
    else (1, { d with v1 := vx, p1 := p0, v2 := ⟨![if o1.ax0.dot o2.ax0 > 0 then 1 else -1, 0], d.v2.valid⟩, p2 := ⟨![-proj, 0], d.p2.valid⟩ })
  else if o1.ax1.valid = false then
    let c0 := -off.dot o2.ax0
    let c1 := -off.dot o2.ax1
    let d := { d with p2 := ⟨![c0, c1], d.p2.valid⟩ }
    if off.isEqualTo (o2.ax0.scale (-c0) - o2.ax1.scale c1) epsilon = false then (-1, d)
    else (1, { d with v1 := vx, p1 := p0, v2 := ⟨![o1.ax0.dot o2.ax0, o1.ax0.dot o2.ax1], d.v2.valid⟩ })
  else if o2.ax1.valid = false then
    let c0 := off.dot o1.ax0
    let c1 := off.dot o1.ax1
    let d := { d with p1 := ⟨![c0, c1], d.p1.valid⟩ }
    if off.isEqualTo (o1.ax0.scale c0 + o1.ax1.scale c1) epsilon = false then (-1, d)
    else (1, { d with v2 := vx, p2 := p0, v1 := ⟨![o1.ax0.dot o2.ax0, o1.ax1.dot o2.ax0], d.v1.valid⟩ })
  else
    let c0 := off.dot o1.ax0
    let c1 := off.dot o1.ax1
    let e0 := -off.dot o2.ax0
    let e1 := -off.dot o2.ax1
    let d := { d with p1 := ⟨![c0, c1], d.p1.valid⟩, p2 := ⟨![e0, e1], d.p2.valid⟩ }
    if off.isEqualTo (((o1.ax0.scale c0 + o1.ax1.scale c1) - o2.ax0.scale e0) - o2.ax1.scale e1) epsilon = false then (-1, d)
    else
      let b := basis1.divBy (Real.sqrt sqrmag1)
      (1, { d with v1 := ⟨![o1.ax0.dot b, o1.ax1.dot b], d.v1.valid⟩, v2 := ⟨![o2.ax0.dot b, o2.ax1.dot b], d.v2.valid⟩ })

/-- polygon_intersect.cpp 138-342 `Intersect(Poly2Orient, Poly2Orient)`: the dimension of the intersection and the data; `none` also for the `return 1` in
line 232, which leaves the flags without a value that the callers then read. -/
noncomputable def planesMeet (o1 o2 : Orient n) : Option (ℤ × PlanesData) :=
  let d := PlanesData.start
  if o1.origin.valid = false ∨ o2.origin.valid = false then some (-1, d)
  else if o1.ax0.valid = false then
    (o2.checkContained o1.origin).map fun (c, p2) => if c = false then (-1, { d with p2 := p2 }) else (0, { d with p1 := ⟨![0, 0], d.p1.valid⟩, p2 := p2 })
  else if o2.ax0.valid = false then
    (o1.checkContained o2.origin).map fun (c, p1) => if c = false then (-1, { d with p1 := p1 }) else (0, { d with p1 := p1, p2 := ⟨![0, 0], d.p2.valid⟩ })
  else
    let off := o2.origin.sub o1.origin
    match commonDir o1 o2 with
    | (0, _, _) =>
      let c0 := o1.ax0.dot off
      let off1 := if o1.ax1.valid then o1.ax0.scale c0 + o1.ax1.scale (o1.ax1.dot off) else o1.ax0.scale c0
      let e0 := -o2.ax0.dot off
      let off2 := if o1.ax1.valid then o2.ax0.scale e0 + o1.ax1.scale (-o2.ax1.dot off) else o2.ax0.scale e0
      if (off1 - off2).isEqualTo off epsilon = false then some (-1, d) else none
    | (1, b, m) => some (planesLine o1 o2 off b m d)
    | _ => (planesParallel o1 o2 off d).map fun r => r.elim (-1, d) fun d' => (2, d')

/-! ### The line and one polygon -/

/-- polygon_intersect.cpp 780-792 `LinePolyGetBounds`; `none`: element 0 of an empty vector. -/
noncomputable def lineBounds : Corners 2 → Option (ℝ × ℝ)
  | [] => none
  | p :: ps => some ((p :: ps).foldl (fun (lh : ℝ × ℝ) q =>
      (if q.elem 0 < lh.1 then q.elem 0 else lh.1, if q.elem 0 > lh.2 then q.elem 0 else lh.2)) (p.elem 0, p.elem 0))

/-- polygon_intersect.cpp 822-824 and 832-834: the corner lies on the line. -/
noncomputable def onLine (p : Pt 2) (v : Vec 2) (c : Pt 2) : Bool :=
  equal (c.sub p).sqrMag ((c.sub p).dot v * (c.sub p).dot v) epsilon

/-- polygon_intersect.cpp 795-798 `LinePointData`. -/
structure LinePointData where
  low : ℝ
  high : ℝ
  cross : Bool

/-- polygon_intersect.cpp 828-843: the loop over the next corners on the line; result: index and corner where it stops, lowest and highest projection. `none`:
the index is past the end (when `i` is the last corner), or comes back to `i` (failed assertion 843). `fuel` only has to exceed the number of corners. -/
noncomputable def runOnLine (ps : Corners 2) (p : Pt 2) (v : Vec 2) (i : Nat) : Nat → Nat → ℝ → ℝ → Option (Nat × Pt 2 × ℝ × ℝ)
  | 0, _, _, _ => none
  | fuel + 1, j, low, high =>
    if j = i then none
    else (ps.getCorner j).bind fun c =>
      if onLine p v c = false then some (j, c, low, high)
      else
        let pr := (c.sub p).dot v
        runOnLine ps p v i fuel (if j = ps.length - 1 then 0 else j + 1) (if pr < low then pr else low) (if pr > high then pr else high)

/-- polygon_intersect.cpp 871-897: the loop that enters a stretch of the line into the list. The flag says whether the loop ran to the end, so that the stretch is
(899-900) appended as well. `none`: `J` is the end of the list and is read. -/
noncomputable def enterStretch (d : LinePointData) : List LinePointData → Option (List LinePointData × Bool)
  | [] => some ([], true)
  | [x] =>
    if d.low > x.high then some ([x], true)
    else if d.high < x.low then some ([d, x], false)
    else none
  | x :: y :: ys =>
    if d.low > x.high then (enterStretch d (y :: ys)).map fun (l, e) => (x :: l, e)
    else if d.high < x.low then some (d :: x :: y :: ys, false)
    else
      let x' : LinePointData := ⟨if x.low < d.low then x.low else d.low, if x.high > d.high then x.high else d.high, x.cross != d.cross⟩
      if y.low < x'.high then (enterStretch d ys).map fun (l, e) => (⟨x'.low, y.high, x'.cross != y.cross⟩ :: l, e)
      else (enterStretch d (y :: ys)).map fun (l, e) => (x' :: l, e)

/-- polygon_intersect.cpp 810-816: the local variables of `GetCrossings`. -/
structure CrossState where
  oldP : Pt 2
  oldBelow : Bool
  cross : List ℝ
  lines : List LinePointData

/-- `cross[next_cross++] = x` (polygon_intersect.cpp 856, 861, 862, 923); `none`: past the end of the vector. -/
def CrossState.push (s : CrossState) (size : Nat) (x : ℝ) : Option CrossState :=
  if s.cross.length < size then some { s with cross := s.cross ++ [x] } else none

/-- polygon_intersect.cpp 824-905: the loop body for corner `i`, which lies on the line. -/
noncomputable def stepOn (ps : Corners 2) (p : Pt 2) (v : Vec 2) (proper : Bool) (i : Nat) (proj : ℝ) (s : CrossState) : Option CrossState :=
  (runOnLine ps p v i (ps.length + 1) (i + 1) proj proj).bind fun (j, pj, low, high) =>
    let below := decide (cross2 v (pj.sub p) < 0)
    if below = s.oldBelow ∧ proper = true then some { s with oldP := pj }
    else if j = i + 1 then
      if below ≠ s.oldBelow then (CrossState.push { s with oldBelow := below } ps.length proj).map fun s => { s with oldP := pj }
      else (s.push ps.length proj).bind fun s => (s.push ps.length proj).map fun s => { s with oldP := pj }
    else
      let d : LinePointData := ⟨low, high, below != s.oldBelow⟩
      (enterStretch d s.lines).map fun (l, e) => { s with lines := if e then l ++ [d] else l, oldBelow := below, oldP := pj }

/-- polygon_intersect.cpp 907-926: the loop body for a corner that does not lie on the line. `none`: failed assertion 919. The last line stores the point of the
line, not the corner. -/
noncomputable def stepOff (ps : Corners 2) (p : Pt 2) (v : Vec 2) (c : Pt 2) (s : CrossState) : Option CrossState :=
  let vi := c.sub p
  let below := decide (cross2 v vi < 0)
  if below ≠ s.oldBelow then
    let dist := p.sub s.oldP
    let m := dist.sqrMag
    let dp := dist.dot v
    let denom := dp * dp - m
    if denom = 0 then none
    else (CrossState.push { s with oldBelow := below } ps.length ((dp * vi.dot dist + m * vi.dot v) / denom)).map fun s => { s with oldP := p }
  else some { s with oldP := p }

/-- polygon_intersect.cpp 818-927: the loop over the corners from number `i` on. -/
noncomputable def crossLoop (ps : Corners 2) (p : Pt 2) (v : Vec 2) (proper : Bool) : Nat → Corners 2 → CrossState → Option CrossState
  | _, [], s => some s
  | i, c :: cs, s =>
    (if onLine p v c then stepOn ps p v proper i ((c.sub p).dot v) s else stepOff ps p v c s).bind fun s => crossLoop ps p v proper (i + 1) cs s

/-- polygon_intersect.cpp 949-953: the `do` loop from the position after `cross_num`; the number of crossings passed and what is left. `none`: ran off the end. -/
noncomputable def passCross (high : ℝ) : List ℝ → Nat → Option (Nat × List ℝ)
  | [], _ => none
  | c :: cs, k => if c < high then passCross high cs (k + 1) else some (k, c :: cs)

/-- polygon_intersect.cpp 974-984: the loop over the stretches that are left; the crossings appended and `hit`. -/
def restStretches (proper : Bool) : List LinePointData → Bool → List ℝ × Bool
  | [], hit => ([], hit)
  | x :: xs, hit =>
    if x.cross then
      let (l, h) := restStretches proper xs (!hit)
      ((if proper = hit then x.low else x.high) :: l, h)
    else if proper = false then
      let (l, h) := restStretches proper xs hit
      (x.low :: x.high :: l, h)
    else restStretches proper xs hit

/-- polygon_intersect.cpp 933-986: the crossings merged with the stretches of the line; `none`: ran off the end, or failed assertion 986. -/
noncomputable def mergeStretches (proper : Bool) (cs : List ℝ) (xs : List LinePointData) (hit : Bool) : Option (List ℝ) :=
  match cs, xs with
  | cs, [] => if hit then none else some cs
  | [], x :: xs =>
    let (l, h) := restStretches proper (x :: xs) hit
    if h then none else some l
  | c :: cs, x :: xs =>
    if c < x.low then (mergeStretches proper cs (x :: xs) (!hit)).map (c :: ·)
    else
      (if c > x.high then some (x.cross, c :: cs) else (passCross x.high cs 1).map fun (k, rest) => ((decide (k % 2 ≠ 0)) != x.cross, rest)).bind
        fun (between, rest) =>
          if between then (mergeStretches proper rest xs (!hit)).map ((if proper = hit then x.low else x.high) :: ·)
          else if proper = false then (mergeStretches proper rest xs hit).map fun l => x.low :: x.high :: l
          else mergeStretches proper rest xs hit
termination_by (xs.length, cs.length)

/-- polygon_intersect.cpp 800-990 `GetCrossings`: the ends of the intervals in which the line meets the polygon. `none` also: failed assertion 808 (`v` has
length 1), and corner `numCorners() - 1` of a polygon without corners. -/
noncomputable def getCrossings (ps : Corners 2) (p : Pt 2) (v : Vec 2) (proper : Bool) : Option (List ℝ) :=
  if equal v.sqrMag 1 epsilon = false then none
  else (ps.getCorner (ps.length - 1)).bind fun c =>
    (crossLoop ps p v proper 0 ps ⟨c, decide (cross2 v (c.sub p) < 0), [], []⟩).bind fun s =>
      let sorted := s.cross.mergeSort fun a b => decide (a ≤ b)
      if s.lines = [] then some sorted else mergeStretches proper sorted s.lines false

/-- polygon_intersect.cpp 1082-1109: the loop that compares the intervals of the two polygons; `none`: reads past an end. -/
noncomputable def compareCrossings (proper : Bool) (cs ds : List ℝ) (h1 h2 : Bool) : Option Bool :=
  match cs, ds with
  | [], _ => some false
  | _, [] => some false
  | c :: cs, d :: ds =>
    if equal c d epsilon then
      if proper = false then some true
      else
        match cs, ds with
        | [], _ => none
        | _, [] => none
        | c' :: cs', d' :: ds' =>
          if c' < d' then
            if (h1 && !h2) then some true else compareCrossings proper cs' (d' :: ds') h1 (!h2)
          else
            if (!h1 && h2) then some true else compareCrossings proper (c' :: cs') ds' (!h1) h2
    else if c < d then
      if (!h1 && h2) then some true else compareCrossings proper cs (d :: ds) (!h1) h2
    else
      if (h1 && !h2) then some true else compareCrossings proper (c :: cs) ds h1 (!h2)
termination_by cs.length + ds.length

/-! ### Two polygons -/

/-- polygon_intersect.cpp 1010-1019 and the like: the bounds of a polygon on a line, relative to `p` along the direction `v`. -/
noncomputable def lineExtent (ps : Corners 2) (p : Pt 2) (v : Vec 2) : Option (ℝ × ℝ) :=
  (lineBounds ps).map fun (lo, hi) =>
    let lo := lo - p.elem 0
    let hi := hi - p.elem 0
    if v.elem 0 < 0 then (-hi, -lo) else (lo, hi)

/-- polygon_intersect.cpp 992-1132 `PolyPolyIntersect`. -/
noncomputable def polyPolyIntersect (p1 p2 : Corners 2) (dim : ℤ) (d : PlanesData) (proper : Bool) : Option Bool :=
  if dim = -1 then some false
  else if dim = 0 then some (interPolyP p1 d.p1 proper && interPolyP p2 d.p2 proper)
  else if dim = 1 then
    if proper && (d.line1 || d.line2) then some false
    else if d.line1 && d.line2 then
      (lineExtent p1 d.p1 d.v1).bind fun (lo1, hi1) => (lineExtent p2 d.p2 d.v2).map fun (lo2, hi2) => decide (hi1 ≥ lo2) && decide (hi2 ≥ lo1)
    else if d.line1 then
      (lineExtent p1 d.p1 d.v1).bind fun (lo, hi) => interPolyS p2 ⟨d.p2.addVec (d.v2.scale lo), d.p1.addVec (d.v2.scale hi)⟩ false
    else if d.line2 then
      (lineExtent p2 d.p2 d.v2).bind fun (lo, hi) => interPolyS p1 ⟨d.p1.addVec (d.v1.scale lo), d.p1.addVec (d.v1.scale hi)⟩ false
    else
      (getCrossings p1 d.p1 d.v1 proper).bind fun c1 =>
        if c1 = [] then some false
        else (getCrossings p2 d.p2 d.v2 proper).bind fun c2 => if c2 = [] then some false else compareCrossings proper c1 c2 false false
  else if dim = 2 then interPolyPoly2 p1 (shiftPoly p2 d) proper
  else none

/-- polygon_intersect.cpp 654-662 `Intersect(Polygon<dim>, Polygon<dim>)`. -/
noncomputable def interPolyPolyN (p1 p2 : Poly n) (proper : Bool) : Option Bool :=
  (planesMeet p1.orient p2.orient).bind fun (dim, d) => polyPolyIntersect p1.poly p2.poly dim d proper

/-- polygon_intersect.cpp 1134-1187 `PolyPolyContains`. -/
noncomputable def polyPolyContains (outer inner : Corners 2) (dim : ℤ) (d : PlanesData) (proper : Bool) : Option Bool :=
  if dim = -1 then some false
  else if dim = 0 then some (containsPPoly d.p2 inner false && interPolyP outer d.p1 proper)
  else if dim = 1 then
    if d.line2 = false then some false
    else (lineExtent inner d.p2 d.v2).bind fun (lo, hi) => containsPolyS outer ⟨d.p1.addVec (d.v1.scale lo), d.p1.addVec (d.v1.scale hi)⟩ proper
  else if dim = 2 then containsPolyPoly2 outer (shiftPoly inner d) proper
  else none

/-- polygon_intersect.cpp 668-682 `Contains(Polygon<dim>, Polygon<dim>)`. -/
noncomputable def containsPolyPolyN (outer inner : Poly n) (proper : Bool) : Option Bool :=
  if outer.poly.length = 0 then some (!proper && decide (inner.poly.length = 0))
  else if inner.poly.length = 0 then some true
  else (planesMeet outer.orient inner.orient).bind fun (dim, d) => polyPolyContains outer.poly inner.poly dim d proper

end WFMath
