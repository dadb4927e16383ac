/-
Model of `/repo/src/wfmath/polygon_intersect.cpp`: intersection and containment tests with polygons.

In results of type `Option Bool`, `none` means that the call gives no answer: a failed assertion, access outside a vector,
or a recursion that never ends.
-/
import Verif.Model.Polygon
import Verif.Model.Intersect

namespace WFMath
open Gauss
variable {n : Nat}

/-! ### Polygon<2> -/

/-- The pairs (`*i`, `*j`) that the loops `for(i = begin, j = end - 1; i != end; j = i++)` go through, given `*j` at the start. -/
def edgesFrom : Pt 2 → Corners 2 → List (Pt 2 × Pt 2)
  | _, [] => []
  | j, i :: is => (i, j) :: edgesFrom i is
/-- The pairs (`*i`, `*j`) of the whole loop (polygon_intersect.cpp 1202, 1242, 1313): corner and its predecessor. -/
def edges (ps : Corners 2) : List (Pt 2 × Pt 2) := edgesFrom (ps.getLastD Pt.default) ps

/-- polygon_intersect.cpp 1203-1205 `vertically_between` (and 1243-1254 with the other coordinate). -/
noncomputable def between (a b y : ℝ) : Bool := decide ((a ≤ y ∧ y < b) ∨ (b ≤ y ∧ y < a))

/-- polygon_intersect.cpp 1202-1220: the loop of `Intersect(Polygon<2>, Point<2>)` over the edges left. -/
noncomputable def polyPLoop (p : Pt 2) (proper : Bool) : List (Pt 2 × Pt 2) → Bool → Bool
  | [], hit => hit
  | (i, j) :: es, hit =>
    if between (i.elem 1) (j.elem 1) (p.elem 1) = false then polyPLoop p proper es hit
    else
      let x := i.elem 0 + (j.elem 0 - i.elem 0) * (p.elem 1 - i.elem 1) / (j.elem 1 - i.elem 1)
      if equal (p.elem 0) x epsilon then !proper
      else if p.elem 0 < x then polyPLoop p proper es (!hit)
      else polyPLoop p proper es hit
/-- polygon_intersect.cpp 1196-1221 `Intersect(Polygon<2>, Point<2>)`; also `Contains(Polygon<2>, Point<2>)` (intersect.h 58-62). -/
noncomputable def interPolyP (r : Corners 2) (p : Pt 2) (proper : Bool) : Bool := polyPLoop p proper (edges r) false

/-- polygon_intersect.cpp 1223-1234 `Contains(Point<2>, Polygon<2>)`. -/
noncomputable def containsPPoly (p : Pt 2) (r : Corners 2) (proper : Bool) : Bool :=
  if proper then decide (r.length = 0) else r.all fun q => p.isEqualTo q epsilon

/-- polygon_intersect.cpp 1242-1304: the loop of `Intersect(Polygon<2>, AxisBox<2>)` for the box with corners `(l0, l1)`, `(h0, h1)`. Also
the loop 1597-1659 of `Intersect(Polygon<2>, RotBox<2>)`, which is the same text with the ends of the edge in alternating order. -/
noncomputable def polyBLoop (l0 l1 h0 h1 : ℝ) (proper : Bool) : List (Pt 2 × Pt 2) → Bool → Bool
  | [], hit => hit
  | (i, j) :: es, hit =>
    let xdiff := j.elem 0 - i.elem 0
    let ydiff := j.elem 1 - i.elem 1
    let lowX := i.elem 0 + (l1 - i.elem 1) * xdiff / ydiff
    let lowY := i.elem 1 + (l0 - i.elem 0) * ydiff / xdiff
    let highX := i.elem 0 + (h1 - i.elem 1) * xdiff / ydiff
    let highY := i.elem 1 + (h0 - i.elem 0) * ydiff / xdiff
    if between (i.elem 1) (j.elem 1) l1 && (equal l0 lowX epsilon || equal h0 lowX epsilon) then !proper
    else if between (i.elem 1) (j.elem 1) l1 && (decide (l0 < lowX) && decide (h0 > lowX)) then true
    else
      let hit' := if between (i.elem 1) (j.elem 1) l1 && decide (l0 < lowX) then !hit else hit
      if between (i.elem 0) (j.elem 0) l0 && (equal l1 lowY epsilon || equal h1 lowY epsilon) then !proper
      else if between (i.elem 0) (j.elem 0) l0 && (decide (l1 < lowY) && decide (h1 > lowY)) then true
      else if between (i.elem 1) (j.elem 1) h1 && (equal l0 highX epsilon || equal h0 highX epsilon) then !proper
      else if between (i.elem 1) (j.elem 1) h1 && (decide (l0 < highX) && decide (h0 > highX)) then true
      else if between (i.elem 0) (j.elem 0) h0 && (equal l1 highY epsilon || equal h1 highY epsilon) then !proper
      else if between (i.elem 0) (j.elem 0) h0 && (decide (l1 < highY) && decide (h1 > highY)) then true
      else polyBLoop l0 l1 h0 h1 proper es hit'
/-- polygon_intersect.cpp 1236-1305 `Intersect(Polygon<2>, AxisBox<2>)`. -/
noncomputable def interPolyB (p : Corners 2) (b : Box 2) (proper : Bool) : Bool :=
  polyBLoop (b.low.elem 0) (b.low.elem 1) (b.high.elem 0) (b.high.elem 1) proper (edges p) false

/-- polygon_intersect.cpp 1313-1391: the loop of `Contains(Polygon<2>, AxisBox<2>)`; also 1692-1772 of `Contains(Polygon<2>, RotBox<2>)`. -/
noncomputable def polyCBLoop (l0 l1 h0 h1 : ℝ) (proper : Bool) : List (Pt 2 × Pt 2) → Bool → Bool
  | [], hit => hit
  | (i, j) :: es, hit =>
    let xdiff := j.elem 0 - i.elem 0
    let ydiff := j.elem 1 - i.elem 1
    let lowX := i.elem 0 + (l1 - i.elem 1) * xdiff / ydiff
    let lowY := i.elem 1 + (l0 - i.elem 0) * ydiff / xdiff
    let highX := i.elem 0 + (h1 - i.elem 1) * xdiff / ydiff
    let highY := i.elem 1 + (h0 - i.elem 0) * ydiff / xdiff
    let bad := fun (btw : Bool) (a b x : ℝ) =>
      let on := equal a x epsilon || equal b x epsilon
      btw && ((on && proper) || (!on && decide (a < x) && decide (b > x)))
    if bad (between (i.elem 1) (j.elem 1) l1) l0 h0 lowX then false
    else
      let hit' := if between (i.elem 1) (j.elem 1) l1 && !(equal l0 lowX epsilon || equal h0 lowX epsilon) && decide (l0 < lowX)
        then !hit else hit
      if bad (between (i.elem 0) (j.elem 0) l0) l1 h1 lowY then false
      else if bad (between (i.elem 1) (j.elem 1) h1) l0 h0 highX then false
      else if bad (between (i.elem 0) (j.elem 0) h0) l1 h1 highY then false
      else polyCBLoop l0 l1 h0 h1 proper es hit'
/-- polygon_intersect.cpp 1307-1392 `Contains(Polygon<2>, AxisBox<2>)`. -/
noncomputable def containsPolyB (p : Corners 2) (b : Box 2) (proper : Bool) : Bool :=
  polyCBLoop (b.low.elem 0) (b.low.elem 1) (b.high.elem 0) (b.high.elem 1) proper (edges p) false
/-- polygon_intersect.cpp 1394-1402 `Contains(AxisBox<2>, Polygon<2>)`. -/
noncomputable def containsBPoly (b : Box 2) (p : Corners 2) (proper : Bool) : Bool := p.all fun q => interBP b q proper

/-- The values that the segment `s2` takes in the loops of polygon_intersect.cpp 1410-1419, 1430-1439, 1464-1475, 1484-1491: the two
endpoints are overwritten in turn, so that it joins each corner with its predecessor in alternating direction. -/
def edgeSegs : List (Pt 2 × Pt 2) → Bool → List (Seg 2)
  | [], _ => []
  | (i, j) :: es, next => (if next then ⟨j, i⟩ else ⟨i, j⟩) :: edgeSegs es (!next)

/-- polygon_intersect.cpp 1404-1422 `Intersect(Polygon<2>, Ball<2>)`; `none`: `back()` of an empty vector. -/
noncomputable def interPolyBall (p : Corners 2) (b : Ball 2) (proper : Bool) : Option Bool :=
  if interPolyP p b.center proper then some true
  else if p = [] then none
  else some ((edgeSegs (edges p) true).any fun s => interSBall s b proper)
/-- polygon_intersect.cpp 1424-1442 `Contains(Polygon<2>, Ball<2>)`; `none`: `back()` of an empty vector. -/
noncomputable def containsPolyBall (p : Corners 2) (b : Ball 2) (proper : Bool) : Option Bool :=
  if !interPolyP p b.center proper then some false
  else if p = [] then none
  else some ((edgeSegs (edges p) true).all fun s => !interSBall s b (!proper))
/-- polygon_intersect.cpp 1444-1454 `Contains(Ball<2>, Polygon<2>)`. -/
noncomputable def containsBallPoly (b : Ball 2) (p : Corners 2) (proper : Bool) : Bool :=
  p.all fun q => !greater (b.center.sqDist q) (b.radius * b.radius) proper

/-- polygon_intersect.cpp 1456-1477 `Intersect(Polygon<2>, Segment<2>)`; `none`: `back()` of an empty vector. -/
noncomputable def interPolyS (p : Corners 2) (s : Seg 2) (proper : Bool) : Option Bool :=
  if interPolyP p s.p1 proper then some true
  else if p = [] then none
  else some ((edgeSegs (edges p) true).any fun s2 => interSS s s2 proper)

/-- polygon_intersect.cpp 1522-1552: the second half of the loop body of `Contains(Polygon<2>, Segment<2>)`, which keeps the parity of
the sides to the right of the first end of the segment. `prev` and `i` are the ends of the side `s2`, `i` the later one. `none`: failed assertion. -/
noncomputable def polySParity (s : Seg 2) (prev i : Pt 2) (s2 : Seg 2) (hit : Bool) : Option Bool :=
  if !between (i.elem 1) (prev.elem 1) (s.p1.elem 1) then some hit
  else
    let x := s2.p1.elem 0 + (s2.p2.elem 0 - s2.p1.elem 0) * (s.p1.elem 1 - s2.p1.elem 1) / (s2.p2.elem 1 - s2.p1.elem 1)
    if equal (s.p1.elem 0) x epsilon then
      if prev.isEqualTo s.p1 epsilon then some hit
      else if i.isEqualTo s.p1 epsilon then none
      else
        let edge := if s2.p1.elem 1 < s2.p2.elem 1 then s2.p2.sub s2.p1 else s2.p1.sub s2.p2
        some (if cross2 (s.p2.sub s.p1) edge < 0 then !hit else hit)
    else some (if s.p1.elem 0 < x then !hit else hit)
/-- polygon_intersect.cpp 1498-1552: the part of the loop body of `Contains(Polygon<2>, Segment<2>)` that the proper test skips; `after` is the corner
after `i`. `none`: failed assertion, or `*(i + 1)` read past the end of the vector; `some none`: returned false; otherwise the new `hit`. -/
noncomputable def polySStep (s : Seg 2) (prev i : Pt 2) (after : Option (Pt 2)) (s2 : Seg 2) (hit : Bool) : Option (Option Bool) :=
  if interSP s i false && !i.isEqualTo s.p2 epsilon then
    after.bind fun k =>
      let edge1 := i.sub prev
      let edge2 := i.sub k
      let c1 := cross2 (s.p2.sub s.p1) edge1
      let c2 := cross2 (s.p2.sub s.p1) edge2
      if c1 * c2 < 0 then
        if i.isEqualTo s.p1 epsilon then
          some (some (if edge1.elem 1 * edge2.elem 1 > 0 ∨ (if edge1.elem 1 > 0 then c1 else c2) < 0 then !hit else hit))
        else some none
      else (polySParity s prev i s2 hit).map some
  else (polySParity s prev i s2 hit).map some
/-- polygon_intersect.cpp 1493-1555: the loop of `Contains(Polygon<2>, Segment<2>)` over the corners still to be done; `prev` is the
previous corner. -/
noncomputable def polySLoop (s : Seg 2) (proper : Bool) : Pt 2 → Corners 2 → Bool → Bool → Option Bool
  | _, [], _, hit => some (proper || hit)
  | prev, i :: rest, next, hit =>
    let s2 : Seg 2 := if next then ⟨prev, i⟩ else ⟨i, prev⟩
    if interSS s2 s (!proper) then some false
    else if proper then polySLoop s proper i rest (!next) hit
    else (polySStep s prev i rest.head? s2 hit).bind fun r => r.elim (some false) fun hit => polySLoop s proper i rest (!next) hit
/-- polygon_intersect.cpp 1479-1556 `Contains(Polygon<2>, Segment<2>)`; `none` also: `back()` of an empty vector. -/
noncomputable def containsPolyS (p : Corners 2) (s : Seg 2) (proper : Bool) : Option Bool :=
  if proper && !interPolyP p s.p1 true then some false
  else if p = [] then none
  else polySLoop s proper (p.getLastD Pt.default) p true false

/-- polygon_intersect.cpp 1559-1567 `Contains(Segment<2>, Polygon<2>)`. -/
noncomputable def containsSPoly (s : Seg 2) (p : Corners 2) (proper : Bool) : Bool := p.all fun q => interSP s q proper

/-- polygon_intersect.cpp 1572-1583: the lower and upper bounds of the rotated box along axis `j` of its own coordinates. -/
noncomputable def RBox.bounds (r : RBox n) (j : Fin n) : ℝ × ℝ :=
  if r.size.elem j > 0 then (r.corner.elem j, r.corner.elem j + r.size.elem j) else (r.corner.elem j + r.size.elem j, r.corner.elem j)
/-- polygon_intersect.cpp 1585-1600: the ends of the edges, turned into the coordinates of the box, in alternating order. -/
noncomputable def turnedEdges (r : RBox 2) : List (Pt 2 × Pt 2) → Bool → List (Pt 2 × Pt 2)
  | [], _ => []
  | (i, j) :: es, next =>
    let i' := i.rotate r.orient.inverse r.corner
    let j' := j.rotate r.orient.inverse r.corner
    (if next then (j', i') else (i', j')) :: turnedEdges r es (!next)
/-- polygon_intersect.cpp 1569-1662 `Intersect(Polygon<2>, RotBox<2>)`; `none`: `back()` of an empty vector. -/
noncomputable def interPolyR (p : Corners 2) (r : RBox 2) (proper : Bool) : Option Bool :=
  if p = [] then none
  else some (polyBLoop (r.bounds 0).1 (r.bounds 1).1 (r.bounds 0).2 (r.bounds 1).2 proper (turnedEdges r (edges p) true) false)
/-- polygon_intersect.cpp 1664-1773 `Contains(Polygon<2>, RotBox<2>)`; `none`: `back()` of an empty vector. -/
noncomputable def containsPolyR (p : Corners 2) (r : RBox 2) (proper : Bool) : Option Bool :=
  if p = [] then none
  else some (polyCBLoop (r.bounds 0).1 (r.bounds 1).1 (r.bounds 0).2 (r.bounds 1).2 proper (turnedEdges r (edges p) true) false)
/-- polygon_intersect.cpp 1775-1783 `Contains(RotBox<2>, Polygon<2>)`. -/
noncomputable def containsRPoly (r : RBox 2) (p : Corners 2) (proper : Bool) : Bool := p.all fun q => interRP r q proper

/-- polygon_intersect.cpp 1796-1807: the two loops of `Intersect(Polygon<2>, Polygon<2>)`. The second segment goes on changing direction from
one pass of the inner loop to the next: `next2` is its `next_end2` at the start of the pass. -/
noncomputable def polyPolyLoop (es2 : List (Pt 2 × Pt 2)) (proper : Bool) : List (Seg 2) → Bool → Bool
  | [], _ => false
  | s1 :: ss, next2 =>
    if (edgeSegs es2 next2).any fun s2 => interSS s1 s2 proper then true
    else polyPolyLoop es2 proper ss (if es2.length % 2 = 1 then !next2 else next2)
/-- polygon_intersect.cpp 1785-1811 `Intersect(Polygon<2>, Polygon<2>)`; `none`: `back()` of an empty vector. -/
noncomputable def interPolyPoly2 (p1 p2 : Corners 2) (proper : Bool) : Option Bool :=
  if p1 = [] ∨ p2 = [] then none
  else if polyPolyLoop (edges p2) proper (edgeSegs (edges p1) true) true then some true
  else some (interPolyP p1 (p2.headD Pt.default) proper || interPolyP p2 (p1.headD Pt.default) proper)

/-- polygon_intersect.cpp 1823-1845: the loop of `Contains(Polygon<2>, Polygon<2>)` over the sides of the inner polygon. -/
noncomputable def containsPolyPolyLoop (outer : Corners 2) (proper : Bool) : List (Seg 2) → Option Bool
  | [] => some true
  | s :: ss =>
    if !proper then (containsPolyS outer s false).bind fun ok => if !ok then some false else containsPolyPolyLoop outer proper ss
    else if outer = [] then none
    else if (edgeSegs (edges outer) true).any fun s2 => interSS s s2 false then some false
    else containsPolyPolyLoop outer proper ss
/-- polygon_intersect.cpp 1813-1848 `Contains(Polygon<2>, Polygon<2>)`; `none`: `front()` or `back()` of an empty vector, or no answer for a side. -/
noncomputable def containsPolyPoly2 (outer inner : Corners 2) (proper : Bool) : Option Bool :=
  if inner = [] then none
  else if proper && !interPolyP outer (inner.headD Pt.default) true then some false
  else containsPolyPolyLoop outer proper (edgeSegs (edges inner) true)

/-! ### Polygon<dim> -/

namespace Orient
/-- polygon_intersect.cpp 39-52 `offset`: the vector from the plane to the point, and the nearest point of the plane in plane
coordinates. `none`: failed assertion. The plane point that is filled in was made by its default constructor, so it is not valid. -/
noncomputable def offset (o : Orient n) (pd : Pt n) : Option (Vec n × Pt 2) :=
  if o.origin.valid = false then none
  else
    let out := pd.sub o.origin
    let c0 := out.dot o.ax0
    let out1 := out - o.ax0.scale c0
    let c1 := out1.dot o.ax1
    some (out1 - o.ax1.scale c1, ⟨![c0, c1], false⟩)
/-- polygon_intersect.cpp 54-64 `checkContained`. -/
noncomputable def checkContained (o : Orient n) (pd : Pt n) : Option (Bool × Pt 2) :=
  (o.offset pd).map fun (off, p2) => (decide (off.sqrMag < epsilon * ∑ i, pd.elem i * pd.elem i), p2)

/-- polygon_intersect.cpp 98-125: the loop of `checkIntersect` for a line; `none`: returned false. The state is (bounds known, min, max). -/
noncomputable def lineBoxLoop (o : Orient n) (b : Box n) (proper : Bool) : List (Fin n) → Bool × ℝ × ℝ → Option (Bool × ℝ × ℝ)
  | [], st => some st
  | i :: is, (got, mn, mx) =>
    let dist := o.ax0.elem i
    if dist = 0 then
      if less (o.origin.elem i) (b.low.elem i) proper || greater (o.origin.elem i) (b.high.elem i) proper then none
      else lineBoxLoop o b proper is (got, mn, mx)
    else
      let low := (b.low.elem i - o.origin.elem i) / dist
      let high := (b.high.elem i - o.origin.elem i) / dist
      let (low, high) := if low > high then (high, low) else (low, high)
      if got then lineBoxLoop o b proper is (true, if low > mn then low else mn, if high < mx then high else mx)
      else lineBoxLoop o b proper is (true, low, high)

/-- polygon_intersect.cpp 738-747: the number of the corner of a box that is highest along the normal. -/
noncomputable def highCorner (normal : Vec 3) : Nat :=
  let up := fun i : Fin 3 => !decide (|normal.elem i| < normal.sloppyMag3 * epsilon) && decide (normal.elem i > 0)
  (if up 0 then 1 else 0) ||| (if up 1 then 2 else 0) ||| (if up 2 then 4 else 0)
/-- polygon_intersect.cpp 720-779 `checkIntersectPlane`, `none`: failed assertion. -/
noncomputable def checkIntersectPlane (o : Orient 3) (b : Box 3) (proper : Bool) : Option (Bool × Pt 2) :=
  if o.origin.valid = false ∨ o.ax0.valid = false ∨ o.ax1.valid = false then none
  else
    let normal := cross3 o.ax0 o.ax1
    let mag := normal.sloppyMag3
    let high := b.getCorner (highCorner normal)
    let low := b.getCorner (highCorner normal ^^^ 7)
    let perp := normal.dot (high.sub low) / mag
    if ¬ perp ≥ 0 then none
    else if perp < mag * epsilon then
      (o.checkContained (Pt.midpoint high low (1 / 2))).map fun (c, p2) => (!proper && c, p2)
    else if less ((high.sub o.origin).dot normal) 0 proper || less ((low.sub o.origin).dot normal) 0 proper then
      some (false, ⟨![0, 0], false⟩)
    else
      (o.offset high).bind fun (vh, ph) => (o.offset low).map fun (vl, pl) =>
        (true, Pt.midpoint ph pl (vh.mag / (vh.mag + vl.mag)))
/-- polygon_intersect.cpp 70-136 `checkIntersect` in three dimensions; `none`: failed assertion. -/
noncomputable def checkIntersect (o : Orient 3) (b : Box 3) (proper : Bool) : Option (Bool × Pt 2) :=
  if o.origin.valid = false then none
  else if o.ax0.valid = false then
    (o.convert ⟨![0, 0], false⟩).map fun c => (interBP b c proper, ⟨![0, 0], false⟩)
  else if o.ax1.valid then o.checkIntersectPlane b proper
  else match o.lineBoxLoop b proper (List.finRange 3) (false, 0, 0) with
    | none => some (false, ⟨![0, 0], false⟩)
    | some (got, mn, mx) =>
      if got = false then none
      else if lessEq mn mx proper then some (true, ⟨![(mx - mn) / 2, 0], false⟩)
      else some (false, ⟨![0, 0], false⟩)
end Orient

/-- polygon_intersect.cpp 344-351 `Intersect(Polygon<dim>, Point<dim>)`; `none`: failed assertion. -/
noncomputable def interPolyPn (r : Poly n) (p : Pt n) (proper : Bool) : Option Bool :=
  if r.poly.length = 0 then some false
  else (r.orient.checkContained p).map fun (c, p2) => c && interPolyP r.poly p2 proper
/-- polygon_intersect.cpp 353-369 `Contains(Point<dim>, Polygon<dim>)`; `none`: failed assertion. -/
noncomputable def containsPPolyN (p : Pt n) (r : Poly n) (proper : Bool) : Option Bool :=
  match r.poly with
  | [] => some true
  | q :: qs =>
    if proper then some false
    else if !qs.all fun x => x.isEqualTo q epsilon then some false
    else (r.orient.checkContained p).map fun (c, p2) => c && p2.isEqualTo q epsilon

/-- The segments joining each corner with its predecessor, in alternating direction, once the corners are converted (polygon_intersect.cpp
384-393, 609-618). -/
def edgeSegsN : Pt n → List (Pt n) → Bool → List (Seg n)
  | _, [], _ => []
  | j, i :: is, next => (if next then ⟨j, i⟩ else ⟨i, j⟩) :: edgeSegsN i is (!next)

/-- The end of `Intersect(Polygon<3>, AxisBox<3>)` (380-395) and `Intersect(Polygon<3>, RotBox<3>)` (604-620). The last line calls `Contains(p, p2)`
with a `Polygon<3>` and a `Point<2>`. The only match is intersect.h 58-62, which calls `Intersect(p2, p)`; the only match of that is
intersect.h 44-48, which calls `Intersect(p, p2)`, and that matches intersect.h 44-48 again, and so on for ever: `none`. -/
noncomputable def interPolyBEnd (o : Orient 3) (ps : Corners 2) (b : Box 3) (proper : Bool) : Option Bool :=
  (o.checkIntersect b proper).bind fun (c, _) =>
    if c = false then some false
    else (ps.mapM o.convert).bind fun cs =>
      if (edgeSegsN (cs.getLastD Pt.default) cs true).any fun s => interSB s b proper then some true else none
/-- polygon_intersect.cpp 371-396 `Intersect(Polygon<3>, AxisBox<3>)`. -/
noncomputable def interPolyBn (p : Poly 3) (b : Box 3) (proper : Bool) : Option Bool :=
  if p.poly.length = 0 then some false else interPolyBEnd p.orient p.poly b proper
/-- polygon_intersect.cpp 590-621 `Intersect(Polygon<3>, RotBox<3>)`. -/
noncomputable def interPolyRn (p : Poly 3) (r : RBox 3) (proper : Bool) : Option Bool :=
  if p.poly.length = 0 then some false else interPolyBEnd (p.orient.rotate r.orient.inverse r.corner) p.poly r.flat proper

/-- The loops `for(i = 0; i < numCorners(); ++i) if(!test(corner i)) return false; return true;` where getting corner `i` may fail. -/
def allCorners {α : Type} (get : α → Option (Pt n)) (test : Pt n → Bool) : List α → Option Bool
  | [] => some true
  | q :: qs => (get q).bind fun c => if !test c then some false else allCorners get test qs
/-- polygon_intersect.cpp 461-469 `Contains(AxisBox<dim>, Polygon<dim>)`. -/
noncomputable def containsBPolyN (b : Box n) (p : Poly n) (proper : Bool) : Option Bool :=
  allCorners p.orient.convert (fun c => interBP b c proper) p.poly
/-- polygon_intersect.cpp 632-648 `Contains(RotBox<dim>, Polygon<dim>)`. -/
noncomputable def containsRPolyN (r : RBox n) (p : Poly n) (proper : Bool) : Option Bool :=
  allCorners (p.orient.rotate r.orient.inverse r.corner).convert (fun c => interBP r.flat c proper) p.poly
/-- polygon_intersect.cpp 505-524 `Contains(Ball<dim>, Polygon<dim>)`. -/
noncomputable def containsBallPolyN (b : Ball n) (p : Poly n) (proper : Bool) : Option Bool :=
  if p.poly.length = 0 then some true
  else (p.orient.offset b.center).map fun (off, c2) =>
    let dist := b.radius * b.radius - off.sqrMag
    if less dist 0 proper then false else p.poly.all fun q => !less dist (c2.sqDist q) proper
/-- polygon_intersect.cpp 471-486 `Intersect(Polygon<dim>, Ball<dim>)`; `none` also: the root of a negative number is taken, and a ball whose radius
is not a number is passed on. -/
noncomputable def interPolyBallN (p : Poly n) (b : Ball n) (proper : Bool) : Option Bool :=
  if p.poly.length = 0 then some false
  else (p.orient.offset b.center).bind fun (off, c2) =>
    let dist := b.radius * b.radius - off.sqrMag
    if less dist 0 proper then some false else if dist < 0 then none else interPolyBall p.poly (Ball.mk' c2 (Real.sqrt dist)) proper
/-- polygon_intersect.cpp 488-503 `Contains(Polygon<dim>, Ball<dim>)`. -/
noncomputable def containsPolyBallN (p : Poly n) (b : Ball n) (proper : Bool) : Option Bool :=
  if p.poly.length = 0 then some false
  else if b.radius > 0 then some false
  else (p.orient.checkContained b.center).map fun (c, c2) => c && interPolyP p.poly c2 proper
/-- polygon_intersect.cpp 526-553 `Intersect(Polygon<dim>, Segment<dim>)`. -/
noncomputable def interPolySn (p : Poly n) (s : Seg n) (proper : Bool) : Option Bool :=
  if p.poly.length = 0 then some false
  else (p.orient.offset s.p1).bind fun (v1, p1) => (p.orient.offset s.p2).bind fun (v2, p2) =>
    if v1.dot v2 > 0 then some false
    else
      let d1 := v1.mag
      let d2 := v2.mag
      if d1 + d2 = 0 then interPolyS p.poly ⟨p1, p2⟩ proper
      else some (interPolyP p.poly ⟨fun i => (p1.elem i * d2 + p2.elem i * d1) / (d1 + d2), false⟩ proper)
/-- polygon_intersect.cpp 555-570 `Contains(Polygon<dim>, Segment<dim>)`. The ends of `s2` stay invalid. -/
noncomputable def containsPolySn (p : Poly n) (s : Seg n) (proper : Bool) : Option Bool :=
  if p.poly.length = 0 then some false
  else (p.orient.checkContained s.p1).bind fun (c1, q1) =>
    if c1 = false then some false
    else (p.orient.checkContained s.p2).bind fun (c2, q2) =>
      if c2 = false then some false else containsPolyS p.poly ⟨q1, q2⟩ proper
/-- polygon_intersect.cpp 572-588 `Contains(Segment<dim>, Polygon<dim>)`; `expand` with its default tolerance. -/
noncomputable def containsSPolyN (s : Seg n) (p : Poly n) (proper : Bool) : Bool :=
  if p.poly.length = 0 then true
  else
    let (ok1, o1, q1) := p.orient.expand s.p1 epsilon
    if ok1 = false then false
    else
      let (ok2, _, q2) := o1.expand s.p2 epsilon
      if ok2 = false then false else containsSPoly ⟨q1, q2⟩ p.poly proper

/-- polygon_intersect.cpp 404-412: the number of axes along which the box is not flat and the longest of them; `none`: there are three, returned false. -/
noncomputable def boxDims (size : Vec n) : List (Fin n) → Nat × Option (Fin n) → Option (Nat × Option (Fin n))
  | [], st => some st
  | i :: is, (num, nz) =>
    if size.elem i = 0 then boxDims size is (num, nz)
    else if num = 2 then none
    else boxDims size is (num + 1, match nz with
      | none => some i
      | some k => if |size.elem k| < |size.elem i| then some i else some k)
/-- polygon_intersect.cpp 437-450: the plane box that stands for the box in space, from the plane coordinates of its corner, of the opposite corner and
of the end of its longest edge. A failed assertion of `rotation` is `none`. -/
noncomputable def flatRBox (corner1 corner2 corner3 : Pt 2) : Option (RBox 2) :=
  let vec1 := corner2.sub corner1
  let vec2 := corner3.sub corner1
  match RotMat.rotationFromTo (⟨![1, 0], true⟩ : Vec 2) vec1 with
  | .ok m => some ⟨corner1, m.mulVec vec2, m⟩
  | .error .colinear => some ⟨corner1, RotMat.identity.mulVec vec2, RotMat.identity⟩
  | .error _ => none
/-- polygon_intersect.cpp 398-453 `_PolyContainsBox`. -/
noncomputable def polyContainsBox (o : Orient n) (poly : Corners 2) (corner : Pt n) (size : Vec n) (proper : Bool) : Option Bool :=
  match boxDims size (List.finRange n) (0, none) with
  | none => some false
  | some (num, nz) => (o.checkContained corner).bind fun (k1, c1) =>
    if k1 = false then some false
    else if num = 0 then some (interPolyP poly c1 proper)
    else (o.checkContained (corner.addVec size)).bind fun (k2, c2) =>
      if k2 = false then some false
      else if num = 1 then containsPolyS poly ⟨c1, c2⟩ proper
      else nz.bind fun k =>
        (o.checkContained ⟨fun i => if i = k then corner.elem i + size.elem i else corner.elem i, corner.valid⟩).bind fun (k3, c3) =>
          if k3 = false then some false else (flatRBox c1 c2 c3).bind fun box => containsPolyR poly box proper
/-- polygon_intersect.cpp 455-459 `Contains(Polygon<dim>, AxisBox<dim>)`. -/
noncomputable def containsPolyBn (p : Poly n) (b : Box n) (proper : Bool) : Option Bool :=
  polyContainsBox p.orient p.poly b.low (b.high.sub b.low) proper
/-- polygon_intersect.cpp 623-630 `Contains(Polygon<dim>, RotBox<dim>)`. -/
noncomputable def containsPolyRn (p : Poly n) (r : RBox n) (proper : Bool) : Option Bool :=
  polyContainsBox (p.orient.rotate r.orient.inverse r.corner) p.poly r.corner r.size proper

/-! ### Two planes -/

/-- polygon.h 196-201 `Poly2OrientIntersectData`, without the unused `dim`. -/
structure PlanesData where
  p1 : Pt 2
  p2 : Pt 2
  v1 : Vec 2
  v2 : Vec 2
  off : Vec 2
  line1 : Bool
  line2 : Bool

/-- polygon_intersect.cpp 307-337: case 2 of `Intersect(Poly2Orient, Poly2Orient)`, both bases span the same directions. `data.off` is read before
anything was stored in it; its default constructor has filled it with zeros. -/
noncomputable def planesParallel (o1 o2 : Orient n) (off : Vec n) (data : PlanesData) : Option (Option PlanesData) :=
  if o1.ax1.valid = false ∨ o2.ax1.valid = false then none
  else
    let mag := data.off.sqrMag
    let c0 := o2.ax0.dot off
    let c1 := o2.ax1.dot off
    let rest := (off - o1.ax0.scale c0) - o1.ax1.scale c1
    let data' : PlanesData := { data with
      off := if mag ≠ 0 then ⟨![c0, c1], data.off.valid⟩ else ⟨![0, 0], data.off.valid⟩
      v1 := ⟨![o2.ax0.dot o1.ax0, o2.ax0.dot o1.ax1], data.v1.valid⟩
      v2 := ⟨![o2.ax1.dot o1.ax0, o2.ax1.dot o1.ax1], data.v2.valid⟩ }
    if mag ≠ 0 ∧ rest.sqrMag > mag * epsilon then some none else some (some data')

/-- polygon_intersect.cpp 1112-1124 and 1167-1179: case 2 of `PolyPolyIntersect` and `PolyPolyContains`. -/
noncomputable def shiftPoly (ps : Corners 2) (d : PlanesData) : Corners 2 := ps.map fun p =>
  let s := p.addVec d.off
  ⟨![s.elem 0 * d.v1.elem 0 + s.elem 1 * d.v2.elem 0, s.elem 0 * d.v1.elem 1 + s.elem 1 * d.v2.elem 1], p.valid⟩

end WFMath
