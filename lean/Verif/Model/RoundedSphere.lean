/-
Sloppy lengths and the bounding spheres made with them (`vector.cpp`, `point.h`, `ball_funcs.h`, `axisbox_funcs.h`, `segment.h`), with every arithmetic
operation rounded to a `double`, as in `Model/Rounded.lean`.
-/
import Verif.Model.Rounded
import Verif.Model.Bounding

namespace WFMath.Fl
open Spec
variable (r : Rounding 53) {n : Nat}

/-- const.h 121-123 `sqrt2()`: the literal has 51 digits and is read as the double nearest to it, modelled as the one nearest to the square root. -/
noncomputable def sqrt2 : ℝ := r (Real.sqrt 2)
/-- const.h 124-126 `sqrt3()`, in the same way. -/
noncomputable def sqrt3 : ℝ := r (Real.sqrt 3)
/-- vector.cpp 46, 63: the constant `p`. -/
noncomputable def slopP : ℝ := r (sqrt2 r - 1)
/-- vector.cpp 64: the constant `q`. -/
noncomputable def slopQ : ℝ := r (r (sqrt3 r + 1) - r (2 * sqrt2 r))

/-- vector.cpp 42-56 `Vector<2>::sloppyMag`. -/
noncomputable def sloppyMag2 (v : Vec 2) : ℝ :=
  let ax := |v.elem 0|
  let ay := |v.elem 1|
  if ax > ay then r (ax + r (slopP r * ay)) else if ay > 0 then r (ay + r (slopP r * ax)) else 0

/-- vector.cpp 70, 72, 74: the value returned, `a` the largest of the three absolute values. -/
noncomputable def slop3 (a b c : ℝ) : ℝ := r (r (a + r (slopP r * r (b + c))) + r (r (r (slopQ r * b) * c) / a))

/-- vector.cpp 58-77 `Vector<3>::sloppyMag`. -/
noncomputable def sloppyMag3 (v : Vec 3) : ℝ :=
  let ax := |v.elem 0|
  let ay := |v.elem 1|
  let az := |v.elem 2|
  if ax > ay ∧ ax > az then slop3 r ax ay az
  else if ay > az then slop3 r ay ax az
  else if az > 0 then slop3 r az ax ay
  else 0

/-- point.h 58-59 `SloppyDistance` in two dimensions. -/
noncomputable def sloppyDist2 (p q : Pt 2) : ℝ := sloppyMag2 r (ptSub r p q)
/-- point.h 58-59 `SloppyDistance` in three dimensions. -/
noncomputable def sloppyDist3 (p q : Pt 3) : ℝ := sloppyMag3 r (ptSub r p q)

/-- axisbox_funcs.h 122-126 `boundingSphereSloppy` of a box and segment.h 104-105 of a segment, for a given `SloppyDistance`; `p`, `q` are the two corners or ends. -/
noncomputable def sphereSloppy (sd : Pt n → Pt n → ℝ) (p q : Pt n) : Ball n := Ball.mk' (midpoint r p q (1 / 2)) (r (sd p q / 2))

/-- ball_funcs.h 127-136: the direction of greatest extent, as `Ritter.widest`. -/
noncomputable def widest (s : Ritter.Extremes n) : List (Fin n) → ℝ × Option (Fin n) → Option (Fin n)
  | [], (_, d) => d
  | j :: js, (span, d) =>
    let new_span := r (s.max j - s.min j)
    widest s js (if new_span > span then (new_span, some j) else (span, d))

/-- ball_funcs.h 143-160: the second pass, as `Ritter.grow`. `check`: the program was compiled with assertions; `none`: the assertion in lines 156-157 fails. -/
noncomputable def grow (check : Bool) (sd : Pt n → Pt n → ℝ) (skip : Nat → Bool) : Pt n × ℝ → List (Pt n × Nat) → Option (Pt n × ℝ)
  | s, [] => some s
  | (center, dist), p :: ps =>
    if skip p.2 then grow check sd skip (center, dist) ps
    else
      let new_dist := sd p.1 center
      if new_dist > dist then
        let delta := r (r (new_dist - dist) / 2)
        let center' := addVec r center (divBy r (scale r (ptSub r p.1 center) delta) new_dist)
        let dist' := r (dist + delta)
        if !check || decide (sqDist r p.1 center' ≤ r (dist' * dist')) then grow check sd skip (center', dist') ps else none
      else grow check sd skip (center, dist) ps

/-- ball_funcs.h 91-163 `BoundingSphereSloppy`, for a given `SloppyDistance`. The first pass does no arithmetic. -/
noncomputable def boundingSphereSloppy (check : Bool) (sd : Pt n → Pt n → ℝ) (l : List (Pt n)) : Option (Ball n) :=
  match l.zipIdx with
  | [] => some Ball.default
  | p :: ps =>
    let s := Ritter.scan (Ritter.start p) ps
    match widest r s (List.finRange n) (-1, none) with
    | none => none
    | some d =>
      let center := midpoint r (s.minP d).1 (s.maxP d).1 (1 / 2)
      let dist := sd (s.minP d).1 center
      match grow r check sd (fun i => i == (s.minP d).2 || i == (s.maxP d).2) (center, dist) (p :: ps) with
      | none => none
      | some (c, R) => some (Ball.mk' ⟨c.elem, s.valid⟩ R)

/-- ball_funcs.h 91-163 `BoundingSphereSloppy` in two dimensions. -/
noncomputable def boundingSphereSloppy2 (check : Bool) (l : List (Pt 2)) : Option (Ball 2) := boundingSphereSloppy r check (sloppyDist2 r) l
/-- ball_funcs.h 91-163 `BoundingSphereSloppy` in three dimensions. -/
noncomputable def boundingSphereSloppy3 (check : Bool) (l : List (Pt 3)) : Option (Ball 3) := boundingSphereSloppy r check (sloppyDist3 r) l

end WFMath.Fl
