/-
Model of `BoundingSphereSloppy` in `/repo/src/wfmath/ball_funcs.h`.

An iterator of the container is modelled as the position together with the point found there.
-/
import Verif.Model.Shapes

namespace WFMath
variable {n : Nat}

/-- ball_funcs.h 166-176 `Point::boundingSphere`, `Point::boundingSphereSloppy`. -/
noncomputable def Pt.boundingSphere (p : Pt n) : Ball n := Ball.mk' p 0

namespace Ritter

/-- ball_funcs.h 104-106: the local variables of the first pass. -/
structure Extremes (n : Nat) where
  valid : Bool
  min : Fin n → ℝ
  max : Fin n → ℝ
  minP : Fin n → Pt n × Nat
  maxP : Fin n → Pt n × Nat

/-- ball_funcs.h 108-111: their values for the first point. -/
def start (p : Pt n × Nat) : Extremes n := ⟨p.1.valid, p.1.elem, p.1.elem, fun _ => p, fun _ => p⟩

/-- ball_funcs.h 113-125: the first pass over the other points. -/
noncomputable def scan : Extremes n → List (Pt n × Nat) → Extremes n
  | s, [] => s
  | s, p :: ps => scan
      ⟨s.valid && p.1.valid,
       fun j => if s.min j > p.1.elem j then p.1.elem j else s.min j,
       fun j => if s.max j < p.1.elem j then p.1.elem j else s.max j,
       fun j => if s.min j > p.1.elem j then p else s.minP j,
       fun j => if s.max j < p.1.elem j then p else s.maxP j⟩ ps

/-- ball_funcs.h 127-136: the direction of greatest extent; `none` stands for -1. -/
noncomputable def widest (s : Extremes n) : List (Fin n) → ℝ × Option (Fin n) → Option (Fin n)
  | [], (_, d) => d
  | j :: js, (span, d) =>
    let new_span := s.max j - s.min j
    widest s js (if new_span > span then (new_span, some j) else (span, d))

/-- ball_funcs.h 143-160: the second pass. `skip`: the position is one of the two extreme points; `sd` is
`SloppyDistance`; `none`: failed assertion. -/
noncomputable def grow (sd : Pt n → Pt n → ℝ) (skip : Nat → Bool) : Pt n × ℝ → List (Pt n × Nat) → Option (Pt n × ℝ)
  | s, [] => some s
  | (center, dist), p :: ps =>
    if skip p.2 then grow sd skip (center, dist) ps
    else
      let new_dist := sd p.1 center
      if new_dist > dist then
        let delta := (new_dist - dist) / 2
        let center' := center.addVec (((p.1.sub center).scale delta).divBy new_dist)
        let dist' := dist + delta
        if p.1.sqDist center' ≤ dist' * dist' then grow sd skip (center', dist') ps else none
      else grow sd skip (center, dist) ps

/-- ball_funcs.h 91-163 `BoundingSphereSloppy`, for a given `SloppyDistance`; `none`: failed assertion. -/
noncomputable def boundingSphereSloppy (sd : Pt n → Pt n → ℝ) (l : List (Pt n)) : Option (Ball n) :=
  match l.zipIdx with
  | [] => some Ball.default
  | p :: ps =>
    let s := scan (start p) ps
    match widest s (List.finRange n) (-1, none) with
    | none => none
    | some d =>
      let center := Pt.midpoint (s.minP d).1 (s.maxP d).1 (1 / 2)
      let dist := sd (s.minP d).1 center
      match grow sd (fun i => i == (s.minP d).2 || i == (s.maxP d).2) (center, dist) (p :: ps) with
      | none => none
      | some (c, r) => some (Ball.mk' ⟨c.elem, s.valid⟩ r)

end Ritter

/-- ball_funcs.h 91-163 `BoundingSphereSloppy` in two dimensions. -/
noncomputable def boundingSphereSloppy2 (l : List (Pt 2)) : Option (Ball 2) := Ritter.boundingSphereSloppy Pt.sloppyDist2 l
/-- ball_funcs.h 91-163 `BoundingSphereSloppy` in three dimensions. -/
noncomputable def boundingSphereSloppy3 (l : List (Pt 3)) : Option (Ball 3) := Ritter.boundingSphereSloppy Pt.sloppyDist3 l

end WFMath
