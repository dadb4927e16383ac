/- Specification of polygons as point sets: the corners, the boundary, and the even-odd rule. -/
import Verif.Model.Polygon
import Mathlib.Analysis.Convex.Hull
import Mathlib.Analysis.Convex.Segment

namespace WFMath.Spec
variable {n : Nat}

/-- The corners of a plane polygon or line, as points of `ℝⁿ`. -/
def cornerSet (ps : Corners n) : Set (Fin n → ℝ) := {x | ∃ (i : Nat) (c : Pt n), ps.getCorner i = some c ∧ x = c.elem}
/-- The corners of a polygon in `n` dimensions. -/
def polyCornerSet (s : Poly n) : Set (Fin n → ℝ) := {x | ∃ (i : Nat) (c : Pt n), s.getCorner i = some c ∧ x = c.elem}

/-- The sides of a plane polygon: each corner with the next one, the last with the first. -/
def sides (ps : List (Pt 2)) : List ((Fin 2 → ℝ) × (Fin 2 → ℝ)) := (ps.zip (ps.rotate 1)).map fun e => (e.1.elem, e.2.elem)
/-- The points on the sides. -/
def boundary (ps : List (Pt 2)) : Set (Fin 2 → ℝ) := {x | ∃ e ∈ sides ps, x ∈ segment ℝ e.1 e.2}

/-- The cross product in the plane: positive when `v` points to the left of `u`. -/
def cr (u v : Fin 2 → ℝ) : ℝ := u 0 * v 1 - u 1 * v 0
/-- The line through `p` in direction `d` separates `a` and `b`: one of them is strictly on its left, the other is not. -/
def Separates (d p a b : Fin 2 → ℝ) : Prop := (0 < cr d (a - p)) ≠ (0 < cr d (b - p))
/-- The ray from `p` in direction `d` crosses the side from `a` to `b`. A ray through a corner crosses those sides at this corner that go to
its left, so that a corner where the boundary goes across counts once and one where it turns back twice or not at all. -/
def RayCrosses (d p a b : Fin 2 → ℝ) : Prop := Separates d p a b ∧ ∃ t > (0 : ℝ), p + t • d ∈ segment ℝ a b
/-- The segment from `p` to `q` crosses the side from `a` to `b`. -/
def SegCrosses (p q a b : Fin 2 → ℝ) : Prop := Separates (q - p) p a b ∧ (segment ℝ p q ∩ segment ℝ a b).Nonempty

open Classical in
/-- How many sides the ray from `p` in direction `d` crosses. -/
noncomputable def rayCrossings (d : Fin 2 → ℝ) (ps : List (Pt 2)) (p : Fin 2 → ℝ) : Nat :=
  (sides ps).countP fun e => decide (RayCrosses d p e.1 e.2)
open Classical in
/-- How many sides the segment from `p` to `q` crosses. -/
noncomputable def segCrossings (p q : Fin 2 → ℝ) (ps : List (Pt 2)) : Nat :=
  (sides ps).countP fun e => decide (SegCrosses p q e.1 e.2)

/-- The direction of the ray in the code. -/
abbrev east : Fin 2 → ℝ := ![1, 0]
/-- The points inside the polygon by the even-odd rule, off the sides. -/
def inside (ps : List (Pt 2)) : Set (Fin 2 → ℝ) := {x | x ∉ boundary ps ∧ Odd (rayCrossings east ps x)}
/-- The points of the polygon: those inside and those on the sides. -/
def filled (ps : List (Pt 2)) : Set (Fin 2 → ℝ) := {x | x ∈ inside ps ∨ x ∈ boundary ps}

/-- Within tolerance, measured horizontally, of a side with ends on both sides of the horizontal line through `p`. -/
def NearSide (ps : List (Pt 2)) (p : Fin 2 → ℝ) : Prop :=
  ∃ e ∈ sides ps, Separates east p e.1 e.2 ∧ ∃ x : ℝ, ![x, p 1] ∈ segment ℝ e.1 e.2 ∧ equal (p 0) x epsilon = true
/-- The point is not within tolerance, measured horizontally, of any side. -/
def FarFromSides (ps : List (Pt 2)) (p : Fin 2 → ℝ) : Prop :=
  ∀ e ∈ sides ps, ∀ x : ℝ, ![x, p 1] ∈ segment ℝ e.1 e.2 → equal (p 0) x epsilon = false

/-- The point of space that has the given coordinates in the plane of the polygon. -/
def spacePoint (s : Poly n) (y : Fin 2 → ℝ) : Fin n → ℝ := s.orient.origin.elem + y 0 • s.orient.ax0.elem + y 1 • s.orient.ax1.elem
/-- The points of space inside a polygon, its sides excluded. -/
def spaceInside (s : Poly n) : Set (Fin n → ℝ) := {x | ∃ y ∈ inside s.poly, x = spacePoint s y}
/-- The points of space that belong to a polygon, its sides included. -/
def spaceFilled (s : Poly n) : Set (Fin n → ℝ) := {x | ∃ y ∈ filled s.poly, x = spacePoint s y}
/-- The corners of the polygon are not all in a line: its plane has an origin and two perpendicular unit vectors as axes. -/
structure Spans (s : Poly n) : Prop where
  origin : s.orient.origin.valid = true
  valid0 : s.orient.ax0.valid = true
  valid1 : s.orient.ax1.valid = true
  unit0 : s.orient.ax0.elem ⬝ᵥ s.orient.ax0.elem = 1
  unit1 : s.orient.ax1.elem ⬝ᵥ s.orient.ax1.elem = 1
  perp : s.orient.ax0.elem ⬝ᵥ s.orient.ax1.elem = 0

end WFMath.Spec
