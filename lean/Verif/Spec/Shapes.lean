/- Specification of the shapes as sets of points of `ℝⁿ`. -/
import Verif.Model.Shapes
import Mathlib.Analysis.Convex.Segment

namespace WFMath.Spec
variable {n : Nat}

/-- The Euclidean distance of two points. -/
noncomputable def eucl (x y : Fin n → ℝ) : ℝ := Real.sqrt (∑ i, (x i - y i) ^ 2)

/-- The closed box between two corners. -/
def boxSet (b : Box n) : Set (Fin n → ℝ) := {x | ∀ i, b.low.elem i ≤ x i ∧ x i ≤ b.high.elem i}
/-- The open box between two corners. -/
def boxInterior (b : Box n) : Set (Fin n → ℝ) := {x | ∀ i, b.low.elem i < x i ∧ x i < b.high.elem i}
/-- The corners are in order, as every constructor with unordered arguments arranges. -/
def Ordered (b : Box n) : Prop := ∀ i, b.low.elem i ≤ b.high.elem i
/-- The box has positive extent on every axis. -/
def Solid (b : Box n) : Prop := ∀ i, b.low.elem i < b.high.elem i

/-- All points whose coordinates are each within `δ` of those of a point of `s`. -/
def near (δ : ℝ) (s : Set (Fin n → ℝ)) : Set (Fin n → ℝ) := {x | ∃ y ∈ s, ∀ i, |x i - y i| ≤ δ}

/-- The set moved by a vector. -/
def moved (v : Fin n → ℝ) (s : Set (Fin n → ℝ)) : Set (Fin n → ℝ) := {x | ∃ y ∈ s, x = y + v}

/-- The closed ball. -/
def ballSet (b : Ball n) : Set (Fin n → ℝ) := {x | eucl x b.center.elem ≤ b.radius}
/-- The open ball. -/
def ballInterior (b : Ball n) : Set (Fin n → ℝ) := {x | eucl x b.center.elem < b.radius}

/-- The points of a segment: all `(1 - t) p1 + t p2` with `0 ≤ t ≤ 1`. -/
def segSet (s : Seg n) : Set (Fin n → ℝ) := {x | ∃ t : ℝ, 0 ≤ t ∧ t ≤ 1 ∧ x = (1 - t) • s.p1.elem + t • s.p2.elem}

/-- The points of a rotated box: the corner plus every edge (row of the orientation times its size) times a number in
`[0, 1]`. -/
def rboxSet (r : RBox n) : Set (Fin n → ℝ) :=
  {x | ∃ t : Fin n → ℝ, (∀ i, 0 ≤ t i ∧ t i ≤ 1) ∧
    x = fun k => r.corner.elem k + ∑ i, t i * r.size.elem i * r.orient.elem i k}
/-- The points inside a rotated box, off its faces; none when an edge has length 0. -/
def rboxInterior (r : RBox n) : Set (Fin n → ℝ) :=
  {x | (∀ i, r.size.elem i ≠ 0) ∧ ∃ t : Fin n → ℝ, (∀ i, 0 < t i ∧ t i < 1) ∧
    x = fun k => r.corner.elem k + ∑ i, t i * r.size.elem i * r.orient.elem i k}

/-- All points that are within `δ` of a point of `s` along each of the directions of the rotated box `r`. -/
def nearAlong (r : RBox n) (δ : ℝ) (s : Set (Fin n → ℝ)) : Set (Fin n → ℝ) :=
  {x | ∃ y ∈ s, ∀ i, |∑ k, r.orient.elem i k * (x k - y k)| ≤ δ}

/-- The motion that turns space by `R` about the point `c`. -/
def about (R : (Fin n → ℝ) → (Fin n → ℝ)) (c x : Fin n → ℝ) : Fin n → ℝ := c + R (x - c)

end WFMath.Spec
