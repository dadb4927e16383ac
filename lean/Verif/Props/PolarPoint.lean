/- Property C27 for points: polar and spherical coordinates. -/
import Verif.Model.PointPolar
import Verif.Props.Polar

namespace WFMath

/-- C27 (part), points: the radius is the distance from the origin, but a point rebuilt from its own polar coordinates has its first two
coordinates swapped, in the plane and, with cylindrical coordinates, in space; the other direction restores the radius and exchanges sine and cosine of the angle. -/
theorem C27_point_polar_partial (p : Pt 2) (s : Pt 3) (r theta : ℝ) (hr : 0 < r) :
    p.asPolar2.1 = Real.sqrt (p.elem 0 ^ 2 + p.elem 1 ^ 2) ∧
    Pt.polar2 p.asPolar2.1 p.asPolar2.2 = ⟨![p.elem 1, p.elem 0], true⟩ ∧
    Pt.polar3 s.asPolar3.1 s.asPolar3.2.1 s.asPolar3.2.2 = ⟨![s.elem 1, s.elem 0, s.elem 2], true⟩ ∧
    (Pt.polar2 r theta).asPolar2.1 = r ∧ Real.cos (Pt.polar2 r theta).asPolar2.2 = Real.sin theta ∧ Real.sin (Pt.polar2 r theta).asPolar2.2 = Real.cos theta := by
  obtain ⟨a, b⟩ := C27_polar_partial ⟨p.elem, p.valid⟩
  have c := C27_polar3_partial ⟨s.elem, s.valid⟩
  refine ⟨a, ?_, ?_, C27_polar_back_partial r theta hr⟩
  · have := congrArg Vec.elem b
    exact Pt.ext this rfl
  · have := congrArg Vec.elem c
    exact Pt.ext this rfl

/-- C27 (part), points and spherical coordinates: the radius is right; the rebuilt point is `(z y / d, z x / d, d)` with `d` the distance from the z axis. -/
theorem C27_point_spherical_partial (p : Pt 3) (hd : p.elem 0 ^ 2 + p.elem 1 ^ 2 ≠ 0) :
    let d := Real.sqrt (p.elem 0 ^ 2 + p.elem 1 ^ 2)
    p.asSpherical.1 = Real.sqrt (p.elem 0 ^ 2 + p.elem 1 ^ 2 + p.elem 2 ^ 2) ∧
    Pt.spherical p.asSpherical.1 p.asSpherical.2.1 p.asSpherical.2.2 = ⟨![p.elem 2 * p.elem 1 / d, p.elem 2 * p.elem 0 / d, d], true⟩ := by
  intro d
  obtain ⟨a, b⟩ := C27_spherical_partial ⟨p.elem, p.valid⟩ hd
  exact ⟨a, Pt.ext (congrArg Vec.elem b) rfl⟩

/-- C27 is false for points too, in the plane and in space. -/
theorem C27_point_false : (∃ p : Pt 2, p.valid = true ∧ Pt.polar2 p.asPolar2.1 p.asPolar2.2 ≠ p) ∧
    (∃ p : Pt 3, p.valid = true ∧ Pt.polar3 p.asPolar3.1 p.asPolar3.2.1 p.asPolar3.2.2 ≠ p) ∧
    ∃ p : Pt 3, p.valid = true ∧ Pt.spherical p.asSpherical.1 p.asSpherical.2.1 p.asSpherical.2.2 ≠ p := by
  refine ⟨⟨⟨![1, 0], true⟩, rfl, ?_⟩, ⟨⟨![1, 0, 0], true⟩, rfl, ?_⟩, ⟨![1, 0, 0], true⟩, rfl, ?_⟩
  · rw [(C27_point_polar_partial _ Pt.origin 1 0 one_pos).2.1]
    intro h; simpa using congrFun (congrArg Pt.elem h) 0
  · rw [(C27_point_polar_partial Pt.origin _ 1 0 one_pos).2.2.1]
    intro h; simpa using congrFun (congrArg Pt.elem h) 0
  · rw [(C27_point_spherical_partial _ (by simp)).2]
    intro h; simpa using congrFun (congrArg Pt.elem h) 2

end WFMath
