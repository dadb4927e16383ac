/- Property C27: polar and spherical coordinates. -/
import Verif.Model.Vector
import Mathlib.Tactic.FieldSimp
import Mathlib.Tactic.Linarith
import Mathlib.Analysis.SpecialFunctions.Complex.Arg

namespace WFMath

private theorem norm_eq (x y : ℝ) : ‖(⟨x, y⟩ : ℂ)‖ = Real.sqrt (x * x + y * y) := by
  rw [Complex.norm_def, Complex.normSq_mk]

/-- `atan2(y, x)` is the angle of the point `(x, y)`. -/
theorem C27_atan2 (x y : ℝ) :
    Real.sqrt (x * x + y * y) * Real.cos (atan2 y x) = x ∧
    Real.sqrt (x * x + y * y) * Real.sin (atan2 y x) = y := by
  rw [← norm_eq, atan2]
  exact ⟨Complex.norm_mul_cos_arg _, Complex.norm_mul_sin_arg _⟩

/-- C27 (part): the radius is right, but rebuilding a vector from its own polar coordinates swaps its first
two components (`asPolar` passes the arguments of `atan2` in the wrong order). -/
theorem C27_polar_partial (v : Vec 2) :
    (v.asPolar2).1 = Real.sqrt (v.elem 0 ^ 2 + v.elem 1 ^ 2) ∧
    Vec.polar2 (v.asPolar2).1 (v.asPolar2).2 = ⟨![v.elem 1, v.elem 0], true⟩ := by
  refine ⟨by simp [Vec.asPolar2, cartToPolar, sq], ?_⟩
  obtain ⟨h1, h2⟩ := C27_atan2 (v.elem 1) (v.elem 0)
  unfold Vec.polar2 polarToCart Vec.asPolar2 cartToPolar
  rw [add_comm] at h1 h2
  simp only [h1, h2]

/-- C27 (part), cylindrical coordinates. -/
theorem C27_polar3_partial (v : Vec 3) :
    Vec.polar3 (v.asPolar3).1 (v.asPolar3).2.1 (v.asPolar3).2.2 = ⟨![v.elem 1, v.elem 0, v.elem 2], true⟩ := by
  obtain ⟨h1, h2⟩ := C27_atan2 (v.elem 1) (v.elem 0)
  unfold Vec.polar3 polarToCart Vec.asPolar3 cartToPolar
  rw [add_comm] at h1 h2
  simp only [h1, h2]

/-- C27 is false: a vector is not restored from its polar coordinates. -/
theorem C27_false : ∃ v : Vec 2, v.valid = true ∧ Vec.polar2 (v.asPolar2).1 (v.asPolar2).2 ≠ v := by
  refine ⟨⟨![1, 0], true⟩, rfl, ?_⟩
  rw [(C27_polar_partial _).2]
  intro h
  have := congrFun (congrArg Vec.elem h) 0
  simp at this

/-- C27 (part): vectors on the diagonal are restored. -/
theorem C27_diagonal_partial (x : ℝ) :
    let v : Vec 2 := ⟨![x, x], true⟩
    Vec.polar2 (v.asPolar2).1 (v.asPolar2).2 = v := by
  simp only
  rw [(C27_polar_partial _).2]
  simp

/-- C27 (part), spherical coordinates: the radius is right; the rebuilt vector is
`(z y / d, z x / d, d)` with `d` the distance from the z axis. -/
theorem C27_spherical_partial (v : Vec 3) (hd : v.elem 0 ^ 2 + v.elem 1 ^ 2 ≠ 0) :
    let d := Real.sqrt (v.elem 0 ^ 2 + v.elem 1 ^ 2)
    (v.asSpherical).1 = Real.sqrt (v.elem 0 ^ 2 + v.elem 1 ^ 2 + v.elem 2 ^ 2) ∧
    Vec.spherical (v.asSpherical).1 (v.asSpherical).2.1 (v.asSpherical).2.2
      = ⟨![v.elem 2 * v.elem 1 / d, v.elem 2 * v.elem 0 / d, d], true⟩ := by
  intro d
  refine ⟨by simp [Vec.asSpherical, cartToSpherical, sq], ?_⟩
  have hnn : 0 ≤ v.elem 0 ^ 2 + v.elem 1 ^ 2 := by positivity
  have hd0 : d ≠ 0 := by
    intro h
    exact hd ((Real.sqrt_eq_zero hnn).1 h)
  have hdd : d * d = v.elem 0 * v.elem 0 + v.elem 1 * v.elem 1 := by
    rw [Real.mul_self_sqrt hnn]; ring
  obtain ⟨h1, h2⟩ := C27_atan2 (v.elem 1) (v.elem 0)
  rw [show v.elem 1 * v.elem 1 + v.elem 0 * v.elem 0 = v.elem 0 ^ 2 + v.elem 1 ^ 2 by ring] at h1 h2
  obtain ⟨h3, h4⟩ := C27_atan2 d (v.elem 2)
  rw [hdd] at h3 h4
  have e : d = Real.sqrt (v.elem 0 * v.elem 0 + v.elem 1 * v.elem 1) := by simp only [d]; congr 1; ring
  unfold Vec.spherical sphericalToCart Vec.asSpherical cartToSpherical
  simp only
  rw [← e, h3, h4]
  congr 2
  · rw [eq_div_iff hd0]; linear_combination v.elem 2 * h1
  · congr 1
    rw [eq_div_iff hd0]; linear_combination v.elem 2 * h2

/-- C27 is false for spherical coordinates too. -/
theorem C27_spherical_false : ∃ v : Vec 3, v.valid = true ∧
    Vec.spherical (v.asSpherical).1 (v.asSpherical).2.1 (v.asSpherical).2.2 ≠ v := by
  refine ⟨⟨![1, 0, 0], true⟩, rfl, ?_⟩
  rw [(C27_spherical_partial _ (by simp)).2]
  intro h
  have := congrFun (congrArg Vec.elem h) 2
  simp at this

/-- C27: the other direction, `asPolar` after `polar`: the radius is restored and the angle comes out as
its complement, in the sense that sine and cosine are exchanged. -/
theorem C27_polar_back_partial (r theta : ℝ) (hr : 0 < r) :
    ((Vec.polar2 r theta).asPolar2).1 = r ∧
    Real.cos ((Vec.polar2 r theta).asPolar2).2 = Real.sin theta ∧
    Real.sin ((Vec.polar2 r theta).asPolar2).2 = Real.cos theta := by
  have hr' : ((Vec.polar2 r theta).asPolar2).1 = r := by
    simp only [Vec.asPolar2, cartToPolar, Vec.polar2, polarToCart]
    simp
    rw [show r * Real.cos theta * (r * Real.cos theta) + r * Real.sin theta * (r * Real.sin theta) = r ^ 2 by
      have := Real.sin_sq_add_cos_sq theta; linear_combination r ^ 2 * this]
    exact Real.sqrt_sq hr.le
  have h := (C27_polar_partial (Vec.polar2 r theta)).2
  rw [hr'] at h
  have h0 := congrFun (congrArg Vec.elem h) 0
  have h1 := congrFun (congrArg Vec.elem h) 1
  simp [Vec.polar2, polarToCart] at h0 h1
  refine ⟨hr', ?_, ?_⟩
  · rcases h0 with h0 | h0
    · exact h0
    · exact absurd h0 hr.ne'
  · rcases h1 with h1 | h1
    · exact h1
    · exact absurd h1 hr.ne'

end WFMath
