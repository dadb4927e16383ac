/- Property theorems C25 about rotating three dimensional vectors about an axis. -/
import Verif.Props.QuatMatrix
import Verif.Spec.Rotate3D

namespace WFMath
open Matrix Gauss Spec Quaternion

/-! ### The formula -/

theorem dir_unit {axis : Vec 3} (h : axis.elem ≠ 0) : dir axis ⬝ᵥ dir axis = 1 := RotMat.unit_self h

theorem rod_dot (a u v : Fin 3 → ℝ) (ha : a 0 * a 0 + a 1 * a 1 + a 2 * a 2 = 1) (θ : ℝ) :
    rodrigues a θ u ⬝ᵥ rodrigues a θ v = u ⬝ᵥ v := by
  have h2 := Real.sin_sq_add_cos_sq θ
  unfold rodrigues
  generalize Real.cos θ = C at *
  generalize Real.sin θ = S at *
  have hS : S ^ 2 = 1 - C ^ 2 := by linarith
  have d1 : a ⬝ᵥ a = 1 := by rw [dot3]; exact ha
  have hac : ∀ v, a ⬝ᵥ (a ⨯₃ v) = 0 := by intro v; simp only [dot3, cross0, cross1, cross2']; ring
  have hca : ∀ v, (a ⨯₃ v) ⬝ᵥ a = 0 := by intro v; rw [dotProduct_comm, hac]
  have hcc : (a ⨯₃ u) ⬝ᵥ (a ⨯₃ v) = u ⬝ᵥ v - (a ⬝ᵥ u) * (a ⬝ᵥ v) := by
    have : (a ⨯₃ u) ⬝ᵥ (a ⨯₃ v) = (a ⬝ᵥ a) * (u ⬝ᵥ v) - (a ⬝ᵥ u) * (a ⬝ᵥ v) := by
      simp only [dot3, cross0, cross1, cross2']; ring
    rw [this, d1, one_mul]
  have huv : u ⬝ᵥ (a ⨯₃ v) + (a ⨯₃ u) ⬝ᵥ v = 0 := by simp only [dot3, cross0, cross1, cross2']; ring
  simp only [add_dotProduct, dotProduct_add, smul_dotProduct, dotProduct_smul, smul_eq_mul, hac, hca, hcc, d1,
    dotProduct_comm u a]
  linear_combination (C * S) * huv + (u ⬝ᵥ v - (a ⬝ᵥ u) * (a ⬝ᵥ v)) * hS

theorem rod_add (a v : Fin 3 → ℝ) (ha : a 0 * a 0 + a 1 * a 1 + a 2 * a 2 = 1) (θ φ : ℝ) :
    rodrigues a θ (rodrigues a φ v) = rodrigues a (θ + φ) v := by
  have d1 : a ⬝ᵥ a = 1 := by rw [dot3]; exact ha
  have hac : a ⬝ᵥ (a ⨯₃ v) = 0 := by simp only [dot3, cross0, cross1, cross2']; ring
  have hcc : a ⨯₃ (a ⨯₃ v) = (a ⬝ᵥ v) • a - v := by
    have : a ⨯₃ (a ⨯₃ v) = (a ⬝ᵥ v) • a - (a ⬝ᵥ a) • v := by
      apply ext3 <;> simp [dot3, cross0, cross1, cross2'] <;> ring
    rw [this, d1, one_smul]
  unfold rodrigues
  rw [Real.cos_add, Real.sin_add]
  simp only [dotProduct_add, dotProduct_smul, map_add, map_smul, cross_self, hac, hcc, d1, smul_eq_mul]
  module


/-- C25, mathematics: the rotation about a unit vector fixes it, preserves inner products, is additive in the angle and
is the identity for angle 0. -/
theorem C25_rodrigues (a u v : Fin 3 → ℝ) (ha : a ⬝ᵥ a = 1) (c θ φ : ℝ) :
    rodrigues a θ (c • a) = c • a ∧ rodrigues a θ u ⬝ᵥ rodrigues a θ v = u ⬝ᵥ v ∧
    rodrigues a θ (rodrigues a φ v) = rodrigues a (θ + φ) v ∧ rodrigues a 0 v = v := by
  have h2 := Real.cos_sq_add_sin_sq θ
  rw [dot3] at ha
  refine ⟨?_, ?_, ?_, ?_⟩
  · unfold rodrigues
    apply ext3 <;> simp [dot3, cross0, cross1, cross2']
    · linear_combination (c * (1 - Real.cos θ) * a 0) * ha
    · linear_combination (c * (1 - Real.cos θ) * a 1) * ha
    · linear_combination (c * (1 - Real.cos θ) * a 2) * ha
  · exact rod_dot a u v ha θ
  · exact rod_add a v ha θ φ
  · unfold rodrigues; simp
/-! ### The library's operation -/

theorem perp_cross (axis v : Vec 3) (c : ℝ) : axis.elem ⨯₃ (v.elem - c • axis.elem) = axis.elem ⨯₃ v.elem := by
  rw [map_sub, map_smul, cross_self, smul_zero, sub_zero]

theorem dir_dot (axis v : Vec 3) : dir axis ⬝ᵥ v.elem = (v.elem ⬝ᵥ axis.elem) / axis.mag := by
  unfold dir; rw [smul_dotProduct, dotProduct_comm, smul_eq_mul]; ring

/-- The part of `v` perpendicular to the axis, as computed. -/
noncomputable def axisPerp (v axis : Vec 3) : Vec 3 := v - (axis.scale (v.dot axis)).divBy axis.sqrMag

theorem rotateAxis_eq {v axis : Vec 3} {θ : ℝ} {r : Vec 3} (h : v.rotateAxis axis θ = some r) :
    axis.elem ≠ 0 ∧ r.elem = v.elem + ((Real.cos θ - 1) • (axisPerp v axis).elem
      + (Real.sin θ / axis.mag) • (cross3 axis (axisPerp v axis)).elem) := by
  unfold Vec.rotateAxis at h
  simp only at h
  split at h
  · cases h
  · rename_i h0
    refine ⟨fun hz => h0 (Vec.sqrMag_eq_zero.2 hz), ?_⟩
    rw [← Option.some.inj h]
    simp only [Vec.add_elem, Vec.scale_elem, Vec.divBy_elem]
    rw [smul_smul]
    rfl

theorem rotateAxis_some {v axis : Vec 3} {θ : ℝ} (h : axis.elem ≠ 0) : ∃ r, v.rotateAxis axis θ = some r := by
  unfold Vec.rotateAxis
  rw [if_neg fun h0 => h (Vec.sqrMag_eq_zero.1 h0)]
  exact ⟨_, rfl⟩

/-- C25: the call succeeds (its assertion holds) exactly for nonzero axes. -/
theorem C25_defined (v axis : Vec 3) (θ : ℝ) : (∃ r, v.rotateAxis axis θ = some r) ↔ axis.elem ≠ 0 :=
  ⟨fun ⟨_, h⟩ => (rotateAxis_eq h).1, rotateAxis_some⟩

/-- C25: when no inner or cross product is flushed to 0, `v.rotate(axis, theta)` is the rotation of `v` by `theta` about
the direction of the axis; with `C25_rodrigues` it fixes the axis, preserves length and is additive. -/
theorem C25_exact (v axis : Vec 3) (θ : ℝ) (r : Vec 3) (h : v.rotateAxis axis θ = some r)
    (hd : DotExact v axis) (hc : CrossExact axis (axisPerp v axis)) : r.elem = rodrigues (dir axis) θ v.elem := by
  obtain ⟨ha, hr⟩ := rotateAxis_eq h
  have hm : axis.mag ≠ 0 := (Vec.mag_pos.2 ha).ne'
  have hp : (axisPerp v axis).elem = v.elem - (v.elem ⬝ᵥ axis.elem / axis.sqrMag) • axis.elem := by
    unfold axisPerp
    rw [Vec.sub_elem, Vec.divBy_elem, Vec.scale_elem, hd, smul_smul]; congr 2; ring
  rw [hr, show (cross3 axis (axisPerp v axis)).elem = _ from hc, hp, perp_cross, rodrigues, dir_dot]
  unfold dir
  rw [← Vec.mag_sq]
  rw [map_smul, LinearMap.smul_apply]
  funext i
  simp only [Pi.add_apply, Pi.sub_apply, Pi.smul_apply, smul_eq_mul]
  field_simp
  ring

/-- C25: rotating a multiple of the axis changes nothing, for every axis longer than `2 ε` and every multiple for which
the inner product is not flushed to 0; the cross product need not be exact. -/
theorem C25_fixes_axis (v axis : Vec 3) (θ c : ℝ) (r : Vec 3) (h : v.rotateAxis axis θ = some r)
    (hv : v.elem = c • axis.elem) (hd : DotExact v axis) : r.elem = v.elem := by
  obtain ⟨ha, hr⟩ := rotateAxis_eq h
  have hs : axis.sqrMag ≠ 0 := fun h0 => ha (Vec.sqrMag_eq_zero.1 h0)
  have hp : (axisPerp v axis).elem = 0 := by
    unfold axisPerp
    rw [Vec.sub_elem, Vec.divBy_elem, Vec.scale_elem, hd, hv, smul_dotProduct, ← Vec.sqrMag_eq, smul_smul, smul_eq_mul]
    rw [show axis.sqrMag⁻¹ * (c * axis.sqrMag) = c by field_simp]
    exact sub_self _
  have hc : (cross3 axis (axisPerp v axis)).elem = 0 := by
    funext i; fin_cases i <;> simp [cross3, hp]
  rw [hr, hp, hc, smul_zero, smul_zero, add_zero, add_zero]

/-- C25 in general: the result differs from the rotation by at most `10 ε min(|v|, |axis|) / |axis|`. -/
theorem C25_error (v axis : Vec 3) (θ : ℝ) (r : Vec 3) (h : v.rotateAxis axis θ = some r) :
    len (r.elem - rodrigues (dir axis) θ v.elem) ≤ 10 * epsilon * (min v.mag axis.mag / axis.mag) := by
  obtain ⟨ha, hr⟩ := rotateAxis_eq h
  have he := epsilon_pos
  have hm0 : 0 < axis.mag := Vec.mag_pos.2 ha
  have hm : axis.mag ≠ 0 := hm0.ne'
  have hv0 := Vec.mag_nonneg v
  have hC := Real.abs_cos_le_one θ
  have hS := Real.abs_sin_le_one θ
  have hmin : 0 ≤ min v.mag axis.mag := le_min hv0 hm0.le
  -- the computed perpendicular part is never longer than `v`
  set p := axisPerp v axis with hpdef
  have hpe : p.elem = v.elem - (v.dot axis / axis.sqrMag) • axis.elem := by
    rw [hpdef]; unfold axisPerp
    rw [Vec.sub_elem, Vec.divBy_elem, Vec.scale_elem, smul_smul]; congr 2; ring
  have hsq : axis.sqrMag = axis.mag ^ 2 := (Vec.mag_sq axis).symm
  have hs0 : 0 < axis.sqrMag := by rw [hsq]; positivity
  have hplen : p.mag ≤ v.mag := by
    rcases Vec.dot_cases v axis with hd | ⟨hd, -⟩
    · refine Real.sqrt_le_sqrt ?_
      rw [Vec.sqrMag_eq p, hpe, hd, Vec.sqrMag_eq v, sub_dotProduct, dotProduct_sub, dotProduct_sub, smul_dotProduct, dotProduct_smul,
        dotProduct_smul, smul_dotProduct, ← Vec.sqrMag_eq axis, dotProduct_comm axis.elem v.elem]
      simp only [smul_eq_mul]
      have : v.elem ⬝ᵥ axis.elem / axis.sqrMag * (v.elem ⬝ᵥ axis.elem) ≥ 0 := by
        rw [div_mul_eq_mul_div]; exact div_nonneg (mul_self_nonneg _) hs0.le
      have e : v.elem ⬝ᵥ axis.elem / axis.sqrMag * (v.elem ⬝ᵥ axis.elem / axis.sqrMag * axis.sqrMag) =
          v.elem ⬝ᵥ axis.elem / axis.sqrMag * (v.elem ⬝ᵥ axis.elem) := by field_simp
      rw [e]; linarith
    · refine le_of_eq ?_
      rw [mag_eq_len, hpe, hd, zero_div, zero_smul, sub_zero]; rfl
  -- the two cut-offs
  have hde : |v.dot axis - v.elem ⬝ᵥ axis.elem| ≤ 2 * epsilon * min v.mag axis.mag :=
    (Vec.dot_err v axis).trans (mul_le_mul_of_nonneg_left (min_le_min (Vec.maxAbs_le_mag v) (Vec.maxAbs_le_mag axis)) (by linarith))
  have hce : len ((cross3 axis p).elem - axis.elem ⨯₃ p.elem) ≤ 4 * epsilon * min v.mag axis.mag := by
    have := len3_le (v := (cross3 axis p).elem - axis.elem ⨯₃ p.elem) (b := 2 * epsilon * min v.mag axis.mag)
      (by positivity) (fun i => (cross_err axis p i).trans (mul_le_mul_of_nonneg_left
        (by rw [min_comm]; exact min_le_min ((Vec.maxAbs_le_mag p).trans hplen) (Vec.maxAbs_le_mag axis)) (by linarith)))
    linarith
  have hdec : r.elem - rodrigues (dir axis) θ v.elem =
      ((Real.cos θ - 1) * -((v.dot axis - v.elem ⬝ᵥ axis.elem) / axis.sqrMag)) • axis.elem
      + (Real.sin θ / axis.mag) • ((cross3 axis p).elem - axis.elem ⨯₃ p.elem) := by
    have hc : axis.elem ⨯₃ p.elem = axis.elem ⨯₃ v.elem := by rw [hpe, perp_cross]
    rw [hr, hc, hpe, rodrigues, dir_dot, hsq]
    unfold dir
    rw [map_smul, LinearMap.smul_apply]
    funext i
    simp only [Pi.add_apply, Pi.sub_apply, Pi.smul_apply, smul_eq_mul]
    field_simp
    ring
  have t1 : len (((Real.cos θ - 1) * -((v.dot axis - v.elem ⬝ᵥ axis.elem) / axis.sqrMag)) • axis.elem) ≤
      4 * epsilon * (min v.mag axis.mag / axis.mag) := by
    rw [len_smul, abs_mul, abs_neg, abs_div, abs_of_pos hs0, ← mag_eq_len, hsq]
    have hc2 : |Real.cos θ - 1| ≤ 2 := by rw [abs_le] at hC ⊢; constructor <;> linarith
    have e : |v.dot axis - v.elem ⬝ᵥ axis.elem| / axis.mag ^ 2 * axis.mag = |v.dot axis - v.elem ⬝ᵥ axis.elem| / axis.mag := by
      field_simp
    rw [mul_assoc, e]
    calc |Real.cos θ - 1| * (|v.dot axis - v.elem ⬝ᵥ axis.elem| / axis.mag)
        ≤ 2 * ((2 * epsilon * min v.mag axis.mag) / axis.mag) :=
          mul_le_mul hc2 (div_le_div_of_nonneg_right hde hm0.le) (by positivity) (by norm_num)
      _ = _ := by ring
  have t2 : len ((Real.sin θ / axis.mag) • ((cross3 axis p).elem - axis.elem ⨯₃ p.elem)) ≤
      4 * epsilon * (min v.mag axis.mag / axis.mag) := by
    rw [len_smul, abs_div, abs_of_pos hm0]
    calc |Real.sin θ| / axis.mag * len ((cross3 axis p).elem - axis.elem ⨯₃ p.elem)
        ≤ 1 / axis.mag * (4 * epsilon * min v.mag axis.mag) :=
          mul_le_mul (div_le_div_of_nonneg_right hS hm0.le) hce (len_nonneg _) (by positivity)
      _ = _ := by ring
  rw [hdec]
  have h0 : 0 ≤ epsilon * (min v.mag axis.mag / axis.mag) := by positivity
  refine (len_add_le _ _).trans ((add_le_add t1 t2).trans ?_)
  linarith

/-! ### Agreement with quaternions and matrices -/

/-- C25: the quaternion built from an axis (of length at least `ε`) and an angle stands for exactly the same rotation. -/
theorem C25_quaternion (q : Quat) (axis : Vec 3) (θ : ℝ) (h : epsilon ≤ axis.mag) (v : Fin 3 → ℝ) :
    ‖toH (q.rotationAxis axis θ)‖ = 1 ∧ (q.rotationAxis axis θ).valid = axis.valid ∧
    act (toH (q.rotationAxis axis θ)) v = rodrigues (dir axis) θ v := by
  unfold Quat.rotationAxis
  rw [if_neg (not_lt.2 h)]
  have hn := norm_axisAngle (axis := axis) (a := θ) (not_lt.2 h) axis.valid 1
  refine ⟨hn, rfl, ?_⟩
  rw [act_formula (normSq_eq_one.2 hn), vecOf_toH, toH_re, Vec.scale_elem]
  have hc : Real.cos θ = 2 * Real.cos (θ / 2) ^ 2 - 1 := by rw [← Real.cos_two_mul]; congr 1; ring
  have hs : Real.sin θ = 2 * Real.sin (θ / 2) * Real.cos (θ / 2) := by rw [← Real.sin_two_mul]; congr 1; ring
  have h2 := Real.sin_sq_add_cos_sq (θ / 2)
  unfold rodrigues dir
  rw [hc, hs, smul_dotProduct, smul_dotProduct, map_smul, LinearMap.smul_apply, map_smul, LinearMap.smul_apply]
  have hs2 : Real.sin (θ / 2) ^ 2 = 1 - Real.cos (θ / 2) ^ 2 := by linarith
  have e1 : (1 - (2 * Real.cos (θ / 2) ^ 2 - 1)) = 2 * Real.sin (θ / 2) ^ 2 := by rw [hs2]; ring
  rw [e1]
  funext i
  simp only [Pi.add_apply, Pi.smul_apply, smul_eq_mul]
  ring

/-- C25: the version taking the angle from the length of the axis is the same with that angle. -/
theorem C25_mag (q : Quat) (axis : Vec 3) :
    q.rotationMag axis = q.rotationAxis axis axis.mag ∧
    (axis.mag ≠ 0 → RotMat.rotationMag axis = RotMat.rotationAxis axis axis.mag) := by
  refine ⟨rfl, fun h => ?_⟩
  unfold RotMat.rotationMag
  rw [if_neg h]; rfl

/-- C25: the library's rotation of a vector by that quaternion and its rotation about the axis agree up to the cut-offs. -/
theorem C25_agree_quaternion (q : Quat) (v axis : Vec 3) (θ : ℝ) (h : epsilon ≤ axis.mag) (r : Vec 3)
    (hr : v.rotateAxis axis θ = some r) :
    (r - v.rotateQ (q.rotationAxis axis θ)).mag ≤ 16 * epsilon * v.mag + 10 * epsilon * (min v.mag axis.mag / axis.mag) := by
  obtain ⟨hn, -, ha⟩ := C25_quaternion q axis θ h v.elem
  have e1 := C25_error v axis θ r hr
  have e2 := rotateQ_len (v := v) hn
  rw [ha] at e2
  have e3 := len_triangle r.elem (rodrigues (dir axis) θ v.elem) (v.rotateQ (q.rotationAxis axis θ)).elem
  rw [len_sub_comm (rodrigues (dir axis) θ v.elem)] at e3
  rw [mag_eq_len, Vec.sub_elem]
  linarith

/-- Rotation in the plane of `u` and `w = a × u` is rotation about `a`. -/
theorem plane_rodrigues {a u : Fin 3 → ℝ} (ha : a ⬝ᵥ a = 1) (hu : u ⬝ᵥ u = 1) (hau : a ⬝ᵥ u = 0) (θ : ℝ) (x : Fin 3 → ℝ) :
    x ᵥ* planeMat u (a ⨯₃ u) (Real.cos θ) (Real.sin θ) = rodrigues a θ x := by
  rw [vecMul_planeMat]
  -- completeness of the basis
  have hcomp : x = (a ⬝ᵥ x) • a + (x ⬝ᵥ u) • u + (x ⬝ᵥ (a ⨯₃ u)) • (a ⨯₃ u) := by
    have hA : SO3 (Matrix.of ![a, u, a ⨯₃ u]) := by
      have hcu : (a ⨯₃ u) ⬝ᵥ u = 0 := by simp only [dot3, cross0, cross1, cross2']; ring
      have hca : (a ⨯₃ u) ⬝ᵥ a = 0 := by simp only [dot3, cross0, cross1, cross2']; ring
      have hcc : (a ⨯₃ u) ⬝ᵥ (a ⨯₃ u) = 1 := by rw [lagrange, ha, hu, hau]; ring
      have hua : u ⬝ᵥ a = 0 := by rw [dotProduct_comm, hau]
      have huc : u ⬝ᵥ (a ⨯₃ u) = 0 := by rw [dotProduct_comm, hcu]
      have hac : a ⬝ᵥ (a ⨯₃ u) = 0 := by rw [dotProduct_comm, hca]
      constructor
      · apply ext9 <;> rw [Matrix.mul_apply]
        · exact ha
        · exact hau
        · exact hac
        · exact hua
        · exact hu
        · exact huc
        · exact hca
        · exact hcu
        · exact hcc
      · rw [det_fin_three]
        have : (a ⨯₃ u) ⬝ᵥ (a ⨯₃ u) = 1 := hcc
        simp only [dot3, cross0, cross1, cross2'] at this
        simp [cross_apply]
        linarith
    have h0 := hA.col 0 0; have h1 := hA.col 1 1; have h2 := hA.col 2 2
    have h01 := hA.col 0 1; have h02 := hA.col 0 2; have h12 := hA.col 1 2
    simp only [of_apply, Matrix.cons_val_zero, Matrix.cons_val_one, Matrix.cons_val, if_true, Fin.isValue,
      show ((0 : Fin 3) = 1) = False by simp, show ((0 : Fin 3) = 2) = False by simp,
      show ((1 : Fin 3) = 2) = False by simp, if_false] at h0 h1 h2 h01 h02 h12
    generalize a ⨯₃ u = w at *
    apply ext3 <;> simp only [Pi.add_apply, Pi.smul_apply, smul_eq_mul, dot3]
    · linear_combination (-(x 0)) * h0 - (x 1) * h01 - (x 2) * h02
    · linear_combination (-(x 0)) * h01 - (x 1) * h1 - (x 2) * h12
    · linear_combination (-(x 0)) * h02 - (x 1) * h12 - (x 2) * h2
  have hax : a ⨯₃ x = (x ⬝ᵥ u) • (a ⨯₃ u) - (x ⬝ᵥ (a ⨯₃ u)) • u := by
    have haau : a ⨯₃ (a ⨯₃ u) = -u := by
      have : a ⨯₃ (a ⨯₃ u) = (a ⬝ᵥ u) • a - (a ⬝ᵥ a) • u := by
        apply ext3 <;> simp [dot3, cross0, cross1, cross2'] <;> ring
      rw [this, ha, hau]; module
    calc a ⨯₃ x = a ⨯₃ ((a ⬝ᵥ x) • a + (x ⬝ᵥ u) • u + (x ⬝ᵥ (a ⨯₃ u)) • (a ⨯₃ u)) := by rw [← hcomp]
      _ = _ := by rw [map_add, map_add, map_smul, map_smul, map_smul, cross_self, haau]; module
  unfold rodrigues
  rw [hax]
  generalize hk : a ⬝ᵥ x = k at *
  generalize x ⬝ᵥ u = p at *
  generalize x ⬝ᵥ (a ⨯₃ u) = s at *
  rw [hcomp]
  module

theorem mainComp_cases (axis : Vec 3) : (RotMat.mainComp axis = none ∧ axis.elem = 0) ∨
    ∃ c, RotMat.mainComp axis = some c ∧ 0 < |axis.elem c| ∧ ∀ i, |axis.elem i| ≤ |axis.elem c| := by
  unfold RotMat.mainComp
  simp only [List.finRange_succ, List.finRange_zero, List.map_nil, List.map_cons, List.foldl_cons, List.foldl_nil, gt_iff_lt,
    Fin.isValue, Fin.succ_zero_eq_one, Fin.succ_one_eq_two]
  have hn0 := abs_nonneg (axis.elem 0)
  have hn1 := abs_nonneg (axis.elem 1)
  have hn2 := abs_nonneg (axis.elem 2)
  have key : ∀ c : Fin 3, 0 < |axis.elem c| → |axis.elem 0| ≤ |axis.elem c| → |axis.elem 1| ≤ |axis.elem c| →
      |axis.elem 2| ≤ |axis.elem c| → 0 < |axis.elem c| ∧ ∀ i, |axis.elem i| ≤ |axis.elem c| := by
    intro c h h0 h1 h2
    refine ⟨h, fun i => ?_⟩
    fin_cases i
    · exact h0
    · exact h1
    · exact h2
  by_cases h0 : 0 < |axis.elem 0|
  · rw [if_pos h0]
    by_cases h1 : |axis.elem 0| < |axis.elem 1|
    · rw [if_pos h1]
      by_cases h2 : |axis.elem 1| < |axis.elem 2|
      · rw [if_pos h2]; exact Or.inr ⟨2, rfl, key 2 (by linarith) (by linarith) (by linarith) (by linarith)⟩
      · rw [if_neg h2]; exact Or.inr ⟨1, rfl, key 1 (by linarith) (by linarith) (by linarith) (by linarith)⟩
    · rw [if_neg h1]
      by_cases h2 : |axis.elem 0| < |axis.elem 2|
      · rw [if_pos h2]; exact Or.inr ⟨2, rfl, key 2 (by linarith) (by linarith) (by linarith) (by linarith)⟩
      · rw [if_neg h2]; exact Or.inr ⟨0, rfl, key 0 (by linarith) (by linarith) (by linarith) (by linarith)⟩
  · rw [if_neg h0]
    by_cases h1 : 0 < |axis.elem 1|
    · rw [if_pos h1]
      by_cases h2 : |axis.elem 1| < |axis.elem 2|
      · rw [if_pos h2]; exact Or.inr ⟨2, rfl, key 2 (by linarith) (by linarith) (by linarith) (by linarith)⟩
      · rw [if_neg h2]; exact Or.inr ⟨1, rfl, key 1 (by linarith) (by linarith) (by linarith) (by linarith)⟩
    · rw [if_neg h1]
      by_cases h2 : 0 < |axis.elem 2|
      · rw [if_pos h2]; exact Or.inr ⟨2, rfl, key 2 (by linarith) (by linarith) (by linarith) (by linarith)⟩
      · rw [if_neg h2]
        refine Or.inl ⟨rfl, ext3 ?_ ?_ ?_⟩
        · exact abs_eq_zero.1 (by linarith)
        · exact abs_eq_zero.1 (by linarith)
        · exact abs_eq_zero.1 (by linarith)

theorem dot_of_zero {u v : Vec n} (h : u.elem ⬝ᵥ v.elem = 0) : u.dot v = 0 := by
  rcases Vec.dot_cases u v with hd | ⟨hd, -⟩
  · rw [hd, h]
  · exact hd

theorem vperp_of_orth {u v : Vec n} (h : u.elem ⬝ᵥ v.elem = 0) : (RotMat.vperp u v).elem = v.elem := by
  unfold RotMat.vperp
  rw [Vec.sub_elem, Vec.divBy_elem, Vec.scale_elem, dot_of_zero h, zero_smul, smul_zero, sub_zero]

theorem axisPlane_exact {axis : Vec 3} (hx : AxisExact axis) (c : Fin 3) :
    (RotMat.axisPlane axis c).1.elem = axis.elem ⨯₃ (basisVec (c - 1)).elem ∧
    (RotMat.axisPlane axis c).2.elem = axis.elem ⨯₃ (RotMat.axisPlane axis c).1.elem :=
  hx (c - 1)

theorem dot_cross_left (a b : Fin 3 → ℝ) : a ⬝ᵥ (a ⨯₃ b) = 0 := by simp only [dot3, cross0, cross1, cross2']; ring

/-- C25: when no cross product is flushed to 0, the matrix built from an axis and an angle is a rotation matrix, and
`v.rotate(m)` is the rotation of `v` by that angle about the axis. -/
theorem C25_matrix (axis : Vec 3) (θ : ℝ) (m : RotMat 3) (h : RotMat.rotationAxis axis θ = .ok m) (hx : AxisExact axis) (v : Vec 3) :
    IsRotation m ∧ m.flip = false ∧ m.valid = true ∧ (v.rotateM m).elem = rodrigues (dir axis) θ v.elem := by
  unfold RotMat.rotationAxis at h
  rcases mainComp_cases axis with ⟨hc, -⟩ | ⟨c, hc, hpos, -⟩
  · rw [hc] at h; cases h
  rw [hc] at h
  simp only at h
  obtain ⟨e1, e2⟩ := axisPlane_exact hx c
  generalize (RotMat.axisPlane axis c).1 = v1 at *
  generalize (RotMat.axisPlane axis c).2 = v2 at *
  have ha : axis.elem ≠ 0 := fun h0 => by rw [h0] at hpos; simp at hpos
  have h12 : v1.elem ⬝ᵥ v2.elem = 0 := by
    rw [e2]; simp only [dot3, cross0, cross1, cross2']; ring
  have hd : DotExact v1 v2 := by unfold DotExact; rw [dot_of_zero h12, h12]
  obtain ⟨h1, he, hf, hv, h2⟩ := RotMat.rotationPlane_eq h
  refine ⟨rotationPlane_isRotation hd h, hf, hv, ?_⟩
  have ha1 : axis.elem ⬝ᵥ v1.elem = 0 := by rw [e1]; exact dot_cross_left _ _
  have hm0 := Vec.mag_pos.2 ha
  have hm1 := Vec.mag_pos.2 h1
  have hmag : v2.mag = axis.mag * v1.mag := by
    have : v2.mag ^ 2 = (axis.mag * v1.mag) ^ 2 := by
      rw [Vec.mag_sq, Vec.sqrMag_eq, e2, lagrange, ha1, mul_pow, Vec.mag_sq, Vec.mag_sq, Vec.sqrMag_eq, Vec.sqrMag_eq]; ring
    exact (sq_eq_sq₀ (Vec.mag_nonneg _) (by positivity)).1 this
  have hw : RotMat.unit (RotMat.vperp v1 v2) = dir axis ⨯₃ RotMat.unit v1 := by
    unfold RotMat.unit dir
    have hmv : (RotMat.vperp v1 v2).mag = v2.mag := by rw [mag_eq_len, vperp_of_orth h12]; rfl
    rw [hmv, vperp_of_orth h12, hmag, e2, map_smul, map_smul, LinearMap.smul_apply, smul_smul, mul_inv, mul_comm]
  rw [RotMat.rotateM_elem, he, hw]
  refine plane_rodrigues (dir_unit ha) (RotMat.unit_self h1) ?_ θ v.elem
  unfold RotMat.unit dir
  rw [smul_dotProduct, dotProduct_smul, ha1, smul_zero, smul_zero]

/-- C25: the construction succeeds when the axis has length at least `√3 ε` (and no cross product is flushed). -/
theorem C25_matrix_defined (axis : Vec 3) (θ : ℝ) (hx : AxisExact axis) (h : 3 * epsilon * epsilon ≤ axis.sqrMag) :
    ∃ m, RotMat.rotationAxis axis θ = .ok m := by
  have he := epsilon_pos
  have hs : 0 < axis.sqrMag := lt_of_lt_of_le (by positivity) h
  unfold RotMat.rotationAxis
  rcases mainComp_cases axis with ⟨-, hc⟩ | ⟨c, hc, hpos, hmax⟩
  · exact absurd (Vec.sqrMag_eq_zero.2 hc) hs.ne'
  rw [hc]
  simp only
  obtain ⟨e1, e2⟩ := axisPlane_exact hx c
  generalize (RotMat.axisPlane axis c).1 = v1 at *
  generalize (RotMat.axisPlane axis c).2 = v2 at *
  have h12 : v1.elem ⬝ᵥ v2.elem = 0 := by
    rw [e2]; simp only [dot3, cross0, cross1, cross2']; ring
  have ha1 : axis.elem ⬝ᵥ v1.elem = 0 := by rw [e1]; exact dot_cross_left _ _
  have h1 : 0 < v1.sqrMag := by
    have hcs : 0 < axis.elem c ^ 2 := by have := abs_pos.1 hpos; positivity
    rw [Vec.sqrMag_eq, e1]
    simp only [dot3, cross0, cross1, cross2', basisVec]
    fin_cases c <;> simp [Fin.ext_iff, show ((1 : Fin 3) - 1) = 0 from rfl, show ((2 : Fin 3) - 1) = 1 from rfl, show ((0 : Fin 3) - 1) = 2 from rfl] at hcs ⊢ <;>
      nlinarith [sq_nonneg (axis.elem 0), sq_nonneg (axis.elem 1), sq_nonneg (axis.elem 2), hcs]
  have hmag : v2.sqrMag = axis.sqrMag * v1.sqrMag := by
    rw [Vec.sqrMag_eq, e2, lagrange, ha1, Vec.sqrMag_eq, Vec.sqrMag_eq]; ring
  have hmv : (RotMat.vperp v1 v2).sqrMag = v2.sqrMag := by
    rw [Vec.sqrMag_eq, vperp_of_orth h12, ← Vec.sqrMag_eq]
  unfold RotMat.rotationPlane
  rw [if_neg (not_not.2 h1)]
  simp only
  rw [if_neg]
  · exact ⟨_, rfl⟩
  · rw [hmv, hmag, mul_div_assoc, div_self h1.ne', mul_one, not_lt]
    exact_mod_cast h

/-- C25: matrix and quaternion built from the same axis and angle rotate vectors alike (up to the cut-off). -/
theorem C25_agree_matrix (q : Quat) (axis : Vec 3) (θ : ℝ) (m : RotMat 3) (h : RotMat.rotationAxis axis θ = .ok m)
    (hx : AxisExact axis) (hl : epsilon ≤ axis.mag) (v : Vec 3) :
    (v.rotateM m).elem = act (toH (q.rotationAxis axis θ)) v.elem ∧
    (v.rotateM m - v.rotateQ (q.rotationAxis axis θ)).mag ≤ 16 * epsilon * v.mag := by
  obtain ⟨hn, -, ha⟩ := C25_quaternion q axis θ hl v.elem
  have e := (C25_matrix axis θ m h hx v).2.2.2
  refine ⟨e.trans ha.symm, ?_⟩
  have e2 := rotateQ_len (v := v) hn
  rw [mag_eq_len, Vec.sub_elem, e, ← ha, len_sub_comm]
  exact e2

/-- The hypotheses hold for the axis `(1, 2, 2)` and the vector `(1, 0, 0)`. -/
example (θ : ℝ) (q : Quat) :
    let axis : Vec 3 := ⟨![1, 2, 2], true⟩
    let v : Vec 3 := ⟨![1, 0, 0], true⟩
    AxisExact axis ∧ epsilon ≤ axis.mag ∧ 3 * epsilon * epsilon ≤ axis.sqrMag ∧ DotExact v axis ∧
      CrossExact axis (axisPerp v axis) := by
  intro axis v
  have he := epsilon_pos
  have he2 := epsilon_lt
  norm_num at he2
  have hm : maxAbs axis.elem ≤ 2 := maxAbs_le (by norm_num) fun i => by fin_cases i <;> simp [axis]
  have hs : axis.sqrMag = 9 := by rw [Vec.sqrMag_eq, dot3]; simp [axis]; norm_num
  have hmag : axis.mag = 3 := by
    unfold Vec.mag; rw [hs, show (9 : ℝ) = 3 ^ 2 by norm_num]; exact Real.sqrt_sq (by norm_num)
  have key : ∀ w : Vec 3, (∀ i, (axis.elem ⨯₃ w.elem) i = 0 ∨ 1 / 9 ≤ |(axis.elem ⨯₃ w.elem) i|) → CrossExact axis w := by
    intro w hw
    refine crossExact_of fun i => (hw i).imp_right fun h => le_trans ?_ h
    have : min (maxAbs axis.elem) (maxAbs w.elem) ≤ 2 := (min_le_left _ _).trans hm
    nlinarith
  have hd : DotExact v axis := by
    refine dotExact_of (Or.inr ?_)
    have : min (maxAbs v.elem) (maxAbs axis.elem) ≤ 2 := (min_le_right _ _).trans hm
    have e : v.elem ⬝ᵥ axis.elem = 1 := by rw [dot3]; simp [v, axis]
    rw [e, abs_one]; nlinarith
  refine ⟨fun c => ?_, ?_, ?_, hd, ?_⟩
  · have h1 : CrossExact axis (basisVec c) := by
      refine key _ fun i => ?_
      fin_cases c <;> fin_cases i <;> simp [cross_apply, axis, basisVec] <;> norm_num
    refine ⟨h1, key _ fun i => ?_⟩
    rw [show (cross3 axis (basisVec c)).elem = _ from h1]
    fin_cases c <;> fin_cases i <;> simp [cross_apply, axis, basisVec] <;> norm_num
  · rw [hmag]; linarith
  · rw [hs]; nlinarith
  · refine key _ fun i => ?_
    have hp : (axisPerp v axis).elem = ![8 / 9, -2 / 9, -2 / 9] := by
      unfold axisPerp
      rw [Vec.sub_elem, Vec.divBy_elem, Vec.scale_elem, hd, hs]
      apply ext3 <;> simp [dot3, v, axis] <;> norm_num
    rw [hp]
    fin_cases i <;> simp [cross_apply, axis] <;> norm_num

end WFMath
