/- Cases of the theorems of Props/Quaternion, Props/QuatMatrix, Props/Rotate3D, Props/QuatShapes, Props/ShapeCoords, Props/ShapeRotate and
Props/Turning: their hypotheses hold for concrete objects. -/
import Verif.Cases.Common
import Verif.Props.Quaternion
import Verif.Props.QuatMatrix
import Verif.Props.Rotate3D
import Verif.Props.QuatShapes
import Verif.Props.ShapeCoords
import Verif.Props.ShapeRotate
import Verif.Props.Turning
import Verif.Props.PolyAdd

namespace WFMath.Cases
open WFMath Spec Matrix

/-! ### Props/Quaternion -/

/-- The vector (1, 2, 3). -/
noncomputable def vecA : Vec 3 := ⟨![1, 2, 3], true⟩
theorem vecA_exact : RotExact vecA quatA := quatA_ok fun i => by fin_cases i <;> simp [vecA] <;> norm_num
theorem vecA_exact_inv : RotExact vecA quatA.inverse := quatA_inv_ok fun i => by fin_cases i <;> simp [vecA] <;> norm_num
theorem vecA_turned : (vecA.rotateQ quatA).elem = ![1, -86 / 25, 27 / 25] := by
  rw [quatA_rotate vecA_exact]; funext i; fin_cases i <;> simp [vecA] <;> norm_num
theorem vecA_turned_exact : RotExact (vecA.rotateQ quatA) quatA := quatA_ok fun i => by
  rw [vecA_turned]; fin_cases i <;> simp <;> norm_num [abs_of_neg]
theorem vecA_back_exact : RotExact (vecA.rotateQ quatA) quatA.inverse := quatA_inv_ok fun i => by
  rw [vecA_turned]; fin_cases i <;> simp <;> norm_num [abs_of_neg]
theorem quatA_self : DotExact quatA.vec quatA.vec ∧ CrossExact quatA.vec quatA.vec := by
  have hu : ∀ i, |quatA.vec.elem i| ≤ 10 := fun i => by fin_cases i <;> norm_num [quatA]
  refine ⟨dotExact_big hu (Or.inr ?_), crossExact_big hu fun i => Or.inl ?_⟩
  · simp [quatA, dotProduct, Fin.sum_univ_three]; norm_num
  · fin_cases i <;> simp [quatA, cross_apply]
theorem quatA_prepare : quatA.prepare quatA = ⟨3 / 5, ⟨![4 / 5, 0, 0], true⟩, true, 2⟩ := by
  simp [Quat.prepare, Quat.checkNormalization, quatA, maxNormAge]
theorem quatA_squared : (quatA.mul quatA).w = -7 / 25 ∧ (quatA.mul quatA).vec.elem = ![24 / 25, 0, 0] := by
  simp only [Quat.mul, quatA_prepare]
  constructor
  · have h : (⟨![4 / 5, 0, 0], true⟩ : Vec 3).dot quatA.vec = _ := quatA_self.1
    rw [h]
    simp [quatA, dotProduct, Fin.sum_univ_three]; norm_num
  · have hc : (cross3 (⟨![4 / 5, 0, 0], true⟩ : Vec 3) quatA.vec).elem = 0 :=
      (show _ = _ from quatA_self.2).trans (cross_self _)
    simp only [Vec.sub_elem, Vec.add_elem, Vec.scale_elem, hc]
    funext i; fin_cases i <;> simp [quatA]; norm_num
/-- Turning (1, 2, 3) twice by `quatA` is turning it by the product. -/
theorem squared_exact : RotExact vecA (quatA.mul quatA) := by
  have hu : ∀ i, |(quatA.mul quatA).vec.elem i| ≤ 10 := fun i => by rw [quatA_squared.2]; fin_cases i <;> norm_num
  refine ⟨dotExact_big hu (Or.inr ?_), crossExact_big hu fun i => ?_⟩
  · rw [quatA_squared.2]; simp [vecA, dotProduct, Fin.sum_univ_three]; norm_num
  · rw [quatA_squared.2]; fin_cases i <;> simp [vecA, cross_apply] <;> norm_num
example : vecA.rotateQ (quatA.mul quatA) = (vecA.rotateQ quatA).rotateQ quatA :=
  C34_mul vecA quatA quatA quatA_norm quatA_norm quatA_self.1 quatA_self.2 squared_exact vecA_exact vecA_turned_exact
example (v : Vec 3) := C34_mul_error v quatA quatB quatA_norm quatB_norm
example (v : Vec 3) := C34_div_error v quatA quatB quatA_norm quatB_norm
theorem quatA_divided : (quatA.div quatA).vec.elem = 0 := by
  have hc : (cross3 (⟨![4 / 5, 0, 0], true⟩ : Vec 3) quatA.vec).elem = 0 :=
    (show _ = _ from quatA_self.2).trans (cross_self _)
  simp only [Quat.div, quatA_prepare, Vec.sub_elem, Vec.add_elem, Vec.scale_elem, hc]
  funext i; fin_cases i <;> simp [quatA]
theorem divided_exact : RotExact vecA (quatA.div quatA) := by
  have hu : ∀ i, |(quatA.div quatA).vec.elem i| ≤ 10 := fun i => by rw [quatA_divided]; simp
  refine ⟨dotExact_big hu (Or.inl ?_), crossExact_big hu fun i => Or.inl ?_⟩
  · rw [quatA_divided]; simp
  · rw [quatA_divided]; simp
example : (vecA.rotateQ (quatA.div quatA)).elem = ((vecA.rotateQ quatA).rotateQ quatA.inverse).elem :=
  C34_div vecA quatA quatA quatA_norm quatA_norm quatA_self.1 quatA_self.2 divided_exact vecA_exact vecA_back_exact
theorem quatA_cubed : (DotExact (quatA.mul quatA).vec quatA.vec ∧ CrossExact (quatA.mul quatA).vec quatA.vec) ∧
    (DotExact quatA.vec (quatA.mul quatA).vec ∧ CrossExact quatA.vec (quatA.mul quatA).vec) := by
  have hu : ∀ i, |(quatA.mul quatA).vec.elem i| ≤ 10 := fun i => by rw [quatA_squared.2]; fin_cases i <;> norm_num
  have hv : ∀ i, |quatA.vec.elem i| ≤ 10 := fun i => by fin_cases i <;> norm_num [quatA]
  refine ⟨⟨dotExact_big hu (Or.inr ?_), crossExact_big hu fun i => Or.inl ?_⟩, dotExact_big hv (Or.inr ?_), crossExact_big hv fun i => Or.inl ?_⟩ <;>
    rw [quatA_squared.2]
  · simp [quatA, dotProduct, Fin.sum_univ_three]; norm_num
  · fin_cases i <;> simp [quatA, cross_apply]
  · simp [quatA, dotProduct, Fin.sum_univ_three]; norm_num
  · fin_cases i <;> simp [quatA, cross_apply]
example := C34_assoc quatA quatA quatA quatA_norm quatA_norm quatA_self quatA_self quatA_cubed.1 quatA_cubed.2
example := C34_assoc_error quatA quatB quatA quatA_norm quatB_norm quatA_norm
example := C35_dot vecA vecA quatA quatA_norm vecA_exact vecA_exact
/-- The vectors (1, 2, 3) and (0, 1, 1) and their cross product (-1, -1, 1). -/
example := C35_cross vecA ⟨![0, 1, 1], true⟩ ⟨![-1, -1, 1], true⟩ quatA quatA_norm vecA_exact (quatA_ok fun i => by fin_cases i <;> simp <;> norm_num)
  (by funext i; fin_cases i <;> simp [vecA, cross_apply] <;> norm_num) (quatA_ok fun i => by fin_cases i <;> simp <;> norm_num)
example : ((vecA.rotateQ quatA).rotateQ quatA.inverse).elem = ![1, 2, 3] := C35_inverse vecA quatA quatA_norm vecA_exact vecA_back_exact
example (u v : Vec 3) := C35_dot_error u v quatB quatB_norm
example (u v : Vec 3) := C35_cross_error u v ⟨u.elem ⨯₃ v.elem, true⟩ quatB quatB_norm rfl
example (v : Vec 3) := C35_inverse_error v quatB quatB_norm
example := C37_iff quatA quatB (1 / 1000) (by norm_num)
/-- A product of two quaternions, without and with the bound for the products that are flushed to 0. -/
noncomputable def termA : QTerm := .mul (.rotationIdx 2 1) (.inverse (.ofComponents 1 2 3 4))
theorem termA_sound : termA.Sound := ⟨trivial, fun h => one_ne_zero h.1⟩
example (L : Gauss.Limits) : ∃ q, termA.eval L = some q ∧ |‖toH q‖ - 1| ≤ 8 * epsilon * (1 : Nat) := by
  have he2 := epsilon_lt
  norm_num at he2
  exact ⟨_, rfl, C33_drift_partial L termA _ termA_sound rfl (by simp [Quat.rotationIdx, Quat.ofComponents]) (by simp [termA, QTerm.products]; linarith)⟩
example (L : Gauss.Limits) : ∃ q, (QTerm.normalize (.inverse (.ofComponents 1 2 3 4))).eval L = some q ∧ ‖toH q‖ = 1 :=
  ⟨_, rfl, C33_exact_partial L (.normalize (.inverse (.ofComponents 1 2 3 4))) _ (fun h => one_ne_zero h.1) trivial rfl (by simp [Quat.ofComponents, Quat.normalize, Quat.inverse])⟩
/-- From (2, 0, 0) to (0, 3, 0). -/
theorem fromTo_exact : DotExact (⟨![2, 0, 0], true⟩ : Vec 3) ⟨![0, 3, 0], true⟩ ∧ CrossExact (⟨![2, 0, 0], true⟩ : Vec 3) ⟨![0, 3, 0], true⟩ := by
  have hu : ∀ i, |(![2, 0, 0] : Fin 3 → ℝ) i| ≤ 10 := fun i => by fin_cases i <;> norm_num
  exact ⟨dotExact_big hu (Or.inl (by simp [dotProduct, Fin.sum_univ_three])),
    crossExact_big hu fun i => by fin_cases i <;> simp [cross_apply] <;> norm_num⟩
theorem fromTo_ok : ∃ r, Quat.default.rotationFromTo ⟨![2, 0, 0], true⟩ ⟨![0, 3, 0], true⟩ = .ok r ∧ r.valid = true := by
  have he2 := epsilon_lt
  norm_num at he2
  have hm : (⟨![2, 0, 0], true⟩ : Vec 3).mag * (⟨![0, 3, 0], true⟩ : Vec 3).mag = 6 := by
    have h1 : (⟨![2, 0, 0], true⟩ : Vec 3).mag = 2 := by
      rw [Vec.mag, sqrMag3, Real.sqrt_eq_iff_mul_self_eq] <;> simp <;> norm_num
    have h2 : (⟨![0, 3, 0], true⟩ : Vec 3).mag = 3 := by
      rw [Vec.mag, sqrMag3, Real.sqrt_eq_iff_mul_self_eq] <;> simp <;> norm_num
    rw [h1, h2]; norm_num
  obtain ⟨o1, o2, -⟩ := C38_outcome Quat.default ⟨![2, 0, 0], true⟩ ⟨![0, 3, 0], true⟩
  cases hr : Quat.default.rotationFromTo ⟨![2, 0, 0], true⟩ ⟨![0, 3, 0], true⟩ with
  | error e =>
    obtain ⟨-, -, h⟩ := o1 e hr
    rw [hm] at h
    simp [dot3] at h; linarith
  | ok r =>
    exact ⟨r, rfl, (o2 r hr).2 ⟨rfl, rfl, by rw [hm]; linarith⟩⟩
example : ∃ r, Quat.default.rotationFromTo ⟨![2, 0, 0], true⟩ ⟨![0, 3, 0], true⟩ = .ok r ∧ ‖toH r‖ = 1 := by
  obtain ⟨r, h, hv⟩ := fromTo_ok
  have := C38_rotate Quat.default r _ _ fromTo_exact.1 fromTo_exact.2 h hv
  exact ⟨r, h, (C38_direction Quat.default r _ _ fromTo_exact.1 fromTo_exact.2 h hv).1⟩
/-- A quaternion of length 5. -/
theorem long_ne : toH (⟨3, ⟨![4, 0, 0], true⟩, true, 1⟩ : Quat) ≠ 0 := fun h => by
  have := congrArg QuaternionAlgebra.re h
  change (3 : ℝ) = 0 at this; norm_num at this
example := C39_step ⟨3, ⟨![4, 0, 0], true⟩, true, 1⟩ long_ne
example := C39_limit ⟨3, ⟨![4, 0, 0], true⟩, true, 1⟩ long_ne
example := C83_partial quatB quatB_norm

/-! ### Props/QuatMatrix -/

example (L : Gauss.Limits) (m : RotMat 3) (v : Vec 3) := C36_matrix L m quatB quatB_norm v
example (L : Gauss.Limits) (m : RotMat 3) (v : Vec 3) := C36_same_rotation L m quatB quatB_norm v
example (L : Gauss.Limits) (m : RotMat 3) := C36_roundtrip_partial L m quatA quatA_norm (by norm_num [quatA])
example (L : Gauss.Limits) (m : RotMat 3) := C36_wrong L m quatB quatB_norm (by norm_num [quatB])
example (L : Gauss.Limits) (m : RotMat 3) := C36_back_partial L m turnB turnB_rotation rfl (by simp [turnB]; norm_num)
example (L : Gauss.Limits) (m : RotMat 3) := C48_partial L m quatA quatA_norm
example (L : Gauss.Limits) (m : RotMat 3) (v : Vec 3) := C84_partial L m quatA quatA_norm v
theorem turnB_rows : RowsExact turnB quatA := fun i => quatA_ok fun k => by
  fin_cases i <;> fin_cases k <;> simp [turnB] <;> norm_num [abs_of_neg]
example (L : Gauss.Limits) (v : Vec 3) := C86_rotate L turnB quatA turnB_rotation quatA_norm turnB_rows v

/-! ### Props/Rotate3D -/

/-- The axis (1, 2, 2). -/
noncomputable def axisA : Vec 3 := ⟨![1, 2, 2], true⟩
theorem axisA_bound (i : Fin 3) : |axisA.elem i| ≤ 10 := by fin_cases i <;> norm_num [axisA]
theorem axisA_exact : AxisExact axisA := fun c => by
  have h1 : CrossExact axisA (basisVec c) := by
    refine crossExact_big axisA_bound fun i => ?_
    fin_cases c <;> fin_cases i <;> simp [cross_apply, axisA, basisVec] <;> norm_num
  refine ⟨h1, crossExact_big axisA_bound fun i => ?_⟩
  rw [show (cross3 axisA (basisVec c)).elem = _ from h1]
  fin_cases c <;> fin_cases i <;> simp [cross_apply, axisA, basisVec] <;> norm_num
theorem axisA_sq : axisA.sqrMag = 9 := by rw [Vec.sqrMag_eq, dot3]; simp [axisA]; norm_num
theorem axisA_mag : axisA.mag = 3 := by
  unfold Vec.mag; rw [axisA_sq, show (9 : ℝ) = 3 ^ 2 by norm_num]; exact Real.sqrt_sq (by norm_num)
theorem axisA_long : epsilon ≤ axisA.mag := by
  have he2 := epsilon_lt
  norm_num at he2
  rw [axisA_mag]; linarith
example (u v : Fin 3 → ℝ) := C25_rodrigues ![3 / 5, 0, 4 / 5] u v (by simp [dotProduct, Fin.sum_univ_three]; norm_num) 2 1 (1 / 2)
example (q : Quat) (v : Fin 3 → ℝ) := C25_quaternion q axisA 1 axisA_long v
example (v : Vec 3) (q : Quat) : ∃ m, RotMat.rotationAxis axisA 1 = .ok m ∧ IsRotation m ∧ (v.rotateM m).elem = rodrigues (dir axisA) 1 v.elem ∧
    (v.rotateM m).elem = act (toH (q.rotationAxis axisA 1)) v.elem := by
  have he := epsilon_pos
  have he2 := epsilon_lt
  norm_num at he2
  obtain ⟨m, hm⟩ := C25_matrix_defined axisA 1 axisA_exact (by rw [axisA_sq]; nlinarith)
  have h := C25_matrix axisA 1 m hm axisA_exact v
  exact ⟨m, hm, h.1, h.2.2.2, (C25_agree_matrix q axisA 1 m hm axisA_exact axisA_long v).1⟩
theorem axis_dot : DotExact (⟨![1, 0, 0], true⟩ : Vec 3) axisA :=
  dotExact_big (fun i => by fin_cases i <;> simp) (Or.inr (by simp [axisA, dotProduct, Fin.sum_univ_three]; norm_num))
theorem axis_perp : CrossExact axisA (axisPerp ⟨![1, 0, 0], true⟩ axisA) := by
  refine crossExact_big axisA_bound fun i => ?_
  have hp : (axisPerp ⟨![1, 0, 0], true⟩ axisA).elem = ![8 / 9, -2 / 9, -2 / 9] := by
    unfold axisPerp
    rw [Vec.sub_elem, Vec.divBy_elem, Vec.scale_elem, axis_dot, axisA_sq]
    apply ext3 <;> simp [dot3, axisA] <;> norm_num
  rw [hp]
  fin_cases i <;> simp [cross_apply, axisA] <;> norm_num
theorem axis_some (v : Vec 3) : ∃ r, v.rotateAxis axisA 1 = some r := by
  unfold Vec.rotateAxis
  rw [if_neg (by rw [axisA_sq]; norm_num)]
  exact ⟨_, rfl⟩
example : ∃ r, (⟨![1, 0, 0], true⟩ : Vec 3).rotateAxis axisA 1 = some r ∧ r.elem = rodrigues (dir axisA) 1 ![1, 0, 0] := by
  obtain ⟨r, h⟩ := axis_some ⟨![1, 0, 0], true⟩
  exact ⟨r, h, C25_exact _ _ _ r h axis_dot axis_perp⟩
example (q : Quat) (v : Vec 3) : ∃ r, v.rotateAxis axisA 1 = some r ∧ len (r.elem - rodrigues (dir axisA) 1 v.elem) ≤ 10 * epsilon * (min v.mag axisA.mag / axisA.mag) ∧
    (r - v.rotateQ (q.rotationAxis axisA 1)).mag ≤ 16 * epsilon * v.mag + 10 * epsilon * (min v.mag axisA.mag / axisA.mag) := by
  obtain ⟨r, h⟩ := axis_some v
  exact ⟨r, h, C25_error v axisA 1 r h, C25_agree_quaternion q v axisA 1 axisA_long r h⟩
example : ∃ r, (⟨![2, 4, 4], true⟩ : Vec 3).rotateAxis axisA 1 = some r ∧ r.elem = ![2, 4, 4] := by
  obtain ⟨r, h⟩ := axis_some ⟨![2, 4, 4], true⟩
  refine ⟨r, h, C25_fixes_axis _ axisA 1 2 r h (by funext i; fin_cases i <;> simp [axisA] <;> norm_num) ?_⟩
  exact dotExact_big (fun i => by fin_cases i <;> norm_num) (Or.inr (by simp [axisA, dotProduct, Fin.sum_univ_three]; norm_num))

/-! ### Props/QuatShapes, Props/ShapeCoords, Props/ShapeRotate, Props/Turning -/

noncomputable def segB : Seg 3 := ⟨⟨![1, 0, 0], true⟩, ⟨![3, 4, 2], true⟩⟩
noncomputable def ballC : Ball 3 := ⟨⟨![1, 2, 3], true⟩, 2⟩
noncomputable def boxD : Box 3 := ⟨⟨![0, 1, 0], true⟩, ⟨![2, 3, 4], true⟩⟩
/-- A box in a turned position. -/
noncomputable def rboxB : RBox 3 := ⟨⟨![1, 2, 0], true⟩, ⟨![3, -4, 5], true⟩, turnB⟩
noncomputable def origB : Pt 3 := ⟨![0, 0, 3], true⟩
example (p : Pt 3) := C70_ball_quaternion ballC quatB quatB_norm p
example : ∃ c, twoCorners.getCorner 1 = some c ∧
    ∃ d, ((twoCorners.toParentQ origB quatA).toLocalQ origB quatA).getCorner 1 = some d ∧ d.valid = c.valid := by
  obtain ⟨c, hc⟩ := Option.ne_none_iff_exists'.1
    (show twoCorners.getCorner 1 ≠ none from (convert_ne_none twoCorners.orient ⟨![1, 0], true⟩).2 ⟨rfl, Or.inl rfl, Or.inr rfl⟩)
  obtain ⟨d, h1, h2, -⟩ := (C68_polygon_quaternion_partial twoCorners origB quatA quatA_norm rfl rfl 1 c ⟨![1, 0], true⟩ rfl hc).1
  exact ⟨c, hc, d, h1, h2⟩
example := C68_segment segB origB turnB turnB_rotation rfl rfl boxD rfl rboxB turnB_rotation rfl rfl
example := C68_segment_quaternion segB origB quatB quatB_norm 1
example := C68_ball ballC (by norm_num [ballC]) origB turnB turnB_rotation rfl rfl boxD rfl rboxB turnB_rotation rfl rfl
example := C68_ball_quaternion ballC (by norm_num [ballC]) origB quatB quatB_norm
example := C68_corners [(⟨![1, 2, 3], true⟩ : Pt 3), ⟨![4, 5, 6], true⟩] origB turnB turnB_rotation rfl rfl boxD rfl rboxB turnB_rotation rfl rfl
example (L : Gauss.Limits) := C68_rotbox_parent L rboxB origB turnB turnB_rotation turnB_rotation 5
example := C68_rotbox_box rboxB boxD rfl
example (L : Gauss.Limits) := C68_rotbox_partial L rboxB origB turnB turnB_rotation turnB_rotation rfl rfl
example (s : Poly 3) := C68_polygon s origB turnB turnB_rotation rfl rfl boxD rfl rboxB turnB_rotation rfl rfl
/-- The box in the position of the axes and the quaternion of a half turn about the first axis. -/
example (x y : Fin 3 → ℝ) := C70_motion turnB turnB_rotation ![1, 2, 3] x y
example (x y : Fin 3 → ℝ) := C70_motion_quaternion quatB quatB_norm ![1, 2, 3] x y
example (p : Pt 3) := C70_segment segB turnB p 0 1 (by norm_num)
example (p : Pt 3) := C70_segment_quaternion segB quatB quatB_norm p 0 1 (by norm_num)
example (L : Gauss.Limits) (p : Pt 3) := C70_rotbox L rboxB turnB turnB_rotation turnB_rotation p 3 5
example (L : Gauss.Limits) : IsRotation (rboxB.rotatePointQ L quatA origB).orient :=
  (C70_rotbox_quaternion_partial L rboxB quatA turnB_rotation quatA_norm origB
    (quatA_ok fun i => by fin_cases i <;> simp [rboxB, origB, Pt.sub] <;> norm_num [abs_of_neg]) turnB_rows 5).2.2
example (p : Pt 3) := C70_corners [(⟨![1, 2, 3], true⟩ : Pt 3), ⟨![4, 5, 6], true⟩] turnB turnB_rotation p 0 1
example (s : Poly 3) := C70_polygon s turnB origB rfl rfl 1
example : ∃ t c, twoCorners.rotateCorner turnB 1 = some t ∧ twoCorners.getCorner 1 = some c ∧ t.getCorner 1 = some c := by
  obtain ⟨c, hc⟩ := Option.ne_none_iff_exists'.1
    (show twoCorners.getCorner 1 ≠ none from (convert_ne_none twoCorners.orient ⟨![1, 0], true⟩).2 ⟨rfl, Or.inl rfl, Or.inr rfl⟩)
  obtain ⟨t, ht⟩ := Option.ne_none_iff_exists'.1 ((C70_polygon_total twoCorners turnB (by simp [twoCorners]) 1).1 (by rw [hc]; simp))
  exact ⟨t, c, ht, hc, (C70_polygon_corner twoCorners t turnB turnB_rotation rfl 1 c (by simp [twoCorners]) ht hc).1⟩
example (j : Nat) (c : Pt 3) (hc : threeCorners.getCorner j = some c) :=
  C70_polygon_quaternion_partial threeCorners quatA quatA_norm rfl origB rfl
    (quatA_ok fun i => by fin_cases i <;> simp [threeCorners, origB, Pt.sub] <;> norm_num [abs_of_neg])
    (quatA_ok fun i => by fin_cases i <;> simp [threeCorners] <;> norm_num) (quatA_ok fun i => by fin_cases i <;> simp [threeCorners] <;> norm_num) j c hc
example := C70_segment_quaternion_center segB quatB quatB_norm 1 (by norm_num)
example (L : Gauss.Limits) := C70_rotbox_quaternion_corner_partial L rboxB quatA turnB_rotation quatA_norm turnB_rows 3 5

/-- The unit box in the position of the axes. -/
noncomputable def rboxI : RBox 3 := ⟨⟨![1, 2, 3], true⟩, ⟨![1, 1, 1], true⟩, RotMat.identity⟩
theorem rboxI_rows (i : Fin 3) : RotExact (⟨fun k => rboxI.orient.elem i k, true⟩ : Vec 3) quatA := quatA_ok fun k => by
  fin_cases i <;> fin_cases k <;> simp [rboxI, RotMat.identity] <;> norm_num
example (L : Gauss.Limits) (v : Vec 3) : ((rboxI.toParentQ L origB quatA).toLocalQ L origB quatA).corner.elem = ![1, 2, 3] := by
  refine (C68_rotbox_quaternion_partial L rboxI origB quatA quatA_norm isRotation_identity (quatA_ok fun i => ?_) (quatA_inv_ok fun i => ?_)
    (quatA_inv_ok fun i => ?_) (quatA_ok fun i => ?_) rboxI_rows (fun i => quatA_inv_ok fun k => ?_) v).1
  · fin_cases i <;> simp [rboxI, Pt.sub, Pt.origin] <;> norm_num
  · rw [quatA_rotate (quatA_ok fun i => by fin_cases i <;> simp [rboxI, Pt.sub, Pt.origin] <;> norm_num)]
    fin_cases i <;> simp [rboxI, Pt.sub, Pt.origin] <;> norm_num [abs_of_neg]
  · fin_cases i <;> simp [rboxI, Pt.sub, origB] <;> norm_num
  · rw [quatA_unrotate (quatA_inv_ok fun i => by fin_cases i <;> simp [rboxI, Pt.sub, origB] <;> norm_num)]
    fin_cases i <;> simp [rboxI, Pt.sub, origB] <;> norm_num [abs_of_neg]
  · have h : (rboxI.orient.rotateQ L quatA).elem i k = ((⟨fun k => rboxI.orient.elem i k, true⟩ : Vec 3).rotateQ quatA).elem k := by
      simp [RotMat.rotateQ, RotMat.checkNormalization, rboxI, RotMat.identity, quatA, maxNormAge]
    simp only [h]
    rw [quatA_rotate (rboxI_rows i)]
    fin_cases i <;> fin_cases k <;> simp [rboxI, RotMat.identity] <;> norm_num [abs_of_neg]
example : ((Time.run .init [.tEpoch 0, (.tNow 1 1 500000 (by decide)), .tDiff 2 0 1]).tdiff 2).fullTime = (-1500000 / 1000000, -1500000 % 1000000) :=
  C03_full_time [.tEpoch 0, (.tNow 1 1 500000 (by decide)), .tDiff 2 0 1] 2 (-1500000) (by decide)
theorem center_some : ∃ c, threeCorners.getCenter = some c := Option.ne_none_iff_exists'.1
  ((convert_ne_none threeCorners.orient _).2 ⟨rfl, Or.inl rfl, Or.inl rfl⟩)
example : ∃ t c, threeCorners.rotateCenter turnB = some t ∧ threeCorners.getCenter = some c ∧ t.getCenter = some c := by
  obtain ⟨c, hc⟩ := center_some
  obtain ⟨t, ht⟩ := Option.ne_none_iff_exists'.1 ((C70_polygon_total threeCorners turnB (by simp [threeCorners]) 1).2 (by rw [hc]; simp))
  exact ⟨t, c, ht, hc, (C70_polygon_center threeCorners t turnB turnB_rotation rfl c (by simp [threeCorners]) (by simp [threeCorners]) ht hc).1⟩
example : ∃ t c, threeCorners.rotateCenterQ quatA = some t ∧ threeCorners.getCenter = some c ∧
    t.getCenter = some ⟨about (act (toH quatA)) threeCorners.orient.origin.elem c.elem, c.valid⟩ := by
  obtain ⟨c, hc⟩ := center_some
  obtain ⟨t, ht⟩ : ∃ t, threeCorners.rotateCenterQ quatA = some t := by
    simp [Poly.rotateCenterQ, Orient.rotate2Q, threeCorners]
  exact ⟨t, c, ht, hc, (C70_polygon_quaternion_origin_partial threeCorners t quatA quatA_norm rfl
    (quatA_ok fun i => by fin_cases i <;> simp [threeCorners] <;> norm_num) (quatA_ok fun i => by fin_cases i <;> simp [threeCorners] <;> norm_num)
    (Or.inl ht) rfl).2 c (by simp [threeCorners]) hc⟩

end WFMath.Cases
