/- Property theorems C68 (polygons and quaternions), C70 (balls and quaternions), C85 (default matrices). -/
import Verif.Props.ShapeCoords

namespace WFMath
open Spec Matrix Gauss Quaternion

/-- C70, balls by a quaternion: the centre is turned about the fixed point, exactly when no product is flushed, otherwise within `16 ε` times its distance
from the fixed point; the radius stays. -/
theorem C70_ball_quaternion (b : Ball 3) (q : Quat) (hq : ‖toH q‖ = 1) (p : Pt 3) :
    (RotExact (b.center.sub p) q → (b.rotatePointQ q p).center.elem = about (act (toH q)) p.elem b.center.elem) ∧
    eucl (b.rotatePointQ q p).center.elem (about (act (toH q)) p.elem b.center.elem) ≤ 16 * epsilon * eucl b.center.elem p.elem ∧
    (b.rotatePointQ q p).radius = b.radius := by
  have h := C70_segment_quaternion ⟨b.center, b.center⟩ q hq p 0 0 (by omega)
  exact ⟨h.1, h.2.1, rfl⟩

/-- C85: what the conversions start from. A matrix that was never set is invalid, so is a quaternion that was never set, and everything made from
them but the matrix of the quaternion is invalid too. -/
theorem C85_default (L : Limits) (m : RotMat 3) (q : Quat) : (RotMat.default : RotMat 3).valid = false ∧ Quat.default.valid = false ∧
    (Quat.fromRotMatrix L RotMat.default).1.valid = false ∧ (Quat.default.mul q).valid = false ∧ (q.mul Quat.default).valid = false ∧
    (RotMat.rotateQ L RotMat.default q).valid = false ∧ (RotMat.rotateQ L m Quat.default).valid = false ∧
    (q.rotateMat L RotMat.default).valid = false ∧ (Quat.default.rotateMat L m).valid = false := by
  have a := C85_partial L m q Quat.default
  have b := C85_partial L RotMat.default q q
  have c := C85_partial L m Quat.default q
  refine ⟨rfl, rfl, b.1, ?_, ?_, ?_, ?_, ?_, ?_⟩
  · rw [c.2.1]; rfl
  · rw [a.2.1]; exact Bool.and_false _
  · rw [b.2.2.2.2.2.2]; rfl
  · rw [a.2.2.2.2.2.2]; exact Bool.and_false _
  · rw [b.2.2.2.2.2.1]; exact Bool.and_false _
  · rw [c.2.2.2.2.2.1]; rfl

/-! ### C68 polygons and quaternions -/

theorem turn_sixteen {q : Quat} (hq : ‖toH q‖ = 1) (v : Vec 3) : len ((v.rotateQ q).elem - act (toH q) v.elem) ≤ 16 * epsilon * len v.elem := by
  have := rotateQ_len (v := v) hq
  rwa [mag_eq_len] at this

/-- Turning a vector twice by `p` and twice by the inverse of `p` gives it back up to rounding below the cut-off. -/
theorem four_turns {p r : Quat} (hp : ‖toH p‖ = 1) (hr : ‖toH r‖ = 1) (hrp : toH r * toH p = 1) (v : Vec 3) :
    len (((((v.rotateQ p).rotateQ p).rotateQ r).rotateQ r).elem - v.elem) ≤ 99 * epsilon * len v.elem := by
  have he := epsilon_pos
  have he2 := epsilon_lt
  norm_num at he2
  have hr' := normSq_eq_one.2 hr
  have hp' := normSq_eq_one.2 hp
  have tri : ∀ a b c : Fin 3 → ℝ, len (a - c) ≤ len (a - b) + len (b - c) := fun a b c => by
    have := len_add_le (a - b) (b - c)
    rwa [sub_add_sub_cancel] at this
  have two : ∀ w : Vec 3, len (((w.rotateQ p).rotateQ r).elem - w.elem) ≤ 33 * epsilon * len w.elem := fun w => by
    have := rotateQ_twice (v := w) hp hr
    rwa [hrp, act_one, mag_eq_len] at this
  have a1 := turn_sixteen hp v
  have a2 := two (v.rotateQ p)
  have a3 := two v
  have a4 := turn_sixteen hr (((v.rotateQ p).rotateQ p).rotateQ r)
  have a5 := turn_sixteen hr (v.rotateQ p)
  have b1 : len (v.rotateQ p).elem ≤ (1 + 16 * epsilon) * len v.elem := by
    have := len_add_le ((v.rotateQ p).elem - act (toH p) v.elem) (act (toH p) v.elem)
    rw [sub_add_cancel, len_act hp'] at this
    linarith
  generalize v.rotateQ p = w at *
  have b2 : len ((w.rotateQ p).rotateQ r).elem ≤ (1 + 33 * epsilon) * len w.elem := by
    have := len_add_le (((w.rotateQ p).rotateQ r).elem - w.elem) w.elem
    rw [sub_add_cancel] at this
    linarith
  generalize (w.rotateQ p).rotateQ r = u at *
  have c1 := tri (u.rotateQ r).elem (act (toH r) u.elem) v.elem
  have c2 := tri (act (toH r) u.elem) (act (toH r) w.elem) v.elem
  have c3 := tri (act (toH r) w.elem) (w.rotateQ r).elem v.elem
  have c4 : len (act (toH r) u.elem - act (toH r) w.elem) = len (u.elem - w.elem) := by rw [← act_sub hr', len_act hr']
  have c5 : len (act (toH r) w.elem - (w.rotateQ r).elem) = len ((w.rotateQ r).elem - act (toH r) w.elem) := by rw [← len_neg, neg_sub]
  have hv : 0 ≤ len v.elem := len_nonneg _
  have hw : 0 ≤ len w.elem := len_nonneg _
  generalize len v.elem = V at *
  generalize len w.elem = W at *
  generalize len u.elem = U at *
  generalize epsilon = e at *
  have hU : U ≤ (1 + 50 * e) * V := by
    have h1 := mul_le_mul_of_nonneg_left b1 (show (0 : ℝ) ≤ 1 + 33 * e by positivity)
    have h2 : e * e * V ≤ e * V * (1 / 10000) := by nlinarith [mul_nonneg he.le hv]
    nlinarith
  have hW2 : 49 * e * W ≤ 49 * e * ((1 + 16 * e) * V) := by gcongr
  have hU2 : 16 * e * U ≤ 16 * e * ((1 + 50 * e) * V) := by gcongr
  have : e * e * V ≤ e * V * (1 / 10000) := by nlinarith [mul_nonneg he.le hv]
  nlinarith

/-- C68 (part), polygons and quaternions: although the corners are not converted as points are (`C68_polygon_false`), the two conversions undo each other
up to the cut-off: every corner comes back within `33 ε` of the size of the origin of the plane (or its distance from the origin of the coordinates) and `99 ε` of the
component of the corner along the first axis. -/
theorem C68_polygon_quaternion_partial (s : Poly 3) (o : Pt 3) (q : Quat) (hq : ‖toH q‖ = 1) (ho : o.valid = true) (hv : q.vec.valid = true) (j : Nat) (c : Pt 3)
    (x : Pt 2) (hx : s.poly.getCorner j = some x) (hc : s.getCorner j = some c) :
    (∃ d, ((s.toParentQ o q).toLocalQ o q).getCorner j = some d ∧ d.valid = c.valid ∧
      eucl d.elem c.elem ≤ 33 * epsilon * len s.orient.origin.elem + 99 * epsilon * (|x.elem 0| * len s.orient.ax0.elem)) ∧
    (∃ d, ((s.toLocalQ o q).toParentQ o q).getCorner j = some d ∧ d.valid = c.valid ∧
      eucl d.elem c.elem ≤ 33 * epsilon * eucl s.orient.origin.elem o.elem + 99 * epsilon * (|x.elem 0| * len s.orient.ax0.elem)) := by
  have hq' := normSq_eq_one.2 hq
  have hi : ‖toH q.inverse‖ = 1 := by rw [toH_inverse, norm_star, hq]
  have hvi : q.inverse.vec.valid = true := by rw [← hv]; rfl
  have hr : ∀ (v : Vec 3) (p : Quat), p.vec.valid = true → (v.rotateQ p).valid = v.valid := fun v p h => by
    have : ∀ (v : Vec 3) (q : Quat), (v.rotateQ q).valid = (v.valid && q.vec.valid) := by
      intro v q; simp [Vec.rotateQ, cross3]; cases v.valid <;> cases q.vec.valid <;> simp
    rw [this, h, Bool.and_true]
  have e1 : toH q.inverse * toH q = 1 := by rw [toH_inverse]; exact star_mul_unit hq'
  have e2 : toH q * toH q.inverse = 1 := by
    have := star_mul_unit (normSq_eq_one.2 hi)
    rw [toH_inverse] at this ⊢; rwa [star_star] at this
  rw [getCorner_of hx] at hc
  obtain ⟨g0, g1, g2, g3, g4⟩ := convert_some hc
  obtain ⟨k1, k2⟩ := C31_quaternion_error s.orient.origin o q hq
  rw [mag_eq_len, Pt.sub_elem] at k1 k2
  rw [Pt.origin_elem, sub_zero] at k1
  have main : ∀ (a : Vec 3) (b : Fin 3 → ℝ) (E : ℝ), len (b - s.orient.origin.elem) ≤ E → len (a.elem - s.orient.ax0.elem) ≤ 99 * epsilon * len s.orient.ax0.elem →
      eucl (b + x.elem 0 • a.elem + x.elem 1 • s.orient.ax1.elem) c.elem ≤ E + 99 * epsilon * (|x.elem 0| * len s.orient.ax0.elem) := by
    intro a b E h1 h2
    rw [g3, eucl_eq_len]
    have : b + x.elem 0 • a.elem + x.elem 1 • s.orient.ax1.elem - s.orient.at (x.elem 0) (x.elem 1) =
        (b - s.orient.origin.elem) + x.elem 0 • (a.elem - s.orient.ax0.elem) := by unfold Orient.at; module
    rw [this]
    refine (len_add_le _ _).trans ?_
    rw [len_smul]
    have := mul_le_mul_of_nonneg_left h2 (abs_nonneg (x.elem 0))
    linarith
  constructor
  · refine ⟨_, (getCorner_of (s := (s.toParentQ o q).toLocalQ o q) hx).trans (convert_eq ?_ ?_ ?_), g4.symm, ?_⟩
    · show ((s.orient.origin.toParentQ o q).toLocalQ o q).valid = true
      simp [Pt.toLocalQ, Pt.toParentQ, hr, hv, hvi, g0, ho]
    · show ((((s.orient.ax0.rotateQ q).rotateQ q).rotateQ q.inverse).rotateQ q.inverse).valid = true ∨ _
      rw [hr _ _ hvi, hr _ _ hvi, hr _ _ hv, hr _ _ hv]; exact g1
    · exact g2
    · exact main _ _ _ k1 (four_turns hq hi e1 s.orient.ax0)
  · refine ⟨_, (getCorner_of (s := (s.toLocalQ o q).toParentQ o q) hx).trans (convert_eq ?_ ?_ ?_), g4.symm, ?_⟩
    · show ((s.orient.origin.toLocalQ o q).toParentQ o q).valid = true
      simp [Pt.toLocalQ, Pt.toParentQ, hr, hv, hvi, g0, ho]
    · show ((((s.orient.ax0.rotateQ q.inverse).rotateQ q.inverse).rotateQ q).rotateQ q).valid = true ∨ _
      rw [hr _ _ hv, hr _ _ hv, hr _ _ hvi, hr _ _ hvi]; exact g1
    · exact g2
    · rw [eucl_eq_len s.orient.origin.elem]
      exact main _ _ _ k2 (four_turns hi hq e2 s.orient.ax0)

/-- The hypotheses are met by a corner of the polygon with two corners and a half turn. -/
example : ∃ c x, twoCorners.poly.getCorner 1 = some x ∧ twoCorners.getCorner 1 = some c ∧ c.elem = ![1, 0, 0] := by
  refine ⟨⟨![1, 0, 0], true⟩, ⟨![1, 0], true⟩, rfl, ?_, rfl⟩
  rw [getCorner_of (p := ⟨![1, 0], true⟩) rfl, convert_eq rfl (Or.inl rfl) (Or.inr rfl)]
  have : twoCorners.orient.at ((⟨![1, 0], true⟩ : Pt 2).elem 0) ((⟨![1, 0], true⟩ : Pt 2).elem 1) = ![1, 0, 0] := by
    unfold Orient.at twoCorners; funext i; fin_cases i <;> simp
  rw [this]

/-- C68 is false for polygons and quaternions in the other direction too: conversion to local coordinates by a half turn leaves the corner `(1, 0, 0)` where
it is, although the point goes to `(-1, 0, 0)`. -/
theorem C68_polygon_local_false : ∃ (q : Quat) (c : Pt 3), ‖toH q‖ = 1 ∧ twoCorners.getCorner 1 = some c ∧
    (c.toLocalQ Pt.origin q).elem = ![-1, 0, 0] ∧
    ((twoCorners.toLocalQ Pt.origin q).getCorner 1).map (·.elem) = some ![1, 0, 0] := by
  have ha : ∀ v : Vec 3, v.elem 2 = 0 → (v.rotateQ (⟨0, ⟨![0, 0, 1], true⟩, true, 1⟩ : Quat).inverse).elem = -v.elem := by
    intro v h
    rw [rotateQ_elem]
    have h0 : (⟨0, ⟨![0, 0, 1], true⟩, true, 1⟩ : Quat).inverse.vec.dot v = 0 :=
      Vec.dot_of_exact_zero (by simp [Quat.inverse, dotProduct, Fin.sum_univ_three, h])
    rw [h0]
    simp [Quat.inverse]
  have hcn : twoCorners.getCorner 1 = some ⟨![1, 0, 0], true⟩ := by
    rw [getCorner_of (p := ⟨![1, 0], true⟩) rfl, convert_eq rfl (Or.inl rfl) (Or.inr rfl)]
    have : twoCorners.orient.at ((⟨![1, 0], true⟩ : Pt 2).elem 0) ((⟨![1, 0], true⟩ : Pt 2).elem 1) = ![1, 0, 0] := by
      unfold Orient.at twoCorners; funext i; fin_cases i <;> simp
    rw [this]
  refine ⟨⟨0, ⟨![0, 0, 1], true⟩, true, 1⟩, _, ?_, hcn, ?_, ?_⟩
  · apply normSq_eq_one.1
    rw [normSq_def']; simp [toH]
  · unfold Pt.toLocalQ
    rw [Pt.addVec_elem, ha _ (by simp)]
    funext i; fin_cases i <;> simp
  · rw [getCorner_of (s := twoCorners.toLocalQ _ _) (p := ⟨![1, 0], true⟩) rfl, convert_eq rfl (Or.inl rfl) (Or.inr rfl)]
    rw [Option.map_some, Option.some.injEq]
    show ((⟨0, true⟩ : Pt 3).toLocalQ Pt.origin _).elem + (1 : ℝ) • (((⟨![1, 0, 0], true⟩ : Vec 3).rotateQ _).rotateQ _).elem + (0 : ℝ) • _ = _
    rw [ha _ (by rw [ha _ rfl]; simp), ha _ rfl]
    unfold Pt.toLocalQ
    rw [Pt.addVec_elem, ha _ (by simp)]
    funext i; fin_cases i <;> simp

end WFMath
