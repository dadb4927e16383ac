/- Property theorem C68: changing the coordinates of shapes. -/
import Verif.Props.ShapeRotate

namespace WFMath
open Spec Matrix Gauss Quaternion
variable {n : Nat}

theorem pt_local_parent (x o : Pt n) (m : RotMat n) (h : IsRotation m) (ho : o.valid = true) (hm : m.valid = true) :
    (x.toParent o m).toLocal o m = x ∧ (x.toLocal o m).toParent o m = x := by
  obtain ⟨h1, h2, -, -⟩ := C31_matrix x o m h
  constructor
  · ext i
    · rw [h1]
    · simp [Pt.toParent, Pt.toLocal, ho, hm]
  · ext i
    · rw [h2]
    · simp [Pt.toParent, Pt.toLocal, ho, hm]

theorem pt_local_parent_box (x : Pt n) (c : Box n) (hc : c.low.valid = true) :
    (x.toParentBox c).toLocalBox c = x ∧ (x.toLocalBox c).toParentBox c = x := by
  unfold Pt.toParentBox Pt.toLocalBox
  constructor <;> ext i <;> simp [hc]

theorem toParentRBox_eq (x : Pt n) (c : RBox n) : x.toParentRBox c = x.toParent c.corner c.orient := rfl
theorem toLocalRBox_eq (x : Pt n) (c : RBox n) : x.toLocalRBox c = x.toLocal c.corner c.orient := rfl

/-! ### Segments, balls, plane polygons -/

/-- C68, segments: the ends are converted one by one, and the two conversions undo each other, for an origin with a rotation
matrix and for coordinates given by a box or a rotated box. -/
theorem C68_segment (s : Seg n) (o : Pt n) (m : RotMat n) (h : IsRotation m) (ho : o.valid = true) (hm : m.valid = true)
    (c : Box n) (hc : c.low.valid = true) (r : RBox n) (hr : IsRotation r.orient) (hrc : r.corner.valid = true) (hro : r.orient.valid = true) :
    (∀ j, (s.toParent o m).getCorner j = (s.getCorner j).toParent o m ∧ (s.toLocal o m).getCorner j = (s.getCorner j).toLocal o m) ∧
    (s.toParent o m).toLocal o m = s ∧ (s.toLocal o m).toParent o m = s ∧
    (s.toParentBox c).toLocalBox c = s ∧ (s.toLocalBox c).toParentBox c = s ∧
    (s.toParentRBox r).toLocalRBox r = s ∧ (s.toLocalRBox r).toParentRBox r = s := by
  have e : ∀ (a b a' b' : Pt n), a = a' → b = b' → (⟨a, b⟩ : Seg n) = ⟨a', b'⟩ := by rintro _ _ _ _ rfl rfl; rfl
  refine ⟨fun j => ?_, e _ _ _ _ (pt_local_parent _ o m h ho hm).1 (pt_local_parent _ o m h ho hm).1,
    e _ _ _ _ (pt_local_parent _ o m h ho hm).2 (pt_local_parent _ o m h ho hm).2,
    e _ _ _ _ (pt_local_parent_box _ c hc).1 (pt_local_parent_box _ c hc).1,
    e _ _ _ _ (pt_local_parent_box _ c hc).2 (pt_local_parent_box _ c hc).2,
    e _ _ _ _ (pt_local_parent _ _ _ hr hrc hro).1 (pt_local_parent _ _ _ hr hrc hro).1,
    e _ _ _ _ (pt_local_parent _ _ _ hr hrc hro).2 (pt_local_parent _ _ _ hr hrc hro).2⟩
  unfold Seg.getCorner Seg.toParent Seg.toLocal
  constructor <;> split_ifs <;> rfl

/-- C68, segments and quaternions: exact up to the products that are flushed to 0. -/
theorem C68_segment_quaternion (s : Seg 3) (o : Pt 3) (q : Quat) (hq : ‖toH q‖ = 1) (j : Nat) :
    eucl (((s.toParentQ o q).toLocalQ o q).getCorner j).elem (s.getCorner j).elem ≤ 33 * epsilon * eucl (s.getCorner j).elem 0 ∧
    eucl (((s.toLocalQ o q).toParentQ o q).getCorner j).elem (s.getCorner j).elem ≤ 33 * epsilon * eucl (s.getCorner j).elem o.elem := by
  have h : ∀ x : Pt 3, eucl ((x.toParentQ o q).toLocalQ o q).elem x.elem ≤ 33 * epsilon * eucl x.elem 0 ∧
      eucl ((x.toLocalQ o q).toParentQ o q).elem x.elem ≤ 33 * epsilon * eucl x.elem o.elem := by
    intro x
    obtain ⟨h1, h2⟩ := C31_quaternion_error x o q hq
    rw [mag_eq_len, Pt.sub_elem] at h1 h2
    rw [eucl_eq_len, eucl_eq_len, eucl_eq_len, eucl_eq_len]
    exact ⟨h1, h2⟩
  unfold Seg.getCorner Seg.toParentQ Seg.toLocalQ
  split_ifs
  · exact h s.p2
  · exact h s.p1

/-- C68, balls. -/
theorem C68_ball (b : Ball n) (hb : 0 ≤ b.radius) (o : Pt n) (m : RotMat n) (h : IsRotation m) (ho : o.valid = true) (hm : m.valid = true)
    (c : Box n) (hc : c.low.valid = true) (r : RBox n) (hr : IsRotation r.orient) (hrc : r.corner.valid = true) (hro : r.orient.valid = true) :
    (b.toParent o m).toLocal o m = b ∧ (b.toLocal o m).toParent o m = b ∧
    (b.toParentBox c).toLocalBox c = b ∧ (b.toLocalBox c).toParentBox c = b ∧
    (b.toParentRBox r).toLocalRBox r = b ∧ (b.toLocalRBox r).toParentRBox r = b := by
  have e : ∀ x : Pt n, x = b.center → Ball.mk' x b.radius = b := by
    rintro _ rfl; unfold Ball.mk'; rw [if_neg (not_lt.2 hb)]
  have hk : ∀ x : Pt n, Ball.mk' x b.radius = ⟨x, b.radius⟩ := by
    intro x; unfold Ball.mk'; simp [hb]
  refine ⟨?_, ?_, ?_, ?_, ?_, ?_⟩
  · unfold Ball.toParent Ball.toLocal; rw [hk]; exact e _ (pt_local_parent _ o m h ho hm).1
  · unfold Ball.toParent Ball.toLocal; rw [hk]; exact e _ (pt_local_parent _ o m h ho hm).2
  · unfold Ball.toParentBox Ball.toLocalBox; rw [hk]; exact e _ (pt_local_parent_box _ c hc).1
  · unfold Ball.toParentBox Ball.toLocalBox; rw [hk]; exact e _ (pt_local_parent_box _ c hc).2
  · unfold Ball.toParentRBox Ball.toLocalRBox; rw [hk]; exact e _ (pt_local_parent _ _ _ hr hrc hro).1
  · unfold Ball.toParentRBox Ball.toLocalRBox; rw [hk]; exact e _ (pt_local_parent _ _ _ hr hrc hro).2

/-- C68, balls and quaternions. -/
theorem C68_ball_quaternion (b : Ball 3) (hb : 0 ≤ b.radius) (o : Pt 3) (q : Quat) (hq : ‖toH q‖ = 1) :
    ((b.toParentQ o q).toLocalQ o q).radius = b.radius ∧ ((b.toLocalQ o q).toParentQ o q).radius = b.radius ∧
    eucl ((b.toParentQ o q).toLocalQ o q).center.elem b.center.elem ≤ 33 * epsilon * eucl b.center.elem 0 ∧
    eucl ((b.toLocalQ o q).toParentQ o q).center.elem b.center.elem ≤ 33 * epsilon * eucl b.center.elem o.elem := by
  obtain ⟨h1, h2⟩ := C31_quaternion_error b.center o q hq
  rw [mag_eq_len, Pt.sub_elem] at h1 h2
  have hk : ∀ x : Pt 3, Ball.mk' x b.radius = ⟨x, b.radius⟩ := by
    intro x; unfold Ball.mk'; simp [hb]
  unfold Ball.toParentQ Ball.toLocalQ
  rw [hk, hk]
  simp only [hk]
  rw [eucl_eq_len, eucl_eq_len, eucl_eq_len, eucl_eq_len]
  exact ⟨trivial, trivial, h1, h2⟩

/-- C68, plane polygons with any number of corners. -/
theorem C68_corners (ps : Corners n) (o : Pt n) (m : RotMat n) (h : IsRotation m) (ho : o.valid = true) (hm : m.valid = true)
    (c : Box n) (hc : c.low.valid = true) (r : RBox n) (hr : IsRotation r.orient) (hrc : r.corner.valid = true) (hro : r.orient.valid = true) :
    (∀ j, (ps.toParent o m).getCorner j = (ps.getCorner j).map (·.toParent o m) ∧
      (ps.toLocal o m).getCorner j = (ps.getCorner j).map (·.toLocal o m)) ∧
    (ps.toParent o m).toLocal o m = ps ∧ (ps.toLocal o m).toParent o m = ps ∧
    (ps.toParentBox c).toLocalBox c = ps ∧ (ps.toLocalBox c).toParentBox c = ps ∧
    (ps.toParentRBox r).toLocalRBox r = ps ∧ (ps.toLocalRBox r).toParentRBox r = ps := by
  have e : ∀ f g : Pt n → Pt n, (∀ x, g (f x) = x) → (ps.map f).map g = ps := by
    intro f g hfg; rw [List.map_map]; exact (List.map_congr_left (g := id) fun x _ => hfg x).trans (List.map_id ps)
  refine ⟨fun j => ⟨List.getElem?_map .., List.getElem?_map ..⟩, e _ _ fun x => (pt_local_parent _ o m h ho hm).1,
    e _ _ fun x => (pt_local_parent _ o m h ho hm).2, e _ _ fun x => (pt_local_parent_box _ c hc).1,
    e _ _ fun x => (pt_local_parent_box _ c hc).2, e _ _ fun x => (pt_local_parent _ _ _ hr hrc hro).1,
    e _ _ fun x => (pt_local_parent _ _ _ hr hrc hro).2⟩

/-! ### Rotated boxes -/

/-- C68, rotated boxes: conversion to parent coordinates converts every corner. -/
theorem C68_rotbox_parent (L : Limits) (r : RBox n) (o : Pt n) (m : RotMat n) (hr : IsRotation r.orient) (h : IsRotation m) (j : Nat) :
    ((r.toParent L o m).getCorner j).map (·.elem) = (r.getCorner j).map fun c => (c.toParent o m).elem := by
  unfold RBox.getCorner
  split_ifs with h1 h2
  · rfl
  · simp only [Option.map_some, Pt.addVec_elem, RotMat.rotateM_elem, RBox.toParent, Pt.toParent, Pt.sub_elem, Pt.origin_elem, sub_zero]
    rw [RotMat.prod_elem hr.orth h.orth, ← vecMul_vecMul, add_vecMul, ← add_assoc]
  · rfl

/-- C68, rotated boxes: conversions by an axis box undo each other. -/
theorem C68_rotbox_box (r : RBox n) (c : Box n) (hc : c.low.valid = true) :
    (r.toParentBox c).toLocalBox c = r ∧ (r.toLocalBox c).toParentBox c = r := by
  unfold RBox.toParentBox RBox.toLocalBox
  constructor
  · have := (pt_local_parent_box r.corner c hc).1
    simp [this]
  · have := (pt_local_parent_box r.corner c hc).2
    simp [this]

/-- C68, what holds of rotated boxes and matrices: the round trips restore the first corner and the size, and restore the
orientation `A` exactly when `M A M = A` for the rotation `M` (which rotations by other than half turns do not satisfy when
`A` commutes with `M`). -/
theorem C68_rotbox_partial (L : Limits) (r : RBox n) (o : Pt n) (m : RotMat n) (hr : IsRotation r.orient) (h : IsRotation m)
    (ho : o.valid = true) (hm : m.valid = true) :
    ((r.toParent L o m).toLocal L o m).corner = r.corner ∧ ((r.toParent L o m).toLocal L o m).size = r.size ∧
    ((r.toLocal L o m).toParent L o m).corner = r.corner ∧ ((r.toLocal L o m).toParent L o m).size = r.size ∧
    (((r.toParent L o m).toLocal L o m).orient.elem = r.orient.elem ↔ m.elem * r.orient.elem * m.elem = r.orient.elem) ∧
    (((r.toLocal L o m).toParent L o m).orient.elem = r.orient.elem ↔ m.elem * r.orient.elem * m.elem = r.orient.elem) := by
  refine ⟨(pt_local_parent _ o m h ho hm).1, rfl, (pt_local_parent _ o m h ho hm).2, rfl, ?_, ?_⟩
  · show (RotMat.prod L m (RotMat.prod L r.orient m)).elem = _ ↔ _
    rw [RotMat.prod_elem h.orth (IsRotation.prod hr h).orth, RotMat.prod_elem hr.orth h.orth, Matrix.mul_assoc]
  · show (RotMat.prod L (RotMat.prod L m r.orient) m).elem = _ ↔ _
    rw [RotMat.prod_elem (IsRotation.prod h hr).orth h.orth, RotMat.prod_elem h.orth hr.orth]

/-- C68 is false for rotated boxes and matrices: with a quarter turn neither round trip restores the orientation, and
conversion to local coordinates does not convert the corners. The rotated box used as a coordinate system fails the
same way. -/
theorem C68_false (L : Limits) : ∃ (r : RBox 2) (o : Pt 2) (m : RotMat 2), IsRotation r.orient ∧ IsRotation m ∧ m.valid = true ∧
    r.orient.valid = true ∧ o.valid = true ∧
    ((r.toParent L o m).toLocal L o m).orient.elem = -r.orient.elem ∧
    ((r.toLocal L o m).toParent L o m).orient.elem = -r.orient.elem ∧
    ((r.toParentRBox L ⟨o, r.size, m⟩).toLocalRBox L ⟨o, r.size, m⟩).orient.elem = -r.orient.elem ∧
    (∃ c, r.getCorner 1 = some c ∧ ((r.toLocal L o m).getCorner 1).map (·.elem) ≠ some (c.toLocal o m).elem) := by
  have hI : (RotMat.identity : RotMat 2).elem = 1 := rfl
  have hq := quarter_isRotation
  have hi := isRotation_identity (n := 2)
  have hQQ : quarter.elem * quarter.elem = -1 := by
    ext i j; fin_cases i <;> fin_cases j <;> simp [quarter, Matrix.mul_apply]
  have e1 : (RotMat.prod L quarter (RotMat.prod L RotMat.identity quarter)).elem = -(RotMat.identity : RotMat 2).elem := by
    rw [RotMat.prod_elem hq.orth (IsRotation.prod hi hq).orth, RotMat.prod_elem hi.orth hq.orth, hI, Matrix.one_mul, hQQ]
  have e2 : (RotMat.prod L (RotMat.prod L quarter RotMat.identity) quarter).elem = -(RotMat.identity : RotMat 2).elem := by
    rw [RotMat.prod_elem (IsRotation.prod hq hi).orth hq.orth, RotMat.prod_elem hq.orth hi.orth, hI, Matrix.mul_one, hQQ]
  refine ⟨⟨Pt.origin, ⟨![1, 0], true⟩, RotMat.identity⟩, Pt.origin, quarter, hi, hq, rfl, rfl, rfl, e1, e2, e1, ?_⟩
  refine ⟨_, rfl, ?_⟩
  unfold RBox.getCorner
  rw [if_pos (by decide), if_neg (by decide)]
  simp only [Option.map_some, ne_eq, Option.some.injEq]
  intro h
  have h1 := congrFun h 1
  have hv : (fun j : Fin 2 => if Nat.testBit 1 j = true then (![1, 0] : Fin 2 → ℝ) j else 0) = ![1, 0] := by
    funext j; fin_cases j <;> simp
  simp only [RBox.toLocal, Pt.toLocal, Pt.addVec_elem, Pt.sub_elem, Pt.origin_elem, RotMat.rotateM_elem, RotMat.mulVec_elem, zero_add, sub_zero,
    RotMat.prod_elem hq.orth hi.orth, hI, Matrix.mul_one, vecMul_one, hv] at h1
  simp [RBox.getCorner, quarter, mulVec, vecMul, dotProduct, Fin.sum_univ_two] at h1
  norm_num at h1

/-- C68, rotated boxes and quaternions, when no product is flushed to 0: corners are converted one by one and the
round trips restore corner, size and the effect of the orientation. -/
theorem C68_rotbox_quaternion_partial (L : Limits) (r : RBox 3) (o : Pt 3) (q : Quat) (hq : ‖toH q‖ = 1) (hr : IsRotation r.orient)
    (h1 : RotExact (r.corner.sub Pt.origin) q) (h2 : RotExact ((r.corner.sub Pt.origin).rotateQ q) q.inverse)
    (h3 : RotExact (r.corner.sub o) q.inverse) (h4 : RotExact ((r.corner.sub o).rotateQ q.inverse) q)
    (h5 : RowsExact r.orient q) (h6 : RowsExact (r.orient.rotateQ L q) q.inverse) (v : Vec 3) :
    ((r.toParentQ L o q).toLocalQ L o q).corner.elem = r.corner.elem ∧
    ((r.toParentQ L o q).toLocalQ L o q).size = r.size ∧
    ((r.toLocalQ L o q).toParentQ L o q).corner.elem = r.corner.elem ∧
    (v.rotateM ((r.toParentQ L o q).toLocalQ L o q).orient).elem = (v.rotateM r.orient).elem := by
  obtain ⟨a, b⟩ := C31_quaternion r.corner o q hq h1 h2 h3 h4
  refine ⟨a, rfl, b, ?_⟩
  have hi : ‖toH q.inverse‖ = 1 := by rw [toH_inverse, norm_star, hq]
  have hq' := normSq_eq_one.2 hq
  have c1 := C86_rotate L r.orient q hr hq h5 v
  have c2 := C86_rotate L (r.orient.rotateQ L q) q.inverse c1.1 hi h6 v
  show (v.rotateM ((r.orient.rotateQ L q).rotateQ L q.inverse)).elem = _
  rw [c2.2.2, c1.2.2, toH_inverse, act_star_act hq']

/-! ### Polygons in space -/

theorem toParent_at (o : Orient n) (c : Pt n) (m : RotMat n) (x y : ℝ) :
    (o.toParent c m).at x y = c.elem + (o.at x y) ᵥ* m.elem := by
  unfold Orient.at Orient.toParent Pt.toParent
  simp only [Pt.addVec_elem, Pt.sub_elem, Pt.origin_elem, sub_zero, RotMat.rotateM_elem, add_vecMul, smul_vecMul]
  module

theorem toLocal_at (o : Orient n) (c : Pt n) (m : RotMat n) (x y : ℝ) :
    (o.toLocal c m).at x y = m.elem *ᵥ (o.at x y - c.elem) := by
  unfold Orient.at Orient.toLocal Pt.toLocal
  simp only [Pt.addVec_elem, Pt.sub_elem, Pt.origin_elem, zero_add, RotMat.mulVec_elem, mulVec_add, mulVec_sub, mulVec_smul]
  module

/-- C68, polygons in space: the corners are converted one by one and the two conversions undo each other. -/
theorem C68_polygon (s : Poly n) (o : Pt n) (m : RotMat n) (h : IsRotation m) (ho : o.valid = true) (hm : m.valid = true)
    (c : Box n) (hc : c.low.valid = true) (r : RBox n) (hr : IsRotation r.orient) (hrc : r.corner.valid = true) (hro : r.orient.valid = true) :
    (∀ j x, s.getCorner j = some x → ((s.toParent o m).getCorner j) = some ⟨(x.toParent o m).elem, x.valid⟩ ∧
      ((s.toLocal o m).getCorner j) = some ⟨(x.toLocal o m).elem, x.valid⟩) ∧
    (s.toParent o m).toLocal o m = s ∧ (s.toLocal o m).toParent o m = s ∧
    (s.toParentBox c).toLocalBox c = s ∧ (s.toLocalBox c).toParentBox c = s ∧
    (s.toParentRBox r).toLocalRBox r = s ∧ (s.toLocalRBox r).toParentRBox r = s := by
  have hv1 : ∀ (v : Vec n) (m : RotMat n), m.valid = true → (v.rotateM m).valid = v.valid := fun v m hm => by
    simp [Vec.rotateM, RotMat.invMulVec, hm]
  have hv2 : ∀ (v : Vec n) (m : RotMat n), m.valid = true → (m.mulVec v).valid = v.valid := fun v m hm => by
    simp [RotMat.mulVec, hm]
  have r1 : ∀ (v : Vec n) (m : RotMat n), IsRotation m → m.valid = true → m.mulVec (v.rotateM m) = v := fun v m h hm => by
    ext i
    · rw [RotMat.mulVec_elem, RotMat.rotateM_elem, ← mulVec_transpose, mulVec_mulVec, h.orth, one_mulVec]
    · rw [hv2 _ _ hm, hv1 _ _ hm]
  have r2 : ∀ (v : Vec n) (m : RotMat n), IsRotation m → m.valid = true → (m.mulVec v).rotateM m = v := fun v m h hm => by
    ext i
    · rw [RotMat.rotateM_elem, RotMat.mulVec_elem, ← mulVec_transpose, mulVec_mulVec, h.orth', one_mulVec]
    · rw [hv1 _ _ hm, hv2 _ _ hm]
  have b1 : ∀ (o : Pt n) (m : RotMat n), IsRotation m → o.valid = true → m.valid = true → (s.toParent o m).toLocal o m = s := by
    intro o m h ho hm
    unfold Poly.toParent Poly.toLocal Orient.toParent Orient.toLocal
    simp only [(pt_local_parent _ o m h ho hm).1, r1 _ m h hm]
  have b2 : ∀ (o : Pt n) (m : RotMat n), IsRotation m → o.valid = true → m.valid = true → (s.toLocal o m).toParent o m = s := by
    intro o m h ho hm
    unfold Poly.toParent Poly.toLocal Orient.toParent Orient.toLocal
    simp only [(pt_local_parent _ o m h ho hm).2, r2 _ m h hm]
  refine ⟨?_, b1 o m h ho hm, b2 o m h ho hm, ?_, ?_, b1 _ _ hr hrc hro, b2 _ _ hr hrc hro⟩
  · intro j x hx
    obtain ⟨p, hp, hpx⟩ := getCorner_some hx
    obtain ⟨g0, g1, g2, g3, g4⟩ := convert_some hpx
    constructor
    · rw [getCorner_of (s := s.toParent o m) hp, show (s.toParent o m).orient = s.orient.toParent o m from rfl, convert_eq]
      · rw [toParent_at, g4]
        simp only [Pt.toParent, Pt.addVec_elem, RotMat.rotateM_elem, Pt.sub_elem, Pt.origin_elem, sub_zero, g3]
      · simp [Orient.toParent, Pt.toParent, g0, ho, hm]
      · rw [show (s.orient.toParent o m).ax0 = s.orient.ax0.rotateM m from rfl, hv1 _ _ hm]; exact g1
      · rw [show (s.orient.toParent o m).ax1 = s.orient.ax1.rotateM m from rfl, hv1 _ _ hm]; exact g2
    · rw [getCorner_of (s := s.toLocal o m) hp, show (s.toLocal o m).orient = s.orient.toLocal o m from rfl, convert_eq]
      · rw [toLocal_at, g4]
        simp only [Pt.toLocal, Pt.addVec_elem, RotMat.mulVec_elem, Pt.sub_elem, Pt.origin_elem, zero_add, g3]
      · simp [Orient.toLocal, Pt.toLocal, g0, ho, hm]
      · rw [show (s.orient.toLocal o m).ax0 = m.mulVec s.orient.ax0 from rfl, hv2 _ _ hm]; exact g1
      · rw [show (s.orient.toLocal o m).ax1 = m.mulVec s.orient.ax1 from rfl, hv2 _ _ hm]; exact g2
  · unfold Poly.toParentBox Poly.toLocalBox Orient.toParentBox Orient.toLocalBox
    simp only [(pt_local_parent_box _ c hc).1]
  · unfold Poly.toParentBox Poly.toLocalBox Orient.toParentBox Orient.toLocalBox
    simp only [(pt_local_parent_box _ c hc).2]

/-- C68 is false for polygons and quaternions: a half turn about the z axis leaves the corner `(1, 0, 0)` where it is,
although conversion of the point gives `(-1, 0, 0)`. -/
theorem C68_polygon_false : ∃ (q : Quat) (c : Pt 3), ‖toH q‖ = 1 ∧ twoCorners.getCorner 1 = some c ∧
    (c.toParentQ Pt.origin q).elem = ![-1, 0, 0] ∧
    ((twoCorners.toParentQ Pt.origin q).getCorner 1).map (·.elem) = some ![1, 0, 0] := by
  have ha : ∀ v : Vec 3, (v.rotateQ ⟨0, ⟨![0, 0, 1], true⟩, true, 1⟩).elem =
      -v.elem + (2 * (⟨![0, 0, 1], true⟩ : Vec 3).dot v) • ![0, 0, 1] := by
    intro v; rw [rotateQ_elem]; simp
  have hd : ∀ v : Vec 3, v.elem 2 = 0 → (⟨![0, 0, 1], true⟩ : Vec 3).dot v = 0 := by
    intro v h; exact Vec.dot_of_exact_zero (by simp [dotProduct, Fin.sum_univ_three, h])
  have hb : ∀ v : Vec 3, v.elem 2 = 0 → (v.rotateQ ⟨0, ⟨![0, 0, 1], true⟩, true, 1⟩).elem = -v.elem := by
    intro v h; rw [ha, hd v h]; simp
  have hcn : twoCorners.getCorner 1 = some ⟨![1, 0, 0], true⟩ := by
    rw [getCorner_of (p := ⟨![1, 0], true⟩) rfl, convert_eq rfl (Or.inl rfl) (Or.inr rfl)]
    have : twoCorners.orient.at ((⟨![1, 0], true⟩ : Pt 2).elem 0) ((⟨![1, 0], true⟩ : Pt 2).elem 1) = ![1, 0, 0] := by
      unfold Orient.at twoCorners; funext i; fin_cases i <;> simp
    rw [this]
  refine ⟨⟨0, ⟨![0, 0, 1], true⟩, true, 1⟩, _, ?_, hcn, ?_, ?_⟩
  · apply normSq_eq_one.1
    rw [normSq_def']; simp [toH]
  · unfold Pt.toParentQ
    rw [Pt.addVec_elem, hb _ (by simp)]
    funext i; fin_cases i <;> simp
  · rw [getCorner_of (s := twoCorners.toParentQ _ _) (p := ⟨![1, 0], true⟩) rfl, convert_eq rfl (Or.inl rfl) (Or.inr rfl)]
    rw [Option.map_some, Option.some.injEq]
    show ((⟨0, true⟩ : Pt 3).toParentQ Pt.origin _).elem + (1 : ℝ) • (((⟨![1, 0, 0], true⟩ : Vec 3).rotateQ _).rotateQ _).elem + (0 : ℝ) • _ = _
    rw [hb _ (by rw [hb _ rfl]; simp), hb _ rfl]
    unfold Pt.toParentQ
    rw [Pt.addVec_elem, hb _ (by simp)]
    funext i; fin_cases i <;> simp

/-- The hypotheses are met by the quarter turn, a valid origin, and a turned box as coordinate system. -/
example : IsRotation quarter ∧ quarter.valid = true ∧ (Pt.origin : Pt 2).valid = true ∧
    IsRotation (⟨Pt.origin, ⟨![1, 2], true⟩, quarter⟩ : RBox 2).orient := ⟨quarter_isRotation, rfl, rfl, quarter_isRotation⟩

end WFMath
