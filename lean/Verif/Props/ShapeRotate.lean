/- Property theorem C70: rotating shapes. -/
import Verif.Props.ShapeMoves
import Verif.Lemmas.Polygon
import Verif.Props.QuatMatrix
import Verif.Lemmas.QuatError

namespace WFMath
open Spec Matrix Gauss Quaternion
variable {n : Nat}

/-- Turning by a rotation matrix, as `Vector::rotate` does. -/
def byMat (m : RotMat n) : (Fin n → ℝ) → (Fin n → ℝ) := fun v => v ᵥ* m.elem

/-- C70: turning about a point leaves the point in place and preserves all distances. -/
theorem C70_motion (m : RotMat n) (h : IsRotation m) (c x y : Fin n → ℝ) :
    about (byMat m) c c = c ∧ eucl (about (byMat m) c x) (about (byMat m) c y) = eucl x y := by
  unfold about byMat
  refine ⟨by rw [sub_self, zero_vecMul, add_zero], ?_⟩
  rw [eucl_eq_len, eucl_eq_len, add_sub_add_left_eq_sub, ← sub_vecMul, len_vecMul h, sub_sub_sub_cancel_right]

/-- C70, quaternions: the same for the rotation of a unit quaternion. -/
theorem C70_motion_quaternion (q : Quat) (h : ‖toH q‖ = 1) (c x y : Fin 3 → ℝ) :
    about (act (toH q)) c c = c ∧ eucl (about (act (toH q)) c x) (about (act (toH q)) c y) = eucl x y := by
  have h' := normSq_eq_one.2 h
  unfold about
  refine ⟨?_, ?_⟩
  · have := act_smul h' 0 (0 : Fin 3 → ℝ)
    rw [zero_smul, zero_smul] at this
    rw [sub_self, this, add_zero]
  · rw [eucl_eq_len, eucl_eq_len, add_sub_add_left_eq_sub, ← act_sub h', len_act h', sub_sub_sub_cancel_right]

theorem pt_rotate (x p : Pt n) (m : RotMat n) : (x.rotate m p).elem = about (byMat m) p.elem x.elem := by
  unfold Pt.rotate about byMat
  rw [Pt.addVec_elem, RotMat.rotateM_elem, Pt.sub_elem]

theorem about_affine (m : RotMat n) (c x y : Fin n → ℝ) (t : ℝ) :
    about (byMat m) c ((1 - t) • x + t • y) = (1 - t) • about (byMat m) c x + t • about (byMat m) c y := by
  unfold about byMat
  have : (1 - t) • x + t • y - c = (1 - t) • (x - c) + t • (y - c) := by module
  rw [this, add_vecMul, smul_vecMul, smul_vecMul]
  module

/-! ### Segments -/

/-- C70, segments: every corner is turned about the fixed point, the named corner or the centre. -/
theorem C70_segment (s : Seg n) (m : RotMat n) (p : Pt n) (i j : Nat) (hj : j < 2) :
    ((s.rotatePoint m p).getCorner j).elem = about (byMat m) p.elem (s.getCorner j).elem ∧
    (s.rotateCorner m i ≠ none ↔ i < 2) ∧
    (∀ t, s.rotateCorner m i = some t → (t.getCorner j).elem = about (byMat m) (s.getCorner i).elem (s.getCorner j).elem) ∧
    ((s.rotateCenter m).getCorner j).elem = about (byMat m) s.getCenter.elem (s.getCorner j).elem ∧
    (s.rotateCenter m).getCenter.elem = s.getCenter.elem := by
  have h0 : ∀ p : Pt n, ((s.rotatePoint m p).getCorner j).elem = about (byMat m) p.elem (s.getCorner j).elem := by
    intro p
    unfold Seg.rotatePoint Seg.getCorner
    split_ifs <;> exact pt_rotate _ _ _
  refine ⟨h0 p, ?_, ?_, h0 _, ?_⟩
  · unfold Seg.rotateCorner; split_ifs <;> simp <;> omega
  · intro t ht
    have hc : ∀ x : Fin n → ℝ, about (byMat m) x x = x := fun x => by
      unfold about byMat; rw [sub_self, zero_vecMul, add_zero]
    unfold Seg.rotateCorner at ht
    split_ifs at ht with h1 h2
    · have hi : i = 1 := by omega
      subst hi
      rw [← Option.some.inj ht]
      unfold Seg.getCorner
      split_ifs with h3
      · exact (hc _).symm
      · exact pt_rotate _ _ _
    · have hi : i = 0 := by omega
      subst hi
      rw [← Option.some.inj ht]
      unfold Seg.getCorner
      split_ifs with h3
      · exact pt_rotate _ _ _
      · exact (hc _).symm
  · have hm : ∀ p q : Pt n, (Pt.midpoint p q (1 / 2)).elem = (1 - 1 / 2 : ℝ) • p.elem + (1 / 2 : ℝ) • q.elem := by
      intro p q; funext k
      show p.elem k * (1 - 1 / 2) + q.elem k * (1 / 2) = (1 - 1 / 2) * p.elem k + 1 / 2 * q.elem k
      ring
    have : (s.rotateCenter m).getCenter.elem = about (byMat m) s.getCenter.elem s.getCenter.elem := by
      conv_rhs => rw [show s.getCenter.elem = _ from hm s.p1 s.p2]
      rw [about_affine]
      unfold Seg.rotateCenter Seg.rotatePoint
      unfold Seg.getCenter
      rw [hm, pt_rotate, pt_rotate, hm]
    rw [this]
    unfold about byMat; rw [sub_self, zero_vecMul, add_zero]

/-- C70, segments by a quaternion: exactly when no product is flushed, otherwise within `16 ε` times the distance from the
fixed point; the named corner itself does not move at all. -/
theorem C70_segment_quaternion (s : Seg 3) (q : Quat) (hq : ‖toH q‖ = 1) (p : Pt 3) (i j : Nat) (hj : j < 2) :
    (RotExact ((s.getCorner j).sub p) q →
      ((s.rotatePointQ q p).getCorner j).elem = about (act (toH q)) p.elem (s.getCorner j).elem) ∧
    eucl ((s.rotatePointQ q p).getCorner j).elem (about (act (toH q)) p.elem (s.getCorner j).elem) ≤
      16 * epsilon * eucl (s.getCorner j).elem p.elem ∧
    (s.rotateCornerQ q i ≠ none ↔ i < 2) ∧
    (∀ t, s.rotateCornerQ q i = some t → t.getCorner i = s.getCorner i ∧
      eucl (t.getCorner j).elem (about (act (toH q)) (s.getCorner i).elem (s.getCorner j).elem) ≤
        16 * epsilon * eucl (s.getCorner j).elem (s.getCorner i).elem) := by
  have hr : ∀ x p : Pt 3, eucl (x.rotateQ q p).elem (about (act (toH q)) p.elem x.elem) ≤ 16 * epsilon * eucl x.elem p.elem := by
    intro x p
    have := rotateQ_len (v := x.sub p) hq
    rw [mag_eq_len] at this
    rw [eucl_eq_len, eucl_eq_len]
    unfold Pt.rotateQ about
    rw [Pt.addVec_elem, add_sub_add_left_eq_sub]
    exact this
  have he : ∀ x p : Pt 3, RotExact (x.sub p) q → (x.rotateQ q p).elem = about (act (toH q)) p.elem x.elem := by
    intro x p h
    unfold Pt.rotateQ about
    rw [Pt.addVec_elem, rotateQ_exact hq h, Pt.sub_elem]
  have hc : ∀ j (p : Pt 3), (s.rotatePointQ q p).getCorner j = (s.getCorner j).rotateQ q p := by
    intro j p; unfold Seg.rotatePointQ Seg.getCorner; split_ifs <;> rfl
  refine ⟨fun h => by rw [hc]; exact he _ _ h, by rw [hc]; exact hr _ _, ?_, ?_⟩
  · unfold Seg.rotateCornerQ; split_ifs <;> simp <;> omega
  · intro t ht
    have hs : ∀ x : Fin 3 → ℝ, eucl x (about (act (toH q)) x x) ≤ 16 * epsilon * eucl x x := by
      intro x; rw [(C70_motion_quaternion q hq x x x).1, eucl_self, mul_zero]
    unfold Seg.rotateCornerQ at ht
    split_ifs at ht with h1 h2
    · have hi : i = 1 := by omega
      subst hi
      rw [← Option.some.inj ht]
      refine ⟨rfl, ?_⟩
      unfold Seg.getCorner
      split_ifs with h3
      · exact hs _
      · exact hr _ _
    · have hi : i = 0 := by omega
      subst hi
      rw [← Option.some.inj ht]
      refine ⟨rfl, ?_⟩
      unfold Seg.getCorner
      split_ifs with h3
      · exact hr _ _
      · exact hs _

/-! ### Balls -/

/-- C70, balls: the centre is turned about the fixed point, the radius stays; turning about the centre does nothing. -/
theorem C70_ball (b : Ball n) (m : RotMat n) (p : Pt n) :
    (b.rotatePoint m p).center.elem = about (byMat m) p.elem b.center.elem ∧ (b.rotatePoint m p).radius = b.radius ∧
    b.rotateCenter m = b := ⟨pt_rotate _ _ _, rfl, rfl⟩

/-! ### Rotated boxes -/

theorem rbox_rotate_corner (L : Limits) (r : RBox n) (m : RotMat n) (hr : IsRotation r.orient) (hm : IsRotation m) (p : Pt n) (j : Nat) :
    ((r.rotatePoint L m p).getCorner j).map (·.elem) = (r.getCorner j).map fun c => about (byMat m) p.elem c.elem := by
  unfold RBox.getCorner
  split_ifs with h1 h2
  · simp only [Option.map_some]; exact congrArg some (pt_rotate _ _ _)
  · simp only [Option.map_some, Pt.addVec_elem, RotMat.rotateM_elem]
    show some ((r.corner.rotate m p).elem + _ ᵥ* (RotMat.prod L r.orient m).elem) = _
    rw [pt_rotate, RotMat.prod_elem hr.orth hm.orth, ← vecMul_vecMul]
    unfold about byMat
    congr 1
    rw [add_assoc, ← add_vecMul, sub_add_eq_add_sub]
    rfl
  · rfl

theorem rbox_rotate_center (L : Limits) (r : RBox n) (m : RotMat n) (hr : IsRotation r.orient) (hm : IsRotation m) (p : Pt n) :
    (r.rotatePoint L m p).getCenter.elem = about (byMat m) p.elem r.getCenter.elem := by
  unfold RBox.getCenter
  simp only [Pt.addVec_elem, RotMat.rotateM_elem]
  show (r.corner.rotate m p).elem + _ ᵥ* (RotMat.prod L r.orient m).elem = _
  rw [pt_rotate, RotMat.prod_elem hr.orth hm.orth, ← vecMul_vecMul]
  unfold about byMat
  rw [add_assoc, ← add_vecMul, sub_add_eq_add_sub]
  rfl

/-- C70, rotated boxes: every corner is turned about the fixed point, the named corner or the centre. -/
theorem C70_rotbox (L : Limits) (r : RBox n) (m : RotMat n) (hr : IsRotation r.orient) (hm : IsRotation m) (p : Pt n) (i j : Nat) :
    ((r.rotatePoint L m p).getCorner j).map (·.elem) = (r.getCorner j).map (fun c => about (byMat m) p.elem c.elem) ∧
    (r.rotateCorner L m i ≠ none ↔ i < 2 ^ n) ∧
    (∀ t c, r.rotateCorner L m i = some t → r.getCorner i = some c → (t.getCorner i).map (·.elem) = some c.elem ∧
      (t.getCorner j).map (·.elem) = (r.getCorner j).map fun x => about (byMat m) c.elem x.elem) ∧
    ((r.rotateCenter L m).getCorner j).map (·.elem) = (r.getCorner j).map (fun x => about (byMat m) r.getCenter.elem x.elem) ∧
    (r.rotateCenter L m).getCenter.elem = r.getCenter.elem := by
  refine ⟨rbox_rotate_corner L r m hr hm p j, ?_, ?_, rbox_rotate_corner L r m hr hm _ j, ?_⟩
  · rw [← (C64_corners r i).1]; unfold RBox.rotateCorner; simp
  · intro t c ht hc
    unfold RBox.rotateCorner at ht
    rw [hc] at ht
    rw [← Option.some.inj ht]
    refine ⟨?_, rbox_rotate_corner L r m hr hm _ j⟩
    rw [rbox_rotate_corner L r m hr hm, hc, Option.map_some, (C70_motion m hm _ c.elem c.elem).1]
  · rw [RBox.rotateCenter, rbox_rotate_center L r m hr hm, (C70_motion m hm _ r.getCenter.elem r.getCenter.elem).1]

/-- C70, rotated boxes by a quaternion, when no product is flushed to 0. -/
theorem C70_rotbox_quaternion_partial (L : Limits) (r : RBox 3) (q : Quat) (hr : IsRotation r.orient) (hq : ‖toH q‖ = 1) (p : Pt 3)
    (h1 : RotExact (r.corner.sub p) q) (h2 : RowsExact r.orient q) (j : Nat) :
    ((r.rotatePointQ L q p).getCorner j).map (·.elem) = (r.getCorner j).map (fun c => about (act (toH q)) p.elem c.elem) ∧
    (r.rotatePointQ L q p).getCenter.elem = about (act (toH q)) p.elem r.getCenter.elem ∧
    IsRotation (r.rotatePointQ L q p).orient := by
  have hq' := normSq_eq_one.2 hq
  have hc : (r.rotatePointQ L q p).corner.elem = about (act (toH q)) p.elem r.corner.elem := by
    show (r.corner.rotateQ q p).elem = _
    unfold Pt.rotateQ about
    rw [Pt.addVec_elem, rotateQ_exact hq h1, Pt.sub_elem]
  have hv : ∀ v : Vec 3, (r.rotatePointQ L q p).corner.elem + (v.rotateM (r.rotatePointQ L q p).orient).elem =
      about (act (toH q)) p.elem (r.corner.elem + (v.rotateM r.orient).elem) := by
    intro v
    rw [show (r.rotatePointQ L q p).orient = RotMat.rotateQ L r.orient q from rfl, (C86_rotate L r.orient q hr hq h2 v).2.2, hc]
    unfold about
    rw [add_assoc, ← act_add hq', sub_add_eq_add_sub]
  refine ⟨?_, hv _, (C86_rotate L r.orient q hr hq h2 r.size).1⟩
  unfold RBox.getCorner
  split_ifs with h3 h4
  · exact congrArg some hc
  · exact congrArg some (hv _)
  · rfl

/-! ### Lines and plane polygons -/

theorem barycenter_about (ps : Corners n) (hne : ps ≠ []) (m : RotMat n) (p : Pt n) :
    (Pt.barycenter (ps.map fun x => x.rotate m p)).elem = about (byMat m) p.elem (Pt.barycenter ps).elem := by
  have hl : (0 : ℝ) < ps.length := by exact_mod_cast List.length_pos_of_ne_nil hne
  have hb : ∀ qs : List (Pt n), qs ≠ [] → (Pt.barycenter qs).elem = (1 / (qs.length : ℝ)) • (qs.map (·.elem)).sum := by
    intro qs h
    funext j
    rw [(C30_mean qs h j).1]
    have : ∀ l : List (Pt n), (l.map (·.elem)).sum j = (l.map fun p => p.elem j).sum := by
      intro l; induction l with
      | nil => rfl
      | cons a l ih => simp [ih]
    rw [Pi.smul_apply, this, smul_eq_mul]; ring
  rw [hb _ (by simpa using hne), hb _ hne, List.length_map, List.map_map]
  have hs : ∀ l : List (Pt n), (l.map ((·.elem) ∘ fun x : Pt n => x.rotate m p)).sum =
      (l.length : ℝ) • p.elem + byMat m ((l.map (·.elem)).sum - (l.length : ℝ) • p.elem) := by
    intro l; induction l with
    | nil => simp [byMat]
    | cons a l ih =>
      rw [List.map_cons, List.sum_cons, ih, Function.comp_apply, pt_rotate, List.map_cons, List.sum_cons, List.length_cons]
      unfold about byMat
      push_cast
      rw [sub_vecMul, sub_vecMul, sub_vecMul, add_vecMul, add_smul, one_smul, add_vecMul]
      module
  rw [hs]
  unfold about byMat
  have e : (1 / (ps.length : ℝ)) • (ps.map (·.elem)).sum - p.elem = (1 / (ps.length : ℝ)) • ((ps.map (·.elem)).sum - (ps.length : ℝ) • p.elem) := by
    rw [smul_sub, smul_smul, one_div_mul_cancel hl.ne', one_smul]
  rw [e, smul_vecMul, smul_add, smul_smul, one_div_mul_cancel hl.ne', one_smul]

/-- C70, lines and plane polygons. -/
theorem C70_corners (ps : Corners n) (m : RotMat n) (hm : IsRotation m) (p : Pt n) (i j : Nat) :
    ((ps.rotatePoint m p).getCorner j).map (·.elem) = (ps.getCorner j).map (fun c => about (byMat m) p.elem c.elem) ∧
    (ps.rotateCorner m i ≠ none ↔ i < ps.length) ∧
    (∀ qs c, ps.rotateCorner m i = some qs → ps.getCorner i = some c → (qs.getCorner i).map (·.elem) = some c.elem ∧
      (qs.getCorner j).map (·.elem) = (ps.getCorner j).map fun x => about (byMat m) c.elem x.elem) ∧
    ((ps.rotateCenter m).getCorner j).map (·.elem) = (ps.getCorner j).map (fun x => about (byMat m) ps.getCenter.elem x.elem) ∧
    (ps ≠ [] → (ps.rotateCenter m).getCenter.elem = ps.getCenter.elem) := by
  have h0 : ∀ (p : Pt n) j, ((ps.rotatePoint m p).getCorner j).map (·.elem) = (ps.getCorner j).map (fun c => about (byMat m) p.elem c.elem) := by
    intro p j
    simp only [Corners.rotatePoint, Corners.getCorner, List.getElem?_map, Option.map_map]
    congr 1
    funext x; exact pt_rotate _ _ _
  refine ⟨h0 p j, ?_, ?_, h0 _ j, ?_⟩
  · unfold Corners.rotateCorner Corners.getCorner; simp
  · intro qs c h hc
    unfold Corners.rotateCorner at h
    rw [hc] at h
    rw [← Option.some.inj h]
    refine ⟨?_, h0 _ j⟩
    rw [h0, hc, Option.map_some, (C70_motion m hm _ c.elem c.elem).1]
  · intro hne
    unfold Corners.rotateCenter Corners.rotatePoint Corners.getCenter
    rw [barycenter_about ps hne, (C70_motion m hm _ (Pt.barycenter ps).elem (Pt.barycenter ps).elem).1]

/-! ### Polygons in space -/

theorem about_at (o : Orient n) (m : RotMat n) (c : Fin n → ℝ) (x y : ℝ) :
    about (byMat m) c (o.at x y) = about (byMat m) c o.origin.elem + x • (o.ax0.rotateM m).elem + y • (o.ax1.rotateM m).elem := by
  unfold about byMat Orient.at
  have : o.origin.elem + x • o.ax0.elem + y • o.ax1.elem - c = (o.origin.elem - c) + x • o.ax0.elem + y • o.ax1.elem := by module
  rw [this, add_vecMul, add_vecMul, smul_vecMul, smul_vecMul, RotMat.rotateM_elem, RotMat.rotateM_elem]
  module

/-- C70, polygons in space: turning about a point. -/
theorem C70_polygon (s : Poly n) (m : RotMat n) (p : Pt n) (hv : m.valid = true) (hp : p.valid = true) (j : Nat) :
    (s.rotatePoint m p).getCorner j = (s.getCorner j).map fun c => ⟨about (byMat m) p.elem c.elem, c.valid⟩ := by
  unfold Poly.rotatePoint Poly.getCorner
  simp only
  cases s.poly.getCorner j with
  | none => rfl
  | some x =>
    simp only [Option.bind_some]
    cases hc : s.orient.convert x with
    | some c =>
      obtain ⟨h0, h1, h2, h3, h4⟩ := convert_some hc
      rw [convert_eq]
      · simp only [Option.map_some, Option.some.injEq]
        rw [Pt.mk.injEq, h3, h4, about_at]
        refine ⟨?_, rfl⟩
        show (s.orient.origin.rotate m p).elem + _ + _ = _
        rw [pt_rotate]; rfl
      · show (s.orient.origin.rotate m p).valid = true
        simp [Pt.rotate, Vec.rotateM, RotMat.invMulVec, h0, hp, hv]
      · rcases h1 with h | h
        · left; show (s.orient.ax0.rotateM m).valid = true; simp [Vec.rotateM, RotMat.invMulVec, h, hv]
        · exact Or.inr h
      · rcases h2 with h | h
        · left; show (s.orient.ax1.rotateM m).valid = true; simp [Vec.rotateM, RotMat.invMulVec, h, hv]
        · exact Or.inr h
    | none =>
      have hn : ¬ (s.orient.convert x ≠ none) := by simp [hc]
      rw [convert_ne_none] at hn
      have : ¬ ((s.orient.rotate m p).convert x ≠ none) := by
        rw [convert_ne_none]
        have e1 : (s.orient.rotate m p).origin.valid = s.orient.origin.valid := by
          simp [Orient.rotate, Pt.rotate, Vec.rotateM, RotMat.invMulVec, hp, hv]
        have e2 : (s.orient.rotate m p).ax0.valid = s.orient.ax0.valid := by simp [Orient.rotate, Vec.rotateM, RotMat.invMulVec, hv]
        have e3 : (s.orient.rotate m p).ax1.valid = s.orient.ax1.valid := by simp [Orient.rotate, Vec.rotateM, RotMat.invMulVec, hv]
        rw [e1, e2, e3]; exact hn
      rw [not_not.1 this]; rfl

theorem rotate2_at (o o' : Orient n) (m : RotMat n) (p : Pt 2) (h : o.rotate2 m p = some o') (x y : ℝ)
    (h0 : o.ax0.valid = true ∨ x = 0) (h1 : o.ax1.valid = true ∨ y = 0) (hinv : o.ax0.valid = false → o.ax1.valid = false) :
    o'.at x y = about (byMat m) (o.at (p.elem 0) (p.elem 1)) (o.at x y) := by
  have hsc : ∀ (v : Vec n) (c : ℝ), (v.scale c).elem = c • v.elem := fun v c => by
    funext i; show v.elem i * c = c * v.elem i; rw [mul_comm]
  unfold Orient.rotate2 at h
  split_ifs at h with h2 h3 h4 h5 h6
  · rw [← Option.some.inj h]
    have hx : x = 0 := h0.resolve_left (by simp [h3])
    have hy : y = 0 := h1.resolve_left (by simp [hinv h3])
    unfold about byMat
    rw [hx, hy, h4.1, h4.2, sub_self, zero_vecMul, add_zero]
  · rw [← Option.some.inj h]
    rw [about_at]
    unfold Orient.at about byMat
    simp only [Pt.addVec_elem]
    rw [show ∀ a b : Vec n, (a - b).elem = a.elem - b.elem from fun _ _ => rfl, RotMat.rotateM_elem,
      show ∀ a b : Vec n, (a + b).elem = a.elem + b.elem from fun _ _ => rfl, hsc, hsc]
    have : o.origin.elem - (o.origin.elem + p.elem 0 • o.ax0.elem + p.elem 1 • o.ax1.elem) =
        -(p.elem 0 • o.ax0.elem + p.elem 1 • o.ax1.elem) := by module
    rw [this, neg_vecMul]
    module
  · have hy : y = 0 := h1.resolve_left h5
    rw [not_not] at h6
    rw [← Option.some.inj h]
    rw [about_at]
    unfold Orient.at about byMat
    simp only [Pt.addVec_elem]
    rw [show ∀ a b : Vec n, (a - b).elem = a.elem - b.elem from fun _ _ => rfl, RotMat.rotateM_elem, hsc, h6, hy]
    simp only [zero_smul]
    have : o.origin.elem - (o.origin.elem + p.elem 0 • o.ax0.elem + 0) = -(p.elem 0 • o.ax0.elem) := by module
    rw [this, neg_vecMul]
    module

theorem rotate2_valid (o o' : Orient n) (m : RotMat n) (p : Pt 2) (h : o.rotate2 m p = some o') (hm : m.valid = true) :
    o'.origin.valid = o.origin.valid ∧ o'.ax0.valid = o.ax0.valid ∧ o'.ax1.valid = o.ax1.valid := by
  unfold Orient.rotate2 at h
  have hr : ∀ v : Vec n, (v.rotateM m).valid = v.valid := fun v => by simp [Vec.rotateM, RotMat.invMulVec, hm]
  have hs : ∀ (v : Vec n) (c : ℝ), (v.scale c).valid = v.valid := fun _ _ => rfl
  have ha : ∀ a b : Vec n, (a + b).valid = (a.valid && b.valid) := fun _ _ => rfl
  have hb : ∀ a b : Vec n, (a - b).valid = (a.valid && b.valid) := fun _ _ => rfl
  split_ifs at h with h2 h3 h4 h5 h6
  · rw [← Option.some.inj h]; exact ⟨rfl, rfl, rfl⟩
  · rw [← Option.some.inj h]
    rw [Bool.not_eq_false] at h3
    exact ⟨by simp [hb, ha, hs, hr, hm, h3, h5], hr _, hr _⟩
  · rw [← Option.some.inj h]
    rw [Bool.not_eq_false] at h3
    exact ⟨by simp [hb, hs, hr, hm, h3], hr _, rfl⟩

theorem rotate2_ne_none (o : Orient n) (m : RotMat n) (p : Pt 2) (hinv : o.ax0.valid = false → o.ax1.valid = false)
    (h : o.convert p ≠ none) : o.rotate2 m p ≠ none := by
  obtain ⟨h0, h1, h2⟩ := (convert_ne_none o p).1 h
  unfold Orient.rotate2
  rw [if_neg (by simp [h0])]
  split_ifs with h3 h4 h5 h6
  · simp
  · exact absurd ⟨h1.resolve_left (by simp [h3]), h2.resolve_left (by simp [hinv h3])⟩ h4
  · simp
  · exact absurd (h2.resolve_left h5) h6
  · simp

/-- C70, polygons in space: turning about an existing corner, or the centre, never fails. -/
theorem C70_polygon_total (s : Poly n) (m : RotMat n) (hinv : s.orient.ax0.valid = false → s.orient.ax1.valid = false) (i : Nat) :
    (s.getCorner i ≠ none → s.rotateCorner m i ≠ none) ∧ (s.getCenter ≠ none → s.rotateCenter m ≠ none) := by
  constructor
  · intro h
    obtain ⟨c, hc⟩ := Option.ne_none_iff_exists'.1 h
    obtain ⟨p, hp, hpc⟩ := getCorner_some hc
    obtain ⟨o', ho⟩ := Option.ne_none_iff_exists'.1 (rotate2_ne_none s.orient m p hinv (by rw [hpc]; simp))
    unfold Poly.rotateCorner
    rw [hp, Option.bind_some, ho]; simp
  · intro h
    unfold Poly.rotateCenter
    split_ifs
    · obtain ⟨o', ho⟩ := Option.ne_none_iff_exists'.1 (rotate2_ne_none s.orient m _ hinv h)
      rw [ho]; simp
    · simp

/-- C70, polygons in space: turning about a corner leaves it in place and turns every corner about it. The second axis of a
polygon is there only if the first is (an invariant of C72). -/
theorem C70_polygon_corner (s t : Poly n) (m : RotMat n) (hm : IsRotation m) (hv : m.valid = true) (i : Nat) (c : Pt n)
    (hinv : s.orient.ax0.valid = false → s.orient.ax1.valid = false)
    (h : s.rotateCorner m i = some t) (hc : s.getCorner i = some c) :
    t.getCorner i = some c ∧
    ∀ j x, s.getCorner j = some x → t.getCorner j = some ⟨about (byMat m) c.elem x.elem, x.valid⟩ := by
  obtain ⟨p, hp, hpc⟩ := getCorner_some hc
  unfold Poly.rotateCorner at h
  rw [hp, Option.bind_some] at h
  cases ho : s.orient.rotate2 m p with
  | none => rw [ho] at h; simp at h
  | some o' =>
    rw [ho] at h
    simp only [Option.map_some, Option.some.injEq] at h
    obtain ⟨-, -, -, hce, -⟩ := convert_some hpc
    obtain ⟨v0, v1, v2⟩ := rotate2_valid _ _ _ _ ho hv
    have key : ∀ j x, s.getCorner j = some x → t.getCorner j = some ⟨about (byMat m) c.elem x.elem, x.valid⟩ := by
      intro j x hx
      obtain ⟨p', hp', hpx⟩ := getCorner_some hx
      obtain ⟨g0, g1, g2, g3, g4⟩ := convert_some hpx
      rw [← h]
      rw [getCorner_of (s := { s with orient := o' }) hp', convert_eq (by rw [v0, g0]) (by rw [v1]; exact g1) (by rw [v2]; exact g2),
        rotate2_at _ _ _ _ ho _ _ g1 g2 hinv, hce, g3, g4]
    refine ⟨?_, key⟩
    rw [key i c hc, (C70_motion m hm _ c.elem c.elem).1]

/-- C70, polygons in space: turning about the centre leaves the centre in place. -/
theorem C70_polygon_center (s t : Poly n) (m : RotMat n) (hm : IsRotation m) (hv : m.valid = true) (c : Pt n)
    (hinv : s.orient.ax0.valid = false → s.orient.ax1.valid = false)
    (hne : s.poly ≠ []) (h : s.rotateCenter m = some t) (hc : s.getCenter = some c) :
    t.getCenter = some c ∧
    ∀ j x, s.getCorner j = some x → t.getCorner j = some ⟨about (byMat m) c.elem x.elem, x.valid⟩ := by
  unfold Poly.rotateCenter at h
  rw [if_pos (List.length_pos_of_ne_nil hne)] at h
  have hc' : s.orient.convert s.poly.getCenter = some c := hc
  cases ho : s.orient.rotate2 m s.poly.getCenter with
  | none => rw [ho] at h; simp at h
  | some o' =>
    rw [ho] at h
    simp only [Option.map_some, Option.some.injEq] at h
    obtain ⟨f0, f1, f2, hce, f4⟩ := convert_some hc'
    obtain ⟨v0, v1, v2⟩ := rotate2_valid _ _ _ _ ho hv
    refine ⟨?_, ?_⟩
    · rw [← h]
      show o'.convert s.poly.getCenter = some c
      rw [convert_eq (by rw [v0, f0]) (by rw [v1]; exact f1) (by rw [v2]; exact f2), rotate2_at _ _ _ _ ho _ _ f1 f2 hinv, ← f4,
        (C70_motion m hm _ (s.orient.at (s.poly.getCenter.elem 0) (s.poly.getCenter.elem 1)) (s.orient.at 0 0)).1, ← hce]
    · intro j x hx
      obtain ⟨p', hp', hpx⟩ := getCorner_some hx
      obtain ⟨g0, g1, g2, g3, g4⟩ := convert_some hpx
      rw [← h]
      rw [getCorner_of (s := { s with orient := o' }) hp', convert_eq (by rw [v0, g0]) (by rw [v1]; exact g1) (by rw [v2]; exact g2),
        rotate2_at _ _ _ _ ho _ _ g1 g2 hinv, hce, g3, g4]

/-- C70, polygons in space by a quaternion: turning about a point, when no product is flushed to 0. -/
theorem C70_polygon_quaternion_partial (s : Poly 3) (q : Quat) (hq : ‖toH q‖ = 1) (hv : q.vec.valid = true) (p : Pt 3) (hp : p.valid = true)
    (h0 : RotExact (s.orient.origin.sub p) q) (h1 : RotExact s.orient.ax0 q) (h2 : RotExact s.orient.ax1 q) (j : Nat) (c : Pt 3)
    (hc : s.getCorner j = some c) :
    (s.rotatePointQ q p).getCorner j = some ⟨about (act (toH q)) p.elem c.elem, c.valid⟩ := by
  have hq' := normSq_eq_one.2 hq
  obtain ⟨x, hx, hcx⟩ := getCorner_some hc
  obtain ⟨g0, g1, g2, g3, g4⟩ := convert_some hcx
  have hr : ∀ v : Vec 3, (v.rotateQ q).valid = v.valid := fun v => by
    have : (cross3 q.vec v).valid = (q.vec.valid && v.valid) := rfl
    simp [Vec.rotateQ, this, hv]
  rw [getCorner_of (s := s.rotatePointQ q p) hx]
  have e : (s.rotatePointQ q p).orient = s.orient.rotateQ q p := rfl
  rw [e, convert_eq]
  · rw [Option.some.injEq, Pt.mk.injEq]
    refine ⟨?_, g4.symm⟩
    rw [g3]
    unfold Orient.at about Orient.rotateQ Pt.rotateQ
    simp only [Pt.addVec_elem]
    rw [rotateQ_exact hq h0, rotateQ_exact hq h1, rotateQ_exact hq h2, Pt.sub_elem]
    have : s.orient.origin.elem + x.elem 0 • s.orient.ax0.elem + x.elem 1 • s.orient.ax1.elem - p.elem =
        (s.orient.origin.elem - p.elem) + x.elem 0 • s.orient.ax0.elem + x.elem 1 • s.orient.ax1.elem := by module
    rw [this, act_add hq', act_add hq', act_smul hq', act_smul hq']
    module
  · show (p.valid && _) = true
    rw [hr]; simp [hp, g0]
  · rcases g1 with h | h
    · left; show (s.orient.ax0.rotateQ q).valid = true; rw [hr, h]
    · exact Or.inr h
  · rcases g2 with h | h
    · left; show (s.orient.ax1.rotateQ q).valid = true; rw [hr, h]
    · exact Or.inr h

/-! ### Turning a polygon about its corner by a quaternion moves the corner -/

/-- The polygon with corners at the origin and at `(1, 0, 0)`. -/
def twoCorners : Poly 3 := ⟨⟨⟨0, true⟩, ⟨![1, 0, 0], true⟩, Vec.default⟩, [⟨![0, 0], true⟩, ⟨![1, 0], true⟩]⟩

/-- It is what two calls of `addCorner` on an empty polygon make. -/
theorem twoCorners_built : ∃ s : Poly 3, Poly.empty.addCorner 0 ⟨0, true⟩ epsilon = some (true, s) ∧
    s.addCorner 1 ⟨![1, 0, 0], true⟩ epsilon = some (true, twoCorners) := by
  have he2 := epsilon_lt
  norm_num at he2
  refine ⟨⟨⟨⟨0, true⟩, Vec.default, Vec.default⟩, [⟨![0, 0], true⟩]⟩, rfl, ?_⟩
  have hs : (⟨![1, 0, 0], true⟩ : Pt 3).sub ⟨0, true⟩ = ⟨![1, 0, 0], true⟩ := by
    ext i
    · fin_cases i <;> simp [Pt.sub]
    · rfl
  have hq : (⟨![1, 0, 0], true⟩ : Vec 3).sqrMag = 1 := by rw [Vec.sqrMag_eq]; simp [dotProduct, Fin.sum_univ_three]
  have hmax : (1 : ℝ) ≤ maxAbs (![1, 0, 0] : Fin 3 → ℝ) := by simpa using le_maxAbs (![1, 0, 0] : Fin 3 → ℝ) 0
  have hd : (⟨![1, 0, 0], true⟩ : Vec 3).dot ⟨![1, 0, 0], true⟩ = 1 := by
    rw [Vec.dot_self_exact (le_trans (by linarith) hmax), hq]
  have hm : (⟨![1, 0, 0], true⟩ : Vec 3).mag = 1 := by unfold Vec.mag; rw [hq, Real.sqrt_one]
  have hx : (⟨⟨0, true⟩, Vec.default, Vec.default⟩ : Orient 3).expand ⟨![1, 0, 0], true⟩ epsilon =
      (true, ⟨⟨0, true⟩, ⟨![1, 0, 0], true⟩, Vec.default⟩, ⟨![1, 0], true⟩) := by
    unfold Orient.expand
    rw [if_neg (by simp)]
    simp only [hs, hd, hq, hm]
    rw [if_neg (by linarith), if_pos (show (Vec.default : Vec 3).valid = false from rfl)]
    have : ((⟨![1, 0, 0], true⟩ : Vec 3).divBy 1).elem = ![1, 0, 0] := by
      funext i; show (![1, 0, 0] : Fin 3 → ℝ) i / 1 = _; rw [div_one]
    rw [this]
  unfold Poly.addCorner
  rw [hx]
  rfl

/-- C70 is false for polygons and quaternions: a half turn about corner 1 moves that corner from `(1, 0, 0)` to
`(-1, 0, 0)`. (The matrix version is right: `C70_polygon_corner`.) -/
theorem C70_false : ∃ (s t : Poly 3) (q : Quat) (c c' : Pt 3), ‖toH q‖ = 1 ∧ q.valid = true ∧ s = twoCorners ∧
    s.getCorner 1 = some c ∧ s.rotateCornerQ q 1 = some t ∧ t.getCorner 1 = some c' ∧ c.elem = ![1, 0, 0] ∧ c'.elem = ![-1, 0, 0] := by
  have hq : (⟨0, ⟨![0, 0, 1], true⟩, true, 1⟩ : Quat).vec.dot ⟨![1, 0, 0], true⟩ = 0 :=
    Vec.dot_of_exact_zero (by simp [dotProduct, Fin.sum_univ_three])
  have ha : ((⟨![1, 0, 0], true⟩ : Vec 3).rotateQ ⟨0, ⟨![0, 0, 1], true⟩, true, 1⟩).elem = ![-1, 0, 0] := by
    rw [rotateQ_elem, hq]; funext i; fin_cases i <;> simp
  have e : ∀ (p : Pt 3) (v : Vec 3), (p.addVec (v - v)).elem = p.elem := fun p v => by
    rw [Pt.addVec_elem, show (v - v).elem = v.elem - v.elem from rfl, sub_self, add_zero]
  let q : Quat := ⟨0, ⟨![0, 0, 1], true⟩, true, 1⟩
  let sh : Vec 3 := ((⟨![1, 0, 0], true⟩ : Vec 3).scale ((⟨![1, 0], true⟩ : Pt 2).elem 0)).rotateQ q
  let o' : Orient 3 := ⟨(⟨0, true⟩ : Pt 3).addVec (sh - sh), (⟨![1, 0, 0], true⟩ : Vec 3).rotateQ q, Vec.default⟩
  have hr : twoCorners.orient.rotate2Q q ⟨![1, 0], true⟩ = some o' := by
    unfold Orient.rotate2Q
    rw [if_neg (by simp [twoCorners]), if_neg (by simp [twoCorners]), if_neg (by simp [twoCorners, Vec.default]), if_neg (by simp)]
    rfl
  refine ⟨twoCorners, { twoCorners with orient := o' }, q, _, _, ?_, rfl, rfl,
    convert_eq (p := ⟨![1, 0], true⟩) (o := twoCorners.orient) rfl (Or.inl rfl) (Or.inr rfl), ?_,
    convert_eq (p := ⟨![1, 0], true⟩) (o := o') rfl (Or.inl rfl) (Or.inr rfl), ?_, ?_⟩
  · apply normSq_eq_one.1
    rw [normSq_def']; simp [toH, q]
  · unfold Poly.rotateCornerQ
    rw [show twoCorners.poly.getCorner 1 = some ⟨![1, 0], true⟩ from rfl, Option.bind_some, hr]; rfl
  · unfold Orient.at twoCorners; funext i; fin_cases i <;> simp
  · unfold Orient.at
    show ((⟨0, true⟩ : Pt 3).addVec (sh - sh)).elem + (1 : ℝ) • ((⟨![1, 0, 0], true⟩ : Vec 3).rotateQ q).elem + (0 : ℝ) • _ = _
    rw [ha, e]
    funext i; fin_cases i <;> simp

/-- The hypotheses are met: a quarter turn of a rotated box, of a plane polygon, and of the polygon above. -/
example : IsRotation quarter ∧ (Corners.getCorner ([⟨![0, 0], true⟩, ⟨![1, 0], true⟩] : Corners 2) 1).isSome := ⟨quarter_isRotation, rfl⟩
example : ∃ t c, twoCorners.rotateCorner (RotMat.identity : RotMat 3) 1 = some t ∧ twoCorners.getCorner 1 = some c ∧
    (twoCorners.orient.ax0.valid = false → twoCorners.orient.ax1.valid = false) := by
  obtain ⟨c, hc⟩ := Option.ne_none_iff_exists'.1
    (show twoCorners.getCorner 1 ≠ none from
      (convert_ne_none twoCorners.orient ⟨![1, 0], true⟩).2 ⟨rfl, Or.inl rfl, Or.inr rfl⟩)
  obtain ⟨t, ht⟩ := Option.ne_none_iff_exists'.1 ((C70_polygon_total twoCorners (RotMat.identity : RotMat 3) (by simp [twoCorners]) 1).1
    (by rw [hc]; simp))
  exact ⟨t, c, ht, hc, by simp [twoCorners]⟩

end WFMath
