/- Property theorems C03, C42, C70: `full_time`, turning a vector in a plane, turning shapes about their centre or corner by a quaternion. -/
import Verif.Props.ShapeRotate
import Verif.Props.Time
import Verif.Props.RotMatrix

namespace WFMath
open Spec Matrix Gauss Quaternion
variable {n : Nat}

/-! ### C03 -/

/-- C03: after any sequence of operations, what `full_time()` reports of a valid time difference is the number of whole seconds (rounded
down) and the microseconds left over. -/
theorem C03_full_time (ops : List Time.Op) (i : Nat) (us : ℤ)
    (h : diffMeaning ((Time.run .init ops).tdiff i) = some us) :
    ((Time.run .init ops).tdiff i).fullTime = (us / 1000000, us % 1000000) := by
  unfold diffMeaning at h
  split_ifs at h with hv
  have hn := (C03_normalised_history ops i).2 hv
  generalize (Time.run .init ops).tdiff i = d at *
  have h' := Option.some.inj h
  unfold micros at h'
  obtain ⟨h0, h1⟩ := hn
  unfold Time.TimeDiff.fullTime
  rw [Prod.mk.injEq]
  omega

/-- The hypothesis is met: minus one second and a half. -/
example : diffMeaning ((Time.run .init [.tEpoch 0, (.tNow 1 1 500000 (by decide)), .tDiff 2 0 1]).tdiff 2) = some (-1500000) := by decide

/-! ### C42 -/

/-- C42: `Vector::rotate(v1, v2, theta)` turns the part of the vector in the plane of `v1` and `v2` by `theta`, in the direction from `v1`
towards `v2`, and keeps the part perpendicular to it. Here `e` and `f` are the unit vectors of `v1` and of the part of `v2` perpendicular
to it. -/
theorem C42_vector (v w v1 v2 : Vec n) (θ : ℝ) (hd : DotExact v1 v2) (h : v.rotatePlane v1 v2 θ = .ok w) (e f x : Fin n → ℝ) (c d a : ℝ)
    (hc : 0 < c) (hdp : 0 < d) (he : e ⬝ᵥ e = 1) (hf : f ⬝ᵥ f = 1) (hef : e ⬝ᵥ f = 0)
    (h1 : v1.elem = c • e) (h2 : v2.elem = a • e + d • f) (hxe : x ⬝ᵥ e = 0) (hxf : x ⬝ᵥ f = 0)
    (p q : ℝ) (hv : v.elem = p • e + q • f + x) :
    w.elem = (p * Real.cos θ - q * Real.sin θ) • e + (p * Real.sin θ + q * Real.cos θ) • f + x ∧ w.valid = v.valid := by
  unfold Vec.rotatePlane at h
  cases hm : RotMat.rotationPlane v1 v2 θ with
  | error _ => rw [hm] at h; cases h
  | ok m =>
    rw [hm] at h
    have hw : v.rotateM m = w := by injection h
    obtain ⟨m0, hm0⟩ := C42_plane_defined v1 v2 θ 0 m hm
    obtain ⟨m1, hm1⟩ := C42_plane_defined v1 v2 θ (θ + 0) m hm
    obtain ⟨-, -, -, hP, hx⟩ := C42_plane v1 v2 θ 0 m m0 m1 hd hm hm0 hm1
    obtain ⟨-, -, -, hmv, -⟩ := RotMat.rotationPlane_eq hm
    have hfe : f ⬝ᵥ e = 0 := by rw [dotProduct_comm, hef]
    obtain ⟨-, g1, g2⟩ := hP ⟨d • f, true⟩ (by
      show d • f = _
      rw [h2, h1, dotProduct_add, smul_dotProduct, smul_dotProduct, smul_dotProduct, dotProduct_smul, dotProduct_smul, dotProduct_smul, he, hef]
      simp only [smul_eq_mul, mul_zero, add_zero, mul_one]
      rw [show c * a / (c * c) = a / c by field_simp, smul_smul, div_mul_cancel₀ _ hc.ne']
      module)
    have mg : ∀ (k : ℝ) (u : Fin n → ℝ) (v : Vec n), 0 < k → u ⬝ᵥ u = 1 → v.elem = k • u → v.mag = k := by
      intro k u v hk hu hv
      unfold Vec.mag
      rw [Vec.sqrMag_eq, hv, smul_dotProduct, dotProduct_smul, hu, smul_eq_mul, smul_eq_mul, mul_one, Real.sqrt_mul_self hk.le]
    rw [mg c e v1 hc he h1, mg d f ⟨d • f, true⟩ hdp hf rfl] at g1 g2
    have ge : e ᵥ* m.elem = Real.cos θ • e + Real.sin θ • f := by
      have : e = c⁻¹ • v1.elem := by rw [h1, smul_smul, inv_mul_cancel₀ hc.ne', one_smul]
      conv_lhs => rw [this]
      rw [smul_vecMul, g1, h1]
      show c⁻¹ • (Real.cos θ • c • e + (Real.sin θ * c / d) • d • f) = _
      rw [smul_add, smul_smul, smul_smul, smul_smul, smul_smul]
      congr 2 <;> field_simp
    have gf : f ᵥ* m.elem = Real.cos θ • f - Real.sin θ • e := by
      have : f = d⁻¹ • (⟨d • f, true⟩ : Vec n).elem := by
        show f = d⁻¹ • d • f
        rw [smul_smul, inv_mul_cancel₀ hdp.ne', one_smul]
      conv_lhs => rw [this]
      rw [smul_vecMul, g2, h1]
      show d⁻¹ • (Real.cos θ • d • f - (Real.sin θ * d / c) • c • e) = _
      rw [smul_sub, smul_smul, smul_smul, smul_smul, smul_smul]
      congr 2 <;> field_simp
    have gx : x ᵥ* m.elem = x := hx x (by rw [h1, dotProduct_smul, hxe, smul_zero])
      (by rw [h2, dotProduct_add, dotProduct_smul, dotProduct_smul, hxe, hxf]; simp)
    refine ⟨?_, ?_⟩
    · rw [← hw, RotMat.rotateM_elem, hv, add_vecMul, add_vecMul, smul_vecMul, smul_vecMul, ge, gf, gx]
      module
    · rw [← hw]
      show (m.valid && v.valid) = v.valid
      rw [hmv, Bool.true_and]

/-- C42: the call succeeds exactly when the angle between the two vectors is not too small: the part of `v2` perpendicular to `v1` is at
least `√n ε` times as long as `v1`. -/
theorem C42_vector_defined (v v1 v2 : Vec n) (θ : ℝ) (hd : DotExact v1 v2) (e f : Fin n → ℝ) (c d a : ℝ)
    (hc : 0 < c) (he : e ⬝ᵥ e = 1) (hf : f ⬝ᵥ f = 1) (hef : e ⬝ᵥ f = 0) (h1 : v1.elem = c • e) (h2 : v2.elem = a • e + d • f) :
    (∃ w, v.rotatePlane v1 v2 θ = .ok w) ↔ n * epsilon ^ 2 ≤ (d / c) ^ 2 := by
  have hs : v1.sqrMag = c ^ 2 := by
    rw [Vec.sqrMag_eq, h1, smul_dotProduct, dotProduct_smul, he, smul_eq_mul, smul_eq_mul]; ring
  have hp : (RotMat.vperp v1 v2).elem = d • f := by
    unfold RotMat.vperp
    rw [Vec.sub_elem, Vec.divBy_elem, Vec.scale_elem, show v1.dot v2 = v1.elem ⬝ᵥ v2.elem from hd, hs, h2, h1, dotProduct_add,
      smul_dotProduct, smul_dotProduct, dotProduct_smul, dotProduct_smul, he, hef]
    simp only [smul_eq_mul, mul_zero, add_zero, mul_one]
    rw [smul_smul, smul_smul, show (c ^ 2)⁻¹ * (c * a) * c = a by field_simp]
    module
  have hps : (RotMat.vperp v1 v2).sqrMag = d ^ 2 := by
    rw [Vec.sqrMag_eq, hp, smul_dotProduct, dotProduct_smul, hf, smul_eq_mul, smul_eq_mul]; ring
  unfold Vec.rotatePlane RotMat.rotationPlane
  rw [if_neg (by rw [hs]; push Not; positivity)]
  simp only
  rw [hps, hs, div_pow]
  split_ifs with h3 h4
  · exact ⟨fun ⟨w, hw⟩ => (by cases hw), fun h => absurd h3 (not_lt.2 (by rw [mul_assoc, ← sq]; exact h))⟩
  · exact ⟨fun ⟨w, hw⟩ => (by cases hw), fun h => absurd h3 (not_lt.2 (by rw [mul_assoc, ← sq]; exact h))⟩
  · exact ⟨fun _ => by rw [mul_assoc, ← sq] at h3; exact not_lt.1 h3, fun _ => ⟨_, rfl⟩⟩

/-- The hypotheses are met by `v1 = (1,0,0)`, `v2 = (1,1,0)`; `(0,0,5) + (1,0,0)` is turned by a right angle to `(0,0,5) + (0,1,0)`. -/
example : ∃ w : Vec 3, (⟨![1, 0, 5], true⟩ : Vec 3).rotatePlane ⟨![1, 0, 0], true⟩ ⟨![1, 1, 0], true⟩ (Real.pi / 2) = .ok w ∧
    w.elem = ![0, 1, 5] := by
  have he2 := epsilon_lt
  norm_num at he2
  have he := epsilon_pos
  have hd : DotExact (⟨![1, 0, 0], true⟩ : Vec 3) ⟨![1, 1, 0], true⟩ := by
    apply Vec.dot_exact
    have h1 : maxAbs (![1, 0, 0] : Fin 3 → ℝ) ≤ 1 := by
      apply maxAbs_le zero_le_one; intro i; fin_cases i <;> simp
    have h2 := min_le_left (maxAbs (![1, 0, 0] : Fin 3 → ℝ)) (maxAbs (![1, 1, 0] : Fin 3 → ℝ))
    have e : (![1, 0, 0] : Fin 3 → ℝ) ⬝ᵥ ![1, 1, 0] = 1 := by simp [dotProduct, Fin.sum_univ_three]
    show _ ≤ |(![1, 0, 0] : Fin 3 → ℝ) ⬝ᵥ ![1, 1, 0]|
    rw [e, abs_one]
    nlinarith
  have e1 : (![1, 0, 0] : Fin 3 → ℝ) ⬝ᵥ ![1, 0, 0] = 1 := by simp [dotProduct, Fin.sum_univ_three]
  have e2 : (![0, 1, 0] : Fin 3 → ℝ) ⬝ᵥ ![0, 1, 0] = 1 := by simp [dotProduct, Fin.sum_univ_three]
  have e3 : (![1, 0, 0] : Fin 3 → ℝ) ⬝ᵥ ![0, 1, 0] = 0 := by simp [dotProduct, Fin.sum_univ_three]
  have e4 : (![1, 0, 0] : Fin 3 → ℝ) = (1 : ℝ) • ![1, 0, 0] := by simp
  have e5 : (![1, 1, 0] : Fin 3 → ℝ) = (1 : ℝ) • ![1, 0, 0] + (1 : ℝ) • ![0, 1, 0] := by simp
  obtain ⟨w, hw⟩ := (C42_vector_defined ⟨![1, 0, 5], true⟩ ⟨![1, 0, 0], true⟩ ⟨![1, 1, 0], true⟩ (Real.pi / 2) hd ![1, 0, 0] ![0, 1, 0] 1 1 1
    one_pos e1 e2 e3 e4 e5).2 (by push_cast; rw [div_one, one_pow]; nlinarith)
  refine ⟨w, hw, ?_⟩
  rw [(C42_vector _ _ _ _ _ hd hw ![1, 0, 0] ![0, 1, 0] ![0, 0, 5] 1 1 1 one_pos one_pos e1 e2 e3 e4 e5 (by simp [dotProduct, Fin.sum_univ_three])
    (by simp [dotProduct, Fin.sum_univ_three]) 1 0 (by simp)).1]
  simp

/-! ### C70 -/

theorem seg_midpoint (p q : Pt n) : (Pt.midpoint p q (1 / 2)).elem = (1 / 2 : ℝ) • (p.elem + q.elem) := by
  funext k
  show p.elem k * (1 - 1 / 2) + q.elem k * (1 / 2) = 1 / 2 * (p.elem k + q.elem k)
  ring

/-- C70, segments turned about their centre by a quaternion: each end is turned about the centre, exactly when no product is flushed to 0 and
within `16 ε` times its distance from the centre in any case; the centre stays where it is, up to the same error. -/
theorem C70_segment_quaternion_center (s : Seg 3) (q : Quat) (hq : ‖toH q‖ = 1) (j : Nat) (hj : j < 2) :
    (RotExact ((s.getCorner j).sub s.getCenter) q →
      ((s.rotateCenterQ q).getCorner j).elem = about (act (toH q)) s.getCenter.elem (s.getCorner j).elem) ∧
    eucl ((s.rotateCenterQ q).getCorner j).elem (about (act (toH q)) s.getCenter.elem (s.getCorner j).elem) ≤
      16 * epsilon * eucl (s.getCorner j).elem s.getCenter.elem ∧
    (RotExact (s.p1.sub s.getCenter) q → RotExact (s.p2.sub s.getCenter) q → (s.rotateCenterQ q).getCenter.elem = s.getCenter.elem) ∧
    eucl (s.rotateCenterQ q).getCenter.elem s.getCenter.elem ≤ 8 * epsilon * eucl s.p1.elem s.p2.elem := by
  have hq' := normSq_eq_one.2 hq
  have h := fun j hj => C70_segment_quaternion s q hq s.getCenter 0 j hj
  have g0 : (s.rotateCenterQ q).getCenter.elem =
      (1 / 2 : ℝ) • (((s.rotateCenterQ q).getCorner 0).elem + ((s.rotateCenterQ q).getCorner 1).elem) := seg_midpoint _ _
  have gc : s.getCenter.elem = (1 / 2 : ℝ) • (s.p1.elem + s.p2.elem) := seg_midpoint _ _
  have gm : (1 / 2 : ℝ) • (about (act (toH q)) s.getCenter.elem s.p1.elem + about (act (toH q)) s.getCenter.elem s.p2.elem) = s.getCenter.elem := by
    unfold about
    have : s.p2.elem - s.getCenter.elem = -(s.p1.elem - s.getCenter.elem) := by rw [gc]; module
    have hn := act_smul hq' (-1) (s.p1.elem - s.getCenter.elem)
    rw [neg_one_smul, neg_one_smul] at hn
    rw [this, hn]
    module
  refine ⟨(h j hj).1, (h j hj).2.1, fun f1 f2 => ?_, ?_⟩
  · rw [g0, show ((s.rotateCenterQ q).getCorner 0).elem = _ from (h 0 (by norm_num)).1 f1,
      show ((s.rotateCenterQ q).getCorner 1).elem = _ from (h 1 (by norm_num)).1 f2]
    exact gm
  · have k0 := (h 0 (by norm_num)).2.1
    have k1 := (h 1 (by norm_num)).2.1
    have d0 : eucl s.p1.elem s.getCenter.elem = eucl s.p1.elem s.p2.elem / 2 := by
      rw [eucl_eq_len, eucl_eq_len, gc, show s.p1.elem - (1 / 2 : ℝ) • (s.p1.elem + s.p2.elem) = (1 / 2 : ℝ) • (s.p1.elem - s.p2.elem) by module,
        len_smul, abs_of_pos (by norm_num)]
      ring
    have d1 : eucl s.p2.elem s.getCenter.elem = eucl s.p1.elem s.p2.elem / 2 := by
      rw [eucl_eq_len, eucl_eq_len, gc, show s.p2.elem - (1 / 2 : ℝ) • (s.p1.elem + s.p2.elem) = (-(1 / 2) : ℝ) • (s.p1.elem - s.p2.elem) by module,
        len_smul, abs_neg, abs_of_pos (by norm_num)]
      ring
    have e0 : s.getCorner 0 = s.p1 := rfl
    have e1 : s.getCorner 1 = s.p2 := rfl
    rw [e0, d0] at k0
    rw [e1, d1] at k1
    rw [← gm, g0]
    rw [eucl_eq_len] at k0 k1 ⊢
    rw [← smul_sub, len_smul, abs_of_pos (by norm_num : (0 : ℝ) < 1 / 2), add_sub_add_comm]
    have := len_add_le (((s.rotateCenterQ q).getCorner 0).elem - about (act (toH q)) s.getCenter.elem s.p1.elem)
      (((s.rotateCenterQ q).getCorner 1).elem - about (act (toH q)) s.getCenter.elem s.p2.elem)
    have k0' : len (((s.rotateCenterQ q).getCorner 0).elem - about (act (toH q)) s.getCenter.elem s.p1.elem) ≤ _ := k0
    have k1' : len (((s.rotateCenterQ q).getCorner 1).elem - about (act (toH q)) s.getCenter.elem s.p2.elem) ≤ _ := k1
    linarith

/-- C70, rotated boxes turned about a corner or the centre by a quaternion, when no product is flushed to 0. -/
theorem C70_rotbox_quaternion_corner_partial (L : Limits) (r : RBox 3) (q : Quat) (hr : IsRotation r.orient) (hq : ‖toH q‖ = 1)
    (h2 : RowsExact r.orient q) (i j : Nat) :
    (r.rotateCornerQ L q i ≠ none ↔ i < 8) ∧
    (∀ t c, r.rotateCornerQ L q i = some t → r.getCorner i = some c → RotExact (r.corner.sub c) q →
      (t.getCorner i).map (·.elem) = some c.elem ∧
      (t.getCorner j).map (·.elem) = (r.getCorner j).map fun x => about (act (toH q)) c.elem x.elem) ∧
    (RotExact (r.corner.sub r.getCenter) q →
      ((r.rotateCenterQ L q).getCorner j).map (·.elem) = (r.getCorner j).map (fun x => about (act (toH q)) r.getCenter.elem x.elem) ∧
      (r.rotateCenterQ L q).getCenter.elem = r.getCenter.elem) := by
  have fix := fun x => (C70_motion_quaternion q hq x x x).1
  refine ⟨?_, ?_, ?_⟩
  · have := (C64_corners r i).1
    rw [show (8 : Nat) = 2 ^ 3 from rfl, ← this]; unfold RBox.rotateCornerQ; simp
  · intro t c ht hc h1
    unfold RBox.rotateCornerQ at ht
    rw [hc] at ht
    rw [← Option.some.inj ht]
    refine ⟨?_, (C70_rotbox_quaternion_partial L r q hr hq c h1 h2 j).1⟩
    rw [(C70_rotbox_quaternion_partial L r q hr hq c h1 h2 i).1, hc, Option.map_some, fix]
  · intro h1
    have h := C70_rotbox_quaternion_partial L r q hr hq r.getCenter h1 h2 j
    exact ⟨h.1, by rw [show r.rotateCenterQ L q = r.rotatePointQ L q r.getCenter from rfl, h.2.1, fix]⟩

/-- C70, polygons in space: what turning about a corner or the centre by a quaternion does is to turn about the point from which the plane
coordinates of the polygon are counted (the first corner that was added), whatever corner is named (`C70_false` is a case where they differ). -/
theorem C70_polygon_quaternion_origin_partial (s t : Poly 3) (q : Quat) (hq : ‖toH q‖ = 1) (hv : q.vec.valid = true)
    (h0 : RotExact s.orient.ax0 q) (h1 : RotExact s.orient.ax1 q)
    (h : s.rotateCenterQ q = some t ∨ ∃ i, s.rotateCornerQ q i = some t) (hax : s.orient.ax0.valid = true) :
    (∀ j x, s.getCorner j = some x → t.getCorner j = some ⟨about (act (toH q)) s.orient.origin.elem x.elem, x.valid⟩) ∧
    (∀ c, s.poly ≠ [] → s.getCenter = some c → t.getCenter = some ⟨about (act (toH q)) s.orient.origin.elem c.elem, c.valid⟩) := by
  have hq' := normSq_eq_one.2 hq
  have hr : ∀ v : Vec 3, (v.rotateQ q).valid = v.valid := fun v => by
    have : (cross3 q.vec v).valid = (q.vec.valid && v.valid) := rfl
    simp [Vec.rotateQ, this, hv]
  have e : ∀ (p : Pt 3) (v : Vec 3), (p.addVec (v - v)).elem = p.elem := fun p v => by
    rw [Pt.addVec_elem, show (v - v).elem = v.elem - v.elem from rfl, sub_self, add_zero]
  have key : ∀ (x' : Pt 2) (x : Pt 3) p o', s.orient.convert x' = some x → s.orient.rotate2Q q p = some o' →
      o'.convert x' = some ⟨about (act (toH q)) s.orient.origin.elem x.elem, x.valid⟩ := by
    intro x' x p o' hcx ho
    obtain ⟨g0, g1, g2, g3, g4⟩ := convert_some hcx
    unfold Orient.rotate2Q at ho
    rw [if_neg (by simp [g0]), if_neg (by simp [hax])] at ho
    have fin : ∀ o' : Orient 3, o'.origin.elem = s.orient.origin.elem → o'.origin.valid = true → o'.ax0 = s.orient.ax0.rotateQ q →
        (o'.ax1 = s.orient.ax1.rotateQ q ∨ x'.elem 1 = 0) → (o'.ax1.valid = true ∨ x'.elem 1 = 0) →
        o'.convert x' = some ⟨about (act (toH q)) s.orient.origin.elem x.elem, x.valid⟩ := by
      intro o' a1 a2 a3 a4 a5
      rw [convert_eq a2 (Or.inl (by rw [a3, hr, hax])) a5, Option.some.injEq, Pt.mk.injEq]
      refine ⟨?_, g4.symm⟩
      rw [g3]
      unfold Orient.at about
      rw [a1, a3, rotateQ_exact hq h0,
        show s.orient.origin.elem + x'.elem 0 • s.orient.ax0.elem + x'.elem 1 • s.orient.ax1.elem - s.orient.origin.elem =
          x'.elem 0 • s.orient.ax0.elem + x'.elem 1 • s.orient.ax1.elem by module, act_add hq', act_smul hq', act_smul hq']
      rcases a4 with a4 | a4
      · rw [a4, rotateQ_exact hq h1]; module
      · rw [a4]; module
    split_ifs at ho with h3 h4
    · rw [← Option.some.inj ho]
      refine fin _ (e _ _) ?_ rfl (Or.inl rfl) (Or.inl (by show (s.orient.ax1.rotateQ q).valid = true; rw [hr, h3]))
      show (s.orient.origin.valid && (_ && _)) = true
      have : ((s.orient.ax0.scale (p.elem 0) + s.orient.ax1.scale (p.elem 1)).rotateQ q).valid = true := by
        rw [hr]; show (s.orient.ax0.valid && s.orient.ax1.valid) = true; rw [hax, h3]; rfl
      rw [g0, this]; rfl
    · rw [← Option.some.inj ho]
      have h5 : x'.elem 1 = 0 := g2.resolve_left h3
      refine fin _ (e _ _) ?_ rfl (Or.inr h5) (Or.inr h5)
      show (s.orient.origin.valid && (_ && _)) = true
      have : ((s.orient.ax0.scale (p.elem 0)).rotateQ q).valid = true := by
        rw [hr]; exact hax
      rw [g0, this]; rfl
  have all : ∀ p o', s.orient.rotate2Q q p = some o' → t = { s with orient := o' } →
      (∀ j x, s.getCorner j = some x → t.getCorner j = some ⟨about (act (toH q)) s.orient.origin.elem x.elem, x.valid⟩) ∧
      (∀ c, s.poly ≠ [] → s.getCenter = some c → t.getCenter = some ⟨about (act (toH q)) s.orient.origin.elem c.elem, c.valid⟩) := by
    rintro p o' ho rfl
    refine ⟨fun j x hx => ?_, fun c _ hc => key _ _ _ _ hc ho⟩
    obtain ⟨x', hx', hcx⟩ := getCorner_some hx
    rw [getCorner_of (s := { s with orient := o' }) hx']
    exact key _ _ _ _ hcx ho
  rcases h with h | ⟨i, h⟩
  · unfold Poly.rotateCenterQ at h
    split_ifs at h with hl
    · cases ho : s.orient.rotate2Q q s.poly.getCenter with
      | none => rw [ho] at h; cases h
      | some o' =>
        rw [ho] at h
        exact all _ _ ho (Option.some.inj h).symm
    · have h0 : s.poly = [] := List.length_eq_zero_iff.1 (by omega)
      refine ⟨fun j x hx => ?_, fun c hne => absurd h0 hne⟩
      obtain ⟨x', hx', -⟩ := getCorner_some hx
      rw [h0] at hx'
      simp [Corners.getCorner] at hx'
  · unfold Poly.rotateCornerQ at h
    cases hp : s.poly.getCorner i with
    | none => rw [hp] at h; cases h
    | some p =>
      rw [hp, Option.bind_some] at h
      cases ho : s.orient.rotate2Q q p with
      | none => rw [ho] at h; cases h
      | some o' =>
        rw [ho] at h
        exact all _ _ ho (Option.some.inj h).symm

/-- The half turn about the third axis. -/
def halfTurnQ : Quat := ⟨0, ⟨![0, 0, 1], true⟩, true, 1⟩

theorem halfTurnQ_unit : ‖toH halfTurnQ‖ = 1 := by
  apply normSq_eq_one.1
  rw [normSq_def']; simp [toH, halfTurnQ]

theorem halfTurnQ_exact : RotExact ⟨![1, 0, 0], true⟩ halfTurnQ ∧ RotExact Vec.default halfTurnQ := by
  have he2 := epsilon_lt
  norm_num at he2
  refine ⟨⟨dotExact_of (Or.inl (by simp [halfTurnQ, dotProduct, Fin.sum_univ_three])), crossExact_of fun i => ?_⟩, ?_⟩
  · have h1 : maxAbs (![0, 0, 1] : Fin 3 → ℝ) ≤ 1 := by
      apply maxAbs_le zero_le_one; intro i; fin_cases i <;> simp
    have h2 := min_le_left (maxAbs (![0, 0, 1] : Fin 3 → ℝ)) (maxAbs (![1, 0, 0] : Fin 3 → ℝ))
    have he := epsilon_pos
    fin_cases i
    · left; simp [halfTurnQ, cross0]
    · right
      show 2 * epsilon * min (maxAbs (![0, 0, 1] : Fin 3 → ℝ)) (maxAbs (![1, 0, 0] : Fin 3 → ℝ)) ≤ |((![0, 0, 1] : Fin 3 → ℝ) ⨯₃ ![1, 0, 0]) 1|
      have : ((![0, 0, 1] : Fin 3 → ℝ) ⨯₃ ![1, 0, 0]) 1 = 1 := by simp [cross1]
      rw [this, abs_one]
      nlinarith
    · left; simp [halfTurnQ, cross2']
  · have h0 : (Vec.default : Vec 3).elem = 0 := rfl
    exact ⟨dotExact_of (Or.inl (by rw [h0, dotProduct_zero])), crossExact_of fun i => Or.inl (by rw [h0]; simp)⟩

theorem halfTurnQ_act : act (toH halfTurnQ) ![1, 0, 0] = ![-1, 0, 0] := by
  have h : ((⟨![1, 0, 0], true⟩ : Vec 3).rotateQ halfTurnQ).elem = act (toH halfTurnQ) ![1, 0, 0] :=
    rotateQ_exact halfTurnQ_unit halfTurnQ_exact.1
  have hq : halfTurnQ.vec.dot ⟨![1, 0, 0], true⟩ = 0 :=
    Vec.dot_of_exact_zero (by simp [halfTurnQ, dotProduct, Fin.sum_univ_three])
  rw [← h, rotateQ_elem, hq]
  funext i; fin_cases i <;> simp [halfTurnQ]

/-- C70 is false for polygons turned about their centre by a quaternion: a half turn about the third axis moves the centre of the polygon with
corners `(0, 0, 0)` and `(1, 0, 0)` from `(1/2, 0, 0)` to `(-1/2, 0, 0)`. -/
theorem C70_center_false : ∃ (t : Poly 3) (q : Quat) (c c' : Pt 3), ‖toH q‖ = 1 ∧ q.valid = true ∧ twoCorners.rotateCenterQ q = some t ∧
    twoCorners.getCenter = some c ∧ t.getCenter = some c' ∧ c.elem = ![1 / 2, 0, 0] ∧ c'.elem = ![-(1 / 2), 0, 0] := by
  have hb : (Corners.getCenter twoCorners.poly).elem = ![1 / 2, 0] := by
    funext k
    show (Pt.barycenter twoCorners.poly).elem k = _
    rw [(C30_mean twoCorners.poly (by simp [twoCorners]) k).1]
    fin_cases k <;> simp [twoCorners]
  have hr : ∃ o', twoCorners.orient.rotate2Q halfTurnQ twoCorners.poly.getCenter = some o' := by
    unfold Orient.rotate2Q
    rw [if_neg (by simp [twoCorners]), if_neg (by simp [twoCorners]),
      if_neg (by rw [show twoCorners.orient.ax1.valid = false from rfl]; simp), if_neg (by rw [hb]; simp)]
    exact ⟨_, rfl⟩
  obtain ⟨o', ho⟩ := hr
  have ht : twoCorners.rotateCenterQ halfTurnQ = some { twoCorners with orient := o' } := by
    unfold Poly.rotateCenterQ
    rw [if_pos (by simp [twoCorners]), ho]; rfl
  have hat : twoCorners.orient.at ((Corners.getCenter twoCorners.poly).elem 0) ((Corners.getCenter twoCorners.poly).elem 1) = ![1 / 2, 0, 0] := by
    rw [hb]; unfold Orient.at; funext i; fin_cases i <;> simp [twoCorners]
  have hc : twoCorners.getCenter = some ⟨twoCorners.orient.at ((Corners.getCenter twoCorners.poly).elem 0) ((Corners.getCenter twoCorners.poly).elem 1),
      (Corners.getCenter twoCorners.poly).valid⟩ :=
    convert_eq rfl (Or.inl rfl) (Or.inr (by rw [hb]; rfl))
  rw [hat] at hc
  have h := (C70_polygon_quaternion_origin_partial twoCorners _ _ halfTurnQ_unit rfl halfTurnQ_exact.1 halfTurnQ_exact.2 (Or.inl ht) rfl).2 _
    (by simp [twoCorners]) hc
  refine ⟨_, _, _, _, halfTurnQ_unit, rfl, ht, hc, h, rfl, ?_⟩
  have ho : twoCorners.orient.origin.elem = 0 := rfl
  have e : (![1 / 2, 0, 0] : Fin 3 → ℝ) = (1 / 2 : ℝ) • ![1, 0, 0] := by simp
  show about _ _ _ = _
  unfold about
  rw [ho, sub_zero, zero_add]
  show act _ ![1 / 2, 0, 0] = _
  rw [e, act_smul (normSq_eq_one.2 halfTurnQ_unit), halfTurnQ_act]
  simp

/-- The hypotheses about quaternions are met by this half turn, for the segment from `(1, 0, 0)` to `(-1, 0, 0)`. -/
example : ‖toH halfTurnQ‖ = 1 ∧ RotExact ⟨![1, 0, 0], true⟩ halfTurnQ ∧
    ((⟨⟨![1, 0, 0], true⟩, ⟨![-1, 0, 0], true⟩⟩ : Seg 3).p1.sub (⟨⟨![1, 0, 0], true⟩, ⟨![-1, 0, 0], true⟩⟩ : Seg 3).getCenter).elem = ![1, 0, 0] := by
  refine ⟨halfTurnQ_unit, halfTurnQ_exact.1, ?_⟩
  rw [Pt.sub_elem, show (⟨⟨![1, 0, 0], true⟩, ⟨![-1, 0, 0], true⟩⟩ : Seg 3).getCenter.elem = _ from seg_midpoint _ _]
  funext i; fin_cases i <;> simp

end WFMath
