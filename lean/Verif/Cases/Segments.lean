/- Cases of the theorems of Props/Segment, Props/SegmentPairs, Props/Separating, Props/ShapeEqual, Props/ShapeMoves, Props/Vector,
Props/VectorAngles and Props/VectorNorm: their hypotheses hold for concrete objects. -/
import Verif.Cases.Common
import Verif.Props.Segment
import Verif.Props.SegmentPairs
import Verif.Props.Separating
import Verif.Props.ShapeEqual
import Verif.Props.ShapeMoves
import Verif.Props.Vector
import Verif.Props.VectorAngles
import Verif.Props.VectorNorm

namespace WFMath.Cases
open WFMath Spec Matrix

/-- Inner products in the plane that are zero or not tiny are exact. -/
theorem dotExact_plane {u v : Vec 2} (hu : ∀ i, |u.elem i| ≤ 10) (h : u.elem ⬝ᵥ v.elem = 0 ∨ 1 / 1000 ≤ |u.elem ⬝ᵥ v.elem|) : DotExact u v := by
  have he2 := epsilon_lt
  have he := epsilon_pos
  norm_num at he2
  rcases h with h | h
  · exact (Vec.dot_of_exact_zero h).trans h.symm
  · exact dot_of_le hu (by linarith)

/-! ### Props/Segment -/

/-- The segment from (0, 0) to (4, 2), its middle, and a shorter segment on it. -/
noncomputable def segC : Seg 2 := ⟨⟨![0, 0], true⟩, ⟨![4, 2], true⟩⟩
noncomputable def segD : Seg 2 := ⟨⟨![1, 1 / 2], true⟩, ⟨![3, 3 / 2], true⟩⟩
noncomputable def midC : Pt 2 := ⟨![2, 1], true⟩
theorem midC_mem : midC.elem ∈ segSet segC := ⟨1 / 2, by norm_num, by norm_num, by funext i; fin_cases i <;> simp [segC, midC] <;> norm_num⟩
theorem segC_at (t : ℝ) (h0 : 0 < t) (h1 : t < 1) (p : Pt 2) (hp : p.elem = ![4 * t, 2 * t])
    (hx : 1 / 1000 ≤ t * (1 - t)) : interSP segC p true = true := by
  refine (C61_accepts_proper segC p).1 ⟨t, h0.le, h1.le, by rw [hp]; funext i; fin_cases i <;> simp [segC] <;> ring⟩
    (fun h => ?_) (fun h => ?_) (dotExact_plane (fun i => ?_) (Or.inr ?_))
  · have := congrFun h 0; rw [hp] at this; simp [segC] at this; linarith
  · have := congrFun h 0; rw [hp] at this; simp [segC] at this; linarith
  · rw [Pt.sub_elem, hp]; fin_cases i <;> simp [segC, abs_of_pos h0] <;> linarith
  · rw [Pt.sub_elem, Pt.sub_elem, hp]
    have : (segC.p1.elem - ![4 * t, 2 * t]) ⬝ᵥ (segC.p2.elem - ![4 * t, 2 * t]) = -(20 * (t * (1 - t))) := by
      simp [dotProduct, Fin.sum_univ_two, segC]; ring
    rw [this, abs_neg, abs_of_nonneg (by nlinarith)]; linarith
theorem midC_proper : interSP segC midC true = true :=
  segC_at (1 / 2) (by norm_num) (by norm_num) _ (by funext i; fin_cases i <;> simp [midC]; norm_num) (by norm_num)
example := C59_closed segC boxB boxB_ordered
example := C59_tolerance segC boxB boxB_ordered
example := C61_rejects_proper segC midC midC_proper
example := C61_rejects_partial segC midC (C61_accepts _ _ midC_mem)
example := C60_rejects segC ballA (by norm_num [ballA])

/-! ### Props/SegmentPairs -/

/-- Two segments that cross at (2, 1). -/
noncomputable def segE : Seg 2 := ⟨⟨![2, 0], true⟩, ⟨![2, 3], true⟩⟩
example := C62_lines_partial segC segE
  (dotExact_plane (fun i => by rw [Pt.sub_elem]; fin_cases i <;> norm_num [segC]) (Or.inr (by rw [Pt.sub_elem, Pt.sub_elem]; simp [segC, segE, dotProduct, Fin.sum_univ_two]; norm_num)))
  (dotExact_plane (fun i => by rw [Pt.sub_elem]; fin_cases i <;> norm_num [segC]) (Or.inr (by rw [Pt.sub_elem, Pt.sub_elem]; simp [segC, segE, dotProduct, Fin.sum_univ_two]; norm_num)))
  (dotExact_plane (fun i => by rw [Pt.sub_elem]; fin_cases i <;> norm_num [segE]) (Or.inl (by rw [Pt.sub_elem, Pt.sub_elem]; simp [segC, segE, dotProduct, Fin.sum_univ_two])))
  (by
    have h1 : eucl segC.p1.elem segC.p2.elem ^ 2 = 20 := by
      rw [eucl_sq]; simp [segC, Fin.sum_univ_two]; norm_num
    have h2 : eucl segE.p1.elem segE.p2.elem ^ 2 = 9 := by
      rw [eucl_sq]; simp [segE, Fin.sum_univ_two]; norm_num
    rw [h1, h2]; simp [segC, segE, dotProduct, Fin.sum_univ_two]; norm_num)
theorem segD_sub : segSet segD ⊆ segSet segC := by
  rintro x ⟨t, t0, t1, rfl⟩
  refine ⟨1 / 4 + t / 2, by linarith, by linarith, ?_⟩
  funext i; fin_cases i <;> simp [segC, segD] <;> ring
example : interSS segC segD false = true := C62_parallel_partial segC segD
  (dotExact_plane (fun i => by rw [Pt.sub_elem]; fin_cases i <;> norm_num [segC]) (Or.inr (by rw [Pt.sub_elem, Pt.sub_elem]; simp [segC, segD, dotProduct, Fin.sum_univ_two]; norm_num)))
  (dotExact_plane (fun i => by rw [Pt.sub_elem]; fin_cases i <;> norm_num [segC]) (Or.inr (by rw [Pt.sub_elem, Pt.sub_elem]; simp [segC, segD, dotProduct, Fin.sum_univ_two]; norm_num)))
  (dotExact_plane (fun i => by rw [Pt.sub_elem]; fin_cases i <;> norm_num [segD]) (Or.inr (by rw [Pt.sub_elem, Pt.sub_elem]; simp [segC, segD, dotProduct, Fin.sum_univ_two]; norm_num)))
  ![2, 1] 2 1 (by funext i; fin_cases i <;> simp [segC]; norm_num) (by funext i; fin_cases i <;> simp [segD] <;> norm_num)
  ⟨segD.p1.elem, segD_sub (p1_mem segD), p1_mem segD⟩
example := C63_box boxA segC boxA_ordered
example := C63_ball ballA segC (by norm_num [ballA])
example : containsSS segC segD false = true := C88_segment segC segD segD_sub
theorem segD_proper : containsSS segC segD true = true := by
  unfold containsSS
  rw [segC_at (1 / 4) (by norm_num) (by norm_num) segD.p1 (by funext i; fin_cases i <;> simp [segD]; norm_num) (by norm_num),
    segC_at (3 / 4) (by norm_num) (by norm_num) segD.p2 (by funext i; fin_cases i <;> simp [segD] <;> norm_num) (by norm_num)]
  rfl
example := C88_segment_proper segC segD segD_proper
/-- The box of one point in the middle of the segment, and the ball of radius 0 about it. -/
theorem point_sub : boxSet (⟨midC, midC⟩ : Box 2) ⊆ segSet segC := fun x hx => by
  rw [show x = midC.elem from funext fun i => le_antisymm (hx i).2 (hx i).1]; exact midC_mem
example : containsSB segC ⟨midC, midC⟩ false = true := C88_box segC _ (fun _ => le_rfl) point_sub
example := C88_box_proper segC ⟨midC, midC⟩ (fun _ => le_rfl) (by rw [containsSB_iff]; exact ⟨fun i j h => absurd rfl h, midC_proper, fun _ => midC_proper⟩)
example : containsSBall segC ⟨midC, 0⟩ false = true := C88_ball_inside segC ⟨midC, 0⟩ le_rfl le_rfl fun x hx => by
  have h : eucl x midC.elem ≤ 0 ∨ eucl midC.elem x ≤ 0 := by first | exact Or.inl hx | exact Or.inr hx
  rcases h with h | h
  · rw [eucl_eq_zero.1 (le_antisymm h (eucl_nonneg _ _))]; exact midC_mem
  · rw [← eucl_eq_zero.1 (le_antisymm h (eucl_nonneg _ _))]; exact midC_mem

/-! ### Props/Separating -/

theorem ex_meet : interRB3 exRot exBox false = true := by
  refine C66_shared _ _ quarter3_isRotation (fun i => by fin_cases i <;> simp [exBox]) ex_exact
    ⟨![1 / 2, 2, 2], fun i => by fin_cases i <;> simp [exBox] <;> norm_num,
      ![1 / 2, 1 / 6, 1 / 4], fun i => by fin_cases i <;> simp <;> norm_num, ?_⟩
  funext i; fin_cases i <;> simp [exRot, quarter3, Fin.sum_univ_three] <;> norm_num
theorem eps_le_one : epsilon ≤ 1 := by have he2 := epsilon_lt; norm_num at he2; linarith
example := C66_reported_partial exRot exBox quarter3_isRotation (fun i => by fin_cases i <;> simp [exBox]) ex_exact 1 eps_le_one le_rfl
  (ex_cos 1 zero_le_one le_rfl) ex_meet
example := C66_reported_any_partial exRot exBox quarter3_isRotation (fun i => by fin_cases i <;> simp [exBox]) 1 eps_le_one le_rfl
  (ex_cos 1 zero_le_one le_rfl) ex_meet
example (L : Gauss.Limits) := C66_plane_rotated L (⟨⟨![1, 1], true⟩, ⟨![2, 3], true⟩, turnA⟩ : RBox 2) ⟨⟨![0, 0], true⟩, ⟨![5, 4], true⟩, turnA⟩ turnA_rotation turnA_rotation

/-! ### Props/ShapeEqual and Props/ShapeMoves -/

example := C109_ball ballA ballB epsilon epsilon_pos.le
example := C109_segment segC segD epsilon epsilon_pos.le
example := C109_corners [midC, ⟨![0, 0], true⟩] [midC] epsilon epsilon_pos.le
example (dbg : Bool) : ∃ k, (∃ b, threeCorners.isEqualTo threeCorners epsilon = some b ∧
    (b = true ↔ k = k ∧ ∀ i c d, threeCorners.getCorner i = some c → threeCorners.getCorner i = some d → c.isEqualTo d epsilon = true)) ∧
    (0 < k → ∃ b, threeCorners.boundingBox = some b) := by
  obtain ⟨k, h⟩ := Built.edited (dbg := dbg) epsilon_pos.le threeCorners_built
  exact ⟨k, C109_polygon dbg threeCorners threeCorners k k h h epsilon, fun hk => ((C52_polygon dbg threeCorners k h).2 hk).imp fun _ hb => hb.1⟩
example := C109_rotbox (⟨⟨![1, 1], true⟩, ⟨![2, 3], true⟩, turnA⟩ : RBox 2) ⟨⟨![0, 0], true⟩, ⟨![5, 4], true⟩, turnA⟩ epsilon epsilon_pos
example := C52_corners [midC, ⟨![0, 0], true⟩] (by simp)
example := C68_box boxA boxB rfl
/-- The vector (3, -1). -/
noncomputable def vecM : Vec 2 := ⟨![3, -1], true⟩
example := C69_box_shift boxA vecM rfl
example := C69_segment segC midC 0 1 (by norm_num)
example := C69_segment_shift segC vecM rfl
example := C69_rotbox_shift (⟨⟨![1, 1], true⟩, ⟨![2, 3], true⟩, turnA⟩ : RBox 2) vecM rfl
example := C69_corners_shift [midC, ⟨![0, 0], true⟩] vecM rfl
/-- The triangle in space, to be moved to (1, 2, 3). -/
theorem three_corner : ∃ c, threeCorners.getCorner 1 = some c ∧ c.valid = true := by
  obtain ⟨c, hc⟩ := Option.ne_none_iff_exists'.1
    (show threeCorners.getCorner 1 ≠ none from (convert_ne_none threeCorners.orient ⟨![1, 0], true⟩).2 ⟨rfl, Or.inl rfl, Or.inl rfl⟩)
  refine ⟨c, hc, ?_⟩
  have := hc
  simp [Poly.getCorner, Corners.getCorner, threeCorners, Orient.convert] at this
  rw [← this]
example : ∃ c t, threeCorners.getCorner 1 = some c ∧ threeCorners.moveCornerTo ⟨![1, 2, 3], true⟩ 1 = some t ∧
    (t.getCorner 1).map (·.elem) = some ![1, 2, 3] := by
  obtain ⟨c, hc, hv⟩ := three_corner
  obtain ⟨t, h1, h2, -⟩ := C69_polygon threeCorners ⟨![1, 2, 3], true⟩ c 1 rfl hv hc
  exact ⟨c, t, hc, h1, h2⟩
example : ∃ c t, threeCorners.getCenter = some c ∧ threeCorners.moveCenterTo ⟨![1, 2, 3], true⟩ = some t ∧
    t.getCenter.map (·.elem) = some ![1, 2, 3] := by
  obtain ⟨c, hc⟩ := Option.ne_none_iff_exists'.1
    (show threeCorners.getCenter ≠ none from (convert_ne_none threeCorners.orient _).2 ⟨rfl, Or.inl rfl, Or.inl rfl⟩)
  have hv : c.valid = true := by
    have := hc
    simp [Poly.getCenter, Corners.getCenter, threeCorners, Orient.convert] at this
    rw [← this]
    simp [Pt.addVec, Vec.add_valid, Vec.scale, Pt.barycenter, Pt.bLoop]
  obtain ⟨t, h1, h2, -⟩ := C69_polygon_center threeCorners ⟨![1, 2, 3], true⟩ c rfl hv hc
  exact ⟨c, t, hc, h1, h2⟩
example := C69_polygon_shift threeCorners ⟨![1, 2, 3], true⟩ rfl

/-! ### Props/Vector, Props/VectorAngles and Props/VectorNorm -/

noncomputable def vecN : Vec 2 := ⟨![1, 2], true⟩
theorem vecM_ne : vecM.elem ≠ 0 := fun h => by have := congrFun h 0; simp [vecM] at this
theorem vecN_ne : vecN.elem ≠ 0 := fun h => by have := congrFun h 0; simp [vecN] at this
/-- Perpendicular vectors, and (1, 2) with a multiple of it. -/
noncomputable def vecP : Vec 2 := ⟨![2, -1], true⟩
theorem vecP_ne : vecP.elem ≠ 0 := fun h => by have := congrFun h 0; simp [vecP] at this
theorem vecNP : vecN.elem ⬝ᵥ vecP.elem = 0 := by simp [vecN, vecP, dotProduct, Fin.sum_univ_two]
example : vecN.dot vecP = 0 := C18_cut vecN vecP (by
  rw [vecNP, abs_zero]
  refine mul_pos epsilon_pos (lt_min ?_ ?_)
  · exact lt_of_lt_of_le (by simp [vecN]) (le_maxAbs vecN.elem 0)
  · exact lt_of_lt_of_le (by simp [vecP]) (le_maxAbs vecP.elem 0))
example : vecN.dot Vec.zero = 0 := C18_zero vecN Vec.zero (Or.inr rfl)
example := C18_maxAbs vecN.elem (by norm_num)
example := C20_direction vecM 5 vecM_ne (by norm_num)
example := C23_cos vecM vecN vecM_ne vecN_ne
example := C23_cos_error vecM vecN vecM_ne vecN_ne
example := C26_dir_length vecM vecN vecN_ne
example := C26_dir_fixes vecP vecN vecNP
theorem vecN_bound (i : Fin 2) : |vecN.elem i| ≤ 10 := by fin_cases i <;> norm_num [vecN]
theorem vecN_dotM : vecN.dot vecM = vecN.elem ⬝ᵥ vecM.elem :=
  dotExact_plane vecN_bound (Or.inr (by simp [vecN, vecM, dotProduct, Fin.sum_univ_two]; norm_num))
theorem mirrorM : (vecM.mirrorDir vecN).elem = ![13 / 5, -9 / 5] := by
  have hs : vecN.sqrMag = 5 := by simp [Vec.sqrMag, vecN, Fin.sum_univ_two]; norm_num
  unfold Vec.mirrorDir
  rw [vecN_dotM, hs]
  funext i; fin_cases i <;> simp [vecN, vecM, dotProduct, Fin.sum_univ_two] <;> norm_num
example : ((vecM.mirrorDir vecN).mirrorDir vecN).elem = vecM.elem := C26_dir_involution vecM vecN vecN_ne vecN_dotM
  (dotExact_plane vecN_bound (Or.inr (by rw [mirrorM]; simp [vecN, dotProduct, Fin.sum_univ_two]; norm_num)))
example := C26_dir_involution_error vecM vecN vecN_ne 1
example := C28_scale vecM vecN epsilon epsilon_pos.le vecM_ne vecN_ne
noncomputable def vecQ : Vec 2 := ⟨![-2, -4], true⟩
theorem vecNQ : DotExact vecN vecQ := dotExact_plane vecN_bound (Or.inr (by simp [vecN, vecQ, dotProduct, Fin.sum_univ_two]; norm_num))
example : vecN.parallel vecQ = (true, false) := by
  have := C92_parallel_multiple vecN vecQ (-2) vecN_ne (by norm_num) (by funext i; fin_cases i <;> simp [vecN, vecQ]; norm_num) vecNQ
  rw [this, decide_eq_false (by norm_num)]
example : (vecN.parallel vecQ).1 = true := by
  have he := epsilon_pos
  refine C92_parallel_complete vecN vecQ vecNQ ?_
  simp [vecN, vecQ, dotProduct, Fin.sum_univ_two]; nlinarith
example := C92_parallel_sound vecN vecQ vecNQ (by simp [vecN, vecQ, dotProduct, Fin.sum_univ_two]; norm_num)
  (congrArg Prod.fst (C92_parallel_multiple vecN vecQ (-2) vecN_ne (by norm_num) (by funext i; fin_cases i <;> simp [vecN, vecQ]; norm_num) vecNQ))
theorem vecNP_perp : vecN.perpendicular vecP = true := C92_perp_zero vecN vecP vecNP
example := C92_perp_sound vecN vecP vecN_ne vecP_ne (dotExact_plane vecN_bound (Or.inl vecNP)) vecNP_perp
example : vecN.perpendicular vecP = true := C92_perp_complete vecN vecP vecN_ne vecP_ne (by
  rw [vecNP, abs_zero]; exact mul_nonneg epsilon_pos.le (mul_nonneg (maxAbs_nonneg _) (maxAbs_nonneg _)))
example : ∃ r, vecN.sloppyNorm vecN.sloppyMag2 1 10 = some r ∧ 1 / Vec.sloppyMagMax 2 ≤ r.mag ∧ r.mag ≤ 1 := by
  have h : (1 : ℝ) / 10 < vecN.sloppyMag2 := by
    have hp := Sloppy.p_lo
    have : vecN.sloppyMag2 = 2 + Sloppy.p := by simp [vecN, Vec.sloppyMag2]
    rw [this]; linarith
  exact ⟨_, if_pos h, C20_sloppy_dim2 vecN _ 1 10 (by norm_num) (by norm_num) (if_pos h)⟩
example : ∃ r, (⟨![3, 4, 0], true⟩ : Vec 3).sloppyNorm (⟨![3, 4, 0], true⟩ : Vec 3).sloppyMag3 1 10 = some r ∧ 1 / 1.14593472 ≤ r.mag ∧ r.mag ≤ 1 := by
  have : ∃ r, (⟨![3, 4, 0], true⟩ : Vec 3).sloppyNorm (⟨![3, 4, 0], true⟩ : Vec 3).sloppyMag3 1 10 = some r := by
    apply Option.isSome_iff_exists.1
    apply C20_sloppy_succeeds
    rw [Vec.mag, Real.lt_sqrt (by norm_num), Vec.sqrMag, Fin.sum_univ_three]
    simp; norm_num
  obtain ⟨r, hr⟩ := this
  exact ⟨r, hr, C20_sloppy_dim3_partial _ r 1 10 (by norm_num) (by norm_num) hr⟩

end WFMath.Cases
