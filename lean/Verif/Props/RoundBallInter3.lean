/- Property theorems C152: polygons in space that meet balls, computed with rounding. -/
import Verif.Lemmas.RoundBallInter3
import Verif.Props.RoundPolyShapes
import Verif.Props.PolyMoved

namespace WFMath
open Spec Matrix Rounding
variable {n : Nat}

namespace Spec
/-- The margin of the test for the squares of distances: `D` is the distance of the center from the first corner, `M` bounds the distances of the corners from the first corner in the
plane, and `δ` says how far from perpendicular the axes of the plane are. -/
noncomputable def meetMargin (R D M δ : ℝ) : ℝ := (11 * δ + 2 ^ (-40 : ℤ)) * (1 + R + D + M) ^ 2
end Spec

theorem meetMargin_eq (R D M δ : ℝ) : meetMargin R D M δ = (11 * δ + 8192 * u 53) * (1 + R + D + M) ^ 2 := by
  unfold meetMargin
  rw [Fl.u53, show (2 : ℝ) ^ (-40 : ℤ) = 8192 * 2 ^ (-53 : ℤ) by norm_num]

theorem Fl.abs_le_of_sq {x y M : ℝ} (h : x ^ 2 + y ^ 2 ≤ M ^ 2) (hM : 0 ≤ M) : |x| ≤ M := by
  refine abs_le_of_sq_le_sq ?_ hM
  have := sq_nonneg y
  linarith

/-- C152: a ball that contains a point of the polygon deeper than the margin is found to meet it. -/
theorem C152_meets (r : Rounding 53) (hn : n ≤ 3) (s : Poly n) (hs : PlaneAxes s.orient) (b : Ball n) (hb : 0 ≤ b.radius) (δ M : ℝ)
    (hδ : |s.orient.ax0.elem ⬝ᵥ s.orient.ax1.elem| ≤ δ) (hM : ∀ q ∈ s.poly, q.elem 0 ^ 2 + q.elem 1 ^ 2 ≤ M ^ 2) (hM0 : 0 ≤ M) (proper : Bool)
    (x : Fin n → ℝ) (hx : x ∈ spaceFilled s) (h : eucl x b.center.elem ^ 2 ≤ b.radius ^ 2 - meetMargin b.radius (eucl b.center.elem s.orient.origin.elem) M δ) :
    Fl.interPolyBallN r s b proper = some true := by
  obtain ⟨off, y, ho, hw, hy, hd, hq, hz⟩ := Fl.interPolyBallN_setup r hn s hs b hδ hM
  obtain ⟨z, hzf, rfl⟩ := hx
  have hu0 : 0 < u 53 := u_pos
  have hu : u 53 ≤ 1 / 1000000 := by rw [Fl.u53]; norm_num
  have hδ0 := (abs_nonneg _).trans hδ
  have hD : 0 ≤ eucl b.center.elem s.orient.origin.elem := by rw [eucl_eq_len]; exact len_nonneg _
  have hS : 0 ≤ eucl y z := by rw [eucl_eq_len]; exact len_nonneg _
  have hne : s.poly.length ≠ 0 := fun h0 => by rw [List.length_eq_zero_iff.1 h0] at hzf; exact filled_nil _ hzf
  rw [eucl_comm, meetMargin_eq] at h
  obtain ⟨g1, g2⟩ := Fl.gap_meets hu0.le hu hδ0 (show 1 ≤ 1 + b.radius + eucl b.center.elem s.orient.origin.elem + M by linarith) hb hD (by linarith) (sq_nonneg _) hw hd (hz z)
    (sq_nonneg _) h
  unfold Fl.interPolyBallN
  rw [if_neg hne, ho]
  simp only [Option.bind_some]
  generalize hdist : r (r (b.radius * b.radius) - Fl.sqrMag r off) = d at *
  have hZ1 : 1 ≤ 1 + b.radius + eucl b.center.elem s.orient.origin.elem + M := by linarith
  have hZ2 : 1 + eucl b.center.elem s.orient.origin.elem + M ≤ 1 + b.radius + eucl b.center.elem s.orient.origin.elem + M := by linarith
  have hside := Fl.sideMargin_le hy hD hM0 hZ2
  have hdq : ∀ c ∈ s.poly, eucl y c.elem ≤ 203 / 100 * (1 + b.radius + eucl b.center.elem s.orient.origin.elem + M) := fun c hc => Fl.plane_dist_le (hq c hc) hD hM0 hZ2
  generalize 1 + b.radius + eucl b.center.elem s.orient.origin.elem + M = Z at *
  have uZ := mul_pos hu0 (zero_lt_one.trans_le hZ1)
  have hdpos : 0 < d := by nlinarith [sq_nonneg (eucl y z)]
  have hless : Fl.less r d 0 proper = false := by
    unfold Fl.less
    cases proper
    · simp only [Bool.false_eq_true, if_false, decide_eq_false_iff_not, not_lt, gt_iff_lt]
      have := r.mono (show 0 - d ≤ 0 by linarith)
      rw [r.zero] at this
      exact this.trans epsilon_pos.le
    · simp only [if_true, decide_eq_false_iff_not, not_le]
      exact hdpos
  have hroot := Fl.gap_root hu0.le hu hZ1 hS g1 g2 (r.err Fl.pos53 (Real.sqrt d))
  have hr0 : ¬ r (Real.sqrt d) < 0 := not_lt.2 (by have := r.mono (Real.sqrt_nonneg d); rwa [r.zero] at this)
  rw [hless, if_neg (by simp), if_neg (by linarith)]
  unfold Ball.mk'
  rw [if_neg hr0]
  have e1 : epsilon = 60 * u 53 := by rw [Fl.u53]; unfold epsilon; norm_num
  have e43 : (2 : ℝ) ^ (-43 : ℤ) = 1024 * u 53 := by rw [Fl.u53]; norm_num
  refine (C136_ball r s.poly ⟨⟨y, false⟩, r (Real.sqrt d)⟩ proper (M := M) (ρ := eucl y z + 125 * u 53 * Z) (fun c hc => Fl.abs_le_of_sq (hM c hc) hM0) ?_ fun c hc => ?_).1
    ⟨z, hzf, ?_⟩
  · exact hside.trans (by linarith)
  · refine le_trans ?_ hroot
    rw [e43, e1]
    refine mul_le_mul_of_nonneg_right ?_ (by linarith)
    have := mul_le_mul_of_nonneg_left (hdq c hc) hu0.le
    have := mul_le_mul_of_nonneg_left hZ1 hu0.le
    simp only
    linarith
  · show eucl z y ≤ _
    rw [eucl_comm]
    linarith

/-- C152: a ball that is found to meet a polygon contains a point of it, up to the margin. -/
theorem C152_found (r : Rounding 53) (hn : n ≤ 3) (s : Poly n) (hs : PlaneAxes s.orient) (b : Ball n) (hb : 0 ≤ b.radius) (δ M : ℝ)
    (hδ : |s.orient.ax0.elem ⬝ᵥ s.orient.ax1.elem| ≤ δ) (hM : ∀ q ∈ s.poly, q.elem 0 ^ 2 + q.elem 1 ^ 2 ≤ M ^ 2) (hM0 : 0 ≤ M) (proper : Bool)
    (h : Fl.interPolyBallN r s b proper = some true) :
    ∃ x ∈ spaceFilled s, eucl x b.center.elem ^ 2 ≤ b.radius ^ 2 + meetMargin b.radius (eucl b.center.elem s.orient.origin.elem) M δ := by
  obtain ⟨off, y, ho, hw, hy, hd, hq, hz⟩ := Fl.interPolyBallN_setup r hn s hs b hδ hM
  have hu0 : 0 < u 53 := u_pos
  have hu : u 53 ≤ 1 / 1000000 := by rw [Fl.u53]; norm_num
  have hδ0 := (abs_nonneg _).trans hδ
  have hD : 0 ≤ eucl b.center.elem s.orient.origin.elem := by rw [eucl_eq_len]; exact len_nonneg _
  have e1 : epsilon = 60 * u 53 := by rw [Fl.u53]; unfold epsilon; norm_num
  have e49 : (2 : ℝ) ^ (-49 : ℤ) = 16 * u 53 := by rw [Fl.u53]; norm_num
  rw [meetMargin_eq]
  unfold Fl.interPolyBallN at h
  rw [ho] at h
  by_cases hne : s.poly.length = 0
  · rw [if_pos hne] at h; simp at h
  rw [if_neg hne, Option.bind_some] at h
  simp only at h
  split_ifs at h with h1 h2
  · simp at h
  push Not at h2
  have hZ1 : 1 ≤ 1 + b.radius + eucl b.center.elem s.orient.origin.elem + M := by linarith
  have hRD : b.radius + eucl b.center.elem s.orient.origin.elem ≤ 1 + b.radius + eucl b.center.elem s.orient.origin.elem + M := by linarith
  have hZM : 1 + 2 * M ≤ 2 * (1 + b.radius + eucl b.center.elem s.orient.origin.elem + M) := by linarith
  have hZ2 : 1 + eucl b.center.elem s.orient.origin.elem + M ≤ 1 + b.radius + eucl b.center.elem s.orient.origin.elem + M := by linarith
  have hside := Fl.sideMargin_le hy hD hM0 hZ2
  have hdq : ∀ c ∈ s.poly, eucl y c.elem ≤ 203 / 100 * (1 + b.radius + eucl b.center.elem s.orient.origin.elem + M) := fun c hc => Fl.plane_dist_le (hq c hc) hD hM0 hZ2
  generalize r (r (b.radius * b.radius) - Fl.sqrMag r off) = d at *
  generalize 1 + b.radius + eucl b.center.elem s.orient.origin.elem + M = Z at *
  have uZ := mul_pos hu0 (zero_lt_one.trans_le hZ1)
  have hr0 : 0 ≤ r (Real.sqrt d) := by have := r.mono (Real.sqrt_nonneg d); rwa [r.zero] at this
  by_cases hf : ∀ c ∈ s.poly, ¬ NearlyFlushed (⟨y, false⟩ : Pt 2) c
  · unfold Ball.mk' at h
    rw [if_neg (not_lt.2 hr0)] at h
    obtain ⟨z, hzf, hzd⟩ := (C136_ball_converse r s.poly ⟨⟨y, false⟩, r (Real.sqrt d)⟩ proper (M := M) (ρ := r (Real.sqrt d) * (1 + 60 * u 53) + 160 * u 53 * Z) hr0
      (fun c hc => Fl.abs_le_of_sq (hM c hc) hM0) (by have := mul_nonneg hr0 (show 0 ≤ 1 + 60 * u 53 by linarith); simp only; linarith) (fun c hc => by
        have := mul_le_mul_of_nonneg_left (hdq c hc) hu0.le
        rw [e1, e49]
        simp only
        linarith) hf).1 h
    refine ⟨_, ⟨z, hzf, rfl⟩, ?_⟩
    rw [eucl_comm]
    have hzd' : eucl y z ≤ r (Real.sqrt d) * (1 + 60 * u 53) + 160 * u 53 * Z := by rw [eucl_comm]; exact hzd
    exact Fl.gap_found hu0.le hu hδ0 hZ1 (by rw [eucl_eq_len]; exact len_nonneg _) hb hD hRD (sq_nonneg _) hw hd h2 (hz z) (r.err Fl.pos53 _) hzd'
  · push Not at hf
    obtain ⟨c, hc, hfl⟩ := hf
    refine ⟨_, ⟨c.elem, .inr (corner_boundary hc), rfl⟩, ?_⟩
    rw [eucl_comm]
    refine Fl.gap_flushed hu0.le hu hδ0 hZ1 hb hD hRD hw hd h2 (hz c.elem) ?_
    have hup : scaleEpsilonArr y c.elem epsilon ≤ epsilon * (1 + 2 * M) := by
      by_cases hzz : y = 0 ∨ c.elem = 0
      · rw [scaleEpsilonArr_zero hzz]
        have := mul_nonneg epsilon_pos.le hM0
        linarith
      · push Not at hzz
        refine (scaleEpsilonArr_le epsilon_pos.le hzz.1 hzz.2).trans ?_
        have hmx : maxAbs c.elem ≤ M := by
          refine maxAbs_le hM0 fun i => ?_
          fin_cases i
          · exact Fl.abs_le_of_sq (hM c hc) hM0
          · exact Fl.abs_le_of_sq (by rw [add_comm]; exact hM c hc) hM0
        have h2 := (min_le_right (maxAbs y) (maxAbs c.elem)).trans hmx
        have := mul_le_mul_of_nonneg_left h2 epsilon_pos.le
        have := epsilon_pos
        linarith
    have hfl' : eucl y c.elem ^ 2 < (1 + epsilon) * scaleEpsilonArr y c.elem epsilon := hfl
    have k1 := mul_le_mul_of_nonneg_left hup (show 0 ≤ 1 + epsilon by have := epsilon_pos; linarith)
    rw [e1] at k1 hfl'
    have k2 := mul_le_mul_of_nonneg_left hZM hu0.le
    have k3 : (1 + 60 * u 53) * (60 * u 53 * (1 + 2 * M)) ≤ 101 / 100 * (60 * u 53 * (1 + 2 * M)) := mul_le_mul_of_nonneg_right (by linarith) (by positivity)
    linarith

/-- C152: when a ball is not found to meet a polygon, all points of the polygon are outside it or nearer its surface than the margin. -/
theorem C152_missed (r : Rounding 53) (hn : n ≤ 3) (s : Poly n) (hs : PlaneAxes s.orient) (b : Ball n) (hb : 0 ≤ b.radius) (δ M : ℝ)
    (hδ : |s.orient.ax0.elem ⬝ᵥ s.orient.ax1.elem| ≤ δ) (hM : ∀ q ∈ s.poly, q.elem 0 ^ 2 + q.elem 1 ^ 2 ≤ M ^ 2) (hM0 : 0 ≤ M) (proper : Bool)
    (h : Fl.interPolyBallN r s b proper ≠ some true) (x : Fin n → ℝ) (hx : x ∈ spaceFilled s) :
    b.radius ^ 2 - meetMargin b.radius (eucl b.center.elem s.orient.origin.elem) M δ < eucl x b.center.elem ^ 2 := by
  by_contra hc
  exact h (C152_meets r hn s hs b hb δ M hδ hM hM0 proper x hx (not_lt.1 hc))

/-- C152: an answer is given whenever the proper test is asked for. -/
theorem C152_answers (r : Rounding 53) (s : Poly n) (hs : s.orient.origin.valid = true) (b : Ball n) : ∃ a, Fl.interPolyBallN r s b true = some a := by
  unfold Fl.interPolyBallN
  split_ifs with hne
  · exact ⟨_, rfl⟩
  · unfold Fl.offset
    rw [if_neg (by simp [hs])]
    simp only [Option.bind_some]
    unfold Fl.less
    simp only [if_true, decide_eq_true_eq]
    split_ifs with h1 h2
    · exact ⟨_, rfl⟩
    · exact absurd h2.le h1
    · unfold Fl.interPolyBall
      rw [if_neg (show ¬ s.poly = [] from fun h0 => hne (by rw [h0]; rfl))]
      split_ifs
      · exact ⟨_, rfl⟩
      · exact ⟨_, rfl⟩

/-- C152 fails without it: with a ball of radius 0 a little above the plane of a triangle, the root of a negative number is taken. -/
theorem C152_false (r : Rounding 53) : ∃ (s : Poly 3) (ps : List (Pt 3)) (f : Option (Pt 3)) (b : Ball 3), Built3 r epsilon s ps f ∧ 0 ≤ b.radius ∧ b.center.valid = true ∧
    Fl.interPolyBallN r s b false = none := by
  have f30 : r (2 ^ (-30 : ℤ)) = 2 ^ (-30 : ℤ) := r.of_fl (IsFl.zpow Fl.pos53 _)
  have f60 : r (2 ^ (-60 : ℤ)) = 2 ^ (-60 : ℤ) := r.of_fl (IsFl.zpow Fl.pos53 _)
  have f60' : r (-2 ^ (-60 : ℤ)) = -2 ^ (-60 : ℤ) := r.of_fl (IsFl.zpow Fl.pos53 _).neg
  have e60 : (2 : ℝ) ^ (-30 : ℤ) * 2 ^ (-30 : ℤ) = 2 ^ (-60 : ℤ) := by rw [← zpow_add₀ (by norm_num)]; norm_num
  refine ⟨threeCorners, _, _, ⟨⟨![0, 0, 2 ^ (-30 : ℤ)], true⟩, 0⟩, Fl.threeCorners_built r, le_rfl, rfl, ?_⟩
  have hoff : Fl.offset r threeCorners.orient ⟨![0, 0, 2 ^ (-30 : ℤ)], true⟩ = some (⟨![0, 0, 2 ^ (-30 : ℤ)], true⟩, ⟨![0, 0], false⟩) := by
    have hsub : Fl.ptSub r (⟨![0, 0, 2 ^ (-30 : ℤ)], true⟩ : Pt 3) ⟨0, true⟩ = ⟨![0, 0, 2 ^ (-30 : ℤ)], true⟩ := by
      unfold Fl.ptSub
      congr 1
      funext i
      fin_cases i
      · simp [r.zero]
      · simp [r.zero]
      · show r (2 ^ (-30 : ℤ) - 0) = 2 ^ (-30 : ℤ)
        rw [sub_zero, f30]
    have hz : ∀ a : Fin 3 → ℝ, a 2 = 0 → Fl.dot r (⟨![0, 0, 2 ^ (-30 : ℤ)], true⟩ : Vec 3) ⟨a, true⟩ = 0 := by
      intro a ha
      unfold Fl.dot
      have : (fun i : Fin 3 => r ((![0, 0, 2 ^ (-30 : ℤ)] : Fin 3 → ℝ) i * a i)) = fun _ => 0 := by
        funext i
        fin_cases i
        · simp [r.zero]
        · simp [r.zero]
        · show r (2 ^ (-30 : ℤ) * a 2) = 0
          rw [ha, mul_zero, r.zero]
      simp only [this, Fl.sum_zero, ite_self]
    have hs0 : ∀ a : Vec 3, a.valid = true → Fl.sub r (⟨![0, 0, 2 ^ (-30 : ℤ)], true⟩ : Vec 3) (Fl.scale r a 0) = ⟨![0, 0, 2 ^ (-30 : ℤ)], true⟩ := by
      intro a ha
      unfold Fl.sub Fl.scale
      simp only [mul_zero, r.zero, sub_zero, ha, Bool.and_true]
      congr 1
      funext i
      fin_cases i
      · simp [r.zero]
      · simp [r.zero]
      · exact f30
    unfold Fl.offset
    rw [if_neg (by simp [threeCorners])]
    unfold threeCorners
    simp only [hsub]
    rw [hz ![1, 0, 0] rfl, hs0 _ rfl, hz ![0, 1, 0] rfl, hs0 _ rfl]
  unfold Fl.interPolyBallN
  rw [if_neg (by rw [threeCorners_poly]; simp), hoff]
  have hm : Fl.sqrMag r (⟨![0, 0, 2 ^ (-30 : ℤ)], true⟩ : Vec 3) = 2 ^ (-60 : ℤ) := by
    unfold Fl.sqrMag Fl.sum
    rw [show List.finRange 3 = [0, 1, 2] from rfl]
    simp only [List.foldl_cons, List.foldl_nil]
    rw [show (![0, 0, 2 ^ (-30 : ℤ)] : Fin 3 → ℝ) 0 = 0 from rfl, show (![0, 0, 2 ^ (-30 : ℤ)] : Fin 3 → ℝ) 1 = 0 from rfl,
      show (![0, 0, 2 ^ (-30 : ℤ)] : Fin 3 → ℝ) 2 = 2 ^ (-30 : ℤ) from rfl, e60]
    simp only [mul_zero, r.zero, add_zero, zero_add, f60]
  simp only [Option.bind_some, hm, mul_zero, r.zero, zero_sub, f60']
  have hless : Fl.less r (-2 ^ (-60 : ℤ)) 0 false = false := by
    unfold Fl.less
    simp only [Bool.false_eq_true, if_false, decide_eq_false_iff_not, not_lt, gt_iff_lt, zero_sub, neg_neg, f60]
    unfold epsilon
    norm_num
  rw [hless, if_neg (by simp), if_pos (by norm_num)]

end WFMath
