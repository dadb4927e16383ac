/- Cases for C161: the unit square and balls, shifted and turned. -/
import Verif.Props.RoundBallHistory
import Verif.Cases.History

namespace WFMath.Cases
open WFMath Spec Matrix Rounding

/-- The ball of radius `R` about the middle of the unit square. -/
noncomputable def midBall (R : ℝ) : Ball 2 := ⟨⟨![1 / 2, 1 / 2], true⟩, R⟩

theorem motions_fit (r : Rounding 53) : ∀ mo ∈ shiftTurn r, mo.Fits (13 * 2 ^ (-52 : ℤ)) 24 := by
  intro mo hmo
  simp only [shiftTurn, List.mem_cons, List.not_mem_nil, or_false] at hmo
  rcases hmo with rfl | rfl
  · exact (len2 _).trans (by norm_num [abs_of_nonneg])
  · exact ⟨len_c.trans (by norm_num), R35, hR35, hm12 r⟩

theorem midBall_stays (r : Rounding 53) (R : ℝ) : Fl.StaysIn r 24 (shiftTurn r) (midBall R).center :=
  shiftTurn_stays r ⟨![1 / 2, 1 / 2], true⟩ ((len2 _).trans (by norm_num))

theorem motions_drift (r : Rounding 53) : ((shiftTurn r).length : ℝ) * (13 * 2 ^ (-52 : ℤ) + 5 * 2 ^ (-53 : ℤ)) * (2 * 24) ≤ 1 / 100 := by
  have hl : ((shiftTurn r).length : ℝ) = 2 := by norm_num [shiftTurn]
  rw [hl]; norm_num

theorem square_from_mid : ∀ c ∈ unitSquare, 1 / 2 ≤ eucl c.elem ![1 / 2, 1 / 2] ∧ eucl c.elem ![1 / 2, 1 / 2] ≤ 3 / 4 := by
  intro c hc
  simp only [unitSquare, List.mem_cons, List.not_mem_nil, or_false] at hc
  rcases hc with rfl | rfl | rfl | rfl <;>
    (rw [eucl_eq_len]; exact ⟨Real.le_sqrt_of_sq_le (by simp [dotProduct, Fin.sum_univ_two]; norm_num), Real.sqrt_le_iff.2 ⟨by norm_num, by simp [dotProduct, Fin.sum_univ_two]; norm_num⟩⟩)

/-- Points within 24 of the origin and more than 1/4 apart are not so near that the squared distance is set to 0. -/
theorem apart_kept {x y : Pt 2} (hx : len x.elem ≤ 24) (h : 1 / 4 ≤ eucl x.elem y.elem) : ¬ NearlyFlushed x y := by
  unfold NearlyFlushed
  have a : maxAbs x.elem ≤ 24 := maxAbs_le (by norm_num) fun i => (abs_le_len _ i).trans hx
  have b := Fl.scale_le (maxAbs x.elem) (maxAbs y.elem)
  rw [abs_of_nonneg (maxAbs_nonneg _)] at b
  have c : scaleEpsilonArr x.elem y.elem epsilon ≤ 1 / 100 :=
    b.trans ((mul_le_mul_of_nonneg_left (max_le (by norm_num) (by linarith) : max 1 (2 * maxAbs x.elem) ≤ 48) epsilon_pos.le).trans (by unfold epsilon; norm_num))
  have d : epsilon ≤ 1 := by unfold epsilon; norm_num
  have e := mul_le_mul (show 1 + epsilon ≤ 2 by linarith) c (scaleEpsilonArr_nonneg epsilon_pos.le) (by norm_num)
  nlinarith

/-- C161_ball: after a shift and a turn the library finds that the square meets the ball of radius 1/4 about its middle. -/
example (r : Rounding 53) (proper : Bool) : Fl.interPolyBall r (Fl.movePoly r (shiftTurn r) unitSquare) (Fl.moveBall r (shiftTurn r) (midBall (1 / 4))) proper = some true := by
  have hd := motions_drift r
  refine (C161_ball r unitSquare (midBall (1 / 4)) (shiftTurn r) proper (13 * 2 ^ (-52 : ℤ)) 24 _ (1 / 8) (by norm_num) (by norm_num) rfl (motions_fit r) (midBall_stays r _)
    (fun c hc => shiftTurn_stays r c (square_len c hc)) (by norm_num) (by show _ ≤ (1 / 4 : ℝ); unfold epsilon; norm_num)).1
    ⟨![1 / 2, 1 / 2], .inl (unitSquare_inside (by norm_num) (by norm_num) (by norm_num) (by norm_num)), ?_⟩
  show eucl ![1 / 2, 1 / 2] ![1 / 2, 1 / 2] ≤ 1 / 8 - 3 * _
  rw [eucl_eq_zero.2 rfl]
  have := mul_le_mul_of_nonneg_left hd (show (0 : ℝ) ≤ 3 by norm_num)
  exact sub_nonneg.2 (this.trans (by norm_num))

/-- C161_ball_converse: after a shift and a turn the library finds the ball of radius 1/4 about the middle in the square. -/
example (r : Rounding 53) (proper : Bool) :
    Fl.containsPolyBall r (Fl.movePoly r (shiftTurn r) unitSquare) (Fl.moveBall r (shiftTurn r) (midBall (1 / 4))) proper = some true := by
  have hd := motions_drift r
  have hc : ∀ c ∈ unitSquare, Fl.StaysIn r 24 (shiftTurn r) c := fun c hc => shiftTurn_stays r c (square_len c hc)
  refine (C161_ball_converse r unitSquare (midBall (1 / 4)) (shiftTurn r) proper (13 * 2 ^ (-52 : ℤ)) 24 _ (3 / 8) (by norm_num) (by norm_num) rfl (motions_fit r) (midBall_stays r _)
    hc (by norm_num [midBall]) (by norm_num) (by show (1 / 4 : ℝ) * _ + _ ≤ _; unfold epsilon; norm_num) fun c hm => ?_).2 ?_
  · refine apart_kept (Fl.stays_end (midBall_stays r _)) ?_
    have a := (_root_.abs_le.1 (Fl.moved_distance r (by norm_num) (by norm_num) rfl (motions_fit r) (midBall_stays r (1 / 4)) (hc c hm))).1
    have b : 1 / 2 ≤ eucl (midBall (1 / 4)).center.elem c.elem := by
      have := (square_from_mid c hm).1
      rw [eucl_eq_len, len_sub_comm, ← eucl_eq_len] at this
      exact this
    generalize ((shiftTurn r).length : ℝ) * (13 * 2 ^ (-52 : ℤ) + 5 * 2 ^ (-53 : ℤ)) * (2 * 24) = δ at a hd
    linarith
  · intro x hx
    have hx' : eucl x ![1 / 2, 1 / 2] ≤ 3 / 8 + 3 * ((shiftTurn r).length * (13 * 2 ^ (-52 : ℤ) + 5 * 2 ^ (-53 : ℤ)) * (2 * 24)) := hx
    generalize ((shiftTurn r).length : ℝ) * (13 * 2 ^ (-52 : ℤ) + 5 * 2 ^ (-53 : ℤ)) * (2 * 24) = δ at hx' hd
    rw [eucl_eq_len] at hx'
    have a0 := (abs_le_len (x - ![1 / 2, 1 / 2]) 0).trans hx'
    have a1 := (abs_le_len (x - ![1 / 2, 1 / 2]) 1).trans hx'
    simp only [Pi.sub_apply, cons_val_zero, cons_val_one] at a0 a1
    have b0 := _root_.abs_le.1 a0
    have b1 := _root_.abs_le.1 a1
    exact unitSquare_inside (by linarith) (by linarith) (by linarith) (by linarith)

/-- C161_in_ball: after a shift and a turn the library finds the square in the ball of radius 1 about its middle. -/
example (r : Rounding 53) (proper : Bool) : Fl.containsBallPoly r (Fl.moveBall r (shiftTurn r) (midBall 1)) (Fl.movePoly r (shiftTurn r) unitSquare) proper = true := by
  have hd := motions_drift r
  refine (C161_in_ball r unitSquare (midBall 1) (shiftTurn r) (13 * 2 ^ (-52 : ℤ)) 24 _ (by norm_num) (by norm_num) rfl (motions_fit r) (midBall_stays r _)
    (fun c hc => shiftTurn_stays r c (square_len c hc)) (by norm_num [midBall])).1 proper (convexHull_min (fun x hx => ?_) (convex_ballSet _))
  obtain ⟨c, hc, rfl⟩ := mem_cornerSet.1 hx
  have a := (square_from_mid c hc).2
  show eucl c.elem ![1 / 2, 1 / 2] ≤ 1 / (1 + epsilon) - 2 * _
  have e : (9 / 10 : ℝ) ≤ 1 / (1 + epsilon) := by unfold epsilon; norm_num
  generalize ((shiftTurn r).length : ℝ) * (13 * 2 ^ (-52 : ℤ) + 5 * 2 ^ (-53 : ℤ)) * (2 * 24) = δ at hd ⊢
  linarith

end WFMath.Cases
