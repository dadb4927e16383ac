/- Cases for C160: a segment, balls and a point in the plane that are shifted and turned, and a segment of space turned up to 2^30 times by a quaternion. -/
import Verif.Props.RoundSegSteps
import Verif.Cases.Steps

namespace WFMath.Cases
open WFMath Spec Matrix Rounding

/-- The segment from the origin to (1, 0). -/
def unitSeg : Seg 2 := ⟨⟨![0, 0], true⟩, ⟨![1, 0], true⟩⟩

theorem unitSeg_p1 (r : Rounding 53) : Fl.Remains r 24 (shiftTurn' r) unitSeg.p1 := shiftTurn_remains r ⟨![0, 0], true⟩ ((len2 _).trans (by norm_num))
theorem unitSeg_p2 (r : Rounding 53) : Fl.Remains r 24 (shiftTurn' r) unitSeg.p2 := shiftTurn_remains r ⟨![1, 0], true⟩ ((len2 _).trans (by norm_num))

theorem shiftTurn_drift (r : Rounding 53) : ((shiftTurn' r).length : ℝ) * (4 * (2 * (13 * 2 ^ (-52 : ℤ)) + 2 ^ (-51 : ℤ)) * 24) ≤ 1 / 100 := by
  have hl : ((shiftTurn' r).length : ℝ) = 2 := by norm_num [shiftTurn']
  rw [hl]; norm_num

/-- All points of the segment are at least `y` away from (0, y). -/
theorem unitSeg_above {x : Fin 2 → ℝ} {y : ℝ} (y0 : 0 ≤ y) (hx : x ∈ segSet unitSeg) : y ≤ eucl x ![0, y] := by
  obtain ⟨t, -, -, rfl⟩ := hx
  rw [eucl_eq_len]
  refine le_trans ?_ (abs_le_len ((1 - t) • unitSeg.p1.elem + t • unitSeg.p2.elem - ![0, y]) 1)
  simp [unitSeg, abs_of_nonneg y0]

/-- C160_meet: after a shift and a turn the library finds the segment meeting the ball of radius 1/2 about (1, 0), and, unless a squared distance is set to 0, not the ball of radius
1 about (0, 2). -/
example (r : Rounding 53) (proper : Bool) :
    Fl.interSBall r (Fl.stepSeg r (shiftTurn' r) unitSeg) (Fl.stepBall r (shiftTurn' r) ⟨⟨![1, 0], true⟩, 1 / 2⟩) proper = true ∧
    (Fl.interSBall r (Fl.stepSeg r (shiftTurn' r) unitSeg) (Fl.stepBall r (shiftTurn' r) ⟨⟨![0, 2], true⟩, 1⟩) proper = true →
      NearlyFlushed (Fl.stepPoint r (shiftTurn' r) ⟨![0, 2], true⟩) (Fl.stepPoint r (shiftTurn' r) unitSeg.p1) ∨
      NearlyFlushed (Fl.stepPoint r (shiftTurn' r) ⟨![0, 2], true⟩) (Fl.stepPoint r (shiftTurn' r) unitSeg.p2)) := by
  have hd := shiftTurn_drift r
  have he : epsilon ≤ 1 / 100 := by unfold epsilon; norm_num
  have he0 := epsilon_pos
  have t := fun (b : Ball 2) hb hc => C160_meet r (by norm_num) (shiftTurn' r) (13 * 2 ^ (-52 : ℤ)) 24 (by norm_num) (by norm_num) (shiftTurn_fits r) unitSeg b hb
    (unitSeg_p1 r) (unitSeg_p2 r) hc proper
  constructor
  · refine (t ⟨⟨![1, 0], true⟩, 1 / 2⟩ (by norm_num) (unitSeg_p2 r)).1 ⟨![1, 0], p2_mem unitSeg, ?_⟩
    have e : eucl ![1, 0] ![1, 0] ≤ 0 := (eucl2 _ _).trans (by norm_num)
    show (eucl ![1, 0] ![1, 0] + _ + _ + _) * (1 + epsilon) ≤ 1 / 2
    have k : (2 : ℝ) ^ (-42 : ℤ) * 24 ≤ 1 / 100 := by norm_num
    exact (mul_le_mul ((add_le_add (add_le_add (add_le_add e hd) k) (mul_le_mul_of_nonneg_left he (by norm_num : (0 : ℝ) ≤ 3))).trans (show _ ≤ (1 / 10 : ℝ) by norm_num)) (show 1 + epsilon ≤ 2 by linarith) (by linarith) (by norm_num)).trans (by norm_num)
  · intro h
    refine ((t ⟨⟨![0, 2], true⟩, 1⟩ (by norm_num) (shiftTurn_remains r ⟨![0, 2], true⟩ ((len2 _).trans (by norm_num [abs_of_nonneg])))).2 h).resolve_left ?_
    rintro ⟨x, hx, h'⟩
    have a := unitSeg_above (y := 2) (by norm_num) hx
    have h'' : eucl x ![0, 2] ≤ 1 * (1 + epsilon) + (shiftTurn' r).length * (4 * (2 * (13 * 2 ^ (-52 : ℤ)) + 2 ^ (-51 : ℤ)) * 24) + 2 ^ (-48 : ℤ) * 24 := h'
    have k : (2 : ℝ) ^ (-48 : ℤ) * 24 ≤ 1 / 100 := by norm_num
    have := a.trans (h''.trans (add_le_add (add_le_add le_rfl hd) k))
    linarith

/-- C160_in_ball: after a shift and a turn the library finds the segment in the ball of radius 2 about the origin. -/
example (r : Rounding 53) : Fl.containsBallS r (Fl.stepBall r (shiftTurn' r) ⟨⟨![0, 0], true⟩, 2⟩) (Fl.stepSeg r (shiftTurn' r) unitSeg) true = true := by
  have hd := shiftTurn_drift r
  refine (C160_in_ball r (by norm_num) (shiftTurn' r) (13 * 2 ^ (-52 : ℤ)) 24 (by norm_num) (by norm_num) (shiftTurn_fits r) unitSeg ⟨⟨![0, 0], true⟩, 2⟩ (by norm_num)
    (unitSeg_p1 r) (unitSeg_p2 r) (unitSeg_p1 r)).2.1 ?_
  rintro x ⟨t, t0, t1, rfl⟩
  have e : eucl ((1 - t) • unitSeg.p1.elem + t • unitSeg.p2.elem) ![0, 0] ≤ 1 := by
    refine (eucl2 _ _).trans ?_
    simp [unitSeg, abs_of_nonneg t0, t1]
  exact (add_le_add e hd).trans_lt (by norm_num)

/-- C160_point: after a shift and a turn the library, asked with `proper`, does not find the point (0, 1) on the segment. -/
example (r : Rounding 53) : Fl.interSP r (Fl.stepSeg r (shiftTurn' r) unitSeg) (Fl.stepPoint r (shiftTurn' r) ⟨![0, 1], true⟩) true = false := by
  have hd := shiftTurn_drift r
  rw [Bool.eq_false_iff]
  intro h
  obtain ⟨x, hx, h'⟩ := C160_point r (by norm_num) (shiftTurn' r) (13 * 2 ^ (-52 : ℤ)) 24 (by norm_num) (by norm_num) (shiftTurn_fits r) unitSeg ⟨![0, 1], true⟩
    (unitSeg_p1 r) (unitSeg_p2 r) (shiftTurn_remains r ⟨![0, 1], true⟩ ((len2 _).trans (by norm_num))) h
  have a := unitSeg_above (y := 1) (by norm_num) hx
  have e : eucl unitSeg.p1.elem unitSeg.p2.elem ≤ 1 := (eucl2 _ _).trans (by norm_num [unitSeg])
  rw [eucl_eq_len, len_sub_comm, ← eucl_eq_len x] at h'
  have q : Real.sqrt (20 * epsilon) ≤ 1 / 10 := Real.sqrt_le_iff.2 ⟨by norm_num, by unfold epsilon; norm_num⟩
  have h'' : eucl x ![0, 1] ≤ _ := h'
  have k := mul_le_mul q (show eucl unitSeg.p1.elem unitSeg.p2.elem + (shiftTurn' r).length * (4 * (2 * (13 * 2 ^ (-52 : ℤ)) + 2 ^ (-51 : ℤ)) * 24) ≤ 2 from (add_le_add e hd).trans (by norm_num))
    (add_nonneg (eucl_nonneg _ _) (by positivity)) (by norm_num)
  have := a.trans (h''.trans (add_le_add k hd))
  linarith

/-- C160_turns: a segment of space with ends within 3 of (1, 1, 1), turned `N` times about it by a third of a full turn about the diagonal with all the roundings, keeps the distance of
its middle from any point within 3 of (1, 1, 1), up to 1/50. -/
example (r : Rounding 53) (N : Nat) (hN : N ≤ 2 ^ 30) (s : Seg 3) (x : Pt 3) (ha : eucl s.p1.elem ![1, 1, 1] ≤ 3) (hb : eucl s.p2.elem ![1, 1, 1] ≤ 3)
    (hx : eucl x.elem ![1, 1, 1] ≤ 3) :
    |eucl ((1 - 1 / 2 : ℝ) • (Fl.stepSeg r (List.replicate N (.rotateQ quatB ⟨![1, 1, 1], true⟩)) s).p1.elem +
        (1 / 2 : ℝ) • (Fl.stepSeg r (List.replicate N (.rotateQ quatB ⟨![1, 1, 1], true⟩)) s).p2.elem)
      (Fl.stepPoint r (List.replicate N (.rotateQ quatB ⟨![1, 1, 1], true⟩)) x).elem - eucl ((1 - 1 / 2 : ℝ) • s.p1.elem + (1 / 2 : ℝ) • s.p2.elem) x.elem| ≤ 1 / 50 := by
  have hp : len (![1, 1, 1] : Fin 3 → ℝ) ≤ 3 := Real.sqrt_le_iff.2 ⟨by norm_num, by simp [dotProduct, Fin.sum_univ_three]; norm_num⟩
  have hN' : (N : ℝ) ≤ 2 ^ 30 := by exact_mod_cast hN
  have hE : 2 * (20 * epsilon) + 2 ^ (-51 : ℤ) ≤ 2 ^ (-41 : ℤ) := by unfold epsilon; norm_num
  have E0 : 0 ≤ 2 * (20 * epsilon) + 2 ^ (-51 : ℤ) := by have := epsilon_pos; positivity
  have hK : (N : ℝ) * (2 * (20 * epsilon) + 2 ^ (-51 : ℤ)) ≤ 2 ^ (-11 : ℤ) := (mul_le_mul hN' hE E0 (by positivity)).trans (by norm_num)
  have t := C160_turns r (by norm_num) ⟨![1, 1, 1], true⟩ (List.replicate N (.rotateQ quatB ⟨![1, 1, 1], true⟩)) (20 * epsilon) 3 (by unfold epsilon; norm_num)
    (by unfold epsilon; norm_num) (by rw [List.length_replicate]; exact hK.trans (by norm_num)) (fun s hs => by rw [List.eq_of_mem_replicate hs]; rfl)
    (fun s hs => by rw [List.eq_of_mem_replicate hs]; exact quatB_fits hp) hp s x ha hb hx (1 / 2) (by norm_num) (by norm_num)
  refine t.trans ?_
  rw [List.length_replicate]
  generalize 2 * (20 * epsilon) + 2 ^ (-51 : ℤ) = K at hK
  norm_num at hK
  linarith

end WFMath.Cases
