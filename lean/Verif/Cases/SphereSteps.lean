/- Cases for C163: the bounding spheres of two points of the plane, shifted and turned with the points. -/
import Verif.Props.RoundSphereSteps
import Verif.Cases.SegSteps

namespace WFMath.Cases
open WFMath Spec Matrix Rounding

/-- The ends of the segment from the origin to (1, 0). -/
def twoPoints : List (Pt 2) := [unitSeg.p1, unitSeg.p2]

theorem twoPoints_apart : eucl unitSeg.p1.elem unitSeg.p2.elem = 1 := by
  rw [eucl_eq_len]
  simp [len, unitSeg, dotProduct, Fin.sum_univ_two]

theorem twoPoints_remain (r : Rounding 53) : ∀ p ∈ twoPoints, Fl.Remains r 24 (shiftTurn' r) p := by
  intro p hp
  simp only [twoPoints, List.mem_cons, List.not_mem_nil, or_false] at hp
  rcases hp with rfl | rfl
  exacts [unitSeg_p1 r, unitSeg_p2 r]

/-- `BoundingSphere` of the two points, with its centre near (1/2, 0). -/
theorem twoPoints_sphere (r : Rounding 53) : ∃ b, Fl.boundingSphere r true 2 twoPoints = some b ∧ len b.center.elem ≤ 2 ∧ b.radius ≤ 1 := by
  have hne : unitSeg.p1.elem ≠ unitSeg.p2.elem := fun h => by
    have := eucl_eq_zero.2 h
    rw [twoPoints_apart] at this
    norm_num at this
  obtain ⟨b, hb⟩ := C150_pair_returns r (by norm_num) (by norm_num) 0 unitSeg.p1 unitSeg.p2 hne
    (by rw [twoPoints_apart]; exact (len2 _).trans (by norm_num [unitSeg])) (by rw [twoPoints_apart]; exact (len2 _).trans (by norm_num [unitSeg]))
  obtain ⟨b', hb', -, hr, hc⟩ := C150_pair r (by norm_num) (by norm_num) 0 unitSeg.p1 unitSeg.p2 hne
  have e := C150_checked r _ _ b hb
  rw [hb'] at e
  obtain rfl := Option.some.inj e
  refine ⟨b', hb, (len2 _).trans ?_, ?_⟩
  · have c0 := _root_.abs_le.1 (hc 0)
    have c1 := _root_.abs_le.1 (hc 1)
    norm_num [unitSeg] at c0 c1
    have a0 : |b'.center.elem 0| ≤ 1 := _root_.abs_le.2 ⟨by linarith, by linarith⟩
    have a1 : |b'.center.elem 1| ≤ 1 := _root_.abs_le.2 ⟨by linarith, by linarith⟩
    linarith
  · rw [twoPoints_apart] at hr
    have := (_root_.abs_le.1 hr).2
    have he : epsilon ≤ 1 / 100 := by unfold epsilon; norm_num
    linarith

/-- C163_sphere: after a shift and a turn both points are, for the library, in a ball of radius 6/5 about the moved centre of their sphere. -/
example (r : Rounding 53) : ∃ b, Fl.boundingSphere r true 2 twoPoints = some b ∧ (Fl.stepBall r (shiftTurn' r) b).radius = b.radius ∧
    ∀ p ∈ twoPoints, Fl.interBallP r (Fl.stepBall r (shiftTurn' r) ⟨b.center, 6 / 5⟩) (Fl.stepPoint r (shiftTurn' r) p) false = true := by
  obtain ⟨b, hb, hc, hr⟩ := twoPoints_sphere r
  have t := C163_sphere r (by norm_num) (shiftTurn' r) (13 * 2 ^ (-52 : ℤ)) 24 (by norm_num) (by norm_num) (shiftTurn_fits r) 2 twoPoints b hb
    (shiftTurn_remains r _ hc) (twoPoints_remain r)
  refine ⟨b, hb, t.1, t.2.2.2 _ ?_⟩
  have he : epsilon ≤ 1 / 100 := by unfold epsilon; norm_num
  have h := mul_le_mul (show 1 + epsilon ≤ 101 / 100 by linarith) hr (C150_encloses r (by norm_num) 2 twoPoints b hb unitSeg.p1 (by simp [twoPoints])).2.1.le (by norm_num)
  exact (add_le_add h (shiftTurn_drift r)).trans (by norm_num)

theorem twoPoints_fl : ∀ p ∈ twoPoints, ∀ i, IsFl 53 (p.elem i) := by
  intro p hp i
  have f0 : IsFl 53 (0 : ℝ) := ⟨0, 0, by norm_num, by norm_num⟩
  have f1 : IsFl 53 (1 : ℝ) := ⟨1, 0, by norm_num, by norm_num⟩
  simp only [twoPoints, List.mem_cons, List.not_mem_nil, or_false] at hp
  rcases hp with rfl | rfl <;> fin_cases i
  exacts [f0, f0, f1, f0]

/-- `BoundingSphereSloppy` of the two points, with its centre at (1/2, 0). -/
theorem twoPoints_sloppy (r : Rounding 53) : ∃ b, Fl.boundingSphereSloppy2 r false twoPoints = some b ∧ len b.center.elem ≤ 2 := by
  have n1 : r (1 : ℝ) = 1 := r.of_fl ⟨1, 0, by norm_num, by norm_num⟩
  have hw : Fl.boundingSphereSloppy2 r false twoPoints =
      some (Ball.mk' ⟨(Fl.midpoint r unitSeg.p1 unitSeg.p2 (1 / 2)).elem, true⟩ (Fl.sloppyDist2 r unitSeg.p1 (Fl.midpoint r unitSeg.p1 unitSeg.p2 (1 / 2)))) := by
    unfold Fl.boundingSphereSloppy2 Fl.boundingSphereSloppy twoPoints
    simp [List.zipIdx, Ritter.scan, Ritter.start, Fl.widest, Fl.grow, List.finRange_succ, unitSeg, n1, r.zero, show ¬ (1 : ℝ) < 0 by norm_num, show (-1 : ℝ) < 1 by norm_num]
  refine ⟨_, hw, ?_⟩
  have hm := (C120_midpoint r unitSeg.p1 unitSeg.p2 (twoPoints_fl _ (by simp [twoPoints])) (twoPoints_fl _ (by simp [twoPoints]))).1
  have nh : r (1 / 2 : ℝ) = 1 / 2 := r.of_fl ⟨1, -1, by norm_num, by norm_num⟩
  have mk : ∀ (p : Pt 2) (R : ℝ), (Ball.mk' p R).center.elem = p.elem := fun p R => by unfold Ball.mk'; split <;> rfl
  rw [mk]
  refine (len2 _).trans ?_
  show |(Fl.midpoint r unitSeg.p1 unitSeg.p2 (1 / 2)).elem 0| + |(Fl.midpoint r unitSeg.p1 unitSeg.p2 (1 / 2)).elem 1| ≤ 2
  have e0 : r ((unitSeg.p1.elem 0 + unitSeg.p2.elem 0) / 2) = 1 / 2 := by
    rw [← nh]; congr 1; norm_num [unitSeg, nh]
  have e1 : r ((unitSeg.p1.elem 1 + unitSeg.p2.elem 1) / 2) = 0 := by
    rw [show (unitSeg.p1.elem 1 + unitSeg.p2.elem 1) / 2 = 0 by norm_num [unitSeg], r.zero]
  rw [hm, hm, e0, e1]
  norm_num [abs_of_nonneg]

/-- C163_sloppy: the same for `BoundingSphereSloppy`. -/
example (r : Rounding 53) : ∃ b, Fl.boundingSphereSloppy2 r false twoPoints = some b ∧
    ∀ p ∈ twoPoints, eucl (Fl.stepPoint r (shiftTurn' r) p).elem (Fl.stepBall r (shiftTurn' r) b).center.elem ≤ b.radius + 1 / 50 := by
  obtain ⟨b, hb, hc⟩ := twoPoints_sloppy r
  refine ⟨b, hb, fun p hp => ?_⟩
  have t := ((C163_sloppy r false (13 * 2 ^ (-52 : ℤ)) 24 (by norm_num)).1 (shiftTurn' r) twoPoints b (by norm_num) (shiftTurn_fits r) (by simp [twoPoints]) twoPoints_fl hb
    (shiftTurn_remains r _ hc) (twoPoints_remain r)).2 p hp
  have l : (twoPoints.length : ℝ) = 2 := by norm_num [twoPoints]
  rw [l] at t
  have k : ((2 : ℝ) + 1) * (2 ^ (-44 : ℤ) * 24) ≤ 1 / 100 := by norm_num
  exact t.trans ((add_le_add (add_le_add le_rfl k) (shiftTurn_drift r)).trans (by linarith))

end WFMath.Cases
