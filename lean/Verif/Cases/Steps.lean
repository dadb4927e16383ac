/- Cases for C159: points of space turned up to 2^30 times by a quaternion, and a ball and points in the plane that are shifted and turned. -/
import Verif.Props.RoundSteps
import Verif.Cases.RBoxFrames
import Verif.Cases.History

namespace WFMath.Cases
open WFMath Spec Matrix Rounding

theorem quatB_fits {p : Pt 3} {M : ℝ} (hp : len p.elem ≤ M) : (Fl.Step.rotateQ quatB p).Fits (20 * epsilon) M :=
  ⟨hp, toH quatB, quatB_norm, by simp⟩

/-- C159_turns: two points of space within 3 of (1, 1, 1), turned `N` times about it by a third of a full turn about the diagonal with all the roundings, keep their distance up to
1/50. -/
example (r : Rounding 53) (N : Nat) (hN : N ≤ 2 ^ 30) (x y : Pt 3) (hx : eucl x.elem ![1, 1, 1] ≤ 3) (hy : eucl y.elem ![1, 1, 1] ≤ 3) :
    |eucl (Fl.stepPoint r (List.replicate N (.rotateQ quatB ⟨![1, 1, 1], true⟩)) x).elem (Fl.stepPoint r (List.replicate N (.rotateQ quatB ⟨![1, 1, 1], true⟩)) y).elem -
      eucl x.elem y.elem| ≤ 1 / 50 := by
  have hp : len (![1, 1, 1] : Fin 3 → ℝ) ≤ 3 := Real.sqrt_le_iff.2 ⟨by norm_num, by simp [dotProduct, Fin.sum_univ_three]; norm_num⟩
  have hN' : (N : ℝ) ≤ 2 ^ 30 := by exact_mod_cast hN
  have hE : 2 * (20 * epsilon) + 2 ^ (-51 : ℤ) ≤ 2 ^ (-41 : ℤ) := by unfold epsilon; norm_num
  have E0 : 0 ≤ 2 * (20 * epsilon) + 2 ^ (-51 : ℤ) := by have := epsilon_pos; positivity
  have hK : (N : ℝ) * (2 * (20 * epsilon) + 2 ^ (-51 : ℤ)) ≤ 2 ^ (-11 : ℤ) := (mul_le_mul hN' hE E0 (by positivity)).trans (by norm_num)
  have t := C159_turns r (by norm_num) ⟨![1, 1, 1], true⟩ (List.replicate N (.rotateQ quatB ⟨![1, 1, 1], true⟩)) (20 * epsilon) 3 (by unfold epsilon; norm_num)
    (by unfold epsilon; norm_num) (by rw [List.length_replicate]; exact hK.trans (by norm_num)) (fun s hs => by rw [List.eq_of_mem_replicate hs]; rfl)
    (fun s hs => by rw [List.eq_of_mem_replicate hs]; exact quatB_fits hp) hp x y hx hy
  refine t.trans ?_
  rw [List.length_replicate]
  generalize 2 * (20 * epsilon) + 2 ^ (-51 : ℤ) = K at hK
  norm_num at hK
  linarith

/-- A shift by (1/3, 1/7) and then a turn about (1, 1). -/
noncomputable def shiftTurn' (r : Rounding 53) : List (Fl.Step 2) := [.shift ⟨![1 / 3, 1 / 7], true⟩, .rotate (Fl.turn35 r) ⟨![1, 1], true⟩]

theorem shiftTurn_remains (r : Rounding 53) (x : Pt 2) (hx : len x.elem ≤ 2) : Fl.Remains r 24 (shiftTurn' r) x := by
  intro k hk
  have := shiftTurn_stays r x hx k hk
  match k, hk with
  | 0, _ => exact this
  | 1, _ => exact this
  | 2, _ => exact this

theorem shiftTurn_fits (r : Rounding 53) : ∀ s ∈ shiftTurn' r, s.Fits (13 * 2 ^ (-52 : ℤ)) 24 := by
  intro s hs
  simp only [shiftTurn', List.mem_cons, List.not_mem_nil, or_false] at hs
  rcases hs with rfl | rfl
  · exact (len2 _).trans (by norm_num [abs_of_nonneg])
  · exact ⟨len_c.trans (by norm_num), R35, hR35, hm35 r⟩

/-- C159_ball: the ball of radius 1 about the origin and the points (1/2, 1/4) and (1, 1) go through both calls; the library then finds the first point in the ball and, unless the
squared distance is set to 0, not the second. -/
example (r : Rounding 53) :
    Fl.interBallP r (Fl.stepBall r (shiftTurn' r) ⟨⟨![0, 0], true⟩, 1⟩) (Fl.stepPoint r (shiftTurn' r) ⟨![1 / 2, 1 / 4], true⟩) true = true ∧
    (Fl.interBallP r (Fl.stepBall r (shiftTurn' r) ⟨⟨![0, 0], true⟩, 1⟩) (Fl.stepPoint r (shiftTurn' r) ⟨![1, 1], true⟩) false = true →
      NearlyFlushed (Fl.stepPoint r (shiftTurn' r) ⟨![0, 0], true⟩) (Fl.stepPoint r (shiftTurn' r) ⟨![1, 1], true⟩)) := by
  have hl : ((shiftTurn' r).length : ℝ) = 2 := by norm_num [shiftTurn']
  have hd : ((shiftTurn' r).length : ℝ) * (4 * (2 * (13 * 2 ^ (-52 : ℤ)) + 2 ^ (-51 : ℤ)) * 24) ≤ 1 / 100 := by rw [hl]; norm_num
  have b := fun (p : Pt 2) hp => C159_ball r (by norm_num) (shiftTurn' r) (13 * 2 ^ (-52 : ℤ)) 24 (by norm_num) (by norm_num) (shiftTurn_fits r) ⟨⟨![0, 0], true⟩, 1⟩ p (by norm_num)
    (shiftTurn_remains r ⟨![0, 0], true⟩ ((len2 _).trans (by norm_num))) hp
  have b1 := (b ⟨![1 / 2, 1 / 4], true⟩ (shiftTurn_remains r ⟨![1 / 2, 1 / 4], true⟩ ((len2 _).trans (by norm_num [abs_of_nonneg])))).2.1
  have b2 := (b ⟨![1, 1], true⟩ (shiftTurn_remains r ⟨![1, 1], true⟩ len_c)).2.2 false
  constructor
  · refine b1 ?_
    have : eucl ![1 / 2, 1 / 4] ![0, 0] ≤ 3 / 4 := (eucl2 _ _).trans (by norm_num [abs_of_nonneg])
    show eucl ![1 / 2, 1 / 4] ![0, 0] + _ < 1
    linarith
  · intro h
    refine (b2 h).resolve_left fun h' => ?_
    have h'' : eucl ![1, 1] ![0, 0] ≤ 1 * (1 + epsilon) + (shiftTurn' r).length * (4 * (2 * (13 * 2 ^ (-52 : ℤ)) + 2 ^ (-51 : ℤ)) * 24) := h'
    have e : (14 / 10 : ℝ) ≤ eucl ![1, 1] ![0, 0] := by
      rw [eucl_eq_len]
      refine Real.le_sqrt_of_sq_le ?_
      simp [dotProduct, Fin.sum_univ_two]; norm_num
    have : epsilon ≤ 1 / 100 := by unfold epsilon; norm_num
    generalize ((shiftTurn' r).length : ℝ) * (4 * (2 * (13 * 2 ^ (-52 : ℤ)) + 2 ^ (-51 : ℤ)) * 24) = X at hd h''
    linarith

/-- C159_balls: two balls of radius 1 whose centres are 1 apart still meet. -/
example (r : Rounding 53) (proper : Bool) :
    Fl.interBallBall r (Fl.stepBall r (shiftTurn' r) ⟨⟨![0, 0], true⟩, 1⟩) (Fl.stepBall r (shiftTurn' r) ⟨⟨![1, 0], true⟩, 1⟩) proper = true := by
  have hl : ((shiftTurn' r).length : ℝ) = 2 := by norm_num [shiftTurn']
  have hd : ((shiftTurn' r).length : ℝ) * (4 * (2 * (13 * 2 ^ (-52 : ℤ)) + 2 ^ (-51 : ℤ)) * 24) ≤ 1 / 100 := by rw [hl]; norm_num
  refine (C159_balls r (by norm_num) (shiftTurn' r) (13 * 2 ^ (-52 : ℤ)) 24 (by norm_num) (by norm_num) (shiftTurn_fits r) ⟨⟨![0, 0], true⟩, 1⟩ ⟨⟨![1, 0], true⟩, 1⟩
    (by norm_num) (by norm_num) (shiftTurn_remains r ⟨![0, 0], true⟩ ((len2 _).trans (by norm_num))) (shiftTurn_remains r ⟨![1, 0], true⟩ ((len2 _).trans (by norm_num))) proper).1 ?_
  have : eucl ![0, 0] ![1, 0] ≤ 1 := (eucl2 _ _).trans (by norm_num)
  have he : epsilon ≤ 1 / 100 := by unfold epsilon; norm_num
  have he0 := epsilon_pos
  show (eucl ![0, 0] ![1, 0] + _) * (1 + epsilon) ≤ 1 + 1
  exact (mul_le_mul (show _ ≤ (101 / 100 : ℝ) by linarith) (show 1 + epsilon ≤ 101 / 100 by linarith) (by linarith) (by norm_num)).trans (by norm_num)

end WFMath.Cases
