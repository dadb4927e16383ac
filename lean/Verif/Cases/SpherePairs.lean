/- Cases for C150: the theorems hold of two points on the unit circle, with any rounding. -/
import Verif.Props.RoundMiniball

namespace WFMath.Cases
open WFMath Spec Matrix Rounding

/-- The hypotheses of C150 are met: two points on the unit circle, with any rounding, have the unit disc as their ball. -/
theorem twoPoints_ball (r : Rounding 53) : Fl.boundingSphere r true 2 [(⟨![1, 0], true⟩ : Pt 2), ⟨![-1, 0], true⟩] = some ⟨⟨![0, 0], true⟩, 1⟩ := by
  have hne : (![1, 0] : Fin 2 → ℝ) ≠ ![-1, 0] := fun h => by
    have := congrFun h 0
    norm_num at this
  have hb := (Fl.Miniball.build_pair r (by norm_num) 0 hne _ rfl).1
  have f1 : r 1 = 1 := r.of_fl (IsFl.one Fl.pos53)
  have f1' : r (-1) = -1 := r.of_fl (IsFl.one Fl.pos53).neg
  have f2 : r 2 = 2 := r.of_fl (by simpa using IsFl.zpow Fl.pos53 1)
  have f4 : r 4 = 4 := r.of_fl (by have := IsFl.zpow Fl.pos53 2; norm_num at this; exact this)
  have x1 : Fl.Miniball.excessOf r ![-1, 0] 0 ![1, 0] = 4 := by
    rw [Fl.Miniball.excessOf_zero]
    unfold Fl.sum
    simp [List.finRange_succ, r.zero]
    norm_num [f2, f4, r.zero]
  have x2 : (fun i : Fin 2 => r ((![-1, 0] : Fin 2 → ℝ) i + r ((![1, 0] : Fin 2 → ℝ) i - (![-1, 0] : Fin 2 → ℝ) i) / 2)) = ![0, 0] := by
    funext i
    fin_cases i
    · norm_num [f2, r.zero]
    · norm_num [r.zero]
  rw [x1, x2] at hb
  have x3 : ∀ p : Fin 2 → ℝ, p = ![-1, 0] ∨ p = ![1, 0] → Fl.Miniball.excessOf r ![0, 0] (4 / 4) p = 0 := by
    rintro p (rfl | rfl)
    · unfold Fl.Miniball.excessOf
      norm_num [List.finRange_succ, r.zero, f1, f1']
    · unfold Fl.Miniball.excessOf
      norm_num [List.finRange_succ, r.zero, f1, f1']
  have x4 : Fl.Miniball.maxError r (⟨⟨![-1, 0], [], 2, ![0, 0], 4 / 4⟩, [![-1, 0], ![1, 0]], [], 2⟩ : Miniball.State 2) = 0 := by
    unfold Fl.Miniball.maxError Fl.Miniball.excess
    simp only [List.append_nil, List.take_succ_cons, List.take_zero, List.drop_succ_cons, List.drop_zero, List.foldl_cons, List.foldl_nil, x3 _ (Or.inl rfl), x3 _ (Or.inr rfl), abs_zero]
    simp
  unfold Fl.boundingSphere
  rw [show [(⟨![1, 0], true⟩ : Pt 2), ⟨![-1, 0], true⟩].map Pt.elem = [![1, 0], ![-1, 0]] from rfl, hb]
  simp only [x4]
  rw [if_neg (by simp [r.zero, epsilon_pos])]
  norm_num [Ball.mk', f1]

example (r : Rounding 53) : eucl (![1, 0] : Fin 2 → ℝ) ![0, 0] ≤ (1 + epsilon) * 1 :=
  (C150_encloses r (by norm_num) 2 _ _ (twoPoints_ball r) ⟨![1, 0], true⟩ (by simp)).1
example (r : Rounding 53) := C150_touches r (by norm_num) 2 _ _ (twoPoints_ball r)
example (r : Rounding 53) := C150_tight r (by norm_num) 2 _ _ (twoPoints_ball r) 1 (fun p hp => by
  simp only [List.mem_cons, List.not_mem_nil, or_false] at hp
  rw [eucl_le_iff (by norm_num)]
  rcases hp with rfl | rfl <;> norm_num [Fin.sum_univ_two])
example (r : Rounding 53) := C150_checked r 2 _ _ (twoPoints_ball r)
example (r : Rounding 53) := C150_equal r 0 [(⟨![1, 2], true⟩ : Pt 2), ⟨![1, 2], false⟩] ⟨![1, 2], true⟩ (by simp) (by simp)
example (r : Rounding 53) := C150_pair r (by norm_num) (by norm_num) 0 (⟨![1, 2, 3], true⟩ : Pt 3) ⟨![1, 2, 4], true⟩ (fun h => by
  have : (3 : ℝ) = 4 := congrFun h 2
  norm_num at this)
/-- The points (1, 2, 3) and (1, 2, 4) are at distance 1, and at most √21 < 5 from the origin, which is too far for C150_pair_returns; (0, 0, 1) and (0, 3, 1) are not. -/
example (r : Rounding 53) : ∃ b, Fl.boundingSphere r true 2 [(⟨![0, 0, 1], true⟩ : Pt 3), ⟨![0, 3, 1], true⟩] = some b := by
  have h3 : eucl (![0, 0, 1] : Fin 3 → ℝ) ![0, 3, 1] = 3 := by
    unfold eucl
    rw [show (∑ i, ((![0, 0, 1] : Fin 3 → ℝ) i - (![0, 3, 1] : Fin 3 → ℝ) i) ^ 2) = 3 ^ 2 by norm_num [Fin.sum_univ_three, show (![0, 0, 1] : Fin 3 → ℝ) 2 = 1 from rfl, show (![0, 3, 1] : Fin 3 → ℝ) 2 = 1 from rfl]]
    exact Real.sqrt_sq (by norm_num)
  refine C150_pair_returns r (by norm_num) (by norm_num) 0 _ _ (fun h => ?_) ?_ ?_
  · have : (0 : ℝ) = 3 := congrFun h 1
    norm_num at this
  · show len (![0, 0, 1] : Fin 3 → ℝ) ≤ 4 * eucl (![0, 0, 1] : Fin 3 → ℝ) ![0, 3, 1]
    rw [h3, len, Real.sqrt_le_left (by norm_num)]
    norm_num [Fin.sum_univ_three]
  · show len (![0, 3, 1] : Fin 3 → ℝ) ≤ 4 * eucl (![0, 0, 1] : Fin 3 → ℝ) ![0, 3, 1]
    rw [h3, len, Real.sqrt_le_left (by norm_num)]
    norm_num [Fin.sum_univ_three]

end WFMath.Cases
