/- Cases for C165: the unit square taken to another frame, shifted and taken back. -/
import Verif.Props.RoundUndoPoly
import Verif.Cases.Undo
import Verif.Cases.BallHistory

namespace WFMath.Cases
open WFMath Spec Matrix Rounding

/-- From the frame that is turned about (1, 1) to its parent frame, and then a shift by (1/3, 1/7). -/
noncomputable def frameMotions (r : Rounding 53) : List Fl.Motion := [.toParent ⟨![1, 1], true⟩ (Fl.turn35 r), .shift ⟨![1 / 3, 1 / 7], true⟩]

theorem frameMotions_fit (r : Rounding 53) : ∀ s ∈ frameMotions r, s.Fits (13 * 2 ^ (-52 : ℤ)) 100 := by
  intro s hs
  simp only [frameMotions, List.mem_cons, List.not_mem_nil, or_false] at hs
  rcases hs with rfl | rfl
  · exact ⟨len_c.trans (by norm_num), R35, hR35, hm12 r⟩
  · exact (len2 _).trans (by norm_num [abs_of_nonneg])

theorem frameMotions_stay (r : Rounding 53) : ∀ c ∈ unitSquare, Fl.StaysIn r 100 (frameMotions r ++ Fl.undoMotions (frameMotions r)) c := by
  intro c hc k hk
  have e : (frameMotions r ++ Fl.undoMotions (frameMotions r)).map Fl.Motion.step = frameShift r ++ Fl.undoAll (frameShift r) := Fl.step_undo _
  have := frameShift_remains r c (square_len c hc) k (by rw [← e, List.length_map]; exact hk)
  rwa [← e, ← List.map_take, Fl.step_point] at this

theorem frameMotions_drift (r : Rounding 53) : ((frameMotions r).length : ℝ) * (4 * (2 * (13 * 2 ^ (-52 : ℤ)) + 2 ^ (-51 : ℤ)) * 100) ≤ 2 ^ (-37 : ℤ) := frameShift_drift r

/-- C165_corners: the corners of the square come back up to 2^-37. -/
example (r : Rounding 53) : List.Forall₂ (fun c c' : Pt 2 => eucl c'.elem c.elem ≤ 2 ^ (-37 : ℤ)) unitSquare (Fl.movePoly r (frameMotions r ++ Fl.undoMotions (frameMotions r)) unitSquare) :=
  (C165_corners r unitSquare (frameMotions r) (13 * 2 ^ (-52 : ℤ)) 100 (by norm_num) (by norm_num) (frameMotions_fit r) (frameMotions_stay r)).imp
    fun _ _ h => h.trans (frameMotions_drift r)

/-- C165_region: the middle of the square is inside it at the end. -/
example (r : Rounding 53) : ![1 / 2, 1 / 2] ∈ inside (Fl.movePoly r (frameMotions r ++ Fl.undoMotions (frameMotions r)) unitSquare) := by
  refine (C165_region r unitSquare (frameMotions r) (13 * 2 ^ (-52 : ℤ)) 100 (by norm_num) (by norm_num) (frameMotions_fit r) (frameMotions_stay r) ![1 / 2, 1 / 2]
    (fun z hz => lt_of_le_of_lt (frameMotions_drift r) ?_)).2 (unitSquare_inside (by norm_num) (by norm_num) (by norm_num) (by norm_num))
  exact square_far mid_far (by norm_num) z hz

end WFMath.Cases
