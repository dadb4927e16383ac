/- Cases for C158: the unit square turned up to 2^40 times, and shifted and turned. -/
import Verif.Props.RoundHistory
import Verif.Cases.PolyMovedRounding

namespace WFMath.Cases
open WFMath Spec Matrix Rounding

theorem square_near : ∀ c ∈ unitSquare, eucl c.elem ![1, 1] ≤ 2 := by
  intro c hc
  simp only [unitSquare, List.mem_cons, List.not_mem_nil, or_false] at hc
  rcases hc with rfl | rfl | rfl | rfl <;> exact (eucl2 _ _).trans (by norm_num [abs_of_nonneg, abs_of_neg])
theorem square_len : ∀ c ∈ unitSquare, len c.elem ≤ 2 := by
  intro c hc
  simp only [unitSquare, List.mem_cons, List.not_mem_nil, or_false] at hc
  rcases hc with rfl | rfl | rfl | rfl <;> exact (len2 _).trans (by norm_num)

/-- C158_turns: the unit square, turned `N` times about (1, 1) by the angle with tangent 4/3 with all the roundings, contains its middle and not a point beside it. -/
example (r : Rounding 53) (proper : Bool) (N : Nat) (hN : N ≤ 2 ^ 40) :
    Fl.interPolyP r (Fl.movePoly r ((List.replicate N (Fl.turn35 r)).map (.rotate · ⟨![1, 1], true⟩)) unitSquare)
      (Fl.movePoint r ((List.replicate N (Fl.turn35 r)).map (.rotate · ⟨![1, 1], true⟩)) ⟨![1 / 2, 1 / 2], true⟩) proper = true ∧
    ¬ Fl.interPolyP r (Fl.movePoly r ((List.replicate N (Fl.turn35 r)).map (.rotate · ⟨![1, 1], true⟩)) unitSquare)
      (Fl.movePoint r ((List.replicate N (Fl.turn35 r)).map (.rotate · ⟨![1, 1], true⟩)) ⟨![3 / 2, 1 / 2], true⟩) proper = true := by
  have hN' : (N : ℝ) ≤ 2 ^ 40 := by exact_mod_cast hN
  have hK : ((List.replicate N (Fl.turn35 r)).length : ℝ) * (13 * 2 ^ (-52 : ℤ) + 5 * 2 ^ (-53 : ℤ)) ≤ 2 ^ (-8 : ℤ) := by
    rw [List.length_replicate]
    refine (mul_le_mul_of_nonneg_right hN' (by positivity)).trans ?_
    norm_num
  have hd : (2 : ℝ) ^ (-47 : ℤ) + (2 * ((List.replicate N (Fl.turn35 r)).length * (13 * 2 ^ (-52 : ℤ) + 5 * 2 ^ (-53 : ℤ))) + 2 ^ (-43 : ℤ)) * (6 * 2) < 1 / 4 := by
    generalize ((List.replicate N (Fl.turn35 r)).length : ℝ) * (13 * 2 ^ (-52 : ℤ) + 5 * 2 ^ (-53 : ℤ)) = a at hK
    norm_num at hK ⊢
    linarith
  have tr := fun (q : Pt 2) hq hf => C158_turns r unitSquare q ⟨![1, 1], true⟩ (List.replicate N (Fl.turn35 r)) proper (13 * 2 ^ (-52 : ℤ)) 2 (by norm_num)
    (hK.trans (by norm_num)) (fun m hm => by rw [List.eq_of_mem_replicate hm]; exact ⟨R35, hR35, hm12 r⟩) len_c hq square_near hf
  exact ⟨(tr ⟨![1 / 2, 1 / 2], true⟩ ((eucl2 _ _).trans (by norm_num [abs_of_nonneg, abs_of_neg])) (square_far mid_far hd)).2
      (unitSquare_inside (by norm_num) (by norm_num) (by norm_num) (by norm_num)),
    fun h => square_out (by norm_num) ((tr ⟨![3 / 2, 1 / 2], true⟩ ((eucl2 _ _).trans (by norm_num [abs_of_nonneg, abs_of_neg])) (square_far side_far hd)).1 h)⟩

/-- A shift by (1/3, 1/7) and then a turn about (1, 1). -/
noncomputable def shiftTurn (r : Rounding 53) : List Fl.Motion := [.shift ⟨![1 / 3, 1 / 7], true⟩, .rotate (Fl.turn35 r) ⟨![1, 1], true⟩]

theorem shiftTurn_stays (r : Rounding 53) (x : Pt 2) (hx : len x.elem ≤ 2) : Fl.StaysIn r 24 (shiftTurn r) x := by
  have lv : len (![1 / 3, 1 / 7] : Fin 2 → ℝ) ≤ 1 := (len2 _).trans (by norm_num [abs_of_nonneg])
  have ly : len (Fl.addVec r x ⟨![1 / 3, 1 / 7], true⟩).elem ≤ 6 := by
    have a := Fl.len_round r (x.elem + ![1 / 3, 1 / 7])
    have b : len (x.elem + ![1 / 3, 1 / 7]) ≤ 3 := (len_add_le _ _).trans (by linarith)
    have c := len_add_le ((Fl.addVec r x ⟨![1 / 3, 1 / 7], true⟩).elem - (x.elem + ![1 / 3, 1 / 7])) (x.elem + ![1 / 3, 1 / 7])
    rw [sub_add_cancel] at c
    have d : (2 : ℝ) ^ (-53 : ℤ) * len (x.elem + ![1 / 3, 1 / 7]) ≤ 1 * 3 := mul_le_mul (by norm_num) b (len_nonneg _) (by norm_num)
    exact c.trans ((add_le_add (a.trans d) b).trans (by norm_num))
  have ey : eucl (Fl.addVec r x ⟨![1 / 3, 1 / 7], true⟩).elem ![1, 1] ≤ 8 := by
    rw [eucl_eq_len]; exact (len_sub_le _ _).trans (by linarith [len_c])
  have st := Fl.stays_turning r ⟨![1, 1], true⟩ [Fl.turn35 r] (13 * 2 ^ (-52 : ℤ)) 8 (by norm_num) (by norm_num) (fun m hm => by
    rw [List.mem_singleton.1 hm]; exact ⟨R35, hR35, hm12 r⟩) (len_c.trans (by norm_num)) _ ey
  intro k hk
  match k, hk with
  | 0, _ => exact hx.trans (by norm_num)
  | 1, _ => exact ly.trans (by norm_num)
  | 2, _ => exact (st 1 (by simp)).trans (by norm_num)

/-- C158_history: the unit square after both calls contains its middle and not a point beside it. -/
example (r : Rounding 53) (proper : Bool) :
    Fl.interPolyP r (Fl.movePoly r (shiftTurn r) unitSquare) (Fl.movePoint r (shiftTurn r) ⟨![1 / 2, 1 / 2], true⟩) proper = true ∧
    ¬ Fl.interPolyP r (Fl.movePoly r (shiftTurn r) unitSquare) (Fl.movePoint r (shiftTurn r) ⟨![3 / 2, 1 / 2], true⟩) proper = true := by
  have hl : ((shiftTurn r).length : ℝ) = 2 := by norm_num [shiftTurn]
  have hd : (2 : ℝ) ^ (-47 : ℤ) + (2 * ((shiftTurn r).length * (13 * 2 ^ (-52 : ℤ) + 5 * 2 ^ (-53 : ℤ))) + 2 ^ (-43 : ℤ)) * (2 * 24) < 1 / 4 := by rw [hl]; norm_num
  have fits : ∀ mo ∈ shiftTurn r, mo.Fits (13 * 2 ^ (-52 : ℤ)) 24 := by
    intro mo hmo
    simp only [shiftTurn, List.mem_cons, List.not_mem_nil, or_false] at hmo
    rcases hmo with rfl | rfl
    · exact (len2 _).trans (by norm_num [abs_of_nonneg])
    · exact ⟨len_c.trans (by norm_num), R35, hR35, hm12 r⟩
  have hs := fun (q : Pt 2) hq hf => C158_history r unitSquare q (shiftTurn r) proper (13 * 2 ^ (-52 : ℤ)) 24 (by norm_num) (by rw [hl]; norm_num) fits hq
    (fun c hc => shiftTurn_stays r c (square_len c hc)) hf
  exact ⟨(hs ⟨![1 / 2, 1 / 2], true⟩ (shiftTurn_stays r ⟨![1 / 2, 1 / 2], true⟩ ((len2 _).trans (by norm_num))) (square_far mid_far hd)).2
      (unitSquare_inside (by norm_num) (by norm_num) (by norm_num) (by norm_num)),
    fun h => square_out (by norm_num) ((hs ⟨![3 / 2, 1 / 2], true⟩ (shiftTurn_stays r ⟨![3 / 2, 1 / 2], true⟩ ((len2 _).trans (by norm_num [abs_of_nonneg])))
      (square_far side_far hd)).1 h)⟩

end WFMath.Cases
