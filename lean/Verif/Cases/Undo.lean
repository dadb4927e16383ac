/- Cases for C164: points of space turned up to 2^30 times by a quaternion and back, and points, a ball and a segment of the plane taken to another frame, shifted and taken back. -/
import Verif.Props.RoundUndo
import Verif.Cases.SegSteps

namespace WFMath.Cases
open WFMath Spec Matrix Rounding

/-- C164_turns: a point of space within 3 of (1, 1, 1), turned `N` times about it by a third of a full turn about the diagonal and turned back with all the roundings, comes back to
where it was up to 1/50. -/
example (r : Rounding 53) (N : Nat) (hN : N ≤ 2 ^ 30) (x : Pt 3) (hx : eucl x.elem ![1, 1, 1] ≤ 3) :
    eucl (Fl.stepPoint r (List.replicate N (.rotateQ quatB ⟨![1, 1, 1], true⟩) ++ List.replicate N (.rotateQ quatB.inverse ⟨![1, 1, 1], true⟩)) x).elem x.elem ≤ 1 / 50 := by
  have hp : len (![1, 1, 1] : Fin 3 → ℝ) ≤ 3 := Real.sqrt_le_iff.2 ⟨by norm_num, by simp [dotProduct, Fin.sum_univ_three]; norm_num⟩
  have hN' : (N : ℝ) ≤ 2 ^ 30 := by exact_mod_cast hN
  have hE : 2 * (20 * epsilon) + 2 ^ (-51 : ℤ) ≤ 2 ^ (-41 : ℤ) := by unfold epsilon; norm_num
  have E0 : 0 ≤ 2 * (20 * epsilon) + 2 ^ (-51 : ℤ) := by have := epsilon_pos; positivity
  have hK : (N : ℝ) * (2 * (20 * epsilon) + 2 ^ (-51 : ℤ)) ≤ 2 ^ (-11 : ℤ) := (mul_le_mul hN' hE E0 (by positivity)).trans (by norm_num)
  have t := C164_turns r (by norm_num) ⟨![1, 1, 1], true⟩ (List.replicate N (.rotateQ quatB ⟨![1, 1, 1], true⟩)) (20 * epsilon) 3 (by unfold epsilon; norm_num)
    (by unfold epsilon; norm_num) (by rw [List.length_replicate]; exact hK.trans (by norm_num)) (fun s hs => by rw [List.eq_of_mem_replicate hs]; rfl)
    (fun s hs => by rw [List.eq_of_mem_replicate hs]; exact quatB_fits hp) hp x hx
  have e : Fl.undoAll (List.replicate N (.rotateQ quatB ⟨![1, 1, 1], true⟩)) = List.replicate N (.rotateQ quatB.inverse ⟨![1, 1, 1], true⟩) := by
    simp [Fl.undoAll, Fl.Step.undo]
  rw [e, List.length_replicate] at t
  refine t.trans ?_
  generalize 2 * (20 * epsilon) + 2 ^ (-51 : ℤ) = K at hK
  norm_num at hK
  linarith

/-- From the frame that is turned about (1, 1) to its parent frame, and then a shift by (1/3, 1/7). -/
noncomputable def frameShift (r : Rounding 53) : List (Fl.Step 2) := [.toParent ⟨![1, 1], true⟩ (Fl.turn35 r), .shift ⟨![1 / 3, 1 / 7], true⟩]

theorem frameShift_undo (r : Rounding 53) : frameShift r ++ Fl.undoAll (frameShift r) =
    [.toParent ⟨![1, 1], true⟩ (Fl.turn35 r), .shift ⟨![1 / 3, 1 / 7], true⟩, .shift (-⟨![1 / 3, 1 / 7], true⟩), .toLocal ⟨![1, 1], true⟩ (Fl.turn35 r)] := by
  simp [frameShift, Fl.undoAll, Fl.Step.undo]

theorem frameShift_fits (r : Rounding 53) : ∀ s ∈ frameShift r, s.Fits (13 * 2 ^ (-52 : ℤ)) 100 := by
  intro s hs
  simp only [frameShift, List.mem_cons, List.not_mem_nil, or_false] at hs
  rcases hs with rfl | rfl
  · exact ⟨len_c.trans (by norm_num), R35, hR35, hm35 r⟩
  · exact (len2 _).trans (by norm_num [abs_of_nonneg])

theorem frameShift_remains (r : Rounding 53) (x : Pt 2) (hx : len x.elem ≤ 2) : Fl.Remains r 100 (frameShift r ++ Fl.undoAll (frameShift r)) x := by
  have small : ∀ {a B : ℝ}, 0 ≤ a → a ≤ B → (2 * (13 * 2 ^ (-52 : ℤ)) + 3 * 2 ^ (-53 : ℤ)) * a ≤ B := fun {a B} h0 h =>
    (mul_le_of_le_one_left h0 (by norm_num)).trans h
  have lR : ∀ v, len (v ᵥ* R35) = len v := fun v => by
    rw [← mulVec_transpose, Fl.len_orth (by rw [transpose_transpose]; exact mul_eq_one_comm.1 hR35)]
  have shift : ∀ {v y : Fin 2 → ℝ} {B : ℝ}, len v ≤ 2 → len y ≤ B → len (fun i => r (y i + v i)) ≤ 2 * B + 4 := by
    intro v y B hv hy
    have b : len (y + v) ≤ B + 2 := (len_add_le _ _).trans (by linarith)
    have a := (Fl.len_round r (y + v)).trans (mul_le_of_le_one_left (len_nonneg _) (by norm_num))
    have c := len_add_le ((fun i => r ((y + v) i)) - (y + v)) (y + v)
    rw [sub_add_cancel] at c
    refine c.trans ((add_le_add (a.trans b) b).trans (by linarith))
  have m1 := C125_matrix r (Fl.turn35 r) R35 (13 * 2 ^ (-52 : ℤ)) (by norm_num) hR35 (by norm_num) (by norm_num) (hm35 r)
  have parent : ∀ {y : Pt 2} {B : ℝ}, len y.elem ≤ B → len (Fl.toParent r y ⟨![1, 1], true⟩ (Fl.turn35 r)).elem ≤ 2 * B + 4 := by
    intro y B hy
    have a := (m1 y ⟨![1, 1], true⟩).1
    have b := add_le_add (small (len_nonneg _) hy) ((mul_le_of_le_one_left (len_nonneg (![1, 1] : Fin 2 → ℝ)) (show (2 : ℝ) ^ (-53 : ℤ) ≤ 1 by norm_num)).trans len_c)
    have c := len_add_le ((Fl.toParent r y ⟨![1, 1], true⟩ (Fl.turn35 r)).elem - (![1, 1] + y.elem ᵥ* R35)) (![1, 1] + y.elem ᵥ* R35)
    rw [sub_add_cancel] at c
    have d := len_add_le ![1, 1] (y.elem ᵥ* R35)
    rw [lR] at d
    exact c.trans ((add_le_add (a.trans b) (d.trans (add_le_add len_c hy))).trans (by linarith))
  have toLocal : ∀ {y : Pt 2} {B : ℝ}, len y.elem ≤ B → len (Fl.toLocal r y ⟨![1, 1], true⟩ (Fl.turn35 r)).elem ≤ 2 * B + 4 := by
    intro y B hy
    have a := (m1 y ⟨![1, 1], true⟩).2.1
    have b : len (y.elem - ![1, 1]) ≤ B + 2 := (len_sub_le _ _).trans (add_le_add hy len_c)
    have c := len_add_le ((Fl.toLocal r y ⟨![1, 1], true⟩ (Fl.turn35 r)).elem - R35 *ᵥ (y.elem - ![1, 1])) (R35 *ᵥ (y.elem - ![1, 1]))
    rw [sub_add_cancel, Fl.len_orth hR35] at c
    exact c.trans ((add_le_add (a.trans (small (len_nonneg _) b)) b).trans (by linarith))
  have lv : len (![1 / 3, 1 / 7] : Fin 2 → ℝ) ≤ 2 := (len2 _).trans (by norm_num [abs_of_nonneg])
  have lv' : len (fun i => -(![1 / 3, 1 / 7] : Fin 2 → ℝ) i) ≤ 2 := by
    have := len_sub_comm 0 (![1 / 3, 1 / 7] : Fin 2 → ℝ)
    rw [zero_sub, sub_zero] at this
    exact this.le.trans lv
  rw [frameShift_undo]
  have p1 := parent hx
  have p2 := shift lv p1
  have p3 := shift lv' p2
  have p4 := toLocal (y := Fl.addVec r (Fl.addVec r (Fl.toParent r x ⟨![1, 1], true⟩ (Fl.turn35 r)) ⟨![1 / 3, 1 / 7], true⟩) (-⟨![1 / 3, 1 / 7], true⟩)) p3
  intro k hk
  match k, hk with
  | 0, _ => exact hx.trans (by norm_num)
  | 1, _ => exact p1.trans (by norm_num)
  | 2, _ => exact p2.trans (by norm_num)
  | 3, _ => exact p3.trans (by norm_num)
  | 4, _ => exact p4.trans (by norm_num)

theorem frameShift_drift (r : Rounding 53) : ((frameShift r).length : ℝ) * (4 * (2 * (13 * 2 ^ (-52 : ℤ)) + 2 ^ (-51 : ℤ)) * 100) ≤ 2 ^ (-37 : ℤ) := by
  have hl : ((frameShift r).length : ℝ) = 2 := by norm_num [frameShift]
  rw [hl]; norm_num

/-- C164_point: a point within 2 of the origin comes back up to 2^-37. -/
example (r : Rounding 53) (x : Pt 2) (hx : len x.elem ≤ 2) : eucl (Fl.stepPoint r (frameShift r ++ Fl.undoAll (frameShift r)) x).elem x.elem ≤ 2 ^ (-37 : ℤ) :=
  (C164_point r (by norm_num) (frameShift r) (13 * 2 ^ (-52 : ℤ)) 100 (by norm_num) (by norm_num) (frameShift_fits r) x (frameShift_remains r x hx)).trans (frameShift_drift r)

/-- C164_ball: the ball of radius 3 about (1, 0) comes back with its radius. -/
example (r : Rounding 53) : (Fl.stepBall r (frameShift r ++ Fl.undoAll (frameShift r)) ⟨unitSeg.p2, 3⟩).radius = 3 ∧
    eucl (Fl.stepBall r (frameShift r ++ Fl.undoAll (frameShift r)) ⟨unitSeg.p2, 3⟩).center.elem unitSeg.p2.elem ≤ 2 ^ (-37 : ℤ) := by
  have t := C164_ball r (by norm_num) (frameShift r) (13 * 2 ^ (-52 : ℤ)) 100 (by norm_num) (by norm_num) (frameShift_fits r) ⟨unitSeg.p2, 3⟩
    (frameShift_remains r unitSeg.p2 ((len2 _).trans (by norm_num [unitSeg])))
  exact ⟨t.1, t.2.trans (frameShift_drift r)⟩

/-- C164_segment: the second end of the segment from the origin to (1, 0) comes back. -/
example (r : Rounding 53) : eucl (Fl.stepSeg r (frameShift r ++ Fl.undoAll (frameShift r)) unitSeg).p2.elem unitSeg.p2.elem ≤ 2 ^ (-37 : ℤ) :=
  (C164_segment r (by norm_num) (frameShift r) (13 * 2 ^ (-52 : ℤ)) 100 (by norm_num) (by norm_num) (frameShift_fits r) unitSeg
    (frameShift_remains r unitSeg.p1 ((len2 _).trans (by norm_num [unitSeg]))) (frameShift_remains r unitSeg.p2 ((len2 _).trans (by norm_num [unitSeg])))).2.trans (frameShift_drift r)

end WFMath.Cases
