/- Cases for C157: the unit square and points moved together in floating point. -/
import Verif.Props.RoundPolyMoved
import Verif.Cases.PolyRBox
import Verif.Props.PolyCross

namespace WFMath.Cases
open WFMath Spec Matrix Rounding

/-- The sides of the unit square are 1/4 or more away from a point whose coordinates are 1/4 or more away from 0 and 1. -/
theorem square_far {q : Fin 2 → ℝ} (h : ∀ k, 1 / 4 ≤ |0 - q k| ∧ 1 / 4 ≤ |1 - q k|) {d : ℝ} (hd : d < 1 / 4) : ∀ x ∈ boundary unitSquare, d < eucl x q := by
  intro x hx
  rcases (unitSquare_boundary hx).1 with h1 | h1 | h1 | h1
  · exact far_coord 0 (by rw [h1]; linarith [(h 0).1])
  · exact far_coord 0 (by rw [h1]; linarith [(h 0).2])
  · exact far_coord 1 (by rw [h1]; linarith [(h 1).1])
  · exact far_coord 1 (by rw [h1]; linarith [(h 1).2])

theorem square_out {x : Fin 2 → ℝ} (h : 1 < x 0) : x ∉ inside unitSquare := fun hx => absurd (unitSquare_filled x (.inl hx)).2 (by linarith)

theorem mid_far : ∀ k : Fin 2, 1 / 4 ≤ |0 - (![1 / 2, 1 / 2] : Fin 2 → ℝ) k| ∧ 1 / 4 ≤ |1 - (![1 / 2, 1 / 2] : Fin 2 → ℝ) k| := by
  intro k; fin_cases k <;> norm_num [abs_of_pos, abs_of_neg]
theorem side_far : ∀ k : Fin 2, 1 / 4 ≤ |0 - (![3 / 2, 1 / 2] : Fin 2 → ℝ) k| ∧ 1 / 4 ≤ |1 - (![3 / 2, 1 / 2] : Fin 2 → ℝ) k| := by
  intro k; fin_cases k <;> norm_num [abs_of_pos, abs_of_neg]

/-- C157_rotate and C157_parent: the unit square turned by the angle with tangent 4/3, about (1, 1) or with the frame there, contains its middle and not a point beside it. -/
example (r : Rounding 53) (proper : Bool) :
    (Fl.interPolyP r (Fl.lineRotate r unitSquare (Fl.turn35 r) ⟨![1, 1], true⟩) (Fl.ptRotate r ⟨![1 / 2, 1 / 2], true⟩ (Fl.turn35 r) ⟨![1, 1], true⟩) proper = true ∧
    ¬ Fl.interPolyP r (Fl.lineRotate r unitSquare (Fl.turn35 r) ⟨![1, 1], true⟩) (Fl.ptRotate r ⟨![3 / 2, 1 / 2], true⟩ (Fl.turn35 r) ⟨![1, 1], true⟩) proper = true) ∧
    (Fl.interPolyP r (Fl.polyToParent r unitSquare ⟨![1, 1], true⟩ (Fl.turn35 r)) (Fl.toParent r ⟨![1 / 2, 1 / 2], true⟩ ⟨![1, 1], true⟩ (Fl.turn35 r)) proper = true ∧
    ¬ Fl.interPolyP r (Fl.polyToParent r unitSquare ⟨![1, 1], true⟩ (Fl.turn35 r)) (Fl.toParent r ⟨![3 / 2, 1 / 2], true⟩ ⟨![1, 1], true⟩ (Fl.turn35 r)) proper = true) ∧
    (Fl.interPolyP r (Fl.polyToLocal r unitSquare ⟨![1, 1], true⟩ (Fl.turn35 r)) (Fl.toLocal r ⟨![1 / 2, 1 / 2], true⟩ ⟨![1, 1], true⟩ (Fl.turn35 r)) proper = true ∧
    ¬ Fl.interPolyP r (Fl.polyToLocal r unitSquare ⟨![1, 1], true⟩ (Fl.turn35 r)) (Fl.toLocal r ⟨![3 / 2, 1 / 2], true⟩ ⟨![1, 1], true⟩ (Fl.turn35 r)) proper = true) := by
  have hK : ((2 : ℝ) ^ (-47 : ℤ) + (2 * (13 * 2 ^ (-52 : ℤ)) + 2 ^ (-43 : ℤ)) * 2) < 1 / 4 := by norm_num
  have hc : ∀ c ∈ unitSquare, eucl c.elem ![1, 1] ≤ 2 := by
    intro c hc
    simp only [unitSquare, List.mem_cons, List.not_mem_nil, or_false] at hc
    rcases hc with rfl | rfl | rfl | rfl <;> exact (eucl2 _ _).trans (by norm_num [abs_of_nonneg, abs_of_neg])
  have hc' : ∀ c ∈ unitSquare, len c.elem ≤ 2 := by
    intro c hc
    simp only [unitSquare, List.mem_cons, List.not_mem_nil, or_false] at hc
    rcases hc with rfl | rfl | rfl | rfl <;> exact (len2 _).trans (by norm_num)
  have hin : (![1 / 2, 1 / 2] : Fin 2 → ℝ) ∈ inside unitSquare := unitSquare_inside (by norm_num) (by norm_num) (by norm_num) (by norm_num)
  have hout : (![3 / 2, 1 / 2] : Fin 2 → ℝ) ∉ inside unitSquare := square_out (by norm_num)
  have e1 : eucl ![1 / 2, 1 / 2] ![1, 1] ≤ 2 := (eucl2 _ _).trans (by norm_num [abs_of_nonneg, abs_of_neg])
  have e2 : eucl ![3 / 2, 1 / 2] ![1, 1] ≤ 2 := (eucl2 _ _).trans (by norm_num [abs_of_nonneg, abs_of_neg])
  have l1 : len (![1 / 2, 1 / 2] : Fin 2 → ℝ) ≤ 2 := (len2 _).trans (by norm_num)
  have l2 : len (![3 / 2, 1 / 2] : Fin 2 → ℝ) ≤ 2 := (len2 _).trans (by norm_num [abs_of_nonneg])
  have rot := fun (q : Pt 2) hq hf => C157_rotate r unitSquare q ⟨![1, 1], true⟩ (Fl.turn35 r) proper R35 (13 * 2 ^ (-52 : ℤ)) 2 hR35 (by norm_num) (by norm_num) (hm12 r) len_c hq hc hf
  have par := fun (q : Pt 2) hq hf => C157_parent r unitSquare q ⟨![1, 1], true⟩ (Fl.turn35 r) proper R35 (13 * 2 ^ (-52 : ℤ)) 2 hR35 (by norm_num) (by norm_num) (hm12 r) len_c hq hc' hf
  have loc := fun (q : Pt 2) hq hf => C157_local r unitSquare q ⟨![1, 1], true⟩ (Fl.turn35 r) proper R35 (13 * 2 ^ (-52 : ℤ)) 2 hR35 (by norm_num) (by norm_num) (hm12 r) hq hc hf
  exact ⟨⟨(rot ⟨![1 / 2, 1 / 2], true⟩ e1 (square_far mid_far hK)).2 hin, fun h => hout ((rot ⟨![3 / 2, 1 / 2], true⟩ e2 (square_far side_far hK)).1 h)⟩,
    ⟨(par ⟨![1 / 2, 1 / 2], true⟩ l1 (square_far mid_far hK)).2 hin, fun h => hout ((par ⟨![3 / 2, 1 / 2], true⟩ l2 (square_far side_far hK)).1 h)⟩,
    ⟨(loc ⟨![1 / 2, 1 / 2], true⟩ e1 (square_far mid_far hK)).2 hin, fun h => hout ((loc ⟨![3 / 2, 1 / 2], true⟩ e2 (square_far side_far hK)).1 h)⟩⟩

/-- C157_shift: the unit square shifted by (1/3, 1/7), which is not a double. -/
example (r : Rounding 53) (proper : Bool) :
    Fl.interPolyP r (Fl.lineShift r unitSquare ⟨![1 / 3, 1 / 7], true⟩) (Fl.addVec r ⟨![1 / 2, 1 / 2], true⟩ ⟨![1 / 3, 1 / 7], true⟩) proper = true ∧
    ¬ Fl.interPolyP r (Fl.lineShift r unitSquare ⟨![1 / 3, 1 / 7], true⟩) (Fl.addVec r ⟨![3 / 2, 1 / 2], true⟩ ⟨![1 / 3, 1 / 7], true⟩) proper = true := by
  have hK : ((2 : ℝ) ^ (-47 : ℤ) + 2 ^ (-43 : ℤ) * 2) < 1 / 4 := by norm_num
  have hc' : ∀ c ∈ unitSquare, len c.elem ≤ 2 := by
    intro c hc
    simp only [unitSquare, List.mem_cons, List.not_mem_nil, or_false] at hc
    rcases hc with rfl | rfl | rfl | rfl <;> exact (len2 _).trans (by norm_num)
  have sh := fun (q : Pt 2) hq hf => C157_shift r unitSquare q ⟨![1 / 3, 1 / 7], true⟩ proper 2 ((len2 _).trans (by norm_num [abs_of_nonneg])) hq hc' hf
  exact ⟨(sh ⟨![1 / 2, 1 / 2], true⟩ ((len2 _).trans (by norm_num)) (square_far mid_far hK)).2 (unitSquare_inside (by norm_num) (by norm_num) (by norm_num) (by norm_num)),
    fun h => square_out (by norm_num) ((sh ⟨![3 / 2, 1 / 2], true⟩ ((len2 _).trans (by norm_num [abs_of_nonneg])) (square_far side_far hK)).1 h)⟩

end WFMath.Cases
