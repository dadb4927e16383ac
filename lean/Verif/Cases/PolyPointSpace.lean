/- Cases for C149: the theorems hold of the unit triangle in space. -/
import Verif.Props.RoundPoly3Inter

namespace WFMath.Cases
open WFMath Spec Matrix Rounding

theorem triangle_axes (r : Rounding 53) : PlaneAxes threeCorners.orient := (C149_built r (by norm_num) epsilon epsilon_pos.le _ _ _ (Fl.threeCorners_built r) rfl).1

theorem triangle_point (y : Fin 2 → ℝ) : spacePoint threeCorners y = ![y 0, y 1, 0] := by
  unfold spacePoint threeCorners
  funext i
  fin_cases i <;> simp

theorem triangle_M : ∀ c ∈ threeCorners.poly, |c.elem 0| ≤ 1 := by
  intro c hc
  rw [threeCorners_poly] at hc
  simp only [List.mem_cons, List.not_mem_nil, or_false] at hc
  rcases hc with rfl | rfl | rfl <;> simp

theorem sqrt_eps_small : Real.sqrt epsilon ≤ 1 / 1000 := by
  have he2 := epsilon_lt
  norm_num at he2
  exact Real.sqrt_le_iff.2 ⟨by norm_num, by linarith⟩

theorem reach_small {p f : Fin 3 → ℝ} (h1 : len p ≤ 4) (h2 : eucl p f ≤ 4) : planeReach p f ≤ 1 / 100 := by
  unfold planeReach
  have a := sqrt_eps_small
  have b := Real.sqrt_nonneg epsilon
  have c := len_nonneg p
  have h3 := mul_le_mul a h1 c (by norm_num)
  have : (2 : ℝ) ^ (-49 : ℤ) * eucl p f ≤ 1 / 1000 := by
    refine (mul_le_mul_of_nonneg_left h2 (by positivity)).trans (by norm_num)
  linarith

/-- Points of the plane near a point of the plane have nearby coordinates. -/
theorem near_coord {a b : ℝ} {y : Fin 2 → ℝ} {d : ℝ} (h : eucl ![a, b, 0] (spacePoint threeCorners y) ≤ d) : |a - y 0| ≤ d ∧ |b - y 1| ≤ d := by
  rw [triangle_point, eucl_eq_len] at h
  have h0 := (abs_le_len (![a, b, 0] - ![y 0, y 1, 0]) 0).trans h
  have h1 := (abs_le_len (![a, b, 0] - ![y 0, y 1, 0]) 1).trans h
  simpa using ⟨h0, h1⟩

theorem len_three {a b : ℝ} (ha : |a| ≤ 2) (hb : |b| ≤ 2) : len (![a, b, 0] : Fin 3 → ℝ) ≤ 4 := by
  have ha' := _root_.abs_le.1 ha
  have hb' := _root_.abs_le.1 hb
  refine abs_le_of_sq_le_sq' ?_ (by norm_num) |>.2
  rw [len_sq]
  simp [dotProduct, Fin.sum_univ_three]
  nlinarith

theorem margin_small {a : ℝ} (ha : |a| ≤ 3) : sideMargin a 1 ≤ 1 / 1000 := by
  unfold sideMargin
  have he2 := epsilon_lt
  norm_num at he2
  have hm : max 1 (2 * |a|) ≤ 6 := max_le (by norm_num) (by linarith)
  have hm0 : 0 ≤ max 1 (2 * |a|) := zero_le_one.trans (le_max_left _ _)
  have h1 := mul_le_mul he2.le hm hm0 (by norm_num)
  have h2 := mul_le_mul_of_nonneg_right h1 (show (0 : ℝ) ≤ 1 + 2 ^ (-52 : ℤ) by norm_num)
  norm_num at h2 ⊢
  linarith

/-- The sides of the triangle. -/
theorem triangle_sides {e : (Fin 2 → ℝ) × (Fin 2 → ℝ)} (he : e ∈ sides threeCorners.poly) {x y : ℝ} (h : ![x, y] ∈ segment ℝ e.1 e.2) :
    0 ≤ y ∧ y ≤ 1 ∧ (x = 0 ∨ y = 0 ∨ x + y = 1) := by
  obtain ⟨s, s0, s1, h2, h3⟩ := seg_coord h
  rw [threeCorners_poly] at he
  simp [sides] at he
  rcases he with rfl | rfl | rfl <;> simp at h2 h3 <;> refine ⟨?_, ?_, ?_⟩ <;> first | linarith | (left; linarith) | (right; left; linarith) | (right; right; linarith)

example (r : Rounding 53) : Fl.interPolyPn r threeCorners ⟨![1 / 4, 1 / 4, 0], true⟩ true = some true := by
  have hl : len (![1 / 4, 1 / 4, 0] : Fin 3 → ℝ) ≤ 4 := len_three (by norm_num [abs_of_pos]) (by norm_num [abs_of_pos])
  have hf : eucl (![1 / 4, 1 / 4, 0] : Fin 3 → ℝ) threeCorners.orient.origin.elem = len (![1 / 4, 1 / 4, 0] : Fin 3 → ℝ) := by
    rw [eucl_eq_len]; congr 1; simp [threeCorners]
  refine C149_inside_partial r (by norm_num) _ (triangle_axes r) _ 1 triangle_M (fun y hy => ?_) 0 threeCorners_perp.le (by norm_num) (fun h => ?_) ![1 / 4, 1 / 4] ?_ true
  · have hd := near_coord (hy.trans (reach_small hl (hf.le.trans hl)))
    rw [_root_.abs_le, _root_.abs_le] at hd
    refine ⟨corner_triangle (by linarith) (by linarith) (by linarith) _ rfl, fun e he x hx => ?_⟩
    have hm : sideMargin (y 0) 1 ≤ 1 / 1000 := margin_small (by rw [_root_.abs_le]; constructor <;> linarith)
    refine hm.trans_lt ?_
    obtain ⟨-, -, h | h | h⟩ := triangle_sides he hx
    · rw [h]; exact lt_abs.2 (.inl (by linarith))
    · linarith
    · exact lt_abs.2 (.inr (by linarith))
  · have := congrFun h 0
    norm_num at this
  · rw [triangle_point, hf]
    have e : eucl (![1 / 4, 1 / 4, 0] : Fin 3 → ℝ) ![(![1 / 4, 1 / 4] : Fin 2 → ℝ) 0, (![1 / 4, 1 / 4] : Fin 2 → ℝ) 1, 0] = 0 := by
      rw [eucl_eq_len]
      simp [len_zero]
    have hs : (2 : ℝ) ^ (-44 : ℤ) ≤ 9 / 10 * Real.sqrt epsilon := by
      have : (2 : ℝ) ^ (-43 : ℤ) ≤ Real.sqrt epsilon := Real.le_sqrt_of_sq_le (by unfold epsilon; norm_num)
      norm_num at this ⊢
      linarith
    have := mul_le_mul_of_nonneg_right hs (len_nonneg (![1 / 4, 1 / 4, 0] : Fin 3 → ℝ))
    show 4 * eucl ![1 / 4, 1 / 4, 0] _ + _ ≤ _
    rw [e]
    linarith

example (r : Rounding 53) : Fl.interPolyPn r threeCorners ⟨![1, 2, 0], true⟩ false = some false := by
  have hl : len (![1, 2, 0] : Fin 3 → ℝ) ≤ 4 := len_three (by norm_num) (by norm_num)
  have hf : eucl (![1, 2, 0] : Fin 3 → ℝ) threeCorners.orient.origin.elem = len (![1, 2, 0] : Fin 3 → ℝ) := by
    rw [eucl_eq_len]; congr 1; simp [threeCorners]
  refine C149_outside r (by norm_num) _ (triangle_axes r) _ 1 triangle_M (fun y hy => ?_) false
  have hd := near_coord (hy.trans (reach_small hl (hf.le.trans hl)))
  rw [_root_.abs_le, _root_.abs_le] at hd
  have hc : ClearOfSides threeCorners.poly y (sideMargin (y 0) 1) := fun e he x hx => by
    obtain ⟨h0, h1, -⟩ := triangle_sides he hx
    linarith
  refine ⟨fun h => ?_, hc⟩
  have h2 := h.2
  have : rayCrossings east threeCorners.poly y = 0 := by
    unfold rayCrossings
    rw [List.countP_eq_zero]
    intro e he
    simp only [decide_eq_true_eq]
    rintro ⟨-, t, -, ht⟩
    have e2 : y + t • east = ![y 0 + t, y 1] := by apply ext2 <;> simp
    rw [e2] at ht
    obtain ⟨h0, h1, -⟩ := triangle_sides he ht
    linarith
  rw [this] at h2
  simp at h2

example (r : Rounding 53) := C149_false r
example (r : Rounding 53) := C149_zero_false r threeCorners rfl ⟨0, true⟩ rfl false
example (r : Rounding 53) := (C149_ball r threeCorners ⟨⟨![1, 2, 0], true⟩, 1⟩ false).1 (by norm_num)

end WFMath.Cases
