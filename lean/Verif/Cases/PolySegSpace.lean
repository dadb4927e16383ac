/- Cases for C154: the triangle with corners at the origin and on two axes, and upright segments. -/
import Verif.Props.RoundPolySeg
import Verif.Cases.PolyPointSpace

namespace WFMath.Cases
open WFMath Spec Matrix Rounding

/-- An upright segment. -/
noncomputable def upright (a b h1 h2 : ℝ) : Seg 3 := ⟨⟨![a, b, h1], true⟩, ⟨![a, b, h2], true⟩⟩

theorem upright_heights (a b h1 h2 : ℝ) : Heights threeCorners (upright a b h1 h2) ![0, 0, 1] ![a, b] ![a, b] h1 h2 := by
  refine ⟨?_, ?_, ?_, ?_, ?_⟩
  · simp [dotProduct, Fin.sum_univ_three]
  · simp [threeCorners, dotProduct, Fin.sum_univ_three]
  · simp [threeCorners, dotProduct, Fin.sum_univ_three]
  · rw [triangle_point]; funext i; fin_cases i <;> simp [upright]
  · rw [triangle_point]; funext i; fin_cases i <;> simp [upright]

theorem upright_far {a b h : ℝ} (ha : |a| ≤ 2) (hb : |b| ≤ 2) (hh : |h| ≤ 2) : eucl ![a, b, h] threeCorners.orient.origin.elem ≤ 4 := by
  have ha' := _root_.abs_le.1 ha
  have hb' := _root_.abs_le.1 hb
  have hh' := _root_.abs_le.1 hh
  rw [eucl_eq_len, show threeCorners.orient.origin.elem = 0 from rfl, sub_zero]
  refine abs_le_of_sq_le_sq' ?_ (by norm_num) |>.2
  rw [len_sq]
  simp only [dotProduct, Fin.sum_univ_three]
  rw [show (![a, b, h] : Fin 3 → ℝ) 0 = a from rfl, show (![a, b, h] : Fin 3 → ℝ) 1 = b from rfl, show (![a, b, h] : Fin 3 → ℝ) 2 = h from rfl]
  nlinarith

theorem upright_error : segError 0 4 ≤ 1 / 10000 := by unfold segError; norm_num

theorem upright_cross (a b : ℝ) : crossing ![a, b] ![a, b] (-1) 1 = ![a, b] := by
  funext i
  unfold crossing
  norm_num

theorem upright_near {a b : ℝ} {q : Fin 2 → ℝ} (h : ∀ i, |q i - crossing ![a, b] ![a, b] (-1) 1 i| ≤ crossError (segError 0 4) (eucl (upright a b (-1) 1).p1.elem (upright a b (-1) 1).p2.elem) (-1) 1) :
    |q 0 - a| ≤ 1 / 1000 ∧ |q 1 - b| ≤ 1 / 1000 := by
  have hL : eucl (upright a b (-1) 1).p1.elem (upright a b (-1) 1).p2.elem ≤ 2 := by
    rw [eucl_eq_len]
    refine abs_le_of_sq_le_sq' ?_ (by norm_num) |>.2
    rw [len_sq]
    simp [upright, dotProduct, Fin.sum_univ_three]
    norm_num
  have hc : crossError (segError 0 4) (eucl (upright a b (-1) 1).p1.elem (upright a b (-1) 1).p2.elem) (-1) 1 ≤ 1 / 1000 := by
    unfold crossError
    have e := upright_error
    have e0 : 0 ≤ segError 0 4 := by unfold segError; positivity
    have e1 : 1 + 2 * eucl (upright a b (-1) 1).p1.elem (upright a b (-1) 1).p2.elem / (|(-1 : ℝ)| + |(1 : ℝ)|) ≤ 3 := by
      rw [abs_neg, abs_one]; linarith
    have := mul_le_mul e e1 (by have := eucl_nonneg (upright a b (-1) 1).p1.elem (upright a b (-1) 1).p2.elem; positivity) (by norm_num)
    linarith
  rw [upright_cross] at h
  exact ⟨(h 0).trans hc, (h 1).trans hc⟩

/-- A segment up through the triangle meets it. -/
theorem segment_meets (r : Rounding 53) (proper : Bool) : Fl.interPolySn r threeCorners (upright (1 / 4) (1 / 4) (-1) 1) proper = some true := by
  have key : ∀ q : Fin 2 → ℝ, |q 0 - 1 / 4| ≤ 1 / 1000 → |q 1 - 1 / 4| ≤ 1 / 1000 → q ∈ inside threeCorners.poly ∧ ClearOfSides threeCorners.poly q (sideMargin (q 0) 1) := fun q h0 h1 => by
    rw [_root_.abs_le] at h0 h1
    refine ⟨corner_triangle (by linarith) (by linarith) (by linarith) _ rfl, fun e he x hx => ?_⟩
    refine (margin_small (by rw [_root_.abs_le]; constructor <;> linarith)).trans_lt ?_
    obtain ⟨-, -, h | h | h⟩ := triangle_sides he hx
    · rw [h]; exact lt_abs.2 (.inl (by linarith))
    · linarith
    · exact lt_abs.2 (.inr (by linarith))
  have e := upright_error
  refine (C154_through r (by norm_num) threeCorners (triangle_axes r) (upright (1 / 4) (1 / 4) (-1) 1) (upright_heights _ _ _ _) (δ := 0) (D := 4) threeCorners_perp.le (by norm_num)
    (upright_far (by norm_num [abs_of_pos]) (by norm_num [abs_of_pos]) (by norm_num)) (upright_far (by norm_num [abs_of_pos]) (by norm_num [abs_of_pos]) (by norm_num)) (by norm_num)
    (by rw [abs_neg, abs_one]; linarith) (by rw [abs_one]; linarith) 1 triangle_M (fun q hq => (key q (upright_near hq).1 (upright_near hq).2).2) proper).2.1
    fun q hq => (key q (upright_near hq).1 (upright_near hq).2).1

/-- A segment beside the triangle misses it. -/
example (r : Rounding 53) (proper : Bool) : Fl.interPolySn r threeCorners (upright 1 2 (-1) 1) proper = some false := by
  have e := upright_error
  refine (C154_through r (by norm_num) threeCorners (triangle_axes r) (upright 1 2 (-1) 1) (upright_heights _ _ _ _) (δ := 0) (D := 4) threeCorners_perp.le (by norm_num)
    (upright_far (by norm_num) (by norm_num) (by norm_num)) (upright_far (by norm_num) (by norm_num) (by norm_num)) (by norm_num)
    (by rw [abs_neg, abs_one]; linarith) (by rw [abs_one]; linarith) 1 triangle_M (fun q hq => ?_) proper).2.2 fun q hq h => ?_
  · have h1 := _root_.abs_le.1 (upright_near hq).2
    intro e he x hx
    obtain ⟨h0, h1, -⟩ := triangle_sides he hx
    linarith
  · have h1 := _root_.abs_le.1 (upright_near hq).2
    have h2 := h.2
    have : rayCrossings east threeCorners.poly q = 0 := by
      unfold rayCrossings
      rw [List.countP_eq_zero]
      intro e he
      simp only [decide_eq_true_eq]
      rintro ⟨-, t, -, ht⟩
      have e2 : q + t • east = ![q 0 + t, q 1] := by apply ext2 <;> simp
      rw [e2] at ht
      obtain ⟨h0, h1, -⟩ := triangle_sides he ht
      linarith
    rw [this] at h2
    simp at h2

/-- A segment above the triangle misses it. -/
example (r : Rounding 53) (proper : Bool) : Fl.interPolySn r threeCorners (upright (1 / 4) (1 / 4) 1 2) proper = some false := by
  have e := upright_error
  have he := epsilon_lt
  norm_num at he
  exact C154_apart r (by norm_num) threeCorners (triangle_axes r) _ (upright_heights _ _ _ _) (δ := 0) (D := 4) threeCorners_perp.le (by norm_num)
    (upright_far (by norm_num [abs_of_pos]) (by norm_num [abs_of_pos]) (by norm_num)) (upright_far (by norm_num [abs_of_pos]) (by norm_num [abs_of_pos]) (by norm_num)) (by norm_num)
    (by rw [abs_one]; linarith) (by rw [abs_of_pos (by norm_num)]; linarith) (.inl (by rw [abs_one]; linarith)) proper

example (r : Rounding 53) := C154_found r (by norm_num) threeCorners (triangle_axes r) _ (upright_heights (1 / 4) (1 / 4) (-1) 1) (δ := 0) (D := 4) threeCorners_perp.le (by norm_num)
  (upright_far (by norm_num [abs_of_pos]) (by norm_num [abs_of_pos]) (by norm_num)) (upright_far (by norm_num [abs_of_pos]) (by norm_num [abs_of_pos]) (by norm_num))
  (by have e := upright_error; rw [abs_neg, abs_one]; linarith) (by norm_num) 1 triangle_M true (segment_meets r true)
example (r : Rounding 53) := C154_normal threeCorners (triangle_axes r) (threeCorners_perp.le.trans (by norm_num)) (upright 1 2 3 4)

end WFMath.Cases
