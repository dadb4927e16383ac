/- Cases for C153: the triangle with corners at the origin and on two axes, in boxes. -/
import Verif.Props.RoundPolyBox
import Verif.Cases.Poly3Moves
import Verif.Props.PolySpace

namespace WFMath.Cases
open WFMath Spec Matrix Rounding

theorem triangle_canRead (r : Rounding 53) : CanRead r threeCorners := fun i hi =>
  have h : i < ([⟨0, true⟩, ⟨![1, 0, 0], true⟩, ⟨![0, 1, 0], true⟩] : List (Pt 3)).length := hi
  ⟨_, triangle_read r i _ (List.getElem?_eq_getElem h)⟩

theorem triangle_corners (r : Rounding 53) : readCorners r threeCorners = {![0, 0, 0], ![1, 0, 0], ![0, 1, 0]} := by
  have z : (![0, 0, 0] : Fin 3 → ℝ) = 0 := by funext i; fin_cases i <;> rfl
  ext x
  constructor
  · rintro ⟨i, c, hc, rfl⟩
    match i with
    | 0 => rw [triangle_read r 0 _ rfl] at hc; cases hc; rw [z]; simp
    | 1 => rw [triangle_read r 1 _ rfl] at hc; cases hc; simp
    | 2 => rw [triangle_read r 2 _ rfl] at hc; cases hc; simp
    | k + 3 =>
      unfold Fl.polyCorner Corners.getCorner at hc
      rw [threeCorners_poly] at hc
      simp at hc
  · rintro (rfl | rfl | rfl)
    · exact ⟨0, _, triangle_read r 0 _ rfl, z⟩
    · exact ⟨1, _, triangle_read r 1 _ rfl, rfl⟩
    · exact ⟨2, _, triangle_read r 2 _ rfl, rfl⟩

/-- The triangle is inside a box around it; it is in the unit cube but touches its faces; it is not in the cube of half that size. -/
theorem triangle_in_boxes (r : Rounding 53) :
    Fl.containsBPolyN r ⟨⟨![-1, -1, -1], true⟩, ⟨![2, 2, 2], true⟩⟩ threeCorners true = some true ∧
    Fl.containsBPolyN r ⟨⟨![0, 0, 0], true⟩, ⟨![1, 1, 1], true⟩⟩ threeCorners false = some true ∧
    Fl.containsBPolyN r ⟨⟨![0, 0, 0], true⟩, ⟨![1, 1, 1], true⟩⟩ threeCorners true = some false ∧
    Fl.containsBPolyN r ⟨⟨![0, 0, 0], true⟩, ⟨![1 / 2, 1 / 2, 1 / 2], true⟩⟩ threeCorners false = some false := by
  have h := fun b => C153_box r b threeCorners (triangle_canRead r)
  refine ⟨(h _).2.1.2 ?_, (h _).2.2.1 ?_ ?_, ?_, ?_⟩
  · rw [(convex_boxInterior _).convexHull_subset_iff, triangle_corners]
    rintro x (rfl | rfl | rfl) <;> intro i <;> fin_cases i <;> norm_num
  · intro i; fin_cases i <;> norm_num
  · rw [triangle_corners]
    rintro x (rfl | rfl | rfl) <;> refine ⟨_, ?_, fun i => by rw [sub_self, abs_zero]; exact epsilon_pos.le⟩ <;> intro i <;> fin_cases i <;> norm_num
  · obtain ⟨⟨a, ha⟩, -⟩ := And.intro ((h ⟨⟨![0, 0, 0], true⟩, ⟨![1, 1, 1], true⟩⟩).1 true) trivial
    rcases a with _ | _
    · exact ha
    · have := ((h _).2.1.1 ha) (subset_convexHull ℝ _ (show ![0, 0, 0] ∈ _ by rw [triangle_corners]; simp)) 0
      norm_num at this
  · obtain ⟨a, ha⟩ := (h ⟨⟨![0, 0, 0], true⟩, ⟨![1 / 2, 1 / 2, 1 / 2], true⟩⟩).1 false
    rcases a with _ | _
    · exact ha
    · obtain ⟨y, hy, hd⟩ := ((h _).2.2.2 (by intro i; fin_cases i <;> norm_num) ha) (show ![1, 0, 0] ∈ _ by rw [triangle_corners]; simp)
      have h0 := (hy 0).2
      have h1 := (_root_.abs_le.1 (hd 0)).2
      have he : epsilon * (1 + 2 ^ (-52 : ℤ)) ≤ 1 / 100 := by unfold epsilon; norm_num
      simp only [cons_val_zero] at h0 h1
      have h2 := h1.trans he
      linarith

/-- C153_built, for the three points the triangle was made from. -/
example (r : Rounding 53) := (C153_built r (by norm_num) epsilon le_rfl (epsilon_lt.le.trans (by norm_num)) _ _ _ (Fl.threeCorners_built r) _).2.1 (triangle_in_boxes r).1

/-- A box turned by a third of a turn. -/
def turnedCase : RBox 3 := ⟨⟨![-1, -2, -1], true⟩, ⟨![4, 2, 3], true⟩, ⟨thirdTurn, false, true, 1⟩⟩

theorem len_small {v : Fin 3 → ℝ} (h0 : |v 0| ≤ 4) (h1 : |v 1| ≤ 4) (h2 : |v 2| ≤ 4) : len v ≤ 12 := by
  refine abs_le_of_sq_le_sq' ?_ (by norm_num) |>.2
  rw [len_sq]
  simp only [dotProduct, Fin.sum_univ_three]
  have := _root_.abs_le.1 h0
  have := _root_.abs_le.1 h1
  have := _root_.abs_le.1 h2
  nlinarith

theorem turned_margin : ∃ M : ℝ, M = (2 * 2 ^ (-40 : ℤ) + 10 * 2 ^ (-53 : ℤ)) * (eucl threeCorners.orient.origin.elem turnedCase.corner.elem + 1) + 2 ^ (-50 : ℤ) * len turnedCase.corner.elem +
    2 ^ (-53 : ℤ) * len (turnedCase.corner.elem + turnedCase.size.elem) ∧ 0 ≤ M ∧ M ≤ 1 / 1000 := by
  have a : eucl threeCorners.orient.origin.elem turnedCase.corner.elem ≤ 12 := by
    rw [eucl_eq_len]
    refine len_small ?_ ?_ ?_ <;> simp [threeCorners, turnedCase]
    norm_num
  have b : len turnedCase.corner.elem ≤ 12 := by
    refine len_small ?_ ?_ ?_ <;> simp [turnedCase]
    norm_num
  have c : len (turnedCase.corner.elem + turnedCase.size.elem) ≤ 12 := by
    refine len_small ?_ ?_ ?_ <;> simp [turnedCase] <;> norm_num
  have b0 := len_nonneg turnedCase.corner.elem
  have c0 := len_nonneg (turnedCase.corner.elem + turnedCase.size.elem)
  have a0 := eucl_nonneg threeCorners.orient.origin.elem turnedCase.corner.elem
  refine ⟨_, rfl, by positivity, ?_⟩
  norm_num
  linarith

/-- The triangle is inside the turned box. -/
example (r : Rounding 53) : Fl.containsRPolyN r turnedCase threeCorners true = some true := by
  obtain ⟨M, hM, m0, m1⟩ := turned_margin
  refine (C153_turned r turnedCase thirdTurn (2 ^ (-40 : ℤ)) (by norm_num) thirdTurn_orth (by norm_num) (by norm_num) (stands_self _ (by norm_num)) rfl rfl threeCorners _ (by norm_num)
    (triangle_basis r) (triangle_canRead r) 1 (fun q hq => ?_) M hM).2.2.1 ?_
  · rw [threeCorners_poly] at hq
    simp only [List.mem_cons, List.not_mem_nil, or_false] at hq
    rcases hq with rfl | rfl | rfl <;> simp [reach]
  · rw [triangle_corners]
    rintro x (rfl | rfl | rfl) <;> intro i <;> fin_cases i <;> simp [turnedCase, thirdTurn, mulVec, dotProduct, Fin.sum_univ_three] <;> norm_num <;> (try constructor) <;> linarith

end WFMath.Cases
