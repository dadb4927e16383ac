/- Property theorems C135, continued: rotated boxes meeting boxes in space, computed in doubles. -/
import Verif.Model.RoundedSat
import Verif.Props.RoundRBoxTwo

namespace WFMath
open Spec Matrix Rounding

namespace Fl

/-- The two running sums, computed and exact. -/
theorem satSums_err (r : Rounding 53) (v1 v2 w1 w2 : ℝ) :
    |(satSums r v1 v2).1 - (min 0 w1 + min 0 w2)| ≤ |v1 - w1| + |v2 - w2| + 2 ^ (-53 : ℤ) * (|v1| + |v2|) ∧
    |(satSums r v1 v2).2 - (max 0 w1 + max 0 w2)| ≤ |v1 - w1| + |v2 - w2| + 2 ^ (-53 : ℤ) * (|v1| + |v2|) := by
  have u0 : (0 : ℝ) ≤ 2 ^ (-53 : ℤ) := by positivity
  have key1 : |(satSums r v1 v2).1 - (min 0 v1 + min 0 v2)| ≤ 2 ^ (-53 : ℤ) * (|v1| + |v2|) := by
    unfold satSums
    have hz : 0 ≤ (2 : ℝ) ^ (-53 : ℤ) * (|v1| + |v2|) := by positivity
    have e : ∀ x y : ℝ, |x| ≤ |v1| → |y| ≤ |v2| → |r (x + y) - (x + y)| ≤ 2 ^ (-53 : ℤ) * (|v1| + |v2|) := fun x y hx hy =>
      (r.err pos53 (x + y)).trans (mul_le_mul_of_nonneg_left ((abs_add_le _ _).trans (add_le_add hx hy)) u0)
    by_cases h1 : v1 > 0 <;> by_cases h2 : v2 > 0
    · simp [h1, h2, min_eq_left h1.le, min_eq_left h2.le]; positivity
    · simp only [h1, h2, if_true, if_false, min_eq_left h1.le, min_eq_right (not_lt.1 h2)]
      exact e 0 v2 (by simp) le_rfl
    · simp [h1, h2, min_eq_right (not_lt.1 h1), min_eq_left h2.le]; positivity
    · simp only [h1, h2, if_false, min_eq_right (not_lt.1 h1), min_eq_right (not_lt.1 h2)]
      exact e v1 v2 le_rfl le_rfl
  have key2 : |(satSums r v1 v2).2 - (max 0 v1 + max 0 v2)| ≤ 2 ^ (-53 : ℤ) * (|v1| + |v2|) := by
    unfold satSums
    have hz : 0 ≤ (2 : ℝ) ^ (-53 : ℤ) * (|v1| + |v2|) := by positivity
    have e : ∀ x y : ℝ, |x| ≤ |v1| → |y| ≤ |v2| → |r (x + y) - (x + y)| ≤ 2 ^ (-53 : ℤ) * (|v1| + |v2|) := fun x y hx hy =>
      (r.err pos53 (x + y)).trans (mul_le_mul_of_nonneg_left ((abs_add_le _ _).trans (add_le_add hx hy)) u0)
    by_cases h1 : v1 > 0 <;> by_cases h2 : v2 > 0
    · simp only [h1, h2, if_true, max_eq_right h1.le, max_eq_right h2.le]
      exact e v1 v2 le_rfl le_rfl
    · simp [h1, h2, max_eq_right h1.le, max_eq_left (not_lt.1 h2)]; positivity
    · simp only [h1, h2, if_true, if_false, max_eq_left (not_lt.1 h1), max_eq_right h2.le]
      exact e 0 v2 (by simp) le_rfl
    · simp [h1, h2, max_eq_left (not_lt.1 h1), max_eq_left (not_lt.1 h2)]; positivity
  have l1 := min_lip v1 w1
  have l2 := min_lip v2 w2
  have m1 := max_lip v1 w1
  have m2 := max_lip v2 w2
  constructor
  · have t := abs_add_three ((satSums r v1 v2).1 - (min 0 v1 + min 0 v2)) (min 0 v1 - min 0 w1) (min 0 v2 - min 0 w2)
    rw [show (satSums r v1 v2).1 - (min 0 v1 + min 0 v2) + (min 0 v1 - min 0 w1) + (min 0 v2 - min 0 w2) = (satSums r v1 v2).1 - (min 0 w1 + min 0 w2) by ring] at t
    linarith
  · have t := abs_add_three ((satSums r v1 v2).2 - (max 0 v1 + max 0 v2)) (max 0 v1 - max 0 w1) (max 0 v2 - max 0 w2)
    rw [show (satSums r v1 v2).2 - (max 0 v1 + max 0 v2) + (max 0 v1 - max 0 w1) + (max 0 v2 - max 0 w2) = (satSums r v1 v2).2 - (max 0 w1 + max 0 w2) by ring] at t
    linarith

/-- The normal of a test as an array. -/
noncomputable def axisOf (m : Matrix (Fin 3) (Fin 3) ℝ) (i j : Fin 3) : Fin 3 → ℝ := (satAxis ⟨m, false, true, 0⟩ i j).elem

theorem axisOf_eq (m : RotMat 3) (i j : Fin 3) : (satAxis m i j).elem = axisOf m.elem i j := rfl

theorem axis_sub (m R : Matrix (Fin 3) (Fin 3) ℝ) (i j : Fin 3) : axisOf m i j - axisOf R i j = axisOf (m - R) i j := by
  funext k
  fin_cases j <;> fin_cases k <;> simp [axisOf, satAxis] <;> ring

theorem axis_len_sq (m : Matrix (Fin 3) (Fin 3) ℝ) (i j : Fin 3) : axisOf m i j ⬝ᵥ axisOf m i j = m i ⬝ᵥ m i - m i j ^ 2 := by
  fin_cases j <;> simp [axisOf, satAxis, dotProduct, Fin.sum_univ_three] <;> ring

theorem axis_len_le (m : Matrix (Fin 3) (Fin 3) ℝ) (i j : Fin 3) : len (axisOf m i j) ≤ len (m i) := by
  unfold len
  refine Real.sqrt_le_sqrt ?_
  rw [axis_len_sq]
  nlinarith [sq_nonneg (m i j)]

theorem axis_perp (m : Matrix (Fin 3) (Fin 3) ℝ) (i j : Fin 3) : m i ⬝ᵥ axisOf m i j = 0 := by
  fin_cases j <;> simp [axisOf, satAxis, dotProduct, Fin.sum_univ_three] <;> ring

theorem axis_self (m : Matrix (Fin 3) (Fin 3) ℝ) (i j : Fin 3) : axisOf m i j j = 0 := by
  fin_cases j <;> simp [axisOf, satAxis]

theorem stands_row_sub {m R : Matrix (Fin 3) (Fin 3) ℝ} {δ : ℝ} (h0 : 0 ≤ δ) (h : Stands m R δ) (i : Fin 3) : len ((m - R) i) ≤ δ := by
  have := stands_transpose h0 h (Pi.single i 1)
  rw [← sub_mulVec, ← transpose_sub, mulVec_single_one, len_single, mul_one] at this
  exact this

theorem sum3' (f : Fin 3 → ℝ) (i : Fin 3) (h : f i = 0) : ∑ k, f k = f (i + 1) + f (i + 1 + 1) := by
  fin_cases i <;> simp [Fin.sum_univ_three] at h ⊢ <;> linarith

/-- One contribution of the box: the side times a coordinate of the normal. -/
theorem sat_val_box (r : Rounding 53) {α' α h E L : ℝ} (h0 : 0 ≤ E) (h1 : E ≤ 1 / 4) (ha : |α' - α| ≤ E) (hα : |α| ≤ 1) (hh : |h| ≤ L) :
    |r (α' * r h) - α * h| ≤ (E + 4 * 2 ^ (-53 : ℤ)) * L ∧ |r (α' * r h)| ≤ 2 * L := by
  have e1 := r.err pos53 h
  rw [u53] at e1
  have hL := (abs_nonneg _).trans hh
  have u0 : (0 : ℝ) ≤ 2 ^ (-53 : ℤ) := by positivity
  have u1 : (2 : ℝ) ^ (-53 : ℤ) ≤ 1 / 1000 := by norm_num
  have e2 := err_mul r ha (e1.trans (mul_le_mul_of_nonneg_left hh u0)) hα hh
  have hs : |α * h| ≤ 1 * L := by rw [abs_mul]; exact mul_le_mul hα hh (abs_nonneg _) zero_le_one
  generalize (2 : ℝ) ^ (-53 : ℤ) = w at *
  have k1 : E * L + 1 * (w * L) + E * (w * L) + w * (1 * L + (E * L + 1 * (w * L) + E * (w * L))) ≤ (E + 4 * w) * L := by
    have : E + w + E * w + w * (1 + (E + w + E * w)) ≤ E + 4 * w := by nlinarith [mul_nonneg h0 u0, mul_nonneg u0 u0, mul_le_mul_of_nonneg_left h1 u0, mul_le_mul_of_nonneg_left u1 u0, mul_nonneg (mul_nonneg h0 u0) u0, mul_le_mul_of_nonneg_left u1 (mul_nonneg h0 u0)]
    have := mul_le_mul_of_nonneg_right this hL
    linarith
  have k2 := e2.trans k1
  refine ⟨k2, ?_⟩
  have := abs_sub_abs_le_abs_sub (r (α' * r h)) (α * h)
  have : (E + 4 * w) * L ≤ 1 * L := mul_le_mul_of_nonneg_right (by linarith) hL
  linarith

/-- One contribution of the rotated box: the side times the inner product of a row and the normal. -/
theorem sat_val_turned (r : Rounding 53) {d' d s κ X : ℝ} (h0 : 0 ≤ κ) (h1 : κ ≤ 3 / 4) (hd : |d' - d| ≤ κ) (hd1 : |d| ≤ 1) (hs : |s| ≤ X) :
    |r (d' * s) - d * s| ≤ (κ + 2 * 2 ^ (-53 : ℤ)) * X ∧ |r (d' * s)| ≤ 2 * X := by
  have hX := (abs_nonneg _).trans hs
  have u0 : (0 : ℝ) ≤ 2 ^ (-53 : ℤ) := by positivity
  have u1 : (2 : ℝ) ^ (-53 : ℤ) ≤ 1 / 1000 := by norm_num
  have e2 := err_mul r hd (show |s - s| ≤ 0 by simp) hd1 hs
  have hs' : |d * s| ≤ 1 * X := by rw [abs_mul]; exact mul_le_mul hd1 hs (abs_nonneg _) zero_le_one
  generalize (2 : ℝ) ^ (-53 : ℤ) = w at *
  have k1 : κ * X + 1 * 0 + κ * 0 + w * (1 * X + (κ * X + 1 * 0 + κ * 0)) ≤ (κ + 2 * w) * X := by
    have : κ + w * (1 + κ) ≤ κ + 2 * w := by nlinarith
    have := mul_le_mul_of_nonneg_right this hX
    linarith
  have k2 := e2.trans k1
  refine ⟨k2, ?_⟩
  have := abs_sub_abs_le_abs_sub (r (d' * s)) (d * s)
  have : (κ + 2 * w) * X ≤ 1 * X := mul_le_mul_of_nonneg_right (by linarith) hX
  linarith

/-- The inner product of two vectors that are off, in doubles. -/
theorem dot_err (r : Rounding 53) (x y : Vec 3) (x₀ y₀ : Fin 3 → ℝ) {E P : ℝ} (h0 : 0 ≤ E) (h1 : E ≤ 1 / 4) {f : ℝ} (hf : 0 ≤ f) (hf1 : f ≤ 1 / 4) (hx : len (x.elem - x₀) ≤ f * P) (hx0 : len x₀ ≤ P)
    (hy : len (y.elem - y₀) ≤ E) (hy0 : len y₀ ≤ 1) : |dot r x y - x₀ ⬝ᵥ y₀| ≤ (5 / 4 * f + E + 3 * epsilon) * P := by
  have hP := (len_nonneg _).trans hx0
  have lx : len x.elem ≤ (1 + f) * P := by have := len_add_le (x.elem - x₀) x₀; rw [sub_add_cancel] at this; linarith
  have ly : len y.elem ≤ 1 + E := by have := len_add_le (y.elem - y₀) y₀; rw [sub_add_cancel] at this; linarith
  have e := dot_off r x y lx ly
  have g1 : |(x.elem - x₀) ⬝ᵥ y.elem| ≤ f * P * (1 + E) := (abs_dot_le_len _ _).trans (mul_le_mul hx ly (len_nonneg _) (mul_nonneg hf hP))
  have g2 : |x₀ ⬝ᵥ (y.elem - y₀)| ≤ P * E := (abs_dot_le_len _ _).trans (mul_le_mul hx0 hy (len_nonneg _) hP)
  have he : epsilon = 30 * 2 ^ (-52 : ℤ) := by unfold epsilon; norm_num
  have hm : min ((1 + f) * P) (1 + E) ≤ (1 + f) * P := min_le_left _ _
  have t := abs_add_three (dot r x y - x.elem ⬝ᵥ y.elem) ((x.elem - x₀) ⬝ᵥ y.elem) (x₀ ⬝ᵥ (y.elem - y₀))
  rw [show dot r x y - x.elem ⬝ᵥ y.elem + (x.elem - x₀) ⬝ᵥ y.elem + x₀ ⬝ᵥ (y.elem - y₀) = dot r x y - x₀ ⬝ᵥ y₀ by rw [sub_dotProduct, dotProduct_sub]; ring] at t
  have u0 : (0 : ℝ) ≤ 2 ^ (-52 : ℤ) := by positivity
  rw [he] at e ⊢
  generalize (2 : ℝ) ^ (-52 : ℤ) = w at *
  have s1 : 2 * (30 * w) * min ((1 + f) * P) (1 + E) ≤ 2 * (30 * w) * ((1 + f) * P) := mul_le_mul_of_nonneg_left hm (by positivity)
  have s2 : (1 + f) * P * (1 + E) ≤ 25 / 16 * P := by
    rw [mul_right_comm]
    refine mul_le_mul_of_nonneg_right ?_ hP
    nlinarith
  have s3 : (1 + f) * P ≤ 5 / 4 * P := mul_le_mul_of_nonneg_right (by linarith) hP
  have s4 := mul_le_mul_of_nonneg_left s2 (show 0 ≤ 4 * w by positivity)
  have s5 := mul_le_mul_of_nonneg_left s3 (show 0 ≤ 2 * (30 * w) by positivity)
  have s6 : f * P * (1 + E) ≤ f * P * (5 / 4) := mul_le_mul_of_nonneg_left (by linarith) (mul_nonneg hf hP)
  have s7 := mul_nonneg u0 hP
  linarith

theorem abs_sub_le_add {x y p q : ℝ} (hx : |x| ≤ p) (hy : |y| ≤ q) : |x - y| ≤ p + q := (abs_sub x y).trans (add_le_add hx hy)

theorem sat_margin {w E X L D κ κ' : ℝ} (w0 : 0 ≤ w) (w1 : w ≤ 1 / 1000) (h0 : 0 ≤ E) (h1 : E ≤ 1 / 4) (hX : 0 ≤ X) (hL : 0 ≤ L) (hD : 0 ≤ D)
    (hκ : κ = 9 / 4 * E + 180 * w) (hκ' : κ' = 5 / 4 * w + E + 180 * w) :
    (2 * κ + 8 * w) * X + κ' * D + w * (2 * X + D + (2 * κ + 8 * w) * X + κ' * D) + (2 * E + 12 * w) * L ≤ 8 * (E + 60 * w) * (X + L + D) := by
  have ww := mul_le_mul_of_nonneg_left w1 w0
  have ew := mul_le_mul_of_nonneg_left h1 w0
  have a1 : (2 * κ + 8 * w) + w * (2 + (2 * κ + 8 * w)) ≤ 8 * (E + 60 * w) := by rw [hκ]; nlinarith
  have a2 : κ' + w * (1 + κ') ≤ 8 * (E + 60 * w) := by rw [hκ']; nlinarith
  have a3 : 2 * E + 12 * w ≤ 8 * (E + 60 * w) := by linarith
  have b1 := mul_le_mul_of_nonneg_right a1 hX
  have b2 := mul_le_mul_of_nonneg_right a2 hD
  have b3 := mul_le_mul_of_nonneg_right a3 hL
  linarith

theorem row_len {R : Matrix (Fin 3) (Fin 3) ℝ} (hR : Rᵀ * R = 1) (i : Fin 3) : len (R i) = 1 := by
  have hR' : Rᵀᵀ * Rᵀ = 1 := by rw [transpose_transpose]; exact mul_eq_one_comm.1 hR
  have := len_orth hR' (Pi.single i 1)
  rwa [len_single, mulVec_single_one] at this

/-- The numbers compared in one of the nine tests, against the exact extents of the two boxes along the exact normal. -/
theorem sat_err (r : Rounding 53) (b : RBox 3) (a : Box 3) (R : Matrix (Fin 3) (Fin 3) ℝ) (E : ℝ) (hR : Rᵀ * R = 1) (h0 : 0 ≤ E) (h1 : E ≤ 1 / 4)
    (hm : Stands b.orient.elem R E) (i j : Fin 3) :
    let axis := satAxis b.orient i j
    let α := axisOf R i j
    let bSize := ptSub r a.high a.low
    let sep := ptSub r a.low b.corner
    let bs := satSums r (r (axis.elem (j + 1) * bSize.elem (j + 1))) (r (axis.elem (j + 1 + 1) * bSize.elem (j + 1 + 1)))
    let rs := satSums r (r (dot r (b.orient.row (i + 1)) axis * b.size.elem (i + 1))) (r (dot r (b.orient.row (i + 1 + 1)) axis * b.size.elem (i + 1 + 1)))
    let dist := dot r sep axis
    let G := 8 * (E + epsilon) * (len b.size.elem + eucl a.low.elem a.high.elem + eucl a.low.elem b.corner.elem)
    |r (rs.1 - dist) - bs.2 - ((∑ k, min 0 ((R *ᵥ α) k * b.size.elem k) - (a.low.elem - b.corner.elem) ⬝ᵥ α) - ∑ k, max 0 (α k * (a.high.elem - a.low.elem) k))| ≤ G ∧
    |bs.1 - r (rs.2 - dist) - (∑ k, min 0 (α k * (a.high.elem - a.low.elem) k) - (∑ k, max 0 ((R *ᵥ α) k * b.size.elem k) - (a.low.elem - b.corner.elem) ⬝ᵥ α))| ≤ G := by
  intro axis α bSize sep bs rs dist G
  have he : epsilon = 60 * 2 ^ (-53 : ℤ) := by unfold epsilon; norm_num
  have hax : len (axis.elem - α) ≤ E := by
    show len (axisOf b.orient.elem i j - axisOf R i j) ≤ E
    rw [axis_sub]
    exact (axis_len_le _ i j).trans (stands_row_sub h0 hm i)
  have hα : len α ≤ 1 := (axis_len_le R i j).trans (row_len hR i).le
  have hL : len (a.high.elem - a.low.elem) = eucl a.low.elem a.high.elem := by rw [eucl_comm, eucl_eq_len]
  have hD : len (a.low.elem - b.corner.elem) = eucl a.low.elem b.corner.elem := (eucl_eq_len _ _).symm
  have vb : ∀ k, |r (axis.elem k * bSize.elem k) - α k * (a.high.elem - a.low.elem) k| ≤ (E + 4 * 2 ^ (-53 : ℤ)) * eucl a.low.elem a.high.elem ∧
      |r (axis.elem k * bSize.elem k)| ≤ 2 * eucl a.low.elem a.high.elem := fun k =>
    sat_val_box r h0 h1 ((abs_le_len (axis.elem - α) k).trans hax) ((abs_le_len α k).trans hα) ((abs_le_len _ k).trans hL.le)
  have vr : ∀ k, |r (dot r (b.orient.row k) axis * b.size.elem k) - (R *ᵥ α) k * b.size.elem k| ≤ ((9 / 4 * E + 180 * 2 ^ (-53 : ℤ)) + 2 * 2 ^ (-53 : ℤ)) * len b.size.elem ∧
      |r (dot r (b.orient.row k) axis * b.size.elem k)| ≤ 2 * len b.size.elem := fun k => by
    have hd := dot_err r (b.orient.row k) axis (R k) α h0 h1 h0 h1 (P := 1) (by rw [mul_one]; exact stands_row_sub h0 hm k) (row_len hR k).le hax hα
    refine sat_val_turned r (by positivity) ?_ (hd.trans (le_of_eq (by rw [he]; ring))) ?_ (abs_le_len _ k)
    · have : (180 : ℝ) * 2 ^ (-53 : ℤ) ≤ 1 / 8 := by norm_num
      linarith
    · exact (abs_dot_le_len (R k) α).trans (by rw [row_len hR, one_mul]; exact hα)
  have vd : |dist - (a.low.elem - b.corner.elem) ⬝ᵥ α| ≤ (5 / 4 * 2 ^ (-53 : ℤ) + E + 180 * 2 ^ (-53 : ℤ)) * eucl a.low.elem b.corner.elem := by
    have hs : len (sep.elem - (a.low.elem - b.corner.elem)) ≤ 2 ^ (-53 : ℤ) * eucl a.low.elem b.corner.elem := by
      rw [← hD]; exact len_round r _
    have := dot_err r sep axis (a.low.elem - b.corner.elem) α h0 h1 (by positivity) (by norm_num) hs hD.le hax hα
    refine this.trans (le_of_eq ?_)
    rw [he]; ring
  have sb1 : ∑ k, min 0 (α k * (a.high.elem - a.low.elem) k) = min 0 (α (j + 1) * (a.high.elem - a.low.elem) (j + 1)) + min 0 (α (j + 1 + 1) * (a.high.elem - a.low.elem) (j + 1 + 1)) :=
    sum3' _ j (by rw [show α j = 0 from axis_self R i j]; simp)
  have sb2 : ∑ k, max 0 (α k * (a.high.elem - a.low.elem) k) = max 0 (α (j + 1) * (a.high.elem - a.low.elem) (j + 1)) + max 0 (α (j + 1 + 1) * (a.high.elem - a.low.elem) (j + 1 + 1)) :=
    sum3' _ j (by rw [show α j = 0 from axis_self R i j]; simp)
  have sr1 : ∑ k, min 0 ((R *ᵥ α) k * b.size.elem k) = min 0 ((R *ᵥ α) (i + 1) * b.size.elem (i + 1)) + min 0 ((R *ᵥ α) (i + 1 + 1) * b.size.elem (i + 1 + 1)) :=
    sum3' _ i (by rw [show (R *ᵥ α) i = 0 from axis_perp R i j]; simp)
  have sr2 : ∑ k, max 0 ((R *ᵥ α) k * b.size.elem k) = max 0 ((R *ᵥ α) (i + 1) * b.size.elem (i + 1)) + max 0 ((R *ᵥ α) (i + 1 + 1) * b.size.elem (i + 1 + 1)) :=
    sum3' _ i (by rw [show (R *ᵥ α) i = 0 from axis_perp R i j]; simp)
  have pb : ∀ k, |(R *ᵥ α) k * b.size.elem k| ≤ len b.size.elem := fun k => by
    rw [abs_mul]
    have g : |(R *ᵥ α) k| ≤ 1 := (abs_le_len _ k).trans (by rw [len_orth hR]; exact hα)
    calc |(R *ᵥ α) k| * |b.size.elem k| ≤ 1 * len b.size.elem := mul_le_mul g (abs_le_len _ k) (abs_nonneg _) zero_le_one
      _ = _ := one_mul _
  have amin : ∀ x : ℝ, |min 0 x| ≤ |x| := fun x => by have := min_lip x 0; simpa using this
  have amax : ∀ x : ℝ, |max 0 x| ≤ |x| := fun x => by have := max_lip x 0; simpa using this
  have ub := satSums_err r (r (axis.elem (j + 1) * bSize.elem (j + 1))) (r (axis.elem (j + 1 + 1) * bSize.elem (j + 1 + 1))) (α (j + 1) * (a.high.elem - a.low.elem) (j + 1))
    (α (j + 1 + 1) * (a.high.elem - a.low.elem) (j + 1 + 1))
  have ur := satSums_err r (r (dot r (b.orient.row (i + 1)) axis * b.size.elem (i + 1))) (r (dot r (b.orient.row (i + 1 + 1)) axis * b.size.elem (i + 1 + 1)))
    ((R *ᵥ α) (i + 1) * b.size.elem (i + 1)) ((R *ᵥ α) (i + 1 + 1) * b.size.elem (i + 1 + 1))
  rw [← sb1, ← sb2] at ub
  rw [← sr1, ← sr2] at ur
  have b1 : |∑ k, min 0 ((R *ᵥ α) k * b.size.elem k)| ≤ 2 * len b.size.elem := by
    rw [sr1]
    have := (abs_add_le _ _).trans (add_le_add ((amin _).trans (pb (i + 1))) ((amin _).trans (pb (i + 1 + 1))))
    linarith
  have b2 : |∑ k, max 0 ((R *ᵥ α) k * b.size.elem k)| ≤ 2 * len b.size.elem := by
    rw [sr2]
    have := (abs_add_le _ _).trans (add_le_add ((amax _).trans (pb (i + 1))) ((amax _).trans (pb (i + 1 + 1))))
    linarith
  have bd : |(a.low.elem - b.corner.elem) ⬝ᵥ α| ≤ eucl a.low.elem b.corner.elem := by
    refine (abs_dot_le_len _ _).trans ?_
    rw [hD]
    exact (mul_le_mul_of_nonneg_left hα (eucl_nonneg _ _)).trans (mul_one _).le
  have X0 := len_nonneg b.size.elem
  have L0 := eucl_nonneg a.low.elem a.high.elem
  have D0 := eucl_nonneg a.low.elem b.corner.elem
  have w0 : (0 : ℝ) ≤ 2 ^ (-53 : ℤ) := by positivity
  have w1 : (2 : ℝ) ^ (-53 : ℤ) ≤ 1 / 1000 := by norm_num
  have mar := sat_margin w0 w1 h0 h1 X0 L0 D0 rfl rfl
  have fb1 := vb (j + 1)
  have fb2 := vb (j + 1 + 1)
  have fr1 := vr (i + 1)
  have fr2 := vr (i + 1 + 1)
  have mb := mul_le_mul_of_nonneg_left (add_le_add fb1.2 fb2.2) w0
  have mr := mul_le_mul_of_nonneg_left (add_le_add fr1.2 fr2.2) w0
  have cb : |bs.1 - ∑ k, min 0 (α k * (a.high.elem - a.low.elem) k)| ≤ (2 * E + 12 * 2 ^ (-53 : ℤ)) * eucl a.low.elem a.high.elem ∧
      |bs.2 - ∑ k, max 0 (α k * (a.high.elem - a.low.elem) k)| ≤ (2 * E + 12 * 2 ^ (-53 : ℤ)) * eucl a.low.elem a.high.elem := by
    constructor
    · refine ub.1.trans ?_; linarith [fb1.1, fb2.1]
    · refine ub.2.trans ?_; linarith [fb1.1, fb2.1]
  have cr : |rs.1 - ∑ k, min 0 ((R *ᵥ α) k * b.size.elem k)| ≤ (2 * (9 / 4 * E + 180 * 2 ^ (-53 : ℤ)) + 8 * 2 ^ (-53 : ℤ)) * len b.size.elem ∧
      |rs.2 - ∑ k, max 0 ((R *ᵥ α) k * b.size.elem k)| ≤ (2 * (9 / 4 * E + 180 * 2 ^ (-53 : ℤ)) + 8 * 2 ^ (-53 : ℤ)) * len b.size.elem := by
    constructor
    · refine ur.1.trans ?_; linarith [fr1.1, fr2.1]
    · refine ur.2.trans ?_; linarith [fr1.1, fr2.1]
  have e1 := err_sub r cr.1 vd b1 bd
  have e2 := err_sub r cr.2 vd b2 bd
  have hG : G = 8 * (E + 60 * 2 ^ (-53 : ℤ)) * (len b.size.elem + eucl a.low.elem a.high.elem + eucl a.low.elem b.corner.elem) := by rw [← he]
  rw [hG]
  clear_value G bs rs dist
  constructor
  · refine (le_of_eq_of_le ?_ (abs_sub_le_add (e1.trans le_rfl) cb.2)).trans mar
    congr 1; ring
  · refine (le_of_eq_of_le ?_ (abs_sub_le_add (e2.trans le_rfl) cb.1)).trans mar
    rw [← abs_neg]; congr 1; ring

end Fl
end WFMath
