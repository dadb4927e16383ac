/- Concrete cases for the theorems about rotated boxes in floating point (C135). -/
import Verif.Props.RoundRBoxTwo

namespace WFMath.Cases
open Spec Matrix Rounding

/-- A box with corner (1, 1) and sides 2 and 1 along (3/5, 4/5) and (-4/5, 3/5), rounded. -/
noncomputable def rb35 (r : Rounding 53) : RBox 2 := ⟨⟨![1, 1], true⟩, ⟨![2, 1], true⟩, Fl.turn35 r⟩
noncomputable def R35 : Matrix (Fin 2) (Fin 2) ℝ := Matrix.of ![![3 / 5, 4 / 5], ![-4 / 5, 3 / 5]]

theorem hR35 : R35ᵀ * R35 = 1 := by
  unfold R35; ext i j; fin_cases i <;> fin_cases j <;> simp [Matrix.mul_apply, Fin.sum_univ_two] <;> norm_num
theorem hm12 (r : Rounding 53) : Stands (rb35 r).orient.elem R35 (13 * 2 ^ (-52 : ℤ) - 12 * 2 ^ (-52 : ℤ)) := by
  intro v; refine (Fl.turn35_stands r v).trans (mul_le_mul_of_nonneg_right ?_ (len_nonneg _)); norm_num
theorem hm35 (r : Rounding 53) : Stands (rb35 r).orient.elem R35 (13 * 2 ^ (-52 : ℤ) - 2 * (2 : ℕ) * ((2 : ℕ) + 1) * 2 ^ (-52 : ℤ)) := by
  intro v; refine (hm12 r v).trans (mul_le_mul_of_nonneg_right ?_ (len_nonneg _)); norm_num
theorem len2 (v : Fin 2 → ℝ) : len v ≤ |v 0| + |v 1| := by
  refine Real.sqrt_le_iff.2 ⟨by positivity, ?_⟩
  simp only [dotProduct, Fin.sum_univ_two]
  nlinarith [abs_mul_abs_self (v 0), abs_mul_abs_self (v 1), mul_nonneg (abs_nonneg (v 0)) (abs_nonneg (v 1))]
theorem eucl2 (x y : Fin 2 → ℝ) : eucl x y ≤ |x 0 - y 0| + |x 1 - y 1| := by rw [eucl_eq_len]; exact len2 _
theorem mul35 (x : Fin 2 → ℝ) : R35 *ᵥ x = ![3 / 5 * x 0 + 4 / 5 * x 1, -4 / 5 * x 0 + 3 / 5 * x 1] := by
  funext i; fin_cases i <;> simp [R35, mulVec, dotProduct, Fin.sum_univ_two]
/-- The points of the box turned exactly. -/
theorem mem35 (x : Fin 2 → ℝ) (d : ℝ) : x ∈ turnedBox ![1, 1] ![2, 1] R35 d ↔
    (-d ≤ 3 / 5 * (x 0 - 1) + 4 / 5 * (x 1 - 1) ∧ 3 / 5 * (x 0 - 1) + 4 / 5 * (x 1 - 1) ≤ 2 + d) ∧
    (-d ≤ -4 / 5 * (x 0 - 1) + 3 / 5 * (x 1 - 1) ∧ -4 / 5 * (x 0 - 1) + 3 / 5 * (x 1 - 1) ≤ 1 + d) := by
  show (∀ i, _) ↔ _
  rw [mul35, Fin.forall_fin_two]
  simp
theorem memI35 (x : Fin 2 → ℝ) (d : ℝ) : x ∈ turnedInterior ![1, 1] ![2, 1] R35 d ↔
    (-d < 3 / 5 * (x 0 - 1) + 4 / 5 * (x 1 - 1) ∧ 3 / 5 * (x 0 - 1) + 4 / 5 * (x 1 - 1) < 2 + d) ∧
    (-d < -4 / 5 * (x 0 - 1) + 3 / 5 * (x 1 - 1) ∧ -4 / 5 * (x 0 - 1) + 3 / 5 * (x 1 - 1) < 1 + d) := by
  show (∀ i, _) ↔ _
  rw [mul35, Fin.forall_fin_two]
  simp

theorem len_c : len (![1, 1] : Fin 2 → ℝ) ≤ 2 := (len2 _).trans (by norm_num)
theorem len_s : len (![2, 1] : Fin 2 → ℝ) ≤ 3 := (len2 _).trans (by norm_num)
theorem len_cs : len (![1, 1] + ![2, 1] : Fin 2 → ℝ) ≤ 5 := (len2 _).trans (by norm_num [abs_of_nonneg])

theorem sm {k x : ℝ} (hk : 0 ≤ k) (hx : x ≤ 20) (h : k * 20 ≤ 1 / 1000) : k * x ≤ 1 / 1000 := (mul_le_mul_of_nonneg_left hx hk).trans h

/-- C135_point: (5/4, 2) is in the box, off its faces, and (3, 1) is outside. -/
example (r : Rounding 53) : Fl.interRP r (rb35 r) ⟨![5 / 4, 2], true⟩ true = true ∧ Fl.interRP r (rb35 r) ⟨![3, 1], true⟩ false = false := by
  have h := fun p => C135_point r (rb35 r) R35 (13 * 2 ^ (-52 : ℤ)) (by norm_num) hR35 (by norm_num) (by norm_num) (hm35 r) p
  have b : ∀ p : Fin 2 → ℝ, eucl p ![1, 1] ≤ 20 → (13 * 2 ^ (-52 : ℤ) + 2 ^ (-52 : ℤ)) * eucl p ![1, 1] ≤ 1 / 1000 := fun p hp => sm (by positivity) hp (by norm_num)
  constructor
  · have b1 := b ![5 / 4, 2] ((eucl2 _ _).trans (by norm_num [abs_of_nonneg]))
    refine (h ⟨![5 / 4, 2], true⟩).2.2.1 ((memI35 _ _).2 ?_)
    have e : (rb35 r).corner.elem = ![1, 1] := rfl
    rw [e]
    generalize (13 * 2 ^ (-52 : ℤ) + 2 ^ (-52 : ℤ)) * eucl ![5 / 4, 2] ![1, 1] = M at *
    simp only [cons_val_zero, cons_val_one, neg_neg]
    refine ⟨⟨?_, ?_⟩, ⟨?_, ?_⟩⟩ <;> linarith
  · have b1 := b ![3, 1] ((eucl2 _ _).trans (by norm_num [abs_of_nonneg]))
    rw [← Bool.not_eq_true]
    intro g
    have g' := (mem35 _ _).1 ((h ⟨![3, 1], true⟩).2.1 g)
    have e : (rb35 r).corner.elem = ![1, 1] := rfl
    rw [e] at g'
    have he : epsilon * (1 + 2 ^ (-52 : ℤ)) ≤ 1 / 100 := by unfold epsilon; norm_num
    generalize (13 * 2 ^ (-52 : ℤ) + 2 ^ (-52 : ℤ)) * eucl ![3, 1] ![1, 1] = M at *
    simp only [cons_val_zero, cons_val_one] at g'
    linarith [g'.2.1]

/-- C135_corner: the corner farthest from the first one is near (7/5, 16/5). -/
example (r : Rounding 53) : ∃ p, Fl.rbCorner r (rb35 r) 3 = some p ∧ |p.elem 0 - 7 / 5| ≤ 1 / 100 ∧ |p.elem 1 - 16 / 5| ≤ 1 / 100 := by
  obtain ⟨p, hp, h⟩ := (C135_corner r (rb35 r) R35 (13 * 2 ^ (-52 : ℤ)) (by norm_num) hR35 (by norm_num) (by norm_num) (hm35 r)).2.1 3 (by norm_num)
  have b1 : (13 * 2 ^ (-52 : ℤ) + 2 ^ (-51 : ℤ)) * len (rb35 r).size.elem ≤ 1 / 1000 := sm (by positivity) (len_s.trans (by norm_num)) (by norm_num)
  have b2 : 2 ^ (-53 : ℤ) * len (rb35 r).corner.elem ≤ 1 / 1000 := sm (by positivity) (len_c.trans (by norm_num)) (by norm_num)
  have t1 : Nat.testBit 3 0 = true := by decide
  have t2 : Nat.testBit 3 1 = true := by decide
  have h' := h.trans (add_le_add b1 b2)
  refine ⟨p, hp, ?_, ?_⟩
  · have := (abs_le_len _ 0).trans h'
    simp [Fin.sum_univ_two, t1, t2, rb35, R35] at this
    norm_num at this
    exact this.trans (by norm_num)
  · have := (abs_le_len _ 1).trans h'
    simp [Fin.sum_univ_two, t1, t2, rb35, R35] at this
    norm_num at this
    exact this.trans (by norm_num)

/-- C135_bounding_box: the box reaches from near 1/5 on the first axis to near 16/5 on the second. -/
example (r : Rounding 53) : |(Fl.rbBox r (rb35 r)).low.elem 0 - 1 / 5| ≤ 1 / 100 ∧ |(Fl.rbBox r (rb35 r)).high.elem 1 - 16 / 5| ≤ 1 / 100 := by
  obtain ⟨h1, h2, -⟩ := C135_bounding_box r (rb35 r) R35 (13 * 2 ^ (-52 : ℤ)) (by norm_num) hR35 (by norm_num) (by norm_num) (hm35 r)
  have b1 : 13 * 2 ^ (-52 : ℤ) * len (rb35 r).size.elem ≤ 1 / 1000 := sm (by positivity) (len_s.trans (by norm_num)) (by norm_num)
  have b2 : ∀ i, ((2 : ℕ) : ℝ) * 2 ^ (-52 : ℤ) * |(rb35 r).corner.elem i| ≤ 1 / 1000 := fun i =>
    sm (by positivity) (by fin_cases i <;> simp [rb35]) (by norm_num)
  have lo := h1 ![1 / 5, 8 / 5] ((mem35 _ _).2 (by norm_num)) 0
  have hi := h1 ![7 / 5, 16 / 5] ((mem35 _ _).2 (by norm_num)) 1
  obtain ⟨x, hx, ex⟩ := (h2 0).1
  obtain ⟨y, hy, ey⟩ := (h2 1).2
  have hx' := (mem35 _ _).1 hx
  have hy' := (mem35 _ _).1 hy
  have ex' := _root_.abs_le.1 (ex.trans (add_le_add b1 (b2 0)))
  have ey' := _root_.abs_le.1 (ey.trans (add_le_add b1 (b2 1)))
  have b20 := b2 0
  have b21 := b2 1
  generalize 13 * 2 ^ (-52 : ℤ) * len (rb35 r).size.elem = k1 at *
  generalize ((2 : ℕ) : ℝ) * 2 ^ (-52 : ℤ) * |(rb35 r).corner.elem 0| = k2 at *
  generalize ((2 : ℕ) : ℝ) * 2 ^ (-52 : ℤ) * |(rb35 r).corner.elem 1| = k3 at *
  simp only [cons_val_zero, cons_val_one] at lo hi
  exact ⟨_root_.abs_le.2 ⟨by linarith, by linarith⟩, _root_.abs_le.2 ⟨by linarith, by linarith⟩⟩

/-- C135_bounding_sphere: the far corner is in the sphere, up to rounding. -/
example (r : Rounding 53) : eucl ![7 / 5, 16 / 5] (Fl.rbSphere r (rb35 r)).center.elem ≤ (Fl.rbSphere r (rb35 r)).radius * (1 + epsilon) + 1 / 100 := by
  have h := C135_bounding_sphere r (rb35 r) R35 (13 * 2 ^ (-52 : ℤ)) (by norm_num) hR35 (by norm_num) (by norm_num) (hm35 r) ![7 / 5, 16 / 5] ((mem35 _ _).2 (by norm_num))
  have b1 : (13 * 2 ^ (-52 : ℤ) + 2 ^ (-51 : ℤ)) * (len (rb35 r).size.elem / 2) ≤ 1 / 1000 :=
    sm (by positivity) ((div_le_self (len_nonneg _) (by norm_num)).trans (len_s.trans (by norm_num))) (by norm_num)
  have b2 : 2 ^ (-53 : ℤ) * len (rb35 r).corner.elem ≤ 1 / 1000 := sm (by positivity) (len_c.trans (by norm_num)) (by norm_num)
  refine h.trans ?_
  have := add_le_add b1 b2
  refine add_le_add le_rfl (this.trans (by norm_num))

/-- The margin of the tests with balls is small. -/
theorem ball_margin (r : Rounding 53) (p : Fin 2 → ℝ) (hp : eucl p ![1, 1] ≤ 20) :
    0 ≤ (13 * 2 ^ (-52 : ℤ) + 2 ^ (-51 : ℤ)) * eucl p (rb35 r).corner.elem + 2 ^ (-53 : ℤ) * len (rb35 r).corner.elem + 2 ^ (-53 : ℤ) * len ((rb35 r).corner.elem + (rb35 r).size.elem) ∧
    (13 * 2 ^ (-52 : ℤ) + 2 ^ (-51 : ℤ)) * eucl p (rb35 r).corner.elem + 2 ^ (-53 : ℤ) * len (rb35 r).corner.elem + 2 ^ (-53 : ℤ) * len ((rb35 r).corner.elem + (rb35 r).size.elem) ≤ 3 / 1000 := by
  have b1 : (13 * 2 ^ (-52 : ℤ) + 2 ^ (-51 : ℤ)) * eucl p (rb35 r).corner.elem ≤ 1 / 1000 := sm (by positivity) hp (by norm_num)
  have b2 : 2 ^ (-53 : ℤ) * len (rb35 r).corner.elem ≤ 1 / 1000 := sm (by positivity) (len_c.trans (by norm_num)) (by norm_num)
  have b3 : 2 ^ (-53 : ℤ) * len ((rb35 r).corner.elem + (rb35 r).size.elem) ≤ 1 / 1000 := sm (by positivity) (len_cs.trans (by norm_num)) (by norm_num)
  refine ⟨?_, (add_le_add (add_le_add b1 b2) b3).trans (by norm_num)⟩
  exact add_nonneg (add_nonneg (mul_nonneg (by positivity) (eucl_nonneg _ _)) (mul_nonneg (by positivity) (len_nonneg _))) (mul_nonneg (by positivity) (len_nonneg _))

/-- C135_ball: a ball about (3, 1) with radius 2 meets the box, one with radius 1 does not. -/
example (r : Rounding 53) : Fl.interRBall r (rb35 r) ⟨⟨![3, 1], true⟩, 2⟩ true = true ∧ Fl.interRBall r (rb35 r) ⟨⟨![3, 1], true⟩, 1⟩ false = false := by
  obtain ⟨m0, m1⟩ := ball_margin r ![3, 1] ((eucl2 _ _).trans (by norm_num [abs_of_nonneg]))
  have he : epsilon ≤ 1 / 100 := by unfold epsilon; norm_num
  have he0 := epsilon_pos
  constructor
  · refine (C135_ball r (rb35 r) R35 (13 * 2 ^ (-52 : ℤ)) (by norm_num) hR35 (by norm_num) (by norm_num) (hm35 r) ⟨⟨![3, 1], true⟩, 2⟩ (by norm_num) _ rfl).2 true (.inl (by norm_num))
      ⟨![86 / 50, 49 / 25], (mem35 _ _).2 (by norm_num), ?_⟩
    refine (mul_le_mul (add_le_add (b := 33 / 20) ?_ m1) (add_le_add le_rfl he) (by linarith) (by norm_num)).trans (by norm_num)
    rw [eucl_eq_len]
    exact Real.sqrt_le_iff.2 ⟨by norm_num, by simp [dotProduct, Fin.sum_univ_two]; norm_num⟩
  · rw [← Bool.not_eq_true]
    intro g
    obtain ⟨x, hx, ex⟩ := (C135_ball r (rb35 r) R35 (13 * 2 ^ (-52 : ℤ)) (by norm_num) hR35 (by norm_num) (by norm_num) (hm35 r) ⟨⟨![3, 1], true⟩, 1⟩ (by norm_num) _ rfl).1 false g
    have hx' := (mem35 _ _).1 hx
    have e1 := ex.trans (add_le_add (mul_le_mul_of_nonneg_left (add_le_add le_rfl he) (by norm_num)) m1)
    rw [eucl_eq_len, ← Fl.len_orth hR35] at e1
    have q := (abs_le_len _ 1).trans e1
    rw [mul35] at q
    simp only [cons_val_one, Pi.sub_apply, cons_val_zero] at q
    linarith [(_root_.abs_le.1 q).2, hx'.2.1]

/-- C135_ball_contains: a ball about (1, 2) with radius 3 contains the box, one with radius 1 does not. -/
example (r : Rounding 53) : Fl.containsBallR r ⟨⟨![1, 2], true⟩, 3⟩ (rb35 r) true = true ∧ Fl.containsBallR r ⟨⟨![1, 2], true⟩, 1⟩ (rb35 r) false = false := by
  obtain ⟨m0, m1⟩ := ball_margin r ![1, 2] ((eucl2 _ _).trans (by norm_num [abs_of_nonneg]))
  have he : epsilon ≤ 1 / 100 := by unfold epsilon; norm_num
  constructor
  · refine (C135_ball_contains r (rb35 r) R35 (13 * 2 ^ (-52 : ℤ)) (by norm_num) hR35 (by norm_num) (by norm_num) (hm35 r) ⟨⟨![1, 2], true⟩, 3⟩ (by norm_num) _ rfl).2.1 fun x hx => ?_
    have hx' := (mem35 _ _).1 hx
    have e1 : |x 0 - 1| ≤ 6 / 5 := _root_.abs_le.2 ⟨by linarith, by linarith⟩
    have e2 : |x 1 - 2| ≤ 6 / 5 := _root_.abs_le.2 ⟨by linarith, by linarith⟩
    have e3 : eucl x ![1, 2] ≤ |x 0 - 1| + |x 1 - 2| := eucl2 _ _
    refine lt_of_le_of_lt (add_le_add (e3.trans (add_le_add e1 e2)) m1) ?_
    norm_num
  · rw [← Bool.not_eq_true]
    intro g
    have ex := (C135_ball_contains r (rb35 r) R35 (13 * 2 ^ (-52 : ℤ)) (by norm_num) hR35 (by norm_num) (by norm_num) (hm35 r) ⟨⟨![1, 2], true⟩, 1⟩ (by norm_num) _ rfl).2.2 false g
      ![7 / 5, 16 / 5] ((mem35 _ _).2 (by norm_num))
    have e1 := ex.trans (add_le_add (mul_le_mul_of_nonneg_left (add_le_add le_rfl he) (by norm_num)) m1)
    rw [eucl_eq_len] at e1
    have q := (abs_le_len _ 1).trans e1
    simp only [cons_val_one, Pi.sub_apply] at q
    norm_num at q

/-- C135_contains_ball: a ball about (6/5, 21/10) with radius 1/4 is in the box, one with radius 2 is not. -/
example (r : Rounding 53) : Fl.containsRBall r (rb35 r) ⟨⟨![6 / 5, 21 / 10], true⟩, 1 / 4⟩ false = true ∧ Fl.containsRBall r (rb35 r) ⟨⟨![6 / 5, 21 / 10], true⟩, 2⟩ true = false := by
  obtain ⟨m0, m1⟩ := ball_margin r ![6 / 5, 21 / 10] ((eucl2 _ _).trans (by norm_num [abs_of_nonneg]))
  have hc : ∀ i, IsFl 53 ((rb35 r).corner.elem i) := fun i => ⟨1, 0, by norm_num, by fin_cases i <;> simp [rb35]⟩
  constructor
  · refine (C135_contains_ball r (rb35 r) R35 (13 * 2 ^ (-52 : ℤ)) (by norm_num) hR35 (by norm_num) (by norm_num) (hm35 r) hc ⟨⟨![6 / 5, 21 / 10], true⟩, 1 / 4⟩ (by norm_num) _ rfl).2.1
      fun x hx => (mem35 _ _).2 ?_
    have hx' : eucl x ![6 / 5, 21 / 10] ≤ 1 / 4 := hx
    rw [eucl_eq_len, ← Fl.len_orth hR35] at hx'
    have q0 := _root_.abs_le.1 ((abs_le_len _ 0).trans hx')
    have q1 := _root_.abs_le.1 ((abs_le_len _ 1).trans hx')
    rw [mul35] at q0 q1
    simp only [cons_val_one, Pi.sub_apply, cons_val_zero] at q0 q1
    show (-(-((13 * 2 ^ (-52 : ℤ) + 2 ^ (-51 : ℤ)) * eucl ![6 / 5, 21 / 10] (rb35 r).corner.elem + 2 ^ (-53 : ℤ) * len (rb35 r).corner.elem +
      2 ^ (-53 : ℤ) * len ((rb35 r).corner.elem + (rb35 r).size.elem))) ≤ _ ∧ _) ∧ _
    generalize (13 * 2 ^ (-52 : ℤ) + 2 ^ (-51 : ℤ)) * eucl ![6 / 5, 21 / 10] (rb35 r).corner.elem + 2 ^ (-53 : ℤ) * len (rb35 r).corner.elem +
      2 ^ (-53 : ℤ) * len ((rb35 r).corner.elem + (rb35 r).size.elem) = M at *
    refine ⟨⟨?_, ?_⟩, ⟨?_, ?_⟩⟩ <;> linarith
  · rw [← Bool.not_eq_true]
    intro g
    have ex := (memI35 _ _).1 ((C135_contains_ball r (rb35 r) R35 (13 * 2 ^ (-52 : ℤ)) (by norm_num) hR35 (by norm_num) (by norm_num) (hm35 r) hc ⟨⟨![6 / 5, 21 / 10], true⟩, 2⟩ (by norm_num) _ rfl).1 g
      (show ![14 / 5, 9 / 10] ∈ _ by
        show eucl _ _ ≤ 2
        rw [eucl_eq_len]
        exact Real.sqrt_le_iff.2 ⟨by norm_num, by simp [dotProduct, Fin.sum_univ_two]; norm_num⟩))
    replace ex := ex.2.1.trans_le le_rfl
    have e2 := (neg_le_neg m1).trans ex.le
    simp only [cons_val_one, cons_val_zero] at e2
    norm_num at e2

/-- The margin of the tests with segments is small. -/
theorem seg_margin35 (r : Rounding 53) (s : Seg 2) (h : eucl s.p1.elem ![1, 1] + eucl s.p2.elem ![1, 1] ≤ 17) :
    ∃ M, M = (13 * 2 ^ (-52 : ℤ) + 2 ^ (-48 : ℤ)) * (eucl s.p1.elem (rb35 r).corner.elem + eucl s.p2.elem (rb35 r).corner.elem + len (rb35 r).size.elem) +
      2 ^ (-50 : ℤ) * len (rb35 r).corner.elem ∧ 0 ≤ M ∧ M ≤ 2 / 1000 := by
  refine ⟨_, rfl, add_nonneg (mul_nonneg (by positivity) (add_nonneg (add_nonneg (eucl_nonneg _ _) (eucl_nonneg _ _)) (len_nonneg _))) (mul_nonneg (by positivity) (len_nonneg _)), ?_⟩
  have b1 : (13 * 2 ^ (-52 : ℤ) + 2 ^ (-48 : ℤ)) * (eucl s.p1.elem (rb35 r).corner.elem + eucl s.p2.elem (rb35 r).corner.elem + len (rb35 r).size.elem) ≤ 1 / 1000 :=
    sm (by positivity) ((add_le_add h len_s).trans (by norm_num)) (by norm_num)
  have b2 : 2 ^ (-50 : ℤ) * len (rb35 r).corner.elem ≤ 1 / 1000 := sm (by positivity) (len_c.trans (by norm_num)) (by norm_num)
  exact (add_le_add b1 b2).trans (by norm_num)

/-- C135_segment: a segment starting in the box meets it, one far to the right does not. -/
example (r : Rounding 53) : Fl.interRS r (rb35 r) ⟨⟨![1, 2], true⟩, ⟨![3, 0], true⟩⟩ true = true ∧ Fl.interRS r (rb35 r) ⟨⟨![3, 1], true⟩, ⟨![4, 1], true⟩⟩ false = false := by
  constructor
  · obtain ⟨M, hM, m0, m1⟩ := seg_margin35 r ⟨⟨![1, 2], true⟩, ⟨![3, 0], true⟩⟩ ((add_le_add (eucl2 _ _) (eucl2 _ _)).trans (by norm_num [abs_of_nonneg]))
    refine (C135_segment r (rb35 r) R35 (13 * 2 ^ (-52 : ℤ)) (by norm_num) hR35 (by norm_num) (by norm_num) (hm35 r) _ M hM).2.1 ⟨![1, 2], p1_mem _, (memI35 _ _).2 ?_⟩
    simp only [cons_val_zero, cons_val_one, neg_neg]
    refine ⟨⟨?_, ?_⟩, ⟨?_, ?_⟩⟩ <;> linarith
  · obtain ⟨M, hM, m0, m1⟩ := seg_margin35 r ⟨⟨![3, 1], true⟩, ⟨![4, 1], true⟩⟩ ((add_le_add (eucl2 _ _) (eucl2 _ _)).trans (by norm_num [abs_of_nonneg]))
    rw [← Bool.not_eq_true]
    intro g
    obtain ⟨x, ⟨t, t0, t1, hx⟩, hx2⟩ := (C135_segment r (rb35 r) R35 (13 * 2 ^ (-52 : ℤ)) (by norm_num) hR35 (by norm_num) (by norm_num) (hm35 r) _ M hM).2.2.1 g
    have h := ((mem35 _ _).1 hx2).2.1
    have he : epsilon ≤ 1 / 100 := by unfold epsilon; norm_num
    have x0 := congrFun hx 0
    have x1 := congrFun hx 1
    simp at x0 x1
    nlinarith

/-- C135_contains_segment: a segment inside the box, and one leaving it. -/
example (r : Rounding 53) : Fl.containsRS r (rb35 r) ⟨⟨![1, 3 / 2], true⟩, ⟨![5 / 4, 2], true⟩⟩ true = true ∧ Fl.containsRS r (rb35 r) ⟨⟨![1, 2], true⟩, ⟨![3, 0], true⟩⟩ false = false := by
  constructor
  · obtain ⟨M, hM, m0, m1⟩ := seg_margin35 r ⟨⟨![1, 3 / 2], true⟩, ⟨![5 / 4, 2], true⟩⟩ ((add_le_add (eucl2 _ _) (eucl2 _ _)).trans (by norm_num [abs_of_nonneg]))
    refine (C135_contains_segment r (rb35 r) R35 (13 * 2 ^ (-52 : ℤ)) (by norm_num) hR35 (by norm_num) (by norm_num) (hm35 r) _ M hM).2.1 ?_
    rintro x ⟨t, t0, t1, hx⟩
    refine (memI35 _ _).2 ?_
    have x0 := congrFun hx 0
    have x1 := congrFun hx 1
    simp at x0 x1
    refine ⟨⟨?_, ?_⟩, ⟨?_, ?_⟩⟩ <;> nlinarith
  · obtain ⟨M, hM, m0, m1⟩ := seg_margin35 r ⟨⟨![1, 2], true⟩, ⟨![3, 0], true⟩⟩ ((add_le_add (eucl2 _ _) (eucl2 _ _)).trans (by norm_num [abs_of_nonneg]))
    rw [← Bool.not_eq_true]
    intro g
    have hx2 := (C135_contains_segment r (rb35 r) R35 (13 * 2 ^ (-52 : ℤ)) (by norm_num) hR35 (by norm_num) (by norm_num) (hm35 r) _ M hM).2.2.1 g (p2_mem _)
    have h := ((mem35 _ _).1 hx2).2.1
    have he : epsilon * (1 + 2 ^ (-52 : ℤ)) ≤ 1 / 100 := by unfold epsilon; norm_num
    simp only [cons_val_zero, cons_val_one] at h
    linarith

/-- C135_in_box: the box with corners (0, 0) and (4, 4) contains the rotated box; that with corners (0, 0) and (2, 3) does not. -/
example (r : Rounding 53) : Fl.containsBR r ⟨⟨![0, 0], true⟩, ⟨![4, 4], true⟩⟩ (rb35 r) true = true ∧ Fl.containsBR r ⟨⟨![0, 0], true⟩, ⟨![2, 3], true⟩⟩ (rb35 r) false = false := by
  obtain ⟨M, hM, m0, m1⟩ : ∃ M, M = 13 * 2 ^ (-52 : ℤ) * len (rb35 r).size.elem + ((2 : ℕ) : ℝ) * 2 ^ (-52 : ℤ) * len (rb35 r).corner.elem ∧ 0 ≤ M ∧ M ≤ 2 / 1000 := by
    have b1 : 13 * 2 ^ (-52 : ℤ) * len (rb35 r).size.elem ≤ 1 / 1000 := sm (by positivity) (len_s.trans (by norm_num)) (by norm_num)
    have b2 : ((2 : ℕ) : ℝ) * 2 ^ (-52 : ℤ) * len (rb35 r).corner.elem ≤ 1 / 1000 := sm (by positivity) (len_c.trans (by norm_num)) (by norm_num)
    exact ⟨_, rfl, add_nonneg (mul_nonneg (by positivity) (len_nonneg _)) (mul_nonneg (by positivity) (len_nonneg _)), (add_le_add b1 b2).trans (by norm_num)⟩
  have h := fun a => C135_in_box r (rb35 r) R35 (13 * 2 ^ (-52 : ℤ)) (by norm_num) hR35 (by norm_num) (by norm_num) (hm35 r) a M hM
  constructor
  · refine (h _).2.1 fun x hx i => ?_
    have hx' := (mem35 _ _).1 hx
    fin_cases i
    · show 0 + M < x 0 ∧ x 0 < 4 - M
      constructor <;> linarith
    · show 0 + M < x 1 ∧ x 1 < 4 - M
      constructor <;> linarith
  · rw [← Bool.not_eq_true]
    intro g
    have := ((h _).2.2.1 g ![7 / 5, 16 / 5] ((mem35 _ _).2 (by norm_num)) 1).2
    have he : epsilon * (1 + 2 ^ (-52 : ℤ)) ≤ 1 / 100 := by unfold epsilon; norm_num
    replace this : (16 / 5 : ℝ) ≤ 3 + (epsilon * (1 + 2 ^ (-52 : ℤ)) + M) := this
    generalize epsilon * (1 + 2 ^ (-52 : ℤ)) = k at *
    linarith

/-- The margin of the tests with boxes is small. -/
theorem box_margin35 (r : Rounding 53) (k : ℝ) (hk : 0 ≤ k) (hk1 : k ≤ 3) (a : Box 2) (h1 : eucl a.low.elem a.high.elem ≤ 20) (h2 : eucl a.low.elem ![1, 1] ≤ 20) :
    ∃ M, M = (13 * 2 ^ (-52 : ℤ) + 2 ^ (-51 : ℤ)) * eucl a.low.elem a.high.elem + (3 * (13 * 2 ^ (-52 : ℤ)) + 2 ^ (-51 : ℤ)) * eucl a.low.elem (rb35 r).corner.elem +
      k * 2 ^ (-50 : ℤ) * len (rb35 r).corner.elem + 2 ^ (-53 : ℤ) * len ((rb35 r).corner.elem + (rb35 r).size.elem) ∧ 0 ≤ M ∧ M ≤ 4 / 1000 := by
  refine ⟨_, rfl, add_nonneg (add_nonneg (add_nonneg (mul_nonneg (by positivity) (eucl_nonneg _ _)) (mul_nonneg (by positivity) (eucl_nonneg _ _)))
    (mul_nonneg (by positivity) (len_nonneg _))) (mul_nonneg (by positivity) (len_nonneg _)), ?_⟩
  have b1 : (13 * 2 ^ (-52 : ℤ) + 2 ^ (-51 : ℤ)) * eucl a.low.elem a.high.elem ≤ 1 / 1000 := sm (by positivity) h1 (by norm_num)
  have b2 : (3 * (13 * 2 ^ (-52 : ℤ)) + 2 ^ (-51 : ℤ)) * eucl a.low.elem (rb35 r).corner.elem ≤ 1 / 1000 := sm (by positivity) h2 (by norm_num)
  have b3 : k * 2 ^ (-50 : ℤ) * len (rb35 r).corner.elem ≤ 1 / 1000 := by
    refine (mul_le_mul_of_nonneg_right (mul_le_mul_of_nonneg_right hk1 (by positivity)) (len_nonneg _)).trans ?_
    exact sm (by positivity) (len_c.trans (by norm_num)) (by norm_num)
  have b4 : 2 ^ (-53 : ℤ) * len ((rb35 r).corner.elem + (rb35 r).size.elem) ≤ 1 / 1000 := sm (by positivity) (len_cs.trans (by norm_num)) (by norm_num)
  exact (add_le_add (add_le_add (add_le_add b1 b2) b3) b4).trans (by norm_num)

/-- C135_contains_box: the box with corners (1, 3/2) and (5/4, 2) is in the rotated box; that with corners (0, 0) and (2, 3) is not. -/
example (r : Rounding 53) : Fl.containsRB r (rb35 r) ⟨⟨![1, 3 / 2], true⟩, ⟨![5 / 4, 2], true⟩⟩ true = true ∧ Fl.containsRB r (rb35 r) ⟨⟨![0, 0], true⟩, ⟨![2, 3], true⟩⟩ false = false := by
  constructor
  · obtain ⟨M, hM, m0, m1⟩ := box_margin35 r (3 / 2) (by norm_num) (by norm_num) ⟨⟨![1, 3 / 2], true⟩, ⟨![5 / 4, 2], true⟩⟩ ((eucl2 _ _).trans (by norm_num [abs_of_nonneg]))
      ((eucl2 _ _).trans (by norm_num [abs_of_nonneg]))
    refine (C135_contains_box r (rb35 r) R35 (13 * 2 ^ (-52 : ℤ)) (by norm_num) hR35 (by norm_num) (by norm_num) (hm35 r) _
      (by intro i; fin_cases i <;> norm_num) M (by rw [hM]; norm_num)).2.1 fun x hx => (memI35 _ _).2 ?_
    have x0 := hx 0
    have x1 := hx 1
    simp only [cons_val_zero, cons_val_one] at x0 x1
    refine ⟨⟨?_, ?_⟩, ⟨?_, ?_⟩⟩ <;> linarith
  · obtain ⟨M, hM, m0, m1⟩ := box_margin35 r (3 / 2) (by norm_num) (by norm_num) ⟨⟨![0, 0], true⟩, ⟨![2, 3], true⟩⟩ ((eucl2 _ _).trans (by norm_num [abs_of_nonneg]))
      ((eucl2 _ _).trans (by norm_num [abs_of_nonneg]))
    rw [← Bool.not_eq_true]
    intro g
    have hx2 := (C135_contains_box r (rb35 r) R35 (13 * 2 ^ (-52 : ℤ)) (by norm_num) hR35 (by norm_num) (by norm_num) (hm35 r) _
      (by intro i; fin_cases i <;> norm_num) M (by rw [hM]; norm_num)).2.2.1 g (show ![2, 0] ∈ _ by intro i; fin_cases i <;> norm_num)
    have h := ((mem35 _ _).1 hx2).2.1
    have he : epsilon * (1 + 2 ^ (-52 : ℤ)) ≤ 1 / 100 := by unfold epsilon; norm_num
    simp only [cons_val_zero, cons_val_one] at h
    linarith

/-- C135_plane: the box with corners (1, 3/2) and (5/4, 2) meets the rotated box; that with corners (3, 1) and (4, 2) does not. -/
example (r : Rounding 53) : Fl.interRB2 r (rb35 r) ⟨⟨![1, 3 / 2], true⟩, ⟨![5 / 4, 2], true⟩⟩ true = true ∧ Fl.interRB2 r (rb35 r) ⟨⟨![3, 1], true⟩, ⟨![4, 2], true⟩⟩ false = false := by
  have bs : 13 * 2 ^ (-52 : ℤ) * len (rb35 r).size.elem ≤ 1 / 1000 := sm (by positivity) (len_s.trans (by norm_num)) (by norm_num)
  have bs0 : 0 ≤ 13 * 2 ^ (-52 : ℤ) * len (rb35 r).size.elem := mul_nonneg (by positivity) (len_nonneg _)
  constructor
  · obtain ⟨M, hM, m0, m1⟩ := box_margin35 r 3 (by norm_num) (by norm_num) ⟨⟨![1, 3 / 2], true⟩, ⟨![5 / 4, 2], true⟩⟩ ((eucl2 _ _).trans (by norm_num [abs_of_nonneg]))
      ((eucl2 _ _).trans (by norm_num [abs_of_nonneg]))
    refine ((C135_plane r (rb35 r) R35 (13 * 2 ^ (-52 : ℤ)) hR35 (by norm_num) (by norm_num) (hm12 r) _
      (by intro i; fin_cases i <;> norm_num) (13 * 2 ^ (-52 : ℤ) * len (rb35 r).size.elem + M) (by rw [hM]; ring)).1 (1 / 10) (1 / 10) 0 ![9 / 8, 7 / 4] ![9 / 8, 7 / 4] (by norm_num) (by norm_num)
      ((mem35 _ _).2 (by norm_num)) (by intro i; fin_cases i <;> norm_num) (by rw [eucl_eq_len, sub_self, len_zero])).2 (by linarith)
  · obtain ⟨M, hM, m0, m1⟩ := box_margin35 r 3 (by norm_num) (by norm_num) ⟨⟨![3, 1], true⟩, ⟨![4, 2], true⟩⟩ ((eucl2 _ _).trans (by norm_num [abs_of_nonneg]))
      ((eucl2 _ _).trans (by norm_num [abs_of_nonneg]))
    rw [← Bool.not_eq_true]
    intro g
    obtain ⟨x, hx2, hx⟩ := (C135_plane r (rb35 r) R35 (13 * 2 ^ (-52 : ℤ)) hR35 (by norm_num) (by norm_num) (hm12 r) _
      (by intro i; fin_cases i <;> norm_num) (13 * 2 ^ (-52 : ℤ) * len (rb35 r).size.elem + M) (by rw [hM]; ring)).2.1 g
    have h := ((mem35 _ _).1 hx2).2.1
    have he : epsilon * (1 + 2 ^ (-52 : ℤ)) ≤ 1 / 100 := by unfold epsilon; norm_num
    have x0 := (hx 0).1
    have x1 := (hx 1).2
    simp only [cons_val_zero, cons_val_one] at x0 x1
    generalize epsilon * (1 + 2 ^ (-52 : ℤ)) = k at *
    generalize 13 * 2 ^ (-52 : ℤ) * len (rb35 r).size.elem = k' at *
    linarith

/-- C135_rotate: the box turned once more about the origin stands for the square of the rotation. -/
example (r : Rounding 53) : Stands (Fl.rbRotate r (rb35 r) (Fl.turn35 r) ⟨![0, 0], true⟩).orient.elem (R35 * R35) (1 / 10 ^ 10) := fun v => by
  refine ((C135_rotate r (rb35 r) (Fl.turn35 r) ⟨![0, 0], true⟩ R35 R35 (13 * 2 ^ (-52 : ℤ)) (13 * 2 ^ (-52 : ℤ)) (by norm_num) hR35 hR35 (by norm_num) (by norm_num) (hm35 r)
    (by norm_num) (by norm_num) (hm35 r)).2.2 v).trans (mul_le_mul_of_nonneg_right (by norm_num) (len_nonneg _))

/-- A smaller box with the same orientation, inside the first. -/
noncomputable def rbIn (r : Rounding 53) : RBox 2 := ⟨⟨![1, 3 / 2], true⟩, ⟨![1 / 4, 1 / 4], true⟩, Fl.turn35 r⟩
/-- An axis-aligned box given as a rotated one. -/
noncomputable def rbId : RBox 2 := ⟨⟨![1, 3 / 2], true⟩, ⟨![1, 1], true⟩, ⟨1, false, true, 0⟩⟩

/-- C135_contains_rotated: the smaller box is in the first, not the other way round. -/
example (r : Rounding 53) : Fl.containsRR r (rb35 r) (rbIn r) true = true ∧ Fl.containsRR r (rbIn r) (rb35 r) false = false := by
  have e1 : eucl (![1, 3 / 2] : Fin 2 → ℝ) ![1, 1] ≤ 2 := (eucl2 _ _).trans (by norm_num [abs_of_nonneg])
  have l1 : len (![1 / 4, 1 / 4] : Fin 2 → ℝ) ≤ 2 := (len2 _).trans (by norm_num [abs_of_nonneg])
  have l2 : len (![1, 3 / 2] : Fin 2 → ℝ) ≤ 20 := (len2 _).trans (by norm_num [abs_of_nonneg])
  have l3 : len (![1, 3 / 2] + ![1 / 4, 1 / 4] : Fin 2 → ℝ) ≤ 20 := (len2 _).trans (by norm_num [abs_of_nonneg])
  constructor
  · obtain ⟨M, hM, m1⟩ : ∃ M, M = 3 * (13 * 2 ^ (-52 : ℤ)) * (len (rbIn r).size.elem + eucl (rbIn r).corner.elem (rb35 r).corner.elem) +
        ((2 : ℕ) + 1) * 2 ^ (-51 : ℤ) * len (rb35 r).corner.elem + 2 ^ (-53 : ℤ) * len ((rb35 r).corner.elem + (rb35 r).size.elem) ∧ M ≤ 3 / 1000 := by
      have b1 : 3 * (13 * 2 ^ (-52 : ℤ)) * (len (rbIn r).size.elem + eucl (rbIn r).corner.elem (rb35 r).corner.elem) ≤ 1 / 1000 :=
        sm (by positivity) ((add_le_add l1 e1).trans (by norm_num)) (by norm_num)
      have b2 : ((2 : ℕ) + 1) * 2 ^ (-51 : ℤ) * len (rb35 r).corner.elem ≤ 1 / 1000 := sm (by positivity) (len_c.trans (by norm_num)) (by norm_num)
      have b3 : 2 ^ (-53 : ℤ) * len ((rb35 r).corner.elem + (rb35 r).size.elem) ≤ 1 / 1000 := sm (by positivity) (len_cs.trans (by norm_num)) (by norm_num)
      exact ⟨_, rfl, (add_le_add (add_le_add b1 b2) b3).trans (by norm_num)⟩
    refine (C135_contains_rotated r (rb35 r) (rbIn r) R35 R35 (13 * 2 ^ (-52 : ℤ)) (by norm_num) hR35 hR35 (by norm_num) (by norm_num) (hm35 r) (hm35 r) M hM).2.1 fun x hx => (memI35 _ _).2 ?_
    have x0 := hx 0
    have x1 := hx 1
    rw [mul35] at x0 x1
    simp [rbIn] at x0 x1
    refine ⟨⟨?_, ?_⟩, ⟨?_, ?_⟩⟩ <;> linarith
  · obtain ⟨M, hM, m1⟩ : ∃ M, M = 3 * (13 * 2 ^ (-52 : ℤ)) * (len (rb35 r).size.elem + eucl (rb35 r).corner.elem (rbIn r).corner.elem) +
        ((2 : ℕ) + 1) * 2 ^ (-51 : ℤ) * len (rbIn r).corner.elem + 2 ^ (-53 : ℤ) * len ((rbIn r).corner.elem + (rbIn r).size.elem) ∧ M ≤ 3 / 1000 := by
      have b1 : 3 * (13 * 2 ^ (-52 : ℤ)) * (len (rb35 r).size.elem + eucl (rb35 r).corner.elem (rbIn r).corner.elem) ≤ 1 / 1000 := by
        rw [eucl_comm]; exact sm (by positivity) ((add_le_add len_s e1).trans (by norm_num)) (by norm_num)
      have b2 : ((2 : ℕ) + 1) * 2 ^ (-51 : ℤ) * len (rbIn r).corner.elem ≤ 1 / 1000 := sm (by positivity) l2 (by norm_num)
      have b3 : 2 ^ (-53 : ℤ) * len ((rbIn r).corner.elem + (rbIn r).size.elem) ≤ 1 / 1000 := sm (by positivity) l3 (by norm_num)
      exact ⟨_, rfl, (add_le_add (add_le_add b1 b2) b3).trans (by norm_num)⟩
    rw [← Bool.not_eq_true]
    intro g
    have h := (C135_contains_rotated r (rbIn r) (rb35 r) R35 R35 (13 * 2 ^ (-52 : ℤ)) (by norm_num) hR35 hR35 (by norm_num) (by norm_num) (hm35 r) (hm35 r) M hM).2.2.1 g
      (show ![1, 1] ∈ _ from (mem35 _ _).2 (by norm_num)) 0
    have he : epsilon * (1 + 2 ^ (-52 : ℤ)) ≤ 1 / 100 := by unfold epsilon; norm_num
    rw [mul35] at h
    simp [rbIn] at h
    simp at he
    linarith [h.1]

/-- C135_plane_rotated: the first box meets the axis-aligned one. -/
example (r : Rounding 53) : Fl.interRR2 r (rb35 r) rbId true = true := by
  have e1 : eucl (![1, 3 / 2] : Fin 2 → ℝ) ![1, 1] ≤ 2 := (eucl2 _ _).trans (by norm_num [abs_of_nonneg])
  have l2 : len (![1, 3 / 2] : Fin 2 → ℝ) ≤ 20 := (len2 _).trans (by norm_num [abs_of_nonneg])
  obtain ⟨M, hM, m1⟩ : ∃ M, M = 16 * (13 * 2 ^ (-52 : ℤ)) * (len (rb35 r).size.elem + len rbId.size.elem + eucl (rb35 r).corner.elem rbId.corner.elem) +
      2 ^ (-47 : ℤ) * len rbId.corner.elem ∧ M ≤ 2 / 1000 := by
    have b1 : 16 * (13 * 2 ^ (-52 : ℤ)) * (len (rb35 r).size.elem + len rbId.size.elem + eucl (rb35 r).corner.elem rbId.corner.elem) ≤ 1 / 1000 := by
      rw [eucl_comm]; exact sm (by positivity) ((add_le_add (add_le_add len_s len_c) e1).trans (by norm_num)) (by norm_num)
    have b2 : 2 ^ (-47 : ℤ) * len rbId.corner.elem ≤ 1 / 1000 := sm (by positivity) l2 (by norm_num)
    exact ⟨_, rfl, (add_le_add b1 b2).trans (by norm_num)⟩
  refine ((C135_plane_rotated r (rb35 r) rbId R35 1 (13 * 2 ^ (-52 : ℤ)) hR35 (by simp) (by norm_num) (by norm_num) (hm12 r) (fun v => by
    show len ((1 : Matrix (Fin 2) (Fin 2) ℝ) *ᵥ v - _) ≤ _
    rw [sub_self, len_zero]; exact mul_nonneg (by norm_num) (len_nonneg _)) M hM).1 (1 / 10) (1 / 10) 0 ![9 / 8, 7 / 4] ![9 / 8, 7 / 4] (by norm_num) (by norm_num)
    ((mem35 _ _).2 (by norm_num)) (by intro i; rw [one_mulVec]; fin_cases i <;> simp [rbId] <;> norm_num) (by rw [eucl_eq_len, sub_self, len_zero])).2 (by linarith)

end WFMath.Cases
