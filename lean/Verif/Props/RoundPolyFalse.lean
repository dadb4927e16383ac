/- Property theorems C136, end: a corner of a triangle that is not found in floating point, and examples on the unit square. -/
import Verif.Props.RoundPolyShapes

namespace WFMath
open Spec Matrix Rounding

theorem Fl.fl_small : IsFl 53 ((3 : ℝ) / 36028797018963968) := ⟨3, -55, by norm_num, by norm_num⟩
theorem Fl.fl_below : IsFl 53 ((9007199254740991 : ℝ) / 9007199254740992) := ⟨9007199254740991, -53, by norm_num, by norm_num⟩

/-- C136 fails for points on the sides: in doubles, whatever is done with ties, the corner (3·2^-55, 0) of the triangle with the other corners (1, 1) and (1, -1) is not
found to be in the triangle. The side from (1, 1) is computed to end at 2^-53, and the tolerance of the comparison is scaled to the small coordinate of the point. -/
theorem C136_side_false : ∃ (ps : Corners 2) (p : Pt 2), p ∈ ps ∧ p.elem ∈ boundary ps ∧ (∀ c ∈ ps, ∀ i, IsFl 53 (c.elem i)) ∧
    ∀ r : Rounding 53, Fl.interPolyP r ps p false = false := by
  refine ⟨[⟨![3 / 36028797018963968, 0], true⟩, ⟨![1, 1], true⟩, ⟨![1, -1], true⟩], ⟨![3 / 36028797018963968, 0], true⟩, by simp, ?_, ?_, fun r => ?_⟩
  · refine ⟨(![3 / 36028797018963968, 0], ![1, 1]), by simp [sides], left_mem_segment ℝ _ _⟩
  · intro c hc i
    simp only [List.mem_cons, List.not_mem_nil, or_false] at hc
    rcases hc with rfl | rfl | rfl <;> fin_cases i
    · exact Fl.fl_small
    · exact IsFl.zero
    · exact IsFl.one Fl.pos53
    · exact IsFl.one Fl.pos53
    · exact IsFl.one Fl.pos53
    · exact (IsFl.one Fl.pos53).neg
  · have he := epsilon_lt
    have hp := epsilon_pos
    norm_num at he
    have one := IsFl.one Fl.pos53
    have h1 : r (3 / 36028797018963968 - 1) = -(9007199254740991 / 9007199254740992) := by
      have := r.eq_of_near Fl.pos53 (x := 1 - 3 / 36028797018963968) (e := -1) (k := 9007199254740991) (by norm_num) (by norm_num) (by norm_num [abs_lt])
      rw [← neg_sub, r.odd, this]; norm_num
    have hx1 : Fl.sideAt r 1 1 (3 / 36028797018963968) 0 0 = 1 / 9007199254740992 := by
      unfold Fl.sideAt
      rw [h1, zero_sub, r.of_fl one.neg, neg_mul_neg, mul_one, r.of_fl Fl.fl_below, div_neg, div_one, r.of_fl Fl.fl_below.neg]
      rw [show (1 : ℝ) + -(9007199254740991 / 9007199254740992) = 1 / 9007199254740992 by norm_num]
      exact r.of_fl ⟨1, -53, by norm_num, by norm_num⟩
    have hx2 : Fl.sideAt r 1 (-1) 1 1 0 = 1 := by
      unfold Fl.sideAt
      rw [sub_self, r.zero, zero_mul, r.zero, zero_div, r.zero, add_zero, r.of_fl one]
    have apart : ∀ x : ℝ, 0 < x → IsFl 53 (3 / 36028797018963968 - x) → 6 / 36028797018963968 * epsilon < |3 / 36028797018963968 - x| →
        Fl.equal r (3 / 36028797018963968) x epsilon = false := by
      intro x hx hfl h
      unfold Fl.equal
      rw [decide_eq_false_iff_not, not_le, r.of_fl hfl]
      refine lt_of_le_of_lt (scaleEpsilon_le hp.le (by norm_num) hx.ne') (lt_of_le_of_lt ?_ h)
      have : min |(3 : ℝ) / 36028797018963968| |x| ≤ 3 / 36028797018963968 := (min_le_left _ _).trans (by norm_num [abs_of_pos])
      nlinarith
    have e1 := apart (1 / 9007199254740992) (by norm_num) ⟨-1, -55, by norm_num, by norm_num⟩ (by
      rw [show (3 : ℝ) / 36028797018963968 - 1 / 9007199254740992 = -(1 / 36028797018963968) by norm_num, abs_neg, abs_of_pos (by norm_num)]; linarith)
    have e2 : Fl.equal r (3 / 36028797018963968) 1 epsilon = false := by
      unfold Fl.equal
      rw [decide_eq_false_iff_not, not_le, h1, abs_neg]
      refine lt_of_le_of_lt (scaleEpsilon_le hp.le (by norm_num) one_ne_zero) ?_
      have : min |(3 : ℝ) / 36028797018963968| |1| ≤ 3 / 36028797018963968 := (min_le_left _ _).trans (by norm_num [abs_of_pos])
      rw [abs_of_pos (by norm_num)]
      nlinarith
    simp only [Fl.interPolyP, edges, List.getLastD, edgesFrom, Fl.polyPLoop, between, cons_val_zero, cons_val_one, hx1, hx2, e1, e2, List.getLast?]
    norm_num

/-! ### Examples: the unit square -/

theorem sideMargin_lt {a : ℝ} (ha : |a| ≤ 4) : sideMargin a 1 < 1 / 8 := by
  have he := epsilon_lt
  have hp := epsilon_pos
  norm_num at he
  have h1 : max 1 (2 * |a|) ≤ 8 := max_le (by norm_num) (by linarith)
  have h2 : epsilon * max 1 (2 * |a|) ≤ epsilon * 8 := mul_le_mul_of_nonneg_left h1 hp.le
  have h3 : epsilon * max 1 (2 * |a|) * (1 + 2 ^ (-52 : ℤ)) ≤ epsilon * 8 * 2 := mul_le_mul h2 (by norm_num) (by positivity) (by linarith)
  have h4 : (2 : ℝ) ^ (-48 : ℤ) * 1 ≤ 1 / 100 := by norm_num
  unfold sideMargin
  linarith

theorem unitSquare_clear {q : V2} (h0 : |q 0| ≤ 4) (h1 : 1 / 8 ≤ |q 0|) (h2 : 1 / 8 ≤ |q 0 - 1|) (h3 : q 1 ≠ 0) (h4 : q 1 ≠ 1) :
    ClearOfSides unitSquare q (sideMargin (q 0) 1) := by
  intro e he x hx
  refine (sideMargin_lt h0).trans_le ?_
  rw [unitSquare_sides] at he
  obtain ⟨s, s0, s1, h5, h6⟩ := seg_coord hx
  simp only [List.mem_cons, List.not_mem_nil, or_false] at he
  rcases he with rfl | rfl | rfl | rfl <;> simp at h5 h6
  · exact absurd h6 h3
  · rw [h5]; exact h2
  · exact absurd h6 h4
  · rw [h5, sub_zero]; exact h1

theorem unitSquare_clearV {q : V2} (h0 : |q 1| ≤ 4) (h1 : 1 / 8 ≤ |q 1|) (h2 : 1 / 8 ≤ |q 1 - 1|) (h3 : q 0 ≠ 0) (h4 : q 0 ≠ 1) :
    ClearAboveBelow unitSquare q (sideMargin (q 1) 1) := by
  intro e he x hx
  refine (sideMargin_lt h0).trans_le ?_
  rw [unitSquare_sides] at he
  obtain ⟨s, s0, s1, h5, h6⟩ := seg_coord hx
  simp only [List.mem_cons, List.not_mem_nil, or_false] at he
  rcases he with rfl | rfl | rfl | rfl <;> simp at h5 h6
  · rw [h6, sub_zero]; exact h1
  · exact absurd h5 h4
  · rw [h6]; exact h2
  · exact absurd h5 h3

theorem unitSquare_bound : ∀ c ∈ unitSquare, ∀ i, |c.elem i| ≤ 1 := by
  intro c hc i
  simp only [unitSquare, List.mem_cons, List.not_mem_nil, or_false] at hc
  rcases hc with rfl | rfl | rfl | rfl <;> fin_cases i <;> simp

/-- The middle of the unit square is inside, in doubles. -/
example (r : Rounding 53) (proper : Bool) : Fl.interPolyP r unitSquare ⟨![1 / 2, 1 / 2], true⟩ proper = true :=
  (C136_point r _ _ proper (fun c hc => unitSquare_bound c hc 0) (unitSquare_clear (by norm_num [abs_of_pos]) (by norm_num [abs_of_pos]) (by norm_num [abs_of_neg])
    (by norm_num) (by norm_num))).2 (unitSquare_inside (by norm_num) (by norm_num) (by norm_num) (by norm_num))

/-- The middle of the right side of the unit square is accepted, and not properly. -/
example (r : Rounding 53) (proper : Bool) : Fl.interPolyP r unitSquare ⟨![1, 1 / 2], true⟩ proper = !proper := by
  refine C136_side r _ _ proper (![1, 0], ![1, 1]) (by rw [unitSquare_sides]; simp) ?_ ?_ (by simp) (by simp)
  · exact mem_seg.2 ⟨1 / 2, by norm_num, by norm_num, by apply ext2 <;> simp⟩
  · rw [← between_iff]; simp [between]; norm_num

theorem corner_cases {l0 l1 h0 h1 : ℝ} {P : V2 → Prop} (a1 : P ![l0, l1]) (a2 : P ![l0, h1]) (a3 : P ![h0, l1]) (a4 : P ![h0, h1]) :
    ∀ q ∈ boxCorners ⟨⟨![l0, l1], true⟩, ⟨![h0, h1], true⟩⟩, P q := by
  intro q hq
  have e : q = ![q 0, q 1] := by apply ext2 <;> rfl
  have hq0 := hq 0
  have hq1 := hq 1
  simp only [cons_val_zero, cons_val_one] at hq0 hq1
  rcases hq0 with h | h <;> rcases hq1 with h' | h' <;> rw [e, h, h'] <;> assumption

/-- A box in the unit square, in doubles. -/
example (r : Rounding 53) (proper : Bool) : Fl.containsPolyB r unitSquare ⟨⟨![1 / 4, 1 / 4], true⟩, ⟨![3 / 4, 1 / 2], true⟩⟩ proper = true := by
  refine (C136_box r _ _ proper ?_ ?_ unitSquare_bound (corner_cases ?_ ?_ ?_ ?_)).2.1.2 fun x hx => ?_
  · intro i; fin_cases i <;> norm_num
  · intro c hc h
    have h0 := h 0
    have h1 := h 1
    simp only [unitSquare, List.mem_cons, List.not_mem_nil, or_false] at hc
    rcases hc with rfl | rfl | rfl | rfl <;> first | (norm_num at h0; done) | (norm_num at h1; done)
  · constructor
    · apply unitSquare_clear <;> simp <;> norm_num [abs_of_neg, abs_of_pos]
    · apply unitSquare_clearV <;> simp <;> norm_num [abs_of_neg, abs_of_pos]
  · constructor
    · apply unitSquare_clear <;> simp <;> norm_num [abs_of_neg, abs_of_pos]
    · apply unitSquare_clearV <;> simp <;> norm_num [abs_of_neg, abs_of_pos]
  · constructor
    · apply unitSquare_clear <;> simp <;> norm_num [abs_of_neg, abs_of_pos]
    · apply unitSquare_clearV <;> simp <;> norm_num [abs_of_neg, abs_of_pos]
  · constructor
    · apply unitSquare_clear <;> simp <;> norm_num [abs_of_neg, abs_of_pos]
    · apply unitSquare_clearV <;> simp <;> norm_num [abs_of_neg, abs_of_pos]
  · have h0 := hx 0
    have h1 := hx 1
    simp at h0 h1
    norm_num at h0 h1
    apply unitSquare_inside <;> linarith

/-- A ball of radius 1 whose centre is outside the unit square at a distance of 1/2 meets it, in doubles. -/
example (r : Rounding 53) (proper : Bool) : Fl.interPolyBall r unitSquare ⟨⟨![3 / 2, 1 / 2], true⟩, 1⟩ proper = some true := by
  have he := epsilon_lt
  have hp := epsilon_pos
  norm_num at he
  have hd : ∀ c ∈ unitSquare, eucl ![3 / 2, 1 / 2] c.elem ≤ 2 := by
    intro c hc
    rw [eucl_le_iff (by norm_num)]
    simp only [unitSquare, List.mem_cons, List.not_mem_nil, or_false] at hc
    rcases hc with rfl | rfl | rfl | rfl <;> simp [Fin.sum_univ_two] <;> norm_num
  refine (C136_ball r _ _ proper (M := 1) (ρ := 3 / 4) (fun c hc => unitSquare_bound c hc 0) ?_ ?_).1 ⟨![1, 1 / 2], Or.inr ⟨(![1, 0], ![1, 1]), ?_, ?_⟩, ?_⟩
  · exact (sideMargin_lt (by simp; norm_num [abs_of_pos])).le.trans (by norm_num)
  · intro c hc
    have h1 : (2 : ℝ) ^ (-43 : ℤ) * eucl ![3 / 2, 1 / 2] c.elem ≤ 2 ^ (-43 : ℤ) * 2 := mul_le_mul_of_nonneg_left (hd c hc) (by positivity)
    have h2 : (2 : ℝ) ^ (-43 : ℤ) * 2 ≤ 1 / 100 := by norm_num
    show (3 / 4 + 2 ^ (-43 : ℤ) * eucl ![3 / 2, 1 / 2] c.elem + 3 * epsilon) * (1 + epsilon) ≤ 1
    generalize (2 : ℝ) ^ (-43 : ℤ) * eucl ![3 / 2, 1 / 2] c.elem = z at *
    have h3 : z ≤ 1 / 100 := h1.trans h2
    nlinarith
  · rw [unitSquare_sides]; simp
  · exact mem_seg.2 ⟨1 / 2, by norm_num, by norm_num, by apply ext2 <;> simp⟩
  · show eucl _ _ ≤ _
    rw [eucl_le_iff (by norm_num)]
    simp [Fin.sum_univ_two]
    norm_num

/-- The ball of radius 1/4 about the middle of the unit square is contained in it, in doubles. -/
example (r : Rounding 53) (proper : Bool) : Fl.containsPolyBall r unitSquare ⟨⟨![1 / 2, 1 / 2], true⟩, 1 / 4⟩ proper = some true := by
  have he := epsilon_lt
  have hp := epsilon_pos
  norm_num at he
  have hd : ∀ c ∈ unitSquare, eucl ![1 / 2, 1 / 2] c.elem ^ 2 = 1 / 2 := by
    intro c hc
    rw [eucl_sq]
    simp only [unitSquare, List.mem_cons, List.not_mem_nil, or_false] at hc
    rcases hc with rfl | rfl | rfl | rfl <;> simp [Fin.sum_univ_two] <;> norm_num
  have hd1 : ∀ c ∈ unitSquare, eucl ![1 / 2, 1 / 2] c.elem ≤ 1 := fun c hc => by
    have := hd c hc
    have := eucl_nonneg ![1 / 2, 1 / 2] c.elem
    nlinarith
  refine (C136_ball_converse r _ _ proper (M := 1) (ρ := 3 / 8) (by norm_num) (fun c hc => unitSquare_bound c hc 0) ?_ ?_ ?_).2 (by norm_num) ?_
  · exact (sideMargin_lt (by simp; norm_num)).le.trans (by norm_num)
  · intro c hc
    have h1 : (2 : ℝ) ^ (-49 : ℤ) * eucl ![1 / 2, 1 / 2] c.elem ≤ 2 ^ (-49 : ℤ) * 1 := mul_le_mul_of_nonneg_left (hd1 c hc) (by positivity)
    have h2 : (2 : ℝ) ^ (-49 : ℤ) * 1 ≤ 1 / 100 := by norm_num
    show 1 / 4 * (1 + epsilon) + 2 ^ (-49 : ℤ) * eucl ![1 / 2, 1 / 2] c.elem ≤ 3 / 8
    generalize (2 : ℝ) ^ (-49 : ℤ) * eucl ![1 / 2, 1 / 2] c.elem = z at *
    have h3 : z ≤ 1 / 100 := h1.trans h2
    linarith
  · intro c hc
    unfold NearlyFlushed
    rw [hd c hc, not_lt]
    have h1 := Fl.scale_le (maxAbs ![(1 : ℝ) / 2, 1 / 2]) (maxAbs c.elem)
    have h2 : maxAbs ![(1 : ℝ) / 2, 1 / 2] ≤ 1 := maxAbs_le (by norm_num) (by intro i; fin_cases i <;> norm_num [abs_of_pos])
    have h3 := maxAbs_nonneg ![(1 : ℝ) / 2, 1 / 2]
    have h4 : max 1 (2 * |maxAbs ![(1 : ℝ) / 2, 1 / 2]|) ≤ 2 := max_le (by norm_num) (by rw [abs_of_nonneg h3]; linarith)
    have h5 : scaleEpsilonArr ![(1 : ℝ) / 2, 1 / 2] c.elem epsilon ≤ epsilon * 2 := h1.trans (mul_le_mul_of_nonneg_left h4 hp.le)
    have h6 : (1 + epsilon) * scaleEpsilonArr ![(1 : ℝ) / 2, 1 / 2] c.elem epsilon ≤ (1 + epsilon) * (epsilon * 2) := mul_le_mul_of_nonneg_left h5 (by linarith)
    nlinarith
  · intro x hx
    have hx' : eucl x ![1 / 2, 1 / 2] ≤ 3 / 8 := hx
    have h0 := _root_.abs_le.1 (le_trans (abs_sub_le_eucl x ![1 / 2, 1 / 2] 0) hx')
    have h1 := _root_.abs_le.1 (le_trans (abs_sub_le_eucl x ![1 / 2, 1 / 2] 1) hx')
    simp at h0 h1
    norm_num at h0 h1
    apply unitSquare_inside <;> linarith

end WFMath
