/- Property theorems C62, C63, C88: segments against segments, and containment of and in segments. -/
import Verif.Props.Segment

namespace WFMath
open Spec Matrix
variable {n : Nat}

/-! ### C62 segment and segment -/

theorem equal_of_eq {x y : ℝ} (h : x = y) : equal x y epsilon = true := by rw [h]; exact equal_self epsilon_pos.le

/-- Two non-parallel segments in the plane: the test as the code has it. -/
theorem interSS_2 (s1 s2 : Seg 2) (pr : Bool)
    (hx : (s1.p2.sub s1.p1).dot (s2.p2.sub s2.p1) ^ 2 < (s1.p2.sub s1.p1).sqrMag * (s2.p2.sub s2.p1).sqrMag) :
    interSS s1 s2 pr =
      (let v1 := s1.p2.sub s1.p1
       let v2 := s2.p2.sub s2.p1
       let dl := s2.p1.sub s1.p1
       let den := v1.sqrMag * v2.sqrMag - v1.dot v2 * v1.dot v2
       let a := (v2.sqrMag * v1.dot dl - v1.dot v2 * v2.dot dl) / den
       let c := -(v1.sqrMag * v2.dot dl - v1.dot v2 * v1.dot dl) / den
       lessEq a 0 pr && lessEq a 1 pr && greaterEq c 0 pr && greaterEq c 1 pr) := by
  unfold interSS
  simp only
  rw [show decide (2 > 2) = false from rfl, Bool.false_and, if_neg (by simp), if_pos (by nlinarith)]

theorem solve2 {x0 x1 y0 y1 d0 d1 : ℝ} (h : 0 < (x0 * x0 + x1 * x1) * (y0 * y0 + y1 * y1) - (x0 * y0 + x1 * y1) * (x0 * y0 + x1 * y1)) :
    let D := (x0 * x0 + x1 * x1) * (y0 * y0 + y1 * y1) - (x0 * y0 + x1 * y1) * (x0 * y0 + x1 * y1)
    let a := ((y0 * y0 + y1 * y1) * (x0 * d0 + x1 * d1) - (x0 * y0 + x1 * y1) * (y0 * d0 + y1 * d1)) / D
    let c := -((x0 * x0 + x1 * x1) * (y0 * d0 + y1 * d1) - (x0 * y0 + x1 * y1) * (x0 * d0 + x1 * d1)) / D
    a * x0 - c * y0 = d0 ∧ a * x1 - c * y1 = d1 := by
  intro D a c
  have hD : D ≠ 0 := h.ne'
  have ha : a * D = (y0 * y0 + y1 * y1) * (x0 * d0 + x1 * d1) - (x0 * y0 + x1 * y1) * (y0 * d0 + y1 * d1) := div_mul_cancel₀ _ hD
  have hc : c * D = -((x0 * x0 + x1 * x1) * (y0 * d0 + y1 * d1) - (x0 * y0 + x1 * y1) * (x0 * d0 + x1 * d1)) := div_mul_cancel₀ _ hD
  constructor
  · apply mul_right_cancel₀ hD
    have : (a * x0 - c * y0) * D = (a * D) * x0 - (c * D) * y0 := by ring
    rw [this, ha, hc]; simp only [D]; ring
  · apply mul_right_cancel₀ hD
    have : (a * x1 - c * y1) * D = (a * D) * x1 - (c * D) * y1 := by ring
    rw [this, ha, hc]; simp only [D]; ring

theorem interSS_params (s1 s2 : Seg 2)
    (h12 : DotExact (s1.p2.sub s1.p1) (s2.p2.sub s2.p1)) (h1 : DotExact (s1.p2.sub s1.p1) (s2.p1.sub s1.p1))
    (h2 : DotExact (s2.p2.sub s2.p1) (s2.p1.sub s1.p1))
    (hn : ((s1.p2.elem - s1.p1.elem) ⬝ᵥ (s2.p2.elem - s2.p1.elem)) ^ 2 <
      eucl s1.p1.elem s1.p2.elem ^ 2 * eucl s2.p1.elem s2.p2.elem ^ 2) :
    ∃ a c : ℝ, segPt s1 a = segPt s2 c ∧ (∀ a' c', segPt s1 a' = segPt s2 c' → a' = a ∧ c' = c) ∧
      ∀ pr, interSS s1 s2 pr = (lessEq a 0 pr && lessEq a 1 pr && greaterEq c 0 pr && greaterEq c 1 pr) := by
  unfold DotExact at h12 h1 h2
  rw [eucl_comm s1.p1.elem, eucl_comm s2.p1.elem, ← sub_sqrMag, ← sub_sqrMag] at hn
  have hx : (s1.p2.sub s1.p1).dot (s2.p2.sub s2.p1) ^ 2 < (s1.p2.sub s1.p1).sqrMag * (s2.p2.sub s2.p1).sqrMag := by
    rw [h12]; exact hn
  refine ⟨_, _, ?_, ?_, fun pr => interSS_2 s1 s2 pr hx⟩
  all_goals
    rw [h12, h1, h2]
    simp only [Vec.sqrMag_eq, Pt.sub_elem, dotProduct, Fin.sum_univ_two, Pi.sub_apply] at hn ⊢
  · funext i
    rw [segPt_apply, segPt_apply]
    generalize s1.p1.elem = p at *
    generalize s1.p2.elem = p' at *
    generalize s2.p1.elem = q at *
    generalize s2.p2.elem = q' at *
    have hden : 0 < ((p' 0 - p 0) * (p' 0 - p 0) + (p' 1 - p 1) * (p' 1 - p 1)) *
        ((q' 0 - q 0) * (q' 0 - q 0) + (q' 1 - q 1) * (q' 1 - q 1)) -
        ((p' 0 - p 0) * (q' 0 - q 0) + (p' 1 - p 1) * (q' 1 - q 1)) * ((p' 0 - p 0) * (q' 0 - q 0) + (p' 1 - p 1) * (q' 1 - q 1)) := by
      linarith
    have hs := solve2 (d0 := q 0 - p 0) (d1 := q 1 - p 1) hden
    simp only at hs
    fin_cases i
    · have := hs.1; simp only [Fin.zero_eta]; linarith
    · have := hs.2; simp only [Fin.mk_one]; linarith
  · intro a' c' h
    have e0 := congrFun h 0
    have e1 := congrFun h 1
    rw [segPt_apply, segPt_apply] at e0 e1
    generalize s1.p1.elem = p at *
    generalize s1.p2.elem = p' at *
    generalize s2.p1.elem = q at *
    generalize s2.p2.elem = q' at *
    have hden : 0 < ((p' 0 - p 0) * (p' 0 - p 0) + (p' 1 - p 1) * (p' 1 - p 1)) *
        ((q' 0 - q 0) * (q' 0 - q 0) + (q' 1 - q 1) * (q' 1 - q 1)) -
        ((p' 0 - p 0) * (q' 0 - q 0) + (p' 1 - p 1) * (q' 1 - q 1)) * ((p' 0 - p 0) * (q' 0 - q 0) + (p' 1 - p 1) * (q' 1 - q 1)) := by
      linarith
    have hq0 : q 0 - p 0 = a' * (p' 0 - p 0) - c' * (q' 0 - q 0) := by linarith
    have hq1 : q 1 - p 1 = a' * (p' 1 - p 1) - c' * (q' 1 - q 1) := by linarith
    rw [hq0, hq1, eq_div_iff hden.ne', eq_div_iff hden.ne']
    constructor <;> ring

/-- C62, non-parallel segments in the plane, absent flushing of inner products: the test is true exactly when the lines
meet at a point that is before the start of the first segment and after the end of the second one. This is not C62, whose
condition is `0 ≤ a ≤ 1` and `0 ≤ c ≤ 1`: see `C62_false`. -/
theorem C62_lines_partial (s1 s2 : Seg 2)
    (h12 : DotExact (s1.p2.sub s1.p1) (s2.p2.sub s2.p1)) (h1 : DotExact (s1.p2.sub s1.p1) (s2.p1.sub s1.p1))
    (h2 : DotExact (s2.p2.sub s2.p1) (s2.p1.sub s1.p1))
    (hn : ((s1.p2.elem - s1.p1.elem) ⬝ᵥ (s2.p2.elem - s2.p1.elem)) ^ 2 <
      eucl s1.p1.elem s1.p2.elem ^ 2 * eucl s2.p1.elem s2.p2.elem ^ 2) :
    (interSS s1 s2 false = true ↔ ∃ a c : ℝ, a ≤ 0 ∧ 1 ≤ c ∧
      (1 - a) • s1.p1.elem + a • s1.p2.elem = (1 - c) • s2.p1.elem + c • s2.p2.elem) ∧
    (interSS s1 s2 true = true ↔ ∃ a c : ℝ, a < 0 ∧ 1 < c ∧
      (1 - a) • s1.p1.elem + a • s1.p2.elem = (1 - c) • s2.p1.elem + c • s2.p2.elem) := by
  obtain ⟨a, c, hac, hu, hi⟩ := interSS_params s1 s2 h12 h1 h2 hn
  rw [hi, hi]
  simp only [Bool.and_eq_true, lessEq_false, lessEq_true, greaterEq_false, greaterEq_true]
  constructor
  · constructor
    · rintro ⟨⟨⟨q1, q2⟩, q3⟩, q4⟩
      exact ⟨a, c, by linarith, by linarith, hac⟩
    · rintro ⟨a', c', q1, q2, h⟩
      obtain ⟨rfl, rfl⟩ := hu a' c' h
      refine ⟨⟨⟨?_, ?_⟩, ?_⟩, ?_⟩ <;> linarith
  · constructor
    · rintro ⟨⟨⟨q1, q2⟩, q3⟩, q4⟩
      exact ⟨a, c, by linarith, by linarith, hac⟩
    · rintro ⟨a', c', q1, q2, h⟩
      obtain ⟨rfl, rfl⟩ := hu a' c' h
      refine ⟨⟨⟨?_, ?_⟩, ?_⟩, ?_⟩ <;> linarith

theorem seg_mem_param {s : Seg n} {τ : ℝ} {x : Fin n → ℝ} (h0 : 0 ≤ τ) (h1 : τ ≤ 1)
    (h : x = s.p1.elem + τ • (s.p2.elem - s.p1.elem)) : x ∈ segSet s := ⟨τ, h0, h1, by rw [h]; module⟩

/-- Of two collinear segments with a common point, an end of one is on the other. -/
theorem collinear_end {s1 s2 : Seg n} {d : Fin n → ℝ} {k1 k2 : ℝ} (hd1 : s1.p2.elem - s1.p1.elem = k1 • d)
    (hd2 : s2.p2.elem - s2.p1.elem = k2 • d) (h : (segSet s1 ∩ segSet s2).Nonempty) :
    s2.p1.elem ∈ segSet s1 ∨ s2.p2.elem ∈ segSet s1 ∨ s1.p1.elem ∈ segSet s2 := by
  obtain ⟨x, ⟨a, a0, a1, ha⟩, ⟨c, c0, c1, hc⟩⟩ := h
  have ex : x = s1.p1.elem + a • (k1 • d) := by rw [ha, ← hd1]; module
  have ey : x = s2.p1.elem + c • (k2 • d) := by rw [hc, ← hd2]; module
  have hq1 : s2.p1.elem = s1.p1.elem + (a * k1 - c * k2) • d := by
    have : s2.p1.elem = x - c • (k2 • d) := by rw [ey]; module
    rw [this, ex]; module
  have hq2 : s2.p2.elem = s1.p1.elem + (a * k1 - c * k2 + k2) • d := by
    have : s2.p2.elem = s2.p1.elem + k2 • d := by rw [← hd2]; module
    rw [this, hq1]; module
  by_cases hk : k1 = 0
  · right; right
    refine ⟨c, c0, c1, ?_⟩
    rw [← hc, ex, hk]; module
  by_cases m1 : 0 ≤ a - c * (k2 / k1) ∧ a - c * (k2 / k1) ≤ 1
  · left
    refine seg_mem_param m1.1 m1.2 ?_
    rw [hq1, hd1, smul_smul]
    congr 2; field_simp
  by_cases m2 : 0 ≤ a + (1 - c) * (k2 / k1) ∧ a + (1 - c) * (k2 / k1) ≤ 1
  · right; left
    refine seg_mem_param m2.1 m2.2 ?_
    rw [hq2, hd1, smul_smul]
    congr 2; field_simp; ring
  right; right
  have hkk : k2 = (k2 / k1) * k1 := by field_simp
  generalize k2 / k1 = k at m1 m2 hkk
  have hk0 : k ≠ 0 := by
    rintro rfl
    exact m1 ⟨by linarith, by linarith⟩
  have hp : s1.p1.elem = s2.p1.elem + ((c * k - a) / k) • (s2.p2.elem - s2.p1.elem) := by
    rw [hd2, hq1, smul_smul]
    have : (c * k - a) / k * k2 = -(a * k1 - c * k2) := by rw [hkk]; field_simp; ring
    rw [this]; module
  rcases lt_or_gt_of_ne hk0 with hneg | hpos
  · have q1 : 1 < a - c * k := by
      by_contra hh; exact m1 ⟨by nlinarith, not_lt.1 hh⟩
    have q2 : a + (1 - c) * k < 0 := by
      by_contra hh; exact m2 ⟨not_lt.1 hh, by nlinarith⟩
    refine seg_mem_param ?_ ?_ hp
    · exact div_nonneg_of_nonpos (by linarith) hneg.le
    · rw [div_le_one_of_neg hneg]; linarith
  · have q1 : a - c * k < 0 := by
      by_contra hh; exact m1 ⟨not_lt.1 hh, by nlinarith⟩
    have q2 : 1 < a + (1 - c) * k := by
      by_contra hh; exact m2 ⟨by nlinarith, not_lt.1 hh⟩
    refine seg_mem_param ?_ ?_ hp
    · exact div_nonneg (by linarith) hpos.le
    · rw [div_le_one hpos]; linarith

/-- C62, parallel segments in any dimension, absent flushing: the test is true when they have a common point. -/
theorem C62_parallel_partial (s1 s2 : Seg n)
    (h12 : DotExact (s1.p2.sub s1.p1) (s2.p2.sub s2.p1)) (h1 : DotExact (s1.p2.sub s1.p1) (s2.p1.sub s1.p1))
    (h2 : DotExact (s2.p2.sub s2.p1) (s2.p1.sub s1.p1)) (d : Fin n → ℝ) (k1 k2 : ℝ)
    (hd1 : s1.p2.elem - s1.p1.elem = k1 • d) (hd2 : s2.p2.elem - s2.p1.elem = k2 • d)
    (h : (segSet s1 ∩ segSet s2).Nonempty) : interSS s1 s2 false = true := by
  have hend := collinear_end hd1 hd2 h
  obtain ⟨x, ⟨a, a0, a1, ha⟩, ⟨c, c0, c1, hc⟩⟩ := h
  have hm : s2.p1.elem - s1.p1.elem = (a * k1 - c * k2) • d := by
    have ex : x = s1.p1.elem + a • (k1 • d) := by rw [ha, ← hd1]; module
    have ey : x = s2.p1.elem + c • (k2 • d) := by rw [hc, ← hd2]; module
    have : s2.p1.elem = x - c • (k2 • d) := by rw [ey]; module
    rw [this, ex]; module
  unfold DotExact at h12 h1 h2
  simp only [Pt.sub_elem, hd1, hd2, hm] at h12 h1 h2
  have q1 : (s1.p2.sub s1.p1).sqrMag = (k1 • d) ⬝ᵥ (k1 • d) := by rw [Vec.sqrMag_eq, Pt.sub_elem, hd1]
  have q2 : (s2.p2.sub s2.p1).sqrMag = (k2 • d) ⬝ᵥ (k2 • d) := by rw [Vec.sqrMag_eq, Pt.sub_elem, hd2]
  unfold interSS
  simp only [h12, h1, h2, q1, q2]
  simp only [smul_dotProduct, dotProduct_smul, smul_eq_mul]
  have hden : k1 * (k1 * d ⬝ᵥ d) * (k2 * (k2 * d ⬝ᵥ d)) - k2 * (k1 * d ⬝ᵥ d) * (k2 * (k1 * d ⬝ᵥ d)) = 0 := by ring
  rw [hden, equal_of_eq (by ring)]
  simp only [Bool.not_true, Bool.and_false, Bool.false_eq_true, if_false, gt_iff_lt, lt_irrefl, Bool.false_and, Bool.or_false,
    Bool.or_eq_true]
  rcases hend with h | h | h
  · exact Or.inl (Or.inl (Or.inl (C61_accepts _ _ h)))
  · exact Or.inl (Or.inl (Or.inr (C61_accepts _ _ h)))
  · exact Or.inl (Or.inr (C61_accepts _ _ h))

theorem dotExact_of_max {u v : Vec n} {M : ℝ} (hM : maxAbs u.elem ≤ M) (h : 2 * epsilon * M ≤ |u.elem ⬝ᵥ v.elem|) : DotExact u v :=
  Vec.dot_exact ((mul_le_mul_of_nonneg_left ((min_le_left _ _).trans hM) (by linarith [epsilon_pos])).trans h)

theorem dotExact_of_zero {u v : Vec n} (h : u.elem ⬝ᵥ v.elem = 0) : DotExact u v := by
  unfold DotExact; rw [Vec.dot_of_exact_zero h, h]

/-- C62 is false of the code: two crossing segments are reported apart, two disjoint ones are reported to meet, and the
result depends on the order of the arguments. -/
theorem C62_false :
    (∃ s1 s2 : Seg 2, s1.valid = true ∧ s2.valid = true ∧ (segSet s1 ∩ segSet s2).Nonempty ∧ interSS s1 s2 false = false) ∧
    (∃ s1 s2 : Seg 2, s1.valid = true ∧ s2.valid = true ∧ ¬ (segSet s1 ∩ segSet s2).Nonempty ∧ interSS s1 s2 false = true ∧
      interSS s2 s1 false = false) := by
  have he := epsilon_pos
  have he2 := epsilon_lt
  norm_num at he2
  constructor
  · refine ⟨⟨⟨![-1, 0], true⟩, ⟨![1, 0], true⟩⟩, ⟨⟨![0, -1], true⟩, ⟨![0, 1], true⟩⟩, rfl, rfl, ?_, ?_⟩
    · exact ⟨0, ⟨1 / 2, by norm_num, by norm_num, by funext i; fin_cases i <;> simp <;> norm_num⟩,
        ⟨1 / 2, by norm_num, by norm_num, by funext i; fin_cases i <;> simp <;> norm_num⟩⟩
    · rw [Bool.eq_false_iff, Ne, (C62_lines_partial _ _ ?_ ?_ ?_ ?_).1]
      · rintro ⟨a, c, ha, hc, h⟩
        have := congrFun h 0
        simp at this
        linarith
      · exact dotExact_of_zero (by simp [Pt.sub_elem, dotProduct, Fin.sum_univ_two])
      · refine dotExact_of_max (M := 2) (maxAbs_le (by norm_num) fun i => by fin_cases i <;> simp [Pt.sub_elem] <;> norm_num) ?_
        norm_num [Pt.sub_elem, dotProduct, Fin.sum_univ_two]; linarith
      · refine dotExact_of_max (M := 2) (maxAbs_le (by norm_num) fun i => by fin_cases i <;> simp [Pt.sub_elem] <;> norm_num) ?_
        norm_num [Pt.sub_elem, dotProduct, Fin.sum_univ_two]; linarith
      · rw [eucl_sq, eucl_sq]; simp [dotProduct, Fin.sum_univ_two]; norm_num
  · refine ⟨⟨⟨![1, 0], true⟩, ⟨![2, 0], true⟩⟩, ⟨⟨![0, -2], true⟩, ⟨![0, -1], true⟩⟩, rfl, rfl, ?_, ?_, ?_⟩
    · rintro ⟨x, ⟨t, t0, t1, rfl⟩, ⟨u, u0, u1, h⟩⟩
      have := congrFun h 0
      simp at this
      linarith
    · rw [(C62_lines_partial _ _ ?_ ?_ ?_ ?_).1]
      · exact ⟨-1, 2, by norm_num, by norm_num, by funext i; fin_cases i <;> simp <;> norm_num⟩
      · exact dotExact_of_zero (by simp [Pt.sub_elem, dotProduct, Fin.sum_univ_two])
      · refine dotExact_of_max (M := 1) (maxAbs_le (by norm_num) fun i => by fin_cases i <;> simp [Pt.sub_elem] <;> norm_num) ?_
        norm_num [Pt.sub_elem, dotProduct, Fin.sum_univ_two]; linarith
      · refine dotExact_of_max (M := 1) (maxAbs_le (by norm_num) fun i => by fin_cases i <;> simp [Pt.sub_elem] <;> norm_num) ?_
        norm_num [Pt.sub_elem, dotProduct, Fin.sum_univ_two]; linarith
      · rw [eucl_sq, eucl_sq]; simp [dotProduct, Fin.sum_univ_two]; norm_num
    · rw [Bool.eq_false_iff, Ne, (C62_lines_partial _ _ ?_ ?_ ?_ ?_).1]
      · rintro ⟨a, c, ha, hc, h⟩
        have := congrFun h 0
        simp at this
        linarith
      · exact dotExact_of_zero (by simp [Pt.sub_elem, dotProduct, Fin.sum_univ_two])
      · refine dotExact_of_max (M := 1) (maxAbs_le (by norm_num) fun i => by fin_cases i <;> simp [Pt.sub_elem] <;> norm_num) ?_
        norm_num [Pt.sub_elem, dotProduct, Fin.sum_univ_two]; linarith
      · refine dotExact_of_max (M := 1) (maxAbs_le (by norm_num) fun i => by fin_cases i <;> simp [Pt.sub_elem] <;> norm_num) ?_
        norm_num [Pt.sub_elem, dotProduct, Fin.sum_univ_two]; linarith
      · rw [eucl_sq, eucl_sq]; simp [dotProduct, Fin.sum_univ_two]; norm_num

/-! ### C63 convex shapes containing a segment -/

/-- C63, box: both ends pass the test exactly when every point of the segment is in the box (widened by epsilon when not
proper). -/
theorem C63_box (b : Box n) (s : Seg n) (ho : Ordered b) :
    (containsBS b s false = true ↔ segSet s ⊆ near epsilon (boxSet b)) ∧
    (containsBS b s true = true ↔ segSet s ⊆ boxInterior b) ∧
    (segSet s ⊆ boxSet b → containsBS b s false = true) := by
  have he := epsilon_pos
  have key : containsBS b s false = true ↔ segSet s ⊆ near epsilon (boxSet b) := by
    unfold containsBS
    rw [Bool.and_eq_true, interBP_false, interBP_false]
    constructor
    · rintro ⟨h1, h2⟩ x ⟨t, t0, t1, rfl⟩
      rw [mem_near_box ho he.le]
      intro i
      have a1 := h1 i
      have a2 := h2 i
      simp only [Pi.add_apply, Pi.smul_apply, smul_eq_mul]
      constructor <;> nlinarith
    · intro h
      exact ⟨(mem_near_box ho he.le).1 (h (p1_mem s)), (mem_near_box ho he.le).1 (h (p2_mem s))⟩
  refine ⟨key, ?_, fun h => key.2 fun x hx => (mem_near_box ho he.le).2 fun i => ?_⟩
  · unfold containsBS
    rw [Bool.and_eq_true, interBP_true, interBP_true]
    constructor
    · rintro ⟨h1, h2⟩ x ⟨t, t0, t1, rfl⟩ i
      have a1 := h1 i
      have a2 := h2 i
      simp only [Pi.add_apply, Pi.smul_apply, smul_eq_mul]
      rcases eq_or_lt_of_le t0 with rfl | t0
      · simpa using a1
      · constructor <;> nlinarith
    · intro h
      exact ⟨h (p1_mem s), h (p2_mem s)⟩
  · have := h hx i
    constructor <;> linarith

theorem eucl_convex {a b c : Fin n → ℝ} {t : ℝ} (t0 : 0 ≤ t) (t1 : t ≤ 1) :
    eucl ((1 - t) • a + t • b) c ≤ (1 - t) * eucl a c + t * eucl b c := by
  rw [eucl_eq_len, eucl_eq_len, eucl_eq_len]
  have : (1 - t) • a + t • b - c = (1 - t) • (a - c) + t • (b - c) := by module
  rw [this]
  refine (len_add_le _ _).trans ?_
  rw [len_smul, len_smul, abs_of_nonneg t0, abs_of_nonneg (by linarith)]

/-- C63, ball, with neither end so close to the centre that the library rounds its distance to 0: both ends pass the test
exactly when every point of the segment is in the ball enlarged by the tolerance `√(1 + ε)`. In any case a segment inside
the ball passes. -/
theorem C63_ball (b : Ball n) (s : Seg n) (hr : 0 ≤ b.radius) :
    (¬ Flushed b.center s.p1 → ¬ Flushed b.center s.p2 →
      (containsBallS b s false = true ↔ segSet s ⊆ ballSet (grown b)) ∧
      (containsBallS b s true = true ↔ segSet s ⊆ ballInterior (grown b))) ∧
    (segSet s ⊆ ballSet b → containsBallS b s false = true) ∧ (segSet s ⊆ ballInterior b → containsBallS b s true = true) := by
  have c1 := C55_point b s.p1 hr
  have c2 := C55_point b s.p2 hr
  unfold containsBallS
  simp only [Bool.and_eq_true]
  refine ⟨fun f1 f2 => ?_, fun h => ⟨c1.2.2.1 (h (p1_mem s)), c2.2.2.1 (h (p2_mem s))⟩,
    fun h => ⟨c1.2.2.2 (h (p1_mem s)), c2.2.2.2 (h (p2_mem s))⟩⟩
  rw [c1.1, c2.1, c1.2.1, c2.2.1]
  simp only [f1, f2, and_false, or_false]
  refine ⟨⟨?_, fun h => ⟨h (p1_mem s), h (p2_mem s)⟩⟩, ⟨?_, fun h => ⟨h (p1_mem s), h (p2_mem s)⟩⟩⟩
  · rintro ⟨h1, h2⟩ x ⟨t, t0, t1, rfl⟩
    have h1' : eucl s.p1.elem b.center.elem ≤ (grown b).radius := h1
    have h2' : eucl s.p2.elem b.center.elem ≤ (grown b).radius := h2
    show eucl _ b.center.elem ≤ (grown b).radius
    refine (eucl_convex t0 t1).trans ?_
    nlinarith
  · rintro ⟨h1, h2⟩ x ⟨t, t0, t1, rfl⟩
    have h1' : eucl s.p1.elem b.center.elem < (grown b).radius := h1
    have h2' : eucl s.p2.elem b.center.elem < (grown b).radius := h2
    show eucl _ b.center.elem < (grown b).radius
    refine (eucl_convex t0 t1).trans_lt ?_
    rcases eq_or_lt_of_le t0 with rfl | t0
    · simpa using h1'
    · nlinarith

example : containsBS (⟨⟨![0, 0], true⟩, ⟨![2, 2], true⟩⟩ : Box 2) ⟨⟨![1 / 2, 1], true⟩, ⟨![1, 3 / 2], true⟩⟩ true = true := by
  unfold containsBS
  rw [Bool.and_eq_true, interBP_true, interBP_true]
  constructor <;> intro i <;> fin_cases i <;> simp <;> norm_num

/-! ### C88 segments containing shapes -/

/-- C88: a segment that contains all points of another one passes the test. -/
theorem C88_segment (s1 s2 : Seg n) (h : segSet s2 ⊆ segSet s1) : containsSS s1 s2 false = true := by
  unfold containsSS
  rw [Bool.and_eq_true]
  exact ⟨C61_accepts _ _ (h (p1_mem s2)), C61_accepts _ _ (h (p2_mem s2))⟩

/-- Points between two points near a segment are near it. -/
theorem near_seg {s : Seg n} {p q x : Fin n → ℝ} {δ : ℝ} (hp : ∃ y ∈ segSet s, eucl p y ≤ δ) (hq : ∃ y ∈ segSet s, eucl q y ≤ δ)
    {t : ℝ} (t0 : 0 ≤ t) (t1 : t ≤ 1) (hx : x = (1 - t) • p + t • q) : ∃ y ∈ segSet s, eucl x y ≤ δ := by
  obtain ⟨y1, ⟨a, a0, a1, rfl⟩, h1⟩ := hp
  obtain ⟨y2, ⟨c, c0, c1, rfl⟩, h2⟩ := hq
  refine ⟨_, ⟨(1 - t) * a + t * c, by nlinarith, by nlinarith, rfl⟩, ?_⟩
  rw [eucl_eq_len] at h1 h2 ⊢
  have : x - ((1 - ((1 - t) * a + t * c)) • s.p1.elem + ((1 - t) * a + t * c) • s.p2.elem) =
      (1 - t) • (p - ((1 - a) • s.p1.elem + a • s.p2.elem)) + t • (q - ((1 - c) • s.p1.elem + c • s.p2.elem)) := by
    rw [hx]; module
  rw [this]
  refine (len_add_le _ _).trans ?_
  rw [len_smul, len_smul, abs_of_nonneg t0, abs_of_nonneg (by linarith)]
  nlinarith

/-- C88, conversely: everything in a segment the proper test calls contained is within `√(2 ε)` times the containing
segment's length of it. -/
theorem C88_segment_proper (s1 s2 : Seg n) (h : containsSS s1 s2 true = true) :
    ∀ x ∈ segSet s2, ∃ y ∈ segSet s1, eucl x y ≤ Real.sqrt (2 * epsilon) * eucl s1.p1.elem s1.p2.elem := by
  unfold containsSS at h
  rw [Bool.and_eq_true] at h
  rintro x ⟨t, t0, t1, rfl⟩
  exact near_seg (C61_rejects_proper _ _ h.1) (C61_rejects_proper _ _ h.2) t0 t1 rfl

theorem diffLoop_spec (b : Box n) (l : List (Fin n)) (hnd : l.Nodup) (got : Bool) :
    (diffLoop b l got = none ↔ (got = true ∧ ∃ i ∈ l, b.low.elem i ≠ b.high.elem i) ∨
      ∃ i ∈ l, ∃ j ∈ l, i ≠ j ∧ b.low.elem i ≠ b.high.elem i ∧ b.low.elem j ≠ b.high.elem j) ∧
    (∀ g, diffLoop b l got = some g → (g = true ↔ got = true ∨ ∃ i ∈ l, b.low.elem i ≠ b.high.elem i)) := by
  induction l generalizing got with
  | nil => simp [diffLoop]
  | cons k l ih =>
    rw [diffLoop]
    rw [List.nodup_cons] at hnd
    obtain ⟨ih1, ih2⟩ := ih hnd.2 got
    obtain ⟨ih3, ih4⟩ := ih hnd.2 true
    by_cases hk : b.low.elem k = b.high.elem k
    · rw [if_pos hk]
      constructor
      · rw [ih1]
        simp [hk]
      · intro g hg
        rw [ih2 g hg]
        simp [hk]
    · rw [if_neg hk]
      cases got with
      | true =>
        simp only [if_true, true_iff, reduceCtorEq, false_implies, implies_true, and_true]
        exact Or.inl ⟨trivial, k, by simp, hk⟩
      | false =>
        simp only [Bool.false_eq_true, if_false, false_and, false_or]
        constructor
        · rw [ih3]
          constructor
          · rintro (⟨-, i, hi, h⟩ | ⟨i, hi, j, hj, h⟩)
            · exact ⟨k, by simp, i, by simp [hi], fun e => hnd.1 (e ▸ hi), hk, h⟩
            · exact ⟨i, by simp [hi], j, by simp [hj], h⟩
          · rintro ⟨i, hi, j, hj, hij, h1, h2⟩
            rcases List.mem_cons.1 hi with rfl | hi
            · rcases List.mem_cons.1 hj with rfl | hj
              · exact absurd rfl hij
              · exact Or.inl ⟨rfl, j, hj, h2⟩
            · exact Or.inl ⟨rfl, i, hi, h1⟩
        · intro g hg
          rw [ih4 g hg]
          simp only [true_or, true_iff]
          exact ⟨k, by simp, hk⟩

/-- `Contains(segment, box)`: at most one axis of the box is not flat, and both its extreme corners are on the segment. -/
theorem containsSB_iff (s : Seg n) (b : Box n) (pr : Bool) : containsSB s b pr = true ↔
    (∀ i j, b.low.elem i ≠ b.high.elem i → b.low.elem j ≠ b.high.elem j → i = j) ∧
    interSP s b.low pr = true ∧ (b.low.elem ≠ b.high.elem → interSP s b.high pr = true) := by
  obtain ⟨h1, h2⟩ := diffLoop_spec b (List.finRange n) (List.nodup_finRange n) false
  unfold containsSB
  cases hd : diffLoop b (List.finRange n) false with
  | none =>
    simp only [Bool.false_eq_true, false_iff]
    rintro ⟨h, -⟩
    rcases h1.1 hd with ⟨h', -⟩ | ⟨i, -, j, -, hij, a1, a2⟩
    · exact absurd h' (by simp)
    · exact hij (h i j a1 a2)
  | some g =>
    have hg := h2 g hd
    have hg' : g = true ↔ b.low.elem ≠ b.high.elem := by
      rw [hg, Function.ne_iff]; simp
    have hone : ∀ i j, b.low.elem i ≠ b.high.elem i → b.low.elem j ≠ b.high.elem j → i = j := by
      intro i j a1 a2
      by_contra hij
      have := h1.2 (Or.inr ⟨i, by simp, j, by simp, hij, a1, a2⟩)
      rw [this] at hd; exact absurd hd (by simp)
    simp only [Bool.and_eq_true]
    constructor
    · rintro ⟨k1, k2⟩
      refine ⟨hone, k1, fun hne => ?_⟩
      rw [if_pos (hg'.2 hne)] at k2; exact k2
    · rintro ⟨-, k1, k2⟩
      refine ⟨k1, ?_⟩
      split_ifs with hgt
      · exact k2 (hg'.1 hgt)
      · rfl

/-- C88: a segment that contains all points of a box passes the test. -/
theorem C88_box (s : Seg n) (b : Box n) (ho : Ordered b) (h : boxSet b ⊆ segSet s) : containsSB s b false = true := by
  have hlow : b.low.elem ∈ boxSet b := fun i => ⟨le_rfl, ho i⟩
  have hhigh : b.high.elem ∈ boxSet b := fun i => ⟨ho i, le_rfl⟩
  rw [containsSB_iff]
  refine ⟨fun i j hi hj => ?_, C61_accepts _ _ (h hlow), fun _ => C61_accepts _ _ (h hhigh)⟩
  by_contra hij
  have hli : b.low.elem i < b.high.elem i := lt_of_le_of_ne (ho i) hi
  have hlj : b.low.elem j < b.high.elem j := lt_of_le_of_ne (ho j) hj
  have m : ∀ k, Function.update b.low.elem k (b.high.elem k) ∈ boxSet b := fun k l => by
    by_cases hl : l = k
    · subst hl; rw [Function.update_self]; exact ⟨ho l, le_rfl⟩
    · rw [Function.update_of_ne hl]; exact ⟨le_rfl, ho l⟩
  obtain ⟨t0, -, -, e0⟩ := h hlow
  obtain ⟨t1, -, -, e1⟩ := h (m i)
  obtain ⟨t2, -, -, e2⟩ := h (m j)
  have a0i := congrFun e0 i
  have a0j := congrFun e0 j
  have a1i := congrFun e1 i
  have a1j := congrFun e1 j
  have a2i := congrFun e2 i
  have a2j := congrFun e2 j
  rw [Function.update_self] at a1i a2j
  rw [Function.update_of_ne (fun e => hij e.symm)] at a1j
  rw [Function.update_of_ne hij] at a2i
  simp only [Pi.add_apply, Pi.smul_apply, smul_eq_mul] at a0i a0j a1i a1j a2i a2j
  have k1 : (t1 - t0) * (s.p2.elem i - s.p1.elem i) = b.high.elem i - b.low.elem i := by linarith
  have k2 : (t1 - t0) * (s.p2.elem j - s.p1.elem j) = 0 := by linarith
  have k3 : (t2 - t0) * (s.p2.elem j - s.p1.elem j) = b.high.elem j - b.low.elem j := by linarith
  rcases mul_eq_zero.1 k2 with k | k
  · rw [k, zero_mul] at k1; linarith
  · rw [k, mul_zero] at k3; linarith

/-- C88, conversely: all points of a box the proper test calls contained are within tolerance of the segment. -/
theorem C88_box_proper (s : Seg n) (b : Box n) (ho : Ordered b) (h : containsSB s b true = true) :
    ∀ x ∈ boxSet b, ∃ y ∈ segSet s, eucl x y ≤ Real.sqrt (2 * epsilon) * eucl s.p1.elem s.p2.elem := by
  rw [containsSB_iff] at h
  obtain ⟨h1, h2, h3⟩ := h
  intro x hx
  by_cases hne : b.low.elem = b.high.elem
  · have : x = b.low.elem := by
      funext i
      have := hx i
      have e := congrFun hne i
      linarith [this.1, this.2]
    rw [this]; exact C61_rejects_proper _ _ h2
  · obtain ⟨k, hk⟩ := Function.ne_iff.1 hne
    have hlk : b.low.elem k < b.high.elem k := lt_of_le_of_ne (ho k) hk
    have hd : 0 < b.high.elem k - b.low.elem k := by linarith
    have hxk := hx k
    refine near_seg (C61_rejects_proper _ _ h2) (C61_rejects_proper _ _ (h3 hne))
      (t := (x k - b.low.elem k) / (b.high.elem k - b.low.elem k)) (div_nonneg (by linarith) hd.le)
      (by rw [div_le_one hd]; linarith) ?_
    funext i
    simp only [Pi.add_apply, Pi.smul_apply, smul_eq_mul]
    by_cases hi : b.low.elem i = b.high.elem i
    · have := hx i
      rw [hi]
      have : x i = b.high.elem i := by linarith [this.1, this.2]
      rw [this]; ring
    · rw [h1 i k hi hk]
      field_simp
      ring

/-- C88, ball: only a ball of radius 0 is contained, and then as its centre. -/
theorem C88_ball (s : Seg n) (b : Ball n) (pr : Bool) :
    containsSBall s b pr = true ↔ b.radius = 0 ∧ interSP s b.center pr = true := by
  unfold containsSBall; rw [Bool.and_eq_true, decide_eq_true_iff]

/-- C88, ball, in terms of points: in two or more dimensions a ball inside a segment passes the test. -/
theorem C88_ball_inside (s : Seg n) (b : Ball n) (hn : 2 ≤ n) (hr : 0 ≤ b.radius) (h : ballSet b ⊆ segSet s) :
    containsSBall s b false = true := by
  rw [C88_ball]
  have hc : b.center.elem ∈ ballSet b := by show eucl _ _ ≤ _; rw [eucl_self]; exact hr
  refine ⟨?_, C61_accepts _ _ (h hc)⟩
  by_contra hne
  have hp : 0 < b.radius := lt_of_le_of_ne hr (Ne.symm hne)
  have hm : ∀ k, b.center.elem + b.radius • (Pi.single k 1 : Fin n → ℝ) ∈ ballSet b := fun k => by
    show eucl _ _ ≤ _
    rw [eucl_eq_len, add_sub_cancel_left, len_smul, abs_of_pos hp]
    have : len (Pi.single k (1 : ℝ) : Fin n → ℝ) = 1 := by
      rw [len]; simp
    rw [this, mul_one]
  obtain ⟨t0, -, -, e0⟩ := h hc
  obtain ⟨t1, -, -, e1⟩ := h (hm ⟨0, by omega⟩)
  obtain ⟨t2, -, -, e2⟩ := h (hm ⟨1, by omega⟩)
  have a0i := congrFun e0 ⟨0, by omega⟩
  have a0j := congrFun e0 ⟨1, by omega⟩
  have a1i := congrFun e1 ⟨0, by omega⟩
  have a1j := congrFun e1 ⟨1, by omega⟩
  have a2j := congrFun e2 ⟨1, by omega⟩
  simp only [Pi.add_apply, Pi.smul_apply, smul_eq_mul, Pi.single_eq_same] at a0i a0j a1i a1j a2j
  rw [Pi.single_eq_of_ne (by simp)] at a1j
  have k1 : (t1 - t0) * (s.p2.elem ⟨0, by omega⟩ - s.p1.elem ⟨0, by omega⟩) = b.radius := by linarith
  have k2 : (t1 - t0) * (s.p2.elem ⟨1, by omega⟩ - s.p1.elem ⟨1, by omega⟩) = 0 := by linarith
  have k3 : (t2 - t0) * (s.p2.elem ⟨1, by omega⟩ - s.p1.elem ⟨1, by omega⟩) = b.radius := by linarith
  rcases mul_eq_zero.1 k2 with k | k
  · rw [k, zero_mul] at k1; linarith
  · rw [k, mul_zero] at k3; linarith

/-- A flat box inside a horizontal segment. -/
example : containsSB (⟨⟨![0, 1], true⟩, ⟨![4, 1], true⟩⟩ : Seg 2) ⟨⟨![1, 1], true⟩, ⟨![2, 1], true⟩⟩ false = true := by
  rw [containsSB_iff]
  refine ⟨fun i j => by fin_cases i <;> fin_cases j <;> simp, C61_accepts _ _ ?_, fun _ => C61_accepts _ _ ?_⟩
  · exact ⟨1 / 4, by norm_num, by norm_num, by funext i; fin_cases i <;> simp <;> norm_num⟩
  · exact ⟨1 / 2, by norm_num, by norm_num, by funext i; fin_cases i <;> simp <;> norm_num⟩

end WFMath
