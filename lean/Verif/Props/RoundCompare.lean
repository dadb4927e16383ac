/- Property theorems C114: comparisons and box tests in floating point arithmetic. -/
import Verif.Model.Rounded
import Verif.Lemmas.Rounded
import Verif.Lemmas.Const
import Verif.Props.BoxTests

namespace WFMath
open Spec
variable {n : Nat}

namespace Fl

theorem isFl_epsilon : IsFl 53 epsilon := ⟨30, -52, by norm_num, by unfold epsilon; norm_num⟩

theorem isFl_scaleEpsilon {x y eps : ℝ} (h : IsFl 53 eps) : IsFl 53 (scaleEpsilon x y eps) := by
  unfold scaleEpsilon ldexp; exact h.mul_zpow _

theorem isFl_scaleEpsilonArr {x y : Fin n → ℝ} {eps : ℝ} (h : IsFl 53 eps) : IsFl 53 (scaleEpsilonArr x y eps) :=
  isFl_scaleEpsilon h

/-- A rounded number not above a bound: the number itself is hardly above it. -/
theorem le_of_round {r : Rounding 53} {x δ : ℝ} (h : |r x| ≤ δ) : |x| ≤ δ * (1 + 2 ^ (-52 : ℤ)) := by
  have h1 := r.err pos53 x
  rw [u53] at h1
  have h2 := abs_sub_abs_le_abs_sub x (r x)
  rw [abs_sub_comm] at h2
  have h0 := abs_nonneg x
  norm_num at h1 ⊢
  nlinarith

theorem arrEqual_of {r : Rounding 53} {x y : Fin n → ℝ} {eps : ℝ} (he : IsFl 53 eps)
    (h : ∀ i, |x i - y i| ≤ scaleEpsilonArr x y eps) : arrEqual r x y eps = true := by
  simp only [arrEqual, List.all_eq_true, List.mem_finRange, true_implies, Bool.not_eq_true', decide_eq_false_iff_not, not_lt, gt_iff_lt]
  exact fun i => r.abs_le_fl (isFl_scaleEpsilonArr he) (h i)

theorem of_arrEqual {r : Rounding 53} {x y : Fin n → ℝ} {eps : ℝ} (h : arrEqual r x y eps = true) (i : Fin n) :
    |x i - y i| ≤ scaleEpsilonArr x y (eps * (1 + 2 ^ (-52 : ℤ))) := by
  simp only [arrEqual, List.all_eq_true, List.mem_finRange, true_implies, Bool.not_eq_true', decide_eq_false_iff_not, not_lt, gt_iff_lt] at h
  have := le_of_round (h i)
  unfold scaleEpsilonArr scaleEpsilon ldexp at this ⊢
  linarith

theorem arrEqual_symm (r : Rounding 53) (x y : Fin n → ℝ) (eps : ℝ) : arrEqual r x y eps = arrEqual r y x eps := by
  have h : ∀ i, |r (x i - y i)| = |r (y i - x i)| := fun i => by
    rw [show x i - y i = -(y i - x i) by ring, r.odd, abs_neg]
  unfold arrEqual
  simp only [h, scaleEpsilonArr_symm x y]

theorem less_of_less {r : Rounding 53} {x y : ℝ} {proper : Bool} (h : less r x y proper = true) : WFMath.less x y proper = true := by
  cases proper
  · simp only [less, Bool.false_eq_true, if_false, decide_eq_true_eq, gt_iff_lt] at h
    rw [less_false]
    by_contra hc
    push Not at hc
    have := r.le_fl isFl_epsilon (show y - x ≤ epsilon by linarith)
    linarith
  · simpa [less] using h

theorem greater_of_greater {r : Rounding 53} {x y : ℝ} {proper : Bool} (h : greater r x y proper = true) :
    WFMath.greater x y proper = true := by
  cases proper
  · simp only [greater, Bool.false_eq_true, if_false, decide_eq_true_eq, gt_iff_lt] at h
    rw [greater_false]
    by_contra hc
    push Not at hc
    have := r.le_fl isFl_epsilon (show x - y ≤ epsilon by linarith)
    linarith
  · simpa [greater] using h

theorem not_less {r : Rounding 53} {x y : ℝ} (h : ¬ less r x y false = true) : y ≤ x + epsilon * (1 + 2 ^ (-52 : ℤ)) := by
  simp only [less, Bool.false_eq_true, if_false, decide_eq_true_eq, gt_iff_lt, not_lt] at h
  rcases le_total y x with hyx | hyx
  · have := mul_nonneg epsilon_pos.le (show (0 : ℝ) ≤ 1 + 2 ^ (-52 : ℤ) by positivity)
    linarith
  have := le_of_round (r := r) (x := y - x) (δ := epsilon) (by rwa [abs_of_nonneg (r.nonneg (by linarith))])
  rw [abs_of_nonneg (by linarith)] at this
  linarith

theorem not_greater {r : Rounding 53} {x y : ℝ} (h : ¬ greater r x y false = true) : x ≤ y + epsilon * (1 + 2 ^ (-52 : ℤ)) :=
  not_less (r := r) (x := y) (y := x) (by simpa [less, greater] using h)

theorem less_proper (r : Rounding 53) (x y : ℝ) : less r x y true = WFMath.less x y true := by simp [less, WFMath.less]
theorem greater_proper (r : Rounding 53) (x y : ℝ) : greater r x y true = WFMath.greater x y true := by simp [greater, WFMath.greater]

end Fl

/-- Boxes near one another, coordinate by coordinate. -/
theorem meets_near_box {a b : Box n} (ha : Ordered a) (hb : Ordered b) {δ : ℝ} (hδ : 0 ≤ δ) :
    (boxSet a ∩ near δ (boxSet b)).Nonempty ↔ ∀ i, a.low.elem i ≤ b.high.elem i + δ ∧ b.low.elem i ≤ a.high.elem i + δ := by
  constructor
  · rintro ⟨x, hx, hy⟩ i
    rw [mem_near_box hb hδ] at hy
    have := hx i; have := hy i
    constructor <;> linarith
  · intro h
    refine ⟨fun i => max (a.low.elem i) (b.low.elem i - δ), fun i => ⟨le_max_left _ _, max_le (ha i) ?_⟩, ?_⟩
    · linarith [(h i).2]
    · rw [mem_near_box hb hδ]
      refine fun i => ⟨le_max_right _ _, max_le (h i).1 ?_⟩
      linarith [hb i]

theorem subset_near_box {a b : Box n} (ha : Ordered a) (hb : Ordered b) {δ : ℝ} (hδ : 0 ≤ δ) :
    boxSet a ⊆ near δ (boxSet b) ↔ ∀ i, b.low.elem i ≤ a.low.elem i + δ ∧ a.high.elem i ≤ b.high.elem i + δ := by
  constructor
  · intro h i
    have h1 := (mem_near_box hb hδ).1 (h (low_mem ha)) i
    have h2 := (mem_near_box hb hδ).1 (h (high_mem ha)) i
    constructor <;> linarith
  · intro h x hx
    rw [mem_near_box hb hδ]
    intro i
    have := h i; have := hx i
    constructor <;> linarith

/-- C114, numbers: for numbers that are doubles, `Equal` computed in doubles gives the answer of exact arithmetic, for every tolerance up to 1/4. -/
theorem C114_equal (r : Rounding 53) {x y eps : ℝ} (hx : IsFl 53 x) (hy : IsFl 53 y) (he : IsFl 53 eps) (h0 : 0 ≤ eps)
    (h1 : eps ≤ 1 / 4) : Fl.equal r x y eps = equal x y eps := by
  unfold Fl.equal equal
  congr 1
  rw [eq_iff_iff]
  constructor
  · intro h
    suffices hfl : IsFl 53 (x - y) by rwa [r.of_fl hfl] at h
    by_cases hx0 : x = 0
    · subst hx0; simpa using hy.neg
    by_cases hy0 : y = 0
    · subst hy0; simpa using hx
    have h2 := scaleEpsilon_le h0 hx0 hy0
    have h3 := Fl.le_of_round h
    have hm1 := min_le_left |x| |y|
    have hm2 := min_le_right |x| |y|
    have hm0 : 0 ≤ min |x| |y| := le_min (abs_nonneg _) (abs_nonneg _)
    have h4 : |x - y| ≤ min |x| |y| := by
      refine h3.trans ?_
      have : scaleEpsilon x y eps ≤ 1 / 2 * min |x| |y| := by nlinarith
      have h5 : (0 : ℝ) ≤ 1 + 2 ^ (-52 : ℤ) := by positivity
      have h6 := mul_le_mul_of_nonneg_right this h5
      have h7 : (1 : ℝ) / 2 * (1 + 2 ^ (-52 : ℤ)) ≤ 1 := by norm_num
      calc _ ≤ 1 / 2 * min |x| |y| * (1 + 2 ^ (-52 : ℤ)) := h6
        _ = 1 / 2 * (1 + 2 ^ (-52 : ℤ)) * min |x| |y| := by ring
        _ ≤ 1 * min |x| |y| := mul_le_mul_of_nonneg_right h7 hm0
        _ = min |x| |y| := one_mul _
    exact hx.sub hy (h4.trans hm1) (h4.trans hm2)
  · intro h
    exact r.abs_le_fl (Fl.isFl_scaleEpsilon he) h

/-- C114, vectors and points: rounding never turns an acceptance by `isEqualTo` into a rejection, and an acceptance in doubles is one of exact arithmetic with a
tolerance larger by the factor `1 + 2^-52`. The computed answer does not depend on the order of the arguments. -/
theorem C114_equal_arrays (r : Rounding 53) {eps : ℝ} (he : IsFl 53 eps) :
    (∀ u v : Vec n, u.isEqualTo v eps = true → Fl.vecEqual r u v eps = true) ∧
    (∀ u v : Vec n, Fl.vecEqual r u v eps = true → u.isEqualTo v (eps * (1 + 2 ^ (-52 : ℤ))) = true) ∧
    (∀ u v : Vec n, Fl.vecEqual r u v eps = Fl.vecEqual r v u eps) ∧
    (∀ p q : Pt n, p.isEqualTo q eps = true → Fl.ptEqual r p q eps = true) ∧
    (∀ p q : Pt n, Fl.ptEqual r p q eps = true → p.isEqualTo q (eps * (1 + 2 ^ (-52 : ℤ))) = true) ∧
    (∀ p q : Pt n, Fl.ptEqual r p q eps = Fl.ptEqual r q p eps) := by
  refine ⟨fun u v h => ?_, fun u v h => ?_, fun u v => ?_, fun u v h => ?_, fun u v h => ?_, fun u v => ?_⟩
  · unfold Vec.isEqualTo at h
    unfold Fl.vecEqual
    split_ifs at h ⊢
    simp only [List.all_eq_true, List.mem_finRange, true_implies, Bool.not_eq_true', decide_eq_false_iff_not, not_lt, gt_iff_lt] at h
    exact Fl.arrEqual_of he h
  · unfold Fl.vecEqual at h
    unfold Vec.isEqualTo
    split_ifs at h ⊢
    simp only [List.all_eq_true, List.mem_finRange, true_implies, Bool.not_eq_true', decide_eq_false_iff_not, not_lt, gt_iff_lt]
    exact Fl.of_arrEqual h
  · unfold Fl.vecEqual
    rw [Fl.arrEqual_symm, Bool.or_comm]
  · unfold Pt.isEqualTo at h
    unfold Fl.ptEqual
    split_ifs at h ⊢
    simp only [List.all_eq_true, List.mem_finRange, true_implies, Bool.not_eq_true', decide_eq_false_iff_not, not_lt, gt_iff_lt] at h
    exact Fl.arrEqual_of he h
  · unfold Fl.ptEqual at h
    unfold Pt.isEqualTo
    split_ifs at h ⊢
    simp only [List.all_eq_true, List.mem_finRange, true_implies, Bool.not_eq_true', decide_eq_false_iff_not, not_lt, gt_iff_lt]
    exact Fl.of_arrEqual h
  · unfold Fl.ptEqual
    rw [Fl.arrEqual_symm, Bool.or_comm]

/-- C114, boxes, proper tests: they compute nothing, so they give the answers of exact arithmetic (C54). -/
theorem C114_box_proper (r : Rounding 53) (a b : Box n) (p : Pt n) :
    (Fl.interBP r b p true = true ↔ p.elem ∈ boxInterior b) ∧
    (Ordered b → (Fl.containsBB r a b true = true ↔ boxSet b ⊆ boxInterior a)) ∧
    (Ordered a → Ordered b → (Fl.interBB r a b true = true ↔
      ∃ δ > 0, ∀ v : Fin n → ℝ, (∀ i, |v i| < δ) → (boxSet a ∩ moved v (boxSet b)).Nonempty)) := by
  refine ⟨?_, fun hb => ?_, fun ha hb => ?_⟩
  · rw [← (C54_point b p).1]
    unfold Fl.interBP interBP
    simp only [Fl.less_proper, Fl.greater_proper]
  · rw [← (C54_contains a b hb).1]
    unfold Fl.containsBB containsBB
    simp only [Fl.less_proper, Fl.greater_proper]
  · rw [← C54_overlap_proper a b ha hb]
    unfold Fl.interBB interBB
    simp only [Fl.less_proper, Fl.greater_proper]

/-- C114, boxes, tolerant tests: computed in doubles they accept whatever exact arithmetic accepts with the tolerance epsilon, and nothing beyond the tolerance
`epsilon (1 + 2^-52)`. -/
theorem C114_box (r : Rounding 53) (a b : Box n) (ha : Ordered a) (hb : Ordered b) (p : Pt n) :
    (p.elem ∈ near epsilon (boxSet b) → Fl.interBP r b p false = true) ∧
    (Fl.interBP r b p false = true → p.elem ∈ near (epsilon * (1 + 2 ^ (-52 : ℤ))) (boxSet b)) ∧
    ((boxSet a ∩ near epsilon (boxSet b)).Nonempty → Fl.interBB r a b false = true) ∧
    (Fl.interBB r a b false = true → (boxSet a ∩ near (epsilon * (1 + 2 ^ (-52 : ℤ))) (boxSet b)).Nonempty) ∧
    (boxSet b ⊆ near epsilon (boxSet a) → Fl.containsBB r a b false = true) ∧
    (Fl.containsBB r a b false = true → boxSet b ⊆ near (epsilon * (1 + 2 ^ (-52 : ℤ))) (boxSet a)) := by
  have hd : 0 ≤ epsilon * (1 + 2 ^ (-52 : ℤ)) := mul_nonneg epsilon_pos.le (by positivity)
  refine ⟨fun h => ?_, fun h => ?_, fun h => ?_, fun h => ?_, fun h => ?_, fun h => ?_⟩
  · rw [← (C54_point b p).2.1 hb] at h
    unfold interBP at h; unfold Fl.interBP
    simp only [List.all_eq_true, List.mem_finRange, true_implies, not_or_bool] at h ⊢
    exact fun i => ⟨fun hc => (h i).1 (Fl.greater_of_greater hc), fun hc => (h i).2 (Fl.less_of_less hc)⟩
  · rw [mem_near_box hb hd]
    unfold Fl.interBP at h
    simp only [List.all_eq_true, List.mem_finRange, true_implies, not_or_bool] at h
    intro i
    have h1 := Fl.not_greater (h i).1
    have h2 := Fl.not_less (h i).2
    constructor <;> linarith
  · rw [← (C54_overlap a b ha hb).1] at h
    unfold interBB at h; unfold Fl.interBB
    simp only [List.all_eq_true, List.mem_finRange, true_implies, not_or_bool] at h ⊢
    exact fun i => ⟨fun hc => (h i).1 (Fl.greater_of_greater hc), fun hc => (h i).2 (Fl.less_of_less hc)⟩
  · rw [meets_near_box ha hb hd]
    unfold Fl.interBB at h
    simp only [List.all_eq_true, List.mem_finRange, true_implies, not_or_bool] at h
    exact fun i => ⟨Fl.not_greater (h i).1, Fl.not_less (h i).2⟩
  · rw [← (C54_contains a b hb).2.1 ha] at h
    unfold containsBB at h; unfold Fl.containsBB
    simp only [List.all_eq_true, List.mem_finRange, true_implies, not_or_bool] at h ⊢
    exact fun i => ⟨fun hc => (h i).1 (Fl.less_of_less hc), fun hc => (h i).2 (Fl.greater_of_greater hc)⟩
  · rw [subset_near_box hb ha hd]
    unfold Fl.containsBB at h
    simp only [List.all_eq_true, List.mem_finRange, true_implies, not_or_bool] at h
    exact fun i => ⟨Fl.not_less (h i).1, Fl.not_greater (h i).2⟩

/-- A rounding of doubles exists, and the numbers compared below are doubles. -/
example : Fl.equal (someRounding 53 Fl.pos53) 3 4 (1 / 8) = equal 3 4 (1 / 8) :=
  C114_equal _ (by simpa using IsFl.nat Fl.pos53 (k := 3) (by norm_num)) (by simpa using IsFl.nat Fl.pos53 (k := 4) (by norm_num))
    ⟨1, -3, by norm_num, by norm_num⟩ (by norm_num) (by norm_num)

end WFMath
