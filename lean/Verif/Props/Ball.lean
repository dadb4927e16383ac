/- Property theorems C55 (ball predicates) and C87 (bounding box of a ball). -/
import Verif.Props.BoxTests
import Verif.Lemmas.Eucl

namespace WFMath
open Spec
variable {n : Nat}

namespace Spec
/-- The squared distance of the points is so small compared with their coordinates that the library's `SquaredDistance`
returns 0 instead. -/
def Flushed (p q : Pt n) : Prop := eucl p.elem q.elem ^ 2 < scaleEpsilonArr p.elem q.elem epsilon
/-- The ball with its radius enlarged by the factor `√(1 + ε)`. -/
noncomputable def grown (b : Ball n) : Ball n := ⟨b.center, Real.sqrt (1 + epsilon) * b.radius⟩
end Spec

theorem sub_sqrMag (p q : Pt n) : (p.sub q).sqrMag = eucl p.elem q.elem ^ 2 := by
  rw [eucl_sq, Vec.sqrMag_eq]
  simp only [Pt.sub_elem, dotProduct, Pi.sub_apply, sq]

theorem sqDist_eq (p q : Pt n) : p.sqDist q = if scaleEpsilonArr p.elem q.elem epsilon ≤ eucl p.elem q.elem ^ 2 then
    eucl p.elem q.elem ^ 2 else 0 := by
  have h : ∑ i, (p.elem i - q.elem i) * (p.elem i - q.elem i) = eucl p.elem q.elem ^ 2 := by
    rw [eucl_sq]; simp only [sq]
  unfold Pt.sqDist
  simp only [h]
  rw [abs_of_nonneg (sq_nonneg _)]

theorem sqDist_exact {p q : Pt n} (h : ¬ Flushed p q) : p.sqDist q = eucl p.elem q.elem ^ 2 := by
  rw [sqDist_eq, if_pos (not_lt.1 h)]
theorem sqDist_flushed {p q : Pt n} (h : Flushed p q) : p.sqDist q = 0 := by rw [sqDist_eq, if_neg (not_le.2 h)]

theorem sqDist_le_iff {p q : Pt n} {s : ℝ} (hs : 0 ≤ s) : p.sqDist q ≤ s ^ 2 ↔ eucl p.elem q.elem ≤ s ∨ Flushed p q := by
  by_cases h : Flushed p q
  · rw [sqDist_flushed h]; exact ⟨fun _ => Or.inr h, fun _ => sq_nonneg _⟩
  · rw [sqDist_exact h, pow_le_pow_iff_left₀ (eucl_nonneg _ _) hs (by norm_num)]; tauto

theorem sqDist_lt_iff {p q : Pt n} {s : ℝ} (hs : 0 ≤ s) :
    p.sqDist q < s ^ 2 ↔ eucl p.elem q.elem < s ∨ (0 < s ∧ Flushed p q) := by
  by_cases h : Flushed p q
  · rw [sqDist_flushed h]
    constructor
    · intro h1
      exact Or.inr ⟨lt_of_le_of_ne hs fun e => by rw [← e] at h1; norm_num at h1, h⟩
    · rintro (h1 | ⟨h1, _⟩)
      · have := (eucl_nonneg p.elem q.elem).trans_lt h1; positivity
      · positivity
  · rw [sqDist_exact h, pow_lt_pow_iff_left₀ (eucl_nonneg _ _) hs (by norm_num)]; tauto

theorem one_le_grow : 1 ≤ Real.sqrt (1 + epsilon) := by
  rw [Real.one_le_sqrt]; linarith [epsilon_pos]

theorem grow_sq (r : ℝ) : r * r * (1 + epsilon) = (Real.sqrt (1 + epsilon) * r) ^ 2 := by
  rw [mul_pow, Real.sq_sqrt (by linarith [epsilon_pos])]; ring

/-! ### C55 -/

/-- C55, ball and point: exactly membership in the ball with radius enlarged by `√(1 + ε)` (the open one when `proper`),
except that points so close to the centre that their squared distance is rounded to 0 count as the centre. -/
theorem C55_point (b : Ball n) (p : Pt n) (hr : 0 ≤ b.radius) :
    (interBallP b p false = true ↔ p.elem ∈ ballSet (grown b) ∨ Flushed b.center p) ∧
    (interBallP b p true = true ↔ p.elem ∈ ballInterior (grown b) ∨ (0 < b.radius ∧ Flushed b.center p)) ∧
    (p.elem ∈ ballSet b → interBallP b p false = true) ∧ (p.elem ∈ ballInterior b → interBallP b p true = true) := by
  have hg := one_le_grow
  have hg' : 0 ≤ Real.sqrt (1 + epsilon) * b.radius := mul_nonneg (by linarith) hr
  have hle : b.radius ≤ Real.sqrt (1 + epsilon) * b.radius := le_mul_of_one_le_left hr hg
  have h1 : interBallP b p false = true ↔ p.elem ∈ ballSet (grown b) ∨ Flushed b.center p := by
    unfold interBallP
    rw [lessEq_false, grow_sq, sqDist_le_iff hg', eucl_comm]; rfl
  have h2 : interBallP b p true = true ↔ p.elem ∈ ballInterior (grown b) ∨ (0 < b.radius ∧ Flushed b.center p) := by
    unfold interBallP
    rw [lessEq_true, grow_sq, sqDist_lt_iff hg', eucl_comm]
    have : 0 < Real.sqrt (1 + epsilon) * b.radius ↔ 0 < b.radius := by
      rw [mul_pos_iff_of_pos_left (by linarith)]
    rw [this]; rfl
  refine ⟨h1, h2, fun h => h1.2 (Or.inl ?_), fun h => h2.2 (Or.inl ?_)⟩
  · exact le_trans (show eucl p.elem b.center.elem ≤ b.radius from h) hle
  · exact lt_of_lt_of_le (show eucl p.elem b.center.elem < b.radius from h) hle

/-- The point of the interval nearest to `c`. -/
noncomputable def clamp (c lo hi : ℝ) : ℝ := if c < lo then lo else if c > hi then hi else c

theorem clamp_mem {c lo hi : ℝ} (h : lo ≤ hi) : lo ≤ clamp c lo hi ∧ clamp c lo hi ≤ hi := by
  unfold clamp; split_ifs <;> constructor <;> linarith

theorem clamp_dist (c lo hi : ℝ) : axisDistSq c lo hi = (clamp c lo hi - c) ^ 2 := by
  unfold clamp axisDistSq; split_ifs <;> ring

theorem axisDist_le {c lo hi x : ℝ} (h1 : lo ≤ x) (h2 : x ≤ hi) : axisDistSq c lo hi ≤ (x - c) ^ 2 := by
  unfold axisDistSq; split_ifs <;> nlinarith

/-- C55, ball and box: exactly whether a point of the box is in the ball, the open ball when `proper`. -/
theorem C55_box (b : Ball n) (a : Box n) (hr : 0 ≤ b.radius) (ha : Ordered a) :
    (interBallB b a false = true ↔ (ballSet b ∩ boxSet a).Nonempty) ∧
    (interBallB b a true = true ↔ (ballInterior b ∩ boxSet a).Nonempty) := by
  have hm : (fun i => clamp (b.center.elem i) (a.low.elem i) (a.high.elem i)) ∈ boxSet a := fun i => clamp_mem (ha i)
  have hd : eucl (fun i => clamp (b.center.elem i) (a.low.elem i) (a.high.elem i)) b.center.elem ^ 2 =
      ∑ i, axisDistSq (b.center.elem i) (a.low.elem i) (a.high.elem i) := by
    rw [eucl_sq]; exact Finset.sum_congr rfl fun i _ => (clamp_dist _ _ _).symm
  have hmin : ∀ x ∈ boxSet a, ∑ i, axisDistSq (b.center.elem i) (a.low.elem i) (a.high.elem i) ≤ eucl x b.center.elem ^ 2 := by
    intro x hx
    rw [eucl_sq]; exact Finset.sum_le_sum fun i _ => axisDist_le (hx i).1 (hx i).2
  unfold interBallB
  rw [lessEq_false, lessEq_true, ← sq]
  constructor
  · constructor
    · intro h
      exact ⟨_, (pow_le_pow_iff_left₀ (eucl_nonneg _ _) hr (by norm_num)).1 (hd ▸ h), hm⟩
    · rintro ⟨x, h1, h2⟩
      exact (hmin x h2).trans (pow_le_pow_left₀ (eucl_nonneg _ _) h1 2)
  · constructor
    · intro h
      exact ⟨_, (pow_lt_pow_iff_left₀ (eucl_nonneg _ _) hr (by norm_num)).1 (hd ▸ h), hm⟩
    · rintro ⟨x, h1, h2⟩
      exact (hmin x h2).trans_lt (pow_lt_pow_left₀ h1 (eucl_nonneg _ _) (by norm_num))

/-- C55, ball and box, proper test, when the box has positive extent on every axis: the interiors share a point. -/
theorem C55_box_solid (b : Ball n) (a : Box n) (hr : 0 ≤ b.radius) (ha : Solid a) :
    interBallB b a true = true ↔ (ballInterior b ∩ boxInterior a).Nonempty := by
  rw [(C55_box b a hr fun i => (ha i).le).2]
  constructor
  · rintro ⟨x, h1, h2⟩
    have h1' : eucl x b.center.elem < b.radius := h1
    let m : Fin n → ℝ := fun i => (a.low.elem i + a.high.elem i) / 2
    have hm := eucl_nonneg x m
    have ht : 0 < (b.radius - eucl x b.center.elem) / (b.radius + eucl x m + 1) ∧
        (b.radius - eucl x b.center.elem) / (b.radius + eucl x m + 1) ≤ 1 ∧
        (b.radius - eucl x b.center.elem) / (b.radius + eucl x m + 1) * eucl x m < b.radius - eucl x b.center.elem := by
      have hp : 0 < b.radius - eucl x b.center.elem := by linarith
      have hq : 0 < b.radius + eucl x m + 1 := by linarith
      refine ⟨div_pos hp hq, (div_le_one hq).2 (by linarith [eucl_nonneg x b.center.elem]), ?_⟩
      rw [div_mul_eq_mul_div, div_lt_iff₀ hq]
      nlinarith
    obtain ⟨t, t0, t1, t2⟩ : ∃ t : ℝ, 0 < t ∧ t ≤ 1 ∧ t * eucl x m < b.radius - eucl x b.center.elem := ⟨_, ht⟩
    refine ⟨x + t • (m - x), ?_, fun i => ?_⟩
    · show eucl _ _ < _
      have e1 := eucl_triangle (x + t • (m - x)) x b.center.elem
      have e2 : eucl (x + t • (m - x)) x = t * eucl x m := by
        rw [eucl_eq_len, add_sub_cancel_left, len_smul, len_sub_comm, ← eucl_eq_len, abs_of_pos t0]
      linarith
    · have h3 := h2 i; have h4 := ha i
      have e : (x + t • (m - x)) i = x i + t * ((a.low.elem i + a.high.elem i) / 2 - x i) := rfl
      rw [e]
      constructor <;> nlinarith
  · rintro ⟨x, h1, h2⟩
    exact ⟨x, h1, fun i => ⟨(h2 i).1.le, (h2 i).2.le⟩⟩

/-- C55, ball containing a box: exactly inclusion in the ball with radius enlarged by `√(1 + ε)`, the open one when
`proper`. -/
theorem C55_contains_box (b : Ball n) (a : Box n) (hr : 0 ≤ b.radius) (ha : Ordered a) :
    (containsBallB b a false = true ↔ boxSet a ⊆ ballSet (grown b)) ∧
    (containsBallB b a true = true ↔ boxSet a ⊆ ballInterior (grown b)) := by
  have hg' : 0 ≤ Real.sqrt (1 + epsilon) * b.radius := mul_nonneg (by linarith [one_le_grow]) hr
  let far : Fin n → ℝ := fun i => if |b.center.elem i - a.low.elem i| > |b.center.elem i - a.high.elem i| then a.low.elem i
    else a.high.elem i
  have hfar : far ∈ boxSet a := fun i => by
    simp only [far]; split_ifs
    · exact ⟨le_rfl, ha i⟩
    · exact ⟨ha i, le_rfl⟩
  have hd : ∑ i, floatMax |b.center.elem i - a.low.elem i| |b.center.elem i - a.high.elem i| *
      floatMax |b.center.elem i - a.low.elem i| |b.center.elem i - a.high.elem i| = eucl far b.center.elem ^ 2 := by
    rw [eucl_sq]
    refine Finset.sum_congr rfl fun i _ => ?_
    simp only [far, floatMax]
    split_ifs <;> rw [abs_mul_abs_self] <;> ring
  have hmax : ∀ x ∈ boxSet a, eucl x b.center.elem ≤ eucl far b.center.elem := by
    intro x hx
    rw [eucl_le_iff (eucl_nonneg _ _), eucl_sq]
    refine Finset.sum_le_sum fun i _ => ?_
    rw [sq_le_sq]
    have h1 := hx i
    have key : |x i - b.center.elem i| ≤ max |b.center.elem i - a.low.elem i| |b.center.elem i - a.high.elem i| := by
      rw [abs_le]
      have k1 := le_max_left |b.center.elem i - a.low.elem i| |b.center.elem i - a.high.elem i|
      have k2 := le_max_right |b.center.elem i - a.low.elem i| |b.center.elem i - a.high.elem i|
      have k3 := le_abs_self (b.center.elem i - a.low.elem i)
      have k4 := neg_le_abs (b.center.elem i - a.high.elem i)
      constructor <;> linarith
    refine key.trans (le_of_eq ?_)
    simp only [far]
    split_ifs with h
    · rw [max_eq_left h.le, abs_sub_comm]
    · rw [max_eq_right (not_lt.1 h), abs_sub_comm]
  unfold containsBallB
  rw [lessEq_false, lessEq_true, grow_sq, hd, pow_le_pow_iff_left₀ (eucl_nonneg _ _) hg' (by norm_num),
    pow_lt_pow_iff_left₀ (eucl_nonneg _ _) hg' (by norm_num)]
  exact ⟨⟨fun h x hx => (hmax x hx).trans h, fun h => h hfar⟩, ⟨fun h x hx => (hmax x hx).trans_lt h, fun h => h hfar⟩⟩

theorem axis_point (b : Ball n) (hr : 0 ≤ b.radius) (i : Fin n) (s : ℝ) (hs : |s| ≤ b.radius) :
    (Function.update b.center.elem i (b.center.elem i + s)) ∈ ballSet b := by
  show eucl _ _ ≤ _
  rw [eucl_le_iff hr]
  have : ∀ j, (Function.update b.center.elem i (b.center.elem i + s) j - b.center.elem j) ^ 2 = if j = i then s ^ 2 else 0 := by
    intro j
    by_cases h : j = i
    · subst h; simp
    · simp [h]
  simp only [this, Finset.sum_ite_eq', Finset.mem_univ, if_true]
  rw [sq_le_sq, abs_of_nonneg hr]; exact hs

theorem ball_bounds {b : Ball n} {x : Fin n → ℝ} (hx : x ∈ ballSet b) (i : Fin n) :
    b.center.elem i - b.radius ≤ x i ∧ x i ≤ b.center.elem i + b.radius := by
  have := abs_le.1 ((abs_sub_le_eucl x b.center.elem i).trans hx)
  constructor <;> linarith

/-- C55, box containing a ball: exactly inclusion of the ball in the open box when `proper`, otherwise in the closed box
with every coordinate allowed to be off by epsilon. -/
theorem C55_box_contains (a : Box n) (b : Ball n) (hr : 0 ≤ b.radius) :
    (containsBBall a b true = true ↔ ballSet b ⊆ boxInterior a) ∧
    (Ordered a → (containsBBall a b false = true ↔ ballSet b ⊆ near epsilon (boxSet a))) ∧
    (ballSet b ⊆ boxSet a → containsBBall a b false = true) := by
  have he := epsilon_pos
  have ct : containsBBall a b true = true ↔
      ∀ i, a.low.elem i < b.center.elem i - b.radius ∧ b.center.elem i + b.radius < a.high.elem i := by
    unfold containsBBall
    simp only [List.all_eq_true, List.mem_finRange, true_implies, not_or_bool, greater_true, less_true, not_le]
  have cf : containsBBall a b false = true ↔ ∀ i, a.low.elem i ≤ b.center.elem i - b.radius + epsilon ∧
      b.center.elem i + b.radius ≤ a.high.elem i + epsilon := by
    unfold containsBBall
    simp only [List.all_eq_true, List.mem_finRange, true_implies, not_or_bool, greater_false, less_false, not_lt]
  have up : ∀ i, (Function.update b.center.elem i (b.center.elem i + b.radius)) ∈ ballSet b := fun i =>
    axis_point b hr i _ (by rw [abs_of_nonneg hr])
  have dn : ∀ i, (Function.update b.center.elem i (b.center.elem i + -b.radius)) ∈ ballSet b := fun i =>
    axis_point b hr i _ (by rw [abs_neg, abs_of_nonneg hr])
  rw [ct, cf]
  refine ⟨⟨fun h x hx i => ?_, fun h i => ?_⟩, fun ho => ⟨fun h x hx => ?_, fun h i => ?_⟩, fun h i => ?_⟩
  · have := ball_bounds hx i; have := h i
    constructor <;> linarith
  · have h1 := (h (up i) i).2; have h2 := (h (dn i) i).1
    simp only [Function.update_self] at h1 h2
    constructor <;> linarith
  · rw [mem_near_box ho he.le]
    intro i
    have := ball_bounds hx i; have := h i
    constructor <;> linarith
  · have h1 := ((mem_near_box ho he.le).1 (h (up i)) i).2; have h2 := ((mem_near_box ho he.le).1 (h (dn i)) i).1
    simp only [Function.update_self] at h1 h2
    constructor <;> linarith
  · have h1 := (h (up i) i).2; have h2 := (h (dn i) i).1
    simp only [Function.update_self] at h1 h2
    constructor <;> linarith

/-- C55, two balls: exactly whether they share a point, interior points when `proper`, except that centres whose squared
distance is rounded to 0 count as equal. -/
theorem C55_balls (a b : Ball n) (ha : 0 ≤ a.radius) (hb : 0 ≤ b.radius) :
    (interBallBall a b false = true ↔ (ballSet a ∩ ballSet b).Nonempty ∨ Flushed a.center b.center) ∧
    (0 < a.radius → 0 < b.radius →
      (interBallBall a b true = true ↔ (ballInterior a ∩ ballInterior b).Nonempty ∨ Flushed a.center b.center)) ∧
    ∀ proper, interBallBall a b proper = interBallBall b a proper := by
  refine ⟨?_, fun ha' hb' => ?_, fun proper => ?_⟩
  · unfold interBallBall
    rw [lessEq_false, ← sq, sqDist_le_iff (by linarith), ballSet_inter a b ha hb]
  · unfold interBallBall
    rw [lessEq_true, ← sq, sqDist_lt_iff (by linarith), ballInterior_inter a b ha' hb']
    have : 0 < a.radius + b.radius := by linarith
    tauto
  · unfold interBallBall
    rw [(C32_sqDist _ _).1, add_comm]

/-- C55, ball containing a ball: when the outer ball is at least as large, exactly inclusion (in the open ball when
`proper`), except that centres whose squared distance is rounded to 0 count as equal; when the outer ball is smaller the
proper test is false, and the other is true at most when it is smaller by no more than epsilon. -/
theorem C55_contains_ball (hn : 0 < n) (a b : Ball n) (hb : 0 ≤ b.radius) :
    (b.radius ≤ a.radius → (containsBallBall a b false = true ↔ ballSet b ⊆ ballSet a ∨ Flushed a.center b.center)) ∧
    (b.radius < a.radius → (containsBallBall a b true = true ↔ ballSet b ⊆ ballInterior a ∨ Flushed a.center b.center)) ∧
    (a.radius ≤ b.radius → containsBallBall a b true = false) ∧
    (a.radius < b.radius → containsBallBall a b false = true →
      b.radius ≤ a.radius + epsilon ∧ (Flushed a.center b.center ∨ ballSet b ⊆ ballSet ⟨a.center, a.radius + 2 * epsilon⟩)) := by
  have he := epsilon_pos
  refine ⟨fun h => ?_, fun h => ?_, fun h => ?_, fun h hc => ?_⟩
  · have hl : ¬ less (a.radius - b.radius) 0 false = true := by rw [less_false]; linarith
    unfold containsBallBall
    simp only [hl, if_false, Bool.false_eq_true]
    rw [lessEq_false, ← sq, sqDist_le_iff (by linarith), ballSet_subset hn a b hb, le_sub_iff_add_le]
  · have hl : ¬ less (a.radius - b.radius) 0 true = true := by rw [less_true]; linarith
    unfold containsBallBall
    simp only [hl, if_false, Bool.false_eq_true]
    rw [lessEq_true, ← sq, sqDist_lt_iff (by linarith), ballSet_subset_interior hn a b hb, lt_sub_iff_add_lt]
    have : 0 < a.radius - b.radius := by linarith
    tauto
  · have hl : less (a.radius - b.radius) 0 true = true := by rw [less_true]; linarith
    unfold containsBallBall
    simp only [hl, if_true]
  · unfold containsBallBall at hc
    by_cases hl : less (a.radius - b.radius) 0 false = true
    · simp [hl] at hc
    · simp only [hl, if_false, Bool.false_eq_true] at hc
      rw [less_false, not_lt] at hl
      rw [lessEq_false, show (a.radius - b.radius) * (a.radius - b.radius) = (b.radius - a.radius) ^ 2 by ring,
        sqDist_le_iff (by linarith)] at hc
      refine ⟨by linarith, ?_⟩
      rcases hc with hc | hc
      · refine Or.inr ((ballSet_subset hn ⟨a.center, a.radius + 2 * epsilon⟩ b hb).2 ?_)
        simp only
        linarith
      · exact Or.inl hc

/-- C55, a point containing a ball: never properly, otherwise exactly when the radius is 0 and the centre equals the point
under the tolerant equality. -/
theorem C55_point_contains (p : Pt n) (b : Ball n) :
    containsPBall p b true = false ∧
    (containsPBall p b false = true ↔ b.radius = 0 ∧ p.isEqualTo b.center epsilon = true) := by
  constructor <;> simp [containsPBall]

/-- Two unit balls touching. -/
example : interBallBall (⟨⟨![0, 0], true⟩, 1⟩ : Ball 2) ⟨⟨![2, 0], true⟩, 1⟩ false = true :=
  ((C55_balls _ _ (by norm_num) (by norm_num)).1).2 (Or.inl ⟨![1, 0], by
    constructor <;> show eucl _ _ ≤ _ <;> rw [eucl_le_iff (by norm_num)] <;> simp [Fin.sum_univ_two] <;> norm_num⟩)

/-- Two points a unit apart are not confused. -/
example : ¬ Flushed (⟨![1, 0], true⟩ : Pt 2) ⟨![2, 0], true⟩ := by
  have he := epsilon_lt
  norm_num at he
  have hm : maxAbs (![1, 0] : Fin 2 → ℝ) ≤ 2 := maxAbs_le (by norm_num) fun i => by fin_cases i <;> simp
  have h1 := scaleEpsilonArr_le (x := (![1, 0] : Fin 2 → ℝ)) (y := ![2, 0]) epsilon_pos.le
    (fun h => by simpa using congrFun h 0) (fun h => by simpa using congrFun h 0)
  have h2 := mul_le_mul_of_nonneg_left ((min_le_left (maxAbs (![1, 0] : Fin 2 → ℝ)) (maxAbs ![2, 0])).trans hm)
    (show 0 ≤ 2 * epsilon by linarith [epsilon_pos])
  unfold Flushed
  rw [eucl_sq]
  simp [Fin.sum_univ_two]
  norm_num
  linarith

/-! ### C87 bounding box of a ball -/

/-- C87: the bounding box of a ball contains it, is contained in every box that does, and is valid exactly when the ball
is. -/
theorem C87_ball_box (b : Ball n) (c : Box n) (hr : 0 ≤ b.radius) :
    ballSet b ⊆ boxSet b.boundingBox ∧ (ballSet b ⊆ boxSet c → boxSet b.boundingBox ⊆ boxSet c) ∧
    b.boundingBox.valid = b.valid := by
  refine ⟨fun x hx i => ball_bounds hx i, fun h x hx i => ?_, by simp [Ball.boundingBox, Box.valid, Ball.valid]⟩
  have h1 := h (axis_point b hr i b.radius (by rw [abs_of_nonneg hr])) i
  have h2 := h (axis_point b hr i (-b.radius) (by rw [abs_neg, abs_of_nonneg hr])) i
  have h3 : b.center.elem i - b.radius ≤ x i ∧ x i ≤ b.center.elem i + b.radius := hx i
  simp only [Function.update_self] at h1 h2
  constructor <;> linarith

example : (⟨⟨![1, 2], true⟩, 3⟩ : Ball 2).boundingBox.low.elem = ![-2, -1] := by
  funext i; fin_cases i <;> simp [Ball.boundingBox] <;> norm_num

end WFMath
