/- Property theorems C119-C120: ball tests, midpoints and shifts of boxes in floating point arithmetic. -/
import Verif.Props.RoundVector

namespace WFMath
open Spec
open WFMath.Spec.Rounding (u)
variable {n : Nat}

namespace Fl

/-- A comparison of close numbers tells about the numbers themselves. -/
theorem le_of_close {k l : Nat} {x' x y' y : ℝ} (hx : Close 53 k x' x) (hy : Close 53 l y' y) (h0 : 0 ≤ x) (h1 : 0 ≤ y) (h : x' ≤ y') :
    x * (1 - u 53) ^ (k + l) ≤ y := by
  obtain ⟨t, t1, t2, rfl⟩ := hx
  obtain ⟨s, s1, s2, rfl⟩ := hy
  have hl := Close.pow pos53 l
  rw [pow_add, ← mul_assoc]
  have h2 : x * (1 - u 53) ^ k ≤ t * x := by rw [mul_comm]; exact mul_le_mul_of_nonneg_right t1 h0
  calc x * (1 - u 53) ^ k * (1 - u 53) ^ l ≤ s * y * (1 - u 53) ^ l := mul_le_mul_of_nonneg_right (h2.trans h) hl.1.le
    _ = s * (1 - u 53) ^ l * y := by ring
    _ ≤ 1 * y := mul_le_mul_of_nonneg_right s2 h1
    _ = y := one_mul y

theorem close_le {k l : Nat} {x' x y' y : ℝ} (hx : Close 53 k x' x) (hy : Close 53 l y' y) (h0 : 0 ≤ x) (h1 : 0 ≤ y)
    (h : x ≤ y * (1 - u 53) ^ (k + l)) : x' ≤ y' := by
  obtain ⟨t, t1, t2, rfl⟩ := hx
  obtain ⟨s, s1, s2, rfl⟩ := hy
  have hk := Close.pow pos53 k
  have h2 : t * x * (1 - u 53) ^ k ≤ s * y * (1 - u 53) ^ k := by
    calc t * x * (1 - u 53) ^ k = t * (1 - u 53) ^ k * x := by ring
      _ ≤ 1 * x := mul_le_mul_of_nonneg_right t2 h0
      _ ≤ y * (1 - u 53) ^ (k + l) := by rw [one_mul]; exact h
      _ = (1 - u 53) ^ l * y * (1 - u 53) ^ k := by rw [pow_add]; ring
      _ ≤ s * y * (1 - u 53) ^ k := mul_le_mul_of_nonneg_right (mul_le_mul_of_nonneg_right s1 h1) hk.1.le
  exact le_of_mul_le_mul_right h2 hk.1

theorem close_lt {k l : Nat} {x' x y' y : ℝ} (hx : Close 53 k x' x) (hy : Close 53 l y' y) (h0 : 0 ≤ x) (h1 : 0 ≤ y)
    (h : x < y * (1 - u 53) ^ (k + l)) : x' < y' := by
  obtain ⟨t, t1, t2, rfl⟩ := hx
  obtain ⟨s, s1, s2, rfl⟩ := hy
  have hk := Close.pow pos53 k
  have h2 : t * x * (1 - u 53) ^ k < s * y * (1 - u 53) ^ k := by
    calc t * x * (1 - u 53) ^ k = t * (1 - u 53) ^ k * x := by ring
      _ ≤ 1 * x := mul_le_mul_of_nonneg_right t2 h0
      _ < y * (1 - u 53) ^ (k + l) := by rw [one_mul]; exact h
      _ = (1 - u 53) ^ l * y * (1 - u 53) ^ k := by rw [pow_add]; ring
      _ ≤ s * y * (1 - u 53) ^ k := mul_le_mul_of_nonneg_right (mul_le_mul_of_nonneg_right s1 h1) hk.1.le
  exact lt_of_mul_lt_mul_right h2 hk.1.le

theorem bernoulli (k : Nat) : 1 - k * u 53 ≤ (1 - u 53) ^ k := by
  have hb := Close.base pos53
  have := one_add_mul_le_pow (a := -u 53) (by linarith [hb.1]) k
  rw [← sub_eq_add_neg] at this
  linarith

/-- The fudge factor `1 + epsilon` outweighs 59 roundings. -/
theorem fudge {k : Nat} (hk : k ≤ 59) : 1 ≤ (1 + epsilon) * (1 - u 53) ^ k := by
  have h1 := bernoulli 59
  have h2 : (1 - u 53) ^ 59 ≤ (1 - u 53) ^ k := pow_le_pow_of_le_one (Close.base pos53).1.le (Close.base pos53).2 hk
  have he := epsilon_pos
  have h3 : 1 ≤ (1 + epsilon) * (1 - (59 : ℕ) * u 53) := by rw [u53]; unfold epsilon; norm_num
  nlinarith

theorem radiusBound_close (r : Rounding 53) (R : ℝ) : Close 53 2 (radiusBound r R) (R * R * (1 + epsilon)) := by
  have h1 : r (1 + epsilon) = 1 + epsilon := r.of_fl ⟨4503599627370526, -52, by norm_num, by unfold epsilon; norm_num⟩
  unfold radiusBound
  rw [h1]
  exact ((Close.round_self pos53 r (R * R)).mul pos53 (Close.refl pos53 0 (1 + epsilon))).round pos53 r

end Fl

namespace Spec
/-- The squared distance of the points is so small compared with their coordinates that `SquaredDistance`, computed in doubles, may return 0. -/
def NearlyFlushed (p q : Pt n) : Prop := eucl p.elem q.elem ^ 2 < (1 + epsilon) * scaleEpsilonArr p.elem q.elem epsilon
end Spec

/-- What the computed squared distance says about the distance, against a close bound. -/
theorem Fl.sqDist_le (r : Rounding 53) {p q : Pt n} (hn : n ≤ 50) {B' B : ℝ} {l : Nat} (hB : Close 53 l B' B) (hB0 : 0 ≤ B) (h : Fl.sqDist r p q ≤ B') :
    eucl p.elem q.elem ^ 2 * (1 - u 53) ^ (3 + n + l) ≤ B ∨ NearlyFlushed p q := by
  rcases Fl.sqDist_cases r p q with hc | ⟨hc, s, hs, hsc⟩
  · exact .inl (Fl.le_of_close hc hB (sq_nonneg _) hB0 h)
  · right
    have h1 := Fl.le_of_close hsc (Close.refl Fl.pos53 0 s) (sq_nonneg _) (hsc.nonneg Fl.pos53 (sq_nonneg _)) le_rfl
    have h2 := Fl.fudge (k := 3 + n + 0) (by omega)
    have he := epsilon_pos
    have h3 : 0 ≤ eucl p.elem q.elem ^ 2 := sq_nonneg _
    unfold NearlyFlushed
    calc eucl p.elem q.elem ^ 2 ≤ eucl p.elem q.elem ^ 2 * ((1 + epsilon) * (1 - u 53) ^ (3 + n + 0)) := le_mul_of_one_le_right h3 h2
      _ = (1 + epsilon) * (eucl p.elem q.elem ^ 2 * (1 - u 53) ^ (3 + n + 0)) := by ring
      _ ≤ (1 + epsilon) * s := mul_le_mul_of_nonneg_left h1 (by linarith)
      _ < _ := mul_lt_mul_of_pos_left hs (by linarith)

theorem Fl.sqDist_le_of (r : Rounding 53) {p q : Pt n} {B' B : ℝ} {l : Nat} (hB : Close 53 l B' B) (hB0 : 0 ≤ B)
    (h : eucl p.elem q.elem ^ 2 ≤ B * (1 - u 53) ^ (3 + n + l)) : Fl.sqDist r p q ≤ B' := by
  rcases Fl.sqDist_cases r p q with hc | ⟨hc, -⟩
  · exact Fl.close_le hc hB (sq_nonneg _) hB0 h
  · rw [hc]; exact hB.nonneg Fl.pos53 hB0

theorem Fl.sqDist_lt_of (r : Rounding 53) {p q : Pt n} {B' B : ℝ} {l : Nat} (hB : Close 53 l B' B) (hB0 : 0 < B)
    (h : eucl p.elem q.elem ^ 2 < B * (1 - u 53) ^ (3 + n + l)) : Fl.sqDist r p q < B' := by
  rcases Fl.sqDist_cases r p q with hc | ⟨hc, -⟩
  · exact Fl.close_lt hc hB (sq_nonneg _) hB0.le h
  · rw [hc]; exact hB.pos Fl.pos53 hB0

/-- C119, ball and point: computed in doubles, a point of the ball is accepted (an interior point also by the proper test), because the factor `1 + epsilon` outweighs
the roundings; an accepted point lies in the ball with the radius enlarged by the factor `1 + epsilon`, unless it is so near to the centre that the squared distance is
set to 0. -/
theorem C119_point (r : Rounding 53) (b : Ball n) (p : Pt n) (hn : n ≤ 50) (hr : 0 ≤ b.radius) :
    (p.elem ∈ ballSet b → Fl.interBallP r b p false = true) ∧ (p.elem ∈ ballInterior b → Fl.interBallP r b p true = true) ∧
    (∀ proper, Fl.interBallP r b p proper = true → p.elem ∈ ballSet ⟨b.center, b.radius * (1 + epsilon)⟩ ∨ NearlyFlushed b.center p) := by
  have he := epsilon_pos
  have hB := Fl.radiusBound_close r b.radius
  have hB0 : 0 ≤ b.radius * b.radius * (1 + epsilon) := by positivity
  have hf := Fl.fudge (k := 3 + n + 2) (by omega)
  have hR : b.radius * b.radius ≤ b.radius * b.radius * (1 + epsilon) * (1 - u 53) ^ (3 + n + 2) := by
    rw [mul_assoc]; exact le_mul_of_one_le_right (mul_self_nonneg _) hf
  refine ⟨fun h => ?_, fun h => ?_, fun proper h => ?_⟩
  · unfold Fl.interBallP
    rw [lessEq_false]
    refine Fl.sqDist_le_of r hB hB0 (le_trans ?_ hR)
    have h' : eucl p.elem b.center.elem ≤ b.radius := h
    rw [eucl_comm, sq]
    exact mul_self_le_mul_self (eucl_nonneg _ _) h'
  · have h' : eucl p.elem b.center.elem < b.radius := h
    have hpos : 0 < b.radius := (eucl_nonneg _ _).trans_lt h'
    unfold Fl.interBallP
    rw [lessEq_true]
    refine Fl.sqDist_lt_of r hB (by positivity) (lt_of_lt_of_le ?_ hR)
    rw [eucl_comm, sq]
    exact mul_self_lt_mul_self (eucl_nonneg _ _) h'
  · have h1 : Fl.sqDist r b.center p ≤ Fl.radiusBound r b.radius := by
      unfold Fl.interBallP at h
      cases proper
      · rwa [lessEq_false] at h
      · rw [lessEq_true] at h; exact h.le
    rcases Fl.sqDist_le r hn hB hB0 h1 with h2 | h2
    · left
      show eucl p.elem b.center.elem ≤ b.radius * (1 + epsilon)
      rw [eucl_comm]
      have h3 : 0 ≤ eucl b.center.elem p.elem ^ 2 := sq_nonneg _
      have h4 : eucl b.center.elem p.elem ^ 2 ≤ (b.radius * (1 + epsilon)) ^ 2 := by
        calc eucl b.center.elem p.elem ^ 2 ≤ eucl b.center.elem p.elem ^ 2 * ((1 + epsilon) * (1 - u 53) ^ (3 + n + 2)) := le_mul_of_one_le_right h3 hf
          _ = (1 + epsilon) * (eucl b.center.elem p.elem ^ 2 * (1 - u 53) ^ (3 + n + 2)) := by ring
          _ ≤ (1 + epsilon) * (b.radius * b.radius * (1 + epsilon)) := mul_le_mul_of_nonneg_left h2 (by linarith)
          _ = _ := by ring
      exact (pow_le_pow_iff_left₀ (eucl_nonneg _ _) (by positivity) (by norm_num)).1 h4
    · exact .inr h2

/-- Margins of the factor `1 + epsilon` outweigh the roundings. -/
theorem Fl.margin_sound {k : Nat} (hk : k ≤ 59) {D R : ℝ} (h0 : 0 ≤ D) (hR : 0 ≤ R) (h : D ^ 2 * (1 - u 53) ^ k ≤ R * R) : D ≤ R * (1 + epsilon) := by
  have he := epsilon_pos
  have hf := Fl.fudge hk
  have h4 : D ^ 2 ≤ (R * (1 + epsilon)) ^ 2 := by
    calc D ^ 2 ≤ D ^ 2 * ((1 + epsilon) * (1 - u 53) ^ k) := le_mul_of_one_le_right (sq_nonneg _) hf
      _ = (1 + epsilon) * (D ^ 2 * (1 - u 53) ^ k) := by ring
      _ ≤ (1 + epsilon) * (R * R) := mul_le_mul_of_nonneg_left h (by linarith)
      _ ≤ (1 + epsilon) * (R * R) * (1 + epsilon) := le_mul_of_one_le_right (by positivity) (by linarith)
      _ = _ := by ring
  exact (pow_le_pow_iff_left₀ h0 (by positivity) (by norm_num)).1 h4

theorem Fl.margin_complete {k : Nat} (hk : k ≤ 59) {D R : ℝ} (h0 : 0 ≤ D) (hR : 0 ≤ R) (h : D * (1 + epsilon) ≤ R) : D ^ 2 ≤ R * R * (1 - u 53) ^ k ∧
    (0 < R → D ^ 2 < R * R * (1 - u 53) ^ k) := by
  have he := epsilon_pos
  have hf := Fl.fudge hk
  have hp := Close.pow Fl.pos53 k
  have h1 : D ^ 2 * (1 + epsilon) ^ 2 ≤ R * R := by rw [← mul_pow, ← sq]; exact pow_le_pow_left₀ (by positivity) h 2
  have h2 : R * R ≤ R * R * (1 + epsilon) * (1 - u 53) ^ k := by rw [mul_assoc]; exact le_mul_of_one_le_right (mul_self_nonneg _) hf
  have h3 : D ^ 2 * (1 + epsilon) ≤ R * R * (1 - u 53) ^ k := by
    have : D ^ 2 * (1 + epsilon) * (1 + epsilon) ≤ R * R * (1 - u 53) ^ k * (1 + epsilon) := by nlinarith
    exact le_of_mul_le_mul_right this (by linarith)
  have h4 : 0 ≤ D ^ 2 := sq_nonneg _
  refine ⟨by nlinarith, fun hR' => ?_⟩
  rcases eq_or_lt_of_le h4 with h5 | h5
  · rw [← h5]; exact mul_pos (mul_pos hR' hR') hp.1
  · nlinarith

/-- The nearest point of a box, in distance. -/
theorem Fl.box_sum_close (r : Rounding 53) (b : Ball n) (a : Box n) :
    Close 53 (3 + n) (Fl.sum r fun i => Fl.axisDistSq r (b.center.elem i) (a.low.elem i) (a.high.elem i))
      (∑ i, WFMath.axisDistSq (b.center.elem i) (a.low.elem i) (a.high.elem i)) := by
  refine Fl.sum_close r (fun i => ?_) fun i => ?_
  · unfold Fl.axisDistSq WFMath.axisDistSq
    split_ifs
    · have h := Close.round_self Fl.pos53 r (b.center.elem i - a.low.elem i)
      exact (h.mul Fl.pos53 h).round Fl.pos53 r
    · have h := Close.round_self Fl.pos53 r (b.center.elem i - a.high.elem i)
      exact (h.mul Fl.pos53 h).round Fl.pos53 r
    · exact Close.refl Fl.pos53 _ _
  · unfold WFMath.axisDistSq
    split_ifs
    · exact mul_self_nonneg _
    · exact mul_self_nonneg _
    · exact le_rfl

/-- C119, ball and box: computed in doubles the test accepts when the ball with its radius divided by `1 + epsilon` meets the box, and when it accepts, the ball with its
radius multiplied by `1 + epsilon` meets the box. -/
theorem C119_box (r : Rounding 53) (b : Ball n) (a : Box n) (hn : n ≤ 50) (hr : 0 ≤ b.radius) (ha : Ordered a) (proper : Bool) :
    ((ballSet ⟨b.center, b.radius / (1 + epsilon)⟩ ∩ boxSet a).Nonempty → (0 < b.radius ∨ proper = false) → Fl.interBallB r b a proper = true) ∧
    (Fl.interBallB r b a proper = true → (ballSet ⟨b.center, b.radius * (1 + epsilon)⟩ ∩ boxSet a).Nonempty) := by
  have he := epsilon_pos
  have hc := Fl.box_sum_close r b a
  have hR := Close.round_self Fl.pos53 r (b.radius * b.radius)
  have hS0 : 0 ≤ ∑ i, axisDistSq (b.center.elem i) (a.low.elem i) (a.high.elem i) := by
    refine Finset.sum_nonneg fun i _ => ?_
    unfold axisDistSq
    split_ifs
    · exact mul_self_nonneg _
    · exact mul_self_nonneg _
    · exact le_rfl
  have hsq := Real.sq_sqrt hS0
  have hs0 := Real.sqrt_nonneg (∑ i, axisDistSq (b.center.elem i) (a.low.elem i) (a.high.elem i))
  have hE : (0 : ℝ) < 1 + epsilon := by linarith
  constructor
  · intro h hp
    rw [← (C55_box ⟨b.center, b.radius / (1 + epsilon)⟩ a (by positivity) ha).1] at h
    unfold interBallB at h
    rw [lessEq_false] at h
    have h1 : Real.sqrt (∑ i, axisDistSq (b.center.elem i) (a.low.elem i) (a.high.elem i)) * (1 + epsilon) ≤ b.radius := by
      rw [← le_div_iff₀ hE, Real.sqrt_le_left (by positivity), sq]; exact h
    have h2 := Fl.margin_complete (k := 3 + n + 1) (by omega) hs0 hr h1
    rw [hsq] at h2
    unfold Fl.interBallB
    cases proper
    · rw [lessEq_false]
      exact Fl.close_le hc hR hS0 (mul_self_nonneg _) h2.1
    · rw [lessEq_true]
      exact Fl.close_lt hc hR hS0 (mul_self_nonneg _) (h2.2 (hp.resolve_right (by simp)))
  · intro h
    have h1 : Fl.sum r (fun i => Fl.axisDistSq r (b.center.elem i) (a.low.elem i) (a.high.elem i)) ≤ r (b.radius * b.radius) := by
      unfold Fl.interBallB at h
      cases proper
      · rwa [lessEq_false] at h
      · rw [lessEq_true] at h; exact h.le
    have h2 := Fl.le_of_close hc hR hS0 (mul_self_nonneg _) h1
    rw [← hsq] at h2
    have h3 := Fl.margin_sound (by omega) hs0 hr h2
    rw [← (C55_box ⟨b.center, b.radius * (1 + epsilon)⟩ a (by positivity) ha).1]
    unfold interBallB
    rw [lessEq_false, ← hsq, ← sq]
    exact pow_le_pow_left₀ hs0 h3 2

theorem Fl.floatMax_round (r : Rounding 53) (x y : ℝ) : floatMax |r x| |r y| = r (floatMax |x| |y|) := by
  have habs : ∀ x : ℝ, |r x| = r |x| := by
    intro x
    rcases le_total 0 x with h | h
    · rw [abs_of_nonneg h, abs_of_nonneg (r.nonneg h)]
    · rw [abs_of_nonpos h, abs_of_nonpos (r.nonpos h), r.odd]
  unfold floatMax
  rw [habs, habs]
  split_ifs with h1 h2 h2
  · rfl
  · exact absurd (r.mono (not_lt.1 h2)) (not_le.2 h1)
  · exact le_antisymm (r.mono h2.le) (not_lt.1 h1) |>.symm ▸ rfl
  · rfl

theorem Fl.far_sum_close (r : Rounding 53) (b : Ball n) (a : Box n) :
    Close 53 (3 + n) (Fl.sum r fun i =>
      let furthest := floatMax |r (b.center.elem i - a.low.elem i)| |r (b.center.elem i - a.high.elem i)|
      r (furthest * furthest))
      (∑ i, floatMax |b.center.elem i - a.low.elem i| |b.center.elem i - a.high.elem i| *
        floatMax |b.center.elem i - a.low.elem i| |b.center.elem i - a.high.elem i|) := by
  refine Fl.sum_close r (fun i => ?_) fun i => mul_self_nonneg _
  simp only [Fl.floatMax_round]
  have h := Close.round_self Fl.pos53 r (floatMax |b.center.elem i - a.low.elem i| |b.center.elem i - a.high.elem i|)
  exact (h.mul Fl.pos53 h).round Fl.pos53 r

/-- The squared distance of the farthest corner, against a radius. -/
theorem Fl.far_exact (b : Ball n) (a : Box n) (ha : Ordered a) (R : ℝ) (hR : 0 ≤ R) :
    (∑ i, floatMax |b.center.elem i - a.low.elem i| |b.center.elem i - a.high.elem i| *
      floatMax |b.center.elem i - a.low.elem i| |b.center.elem i - a.high.elem i| ≤ R * R ↔ boxSet a ⊆ ballSet ⟨b.center, R⟩) ∧
    (∑ i, floatMax |b.center.elem i - a.low.elem i| |b.center.elem i - a.high.elem i| *
      floatMax |b.center.elem i - a.low.elem i| |b.center.elem i - a.high.elem i| < R * R ↔ boxSet a ⊆ ballInterior ⟨b.center, R⟩) := by
  have he := epsilon_pos
  have hg : 0 < Real.sqrt (1 + epsilon) := Real.sqrt_pos.2 (by linarith)
  have h := C55_contains_box ⟨b.center, R / Real.sqrt (1 + epsilon)⟩ a (by positivity) ha
  have e1 : grown (⟨b.center, R / Real.sqrt (1 + epsilon)⟩ : Ball n) = ⟨b.center, R⟩ := by
    unfold grown; simp only; congr 1; field_simp
  have e2 : R / Real.sqrt (1 + epsilon) * (R / Real.sqrt (1 + epsilon)) * (1 + epsilon) = R * R := by
    have := Real.mul_self_sqrt (show 0 ≤ 1 + epsilon by linarith)
    field_simp
    nlinarith
  rw [e1] at h
  unfold WFMath.containsBallB at h
  simp only [lessEq_false, lessEq_true, e2] at h
  exact h

/-- C119, ball containing a box: computed in doubles the test accepts whenever the box lies in the ball (in the open ball, for the proper test), and when it accepts,
the box lies in the ball with the radius enlarged by the factor `1 + epsilon`. -/
theorem C119_contains_box (r : Rounding 53) (b : Ball n) (a : Box n) (hn : n ≤ 50) (hr : 0 ≤ b.radius) (ha : Ordered a) :
    (boxSet a ⊆ ballSet b → Fl.containsBallB r b a false = true) ∧ (boxSet a ⊆ ballInterior b → Fl.containsBallB r b a true = true) ∧
    (∀ proper, Fl.containsBallB r b a proper = true → boxSet a ⊆ ballSet ⟨b.center, b.radius * (1 + epsilon)⟩) := by
  have he := epsilon_pos
  have hc := Fl.far_sum_close r b a
  have hB := Fl.radiusBound_close r b.radius
  have hB0 : 0 ≤ b.radius * b.radius * (1 + epsilon) := by positivity
  have hf := Fl.fudge (k := 3 + n + 2) (by omega)
  have hS0 : 0 ≤ ∑ i, floatMax |b.center.elem i - a.low.elem i| |b.center.elem i - a.high.elem i| *
      floatMax |b.center.elem i - a.low.elem i| |b.center.elem i - a.high.elem i| := Finset.sum_nonneg fun i _ => mul_self_nonneg _
  have exact_le := Fl.far_exact b a ha
  refine ⟨fun h => ?_, fun h => ?_, fun proper h => ?_⟩
  · unfold Fl.containsBallB
    rw [lessEq_false]
    refine Fl.close_le hc hB hS0 hB0 (((exact_le _ hr).1.2 h).trans ?_)
    rw [mul_assoc]; exact le_mul_of_one_le_right (mul_self_nonneg _) hf
  · unfold Fl.containsBallB
    rw [lessEq_true]
    refine Fl.close_lt hc hB hS0 hB0 (((exact_le _ hr).2.2 h).trans_le ?_)
    rw [mul_assoc]; exact le_mul_of_one_le_right (mul_self_nonneg _) hf
  · have h1 := (show Fl.sum r (fun i =>
      let furthest := floatMax |r (b.center.elem i - a.low.elem i)| |r (b.center.elem i - a.high.elem i)|
      r (furthest * furthest)) ≤ Fl.radiusBound r b.radius by
        unfold Fl.containsBallB at h
        cases proper
        · rwa [lessEq_false] at h
        · rw [lessEq_true] at h; exact h.le)
    have h2 := Fl.le_of_close hc hB hS0 hB0 h1
    rw [← (exact_le _ (by positivity)).1]
    generalize (∑ i, floatMax |b.center.elem i - a.low.elem i| |b.center.elem i - a.high.elem i| *
      floatMax |b.center.elem i - a.low.elem i| |b.center.elem i - a.high.elem i|) = S at *
    calc S ≤ S * ((1 + epsilon) * (1 - u 53) ^ (3 + n + 2)) := le_mul_of_one_le_right hS0 hf
      _ = (1 + epsilon) * (S * (1 - u 53) ^ (3 + n + 2)) := by ring
      _ ≤ (1 + epsilon) * (b.radius * b.radius * (1 + epsilon)) := mul_le_mul_of_nonneg_left h2 (by linarith)
      _ = _ := by ring

/-- C119, box containing a ball, for a box whose corners are doubles: computed in doubles the proper test accepts only if the ball lies in the open box; the tolerant
test accepts if the ball lies in the box, and if it accepts, the ball reaches beyond the box by little more than epsilon and the rounding error of the ends of the ball. -/
theorem C119_box_contains (r : Rounding 53) (a : Box n) (b : Ball n) (hr : 0 ≤ b.radius) (ho : Ordered a) (hlo : ∀ i, IsFl 53 (a.low.elem i))
    (hhi : ∀ i, IsFl 53 (a.high.elem i)) :
    (Fl.containsBBall r a b true = true → ballSet b ⊆ boxInterior a) ∧ (ballSet b ⊆ boxSet a → Fl.containsBBall r a b false = true) ∧
    (∀ M, (∀ i, |b.center.elem i| + b.radius ≤ M) → Fl.containsBBall r a b false = true →
      ballSet b ⊆ near (epsilon * (1 + 2 ^ (-52 : ℤ)) + 2 ^ (-53 : ℤ) * M) (boxSet a)) := by
  have he := epsilon_pos
  refine ⟨fun h => ?_, fun h => ?_, fun M hM h => ?_⟩
  · unfold Fl.containsBBall at h
    simp only [List.all_eq_true, List.mem_finRange, true_implies, not_or_bool, Fl.less_proper, Fl.greater_proper, less_true, greater_true, not_le] at h
    intro x hx i
    have hb := ball_bounds hx i
    have h1 : a.low.elem i < b.center.elem i - b.radius := by
      by_contra hc
      exact absurd (r.le_fl (hlo i) (not_lt.1 hc)) (not_le.2 (h i).1)
    have h2 : b.center.elem i + b.radius < a.high.elem i := by
      by_contra hc
      exact absurd (r.fl_le (hhi i) (not_lt.1 hc)) (not_le.2 (h i).2)
    constructor <;> linarith
  · unfold Fl.containsBBall
    simp only [List.all_eq_true, List.mem_finRange, true_implies, not_or_bool]
    intro i
    have h1 := (h (axis_point b hr i b.radius (by rw [abs_of_nonneg hr])) i).2
    have h2 := (h (axis_point b hr i (-b.radius) (by rw [abs_neg, abs_of_nonneg hr])) i).1
    simp only [Function.update_self] at h1 h2
    have h3 := r.le_fl (hhi i) h1
    have h4 : a.low.elem i ≤ r (b.center.elem i - b.radius) := r.fl_le (hlo i) (by linarith)
    constructor
    · intro hc
      have := Fl.less_of_less hc
      rw [less_false] at this
      linarith
    · intro hc
      have := Fl.greater_of_greater hc
      rw [greater_false] at this
      linarith
  · unfold Fl.containsBBall at h
    simp only [List.all_eq_true, List.mem_finRange, true_implies, not_or_bool] at h
    intro x hx
    rcases Nat.eq_zero_or_pos n with h0 | hpos
    · subst h0
      exact ⟨x, fun i => i.elim0, fun i => i.elim0⟩
    have hM0 : 0 ≤ M := le_trans (add_nonneg (abs_nonneg _) hr) (hM ⟨0, hpos⟩)
    have hd : 0 ≤ epsilon * (1 + 2 ^ (-52 : ℤ)) + 2 ^ (-53 : ℤ) * M := by positivity
    rw [mem_near_box ho hd]
    intro i
    have hb := ball_bounds hx i
    have h1 := Fl.not_less (h i).1
    have h2 := Fl.not_greater (h i).2
    have h3 := r.err Fl.pos53 (b.center.elem i - b.radius)
    have h4 := r.err Fl.pos53 (b.center.elem i + b.radius)
    rw [Fl.u53] at h3 h4
    have h5 : |b.center.elem i - b.radius| ≤ M := ((abs_sub _ _).trans (by rw [abs_of_nonneg hr])).trans (hM i)
    have h6 : |b.center.elem i + b.radius| ≤ M := ((abs_add_le _ _).trans (by rw [abs_of_nonneg hr])).trans (hM i)
    have hz : (0 : ℝ) < 2 ^ (-53 : ℤ) := by positivity
    have h7 := abs_le.1 (h3.trans (mul_le_mul_of_nonneg_left h5 hz.le))
    have h8 := abs_le.1 (h4.trans (mul_le_mul_of_nonneg_left h6 hz.le))
    constructor <;> linarith

/-- C119, two balls: computed in doubles the test accepts when the balls with their radii divided by `1 + epsilon` meet, and when it accepts, the balls with their radii
multiplied by `1 + epsilon` meet, unless the centres are so close that their squared distance is set to 0. The order of the balls does not matter. -/
theorem C119_balls (r : Rounding 53) (a b : Ball n) (hn : n ≤ 50) (ha : 0 ≤ a.radius) (hb : 0 ≤ b.radius) (proper : Bool) :
    ((ballSet ⟨a.center, a.radius / (1 + epsilon)⟩ ∩ ballSet ⟨b.center, b.radius / (1 + epsilon)⟩).Nonempty →
      (0 < a.radius ∨ 0 < b.radius ∨ proper = false) → Fl.interBallBall r a b proper = true) ∧
    (Fl.interBallBall r a b proper = true →
      (ballSet ⟨a.center, a.radius * (1 + epsilon)⟩ ∩ ballSet ⟨b.center, b.radius * (1 + epsilon)⟩).Nonempty ∨ NearlyFlushed a.center b.center) ∧
    Fl.interBallBall r a b proper = Fl.interBallBall r b a proper := by
  have he := epsilon_pos
  have hE : (0 : ℝ) < 1 + epsilon := by linarith
  have h1 := Close.round_self Fl.pos53 r (a.radius + b.radius)
  have hB := (h1.mul Fl.pos53 h1).round Fl.pos53 r
  have hB0 := mul_self_nonneg (a.radius + b.radius)
  refine ⟨fun h hp => ?_, fun h => ?_, ?_⟩
  · rw [ballSet_inter _ _ (by positivity) (by positivity)] at h
    simp only at h
    rw [← add_div, le_div_iff₀ hE] at h
    have h2 := Fl.margin_complete (k := 3 + n + (1 + 1 + 1)) (by omega) (eucl_nonneg _ _) (by positivity) h
    unfold Fl.interBallBall
    cases proper
    · rw [lessEq_false]; exact Fl.sqDist_le_of r hB hB0 h2.1
    · have hpos : 0 < a.radius + b.radius := by
        rcases hp with hp | hp | hp
        · linarith
        · linarith
        · simp at hp
      rw [lessEq_true]; exact Fl.sqDist_lt_of r hB (by positivity) (h2.2 hpos)
  · have h2 : Fl.sqDist r a.center b.center ≤ r (r (a.radius + b.radius) * r (a.radius + b.radius)) := by
      unfold Fl.interBallBall at h
      cases proper
      · rwa [lessEq_false] at h
      · rw [lessEq_true] at h; exact h.le
    rcases Fl.sqDist_le r hn hB hB0 h2 with h3 | h3
    · left
      rw [ballSet_inter _ _ (by positivity) (by positivity)]
      have := Fl.margin_sound (by omega) (eucl_nonneg _ _) (by positivity) h3
      simp only
      linarith
    · exact .inr h3
  · unfold Fl.interBallBall
    rw [(C116_distance r a.center b.center (by omega)).2.2.2.1, add_comm a.radius]

/-- C119, ball containing a ball, when the outer one is at least as large: computed in doubles the test accepts when the gap between the radii is `1 + epsilon` times the
distance of the centres; when it accepts, the distance is at most `1 + epsilon` times the gap, unless the centres are so close that their squared distance is set to 0. A
ball never properly contains one that is at least as large. -/
theorem C119_contains_ball (r : Rounding 53) (a b : Ball n) (hn : n ≤ 50) :
    (∀ proper, b.radius < a.radius ∨ (b.radius = a.radius ∧ proper = false) →
      eucl a.center.elem b.center.elem * (1 + epsilon) ≤ a.radius - b.radius → Fl.containsBallBall r a b proper = true) ∧
    (∀ proper, b.radius ≤ a.radius → Fl.containsBallBall r a b proper = true →
      eucl a.center.elem b.center.elem ≤ (a.radius - b.radius) * (1 + epsilon) ∨ NearlyFlushed a.center b.center) ∧
    (a.radius ≤ b.radius → Fl.containsBallBall r a b true = false) := by
  have he := epsilon_pos
  have h1 := Close.round_self Fl.pos53 r (a.radius - b.radius)
  have hB := (h1.mul Fl.pos53 h1).round Fl.pos53 r
  have hB0 := mul_self_nonneg (a.radius - b.radius)
  refine ⟨fun proper hlt h => ?_, fun proper hle h => ?_, fun hle => ?_⟩
  · have h0 : 0 ≤ a.radius - b.radius := by rcases hlt with h | ⟨h, -⟩ <;> linarith
    have hd0 : 0 ≤ r (a.radius - b.radius) := r.nonneg h0
    have h2 := Fl.margin_complete (k := 3 + n + (1 + 1 + 1)) (by omega) (eucl_nonneg _ _) h0 h
    have hless : Fl.less r (r (a.radius - b.radius)) 0 proper = false := by
      cases proper
      · simp only [Fl.less, Bool.false_eq_true, if_false, decide_eq_false_iff_not, gt_iff_lt, not_lt]
        exact (r.nonpos (by linarith)).trans he.le
      · have : 0 < a.radius - b.radius := by
          rcases hlt with h | ⟨-, h⟩
          · linarith
          · simp at h
        have := h1.pos Fl.pos53 this
        simp only [Fl.less, if_true, decide_eq_false_iff_not, not_le]
        exact this
    unfold Fl.containsBallBall
    simp only [hless, Bool.false_eq_true, if_false]
    cases proper
    · rw [lessEq_false]; exact Fl.sqDist_le_of r hB hB0 h2.1
    · have : 0 < a.radius - b.radius := by
          rcases hlt with h | ⟨-, h⟩
          · linarith
          · simp at h
      rw [lessEq_true]; exact Fl.sqDist_lt_of r hB (by positivity) (h2.2 this)
  · have h0 : 0 ≤ a.radius - b.radius := by linarith
    have h2 : Fl.sqDist r a.center b.center ≤ r (r (a.radius - b.radius) * r (a.radius - b.radius)) := by
      unfold Fl.containsBallBall at h
      simp only at h
      split_ifs at h
      cases proper
      · rwa [lessEq_false] at h
      · rw [lessEq_true] at h; exact h.le
    rcases Fl.sqDist_le r hn hB hB0 h2 with h3 | h3
    · exact .inl (Fl.margin_sound (by omega) (eucl_nonneg _ _) h0 h3)
    · exact .inr h3
  · have : r (a.radius - b.radius) ≤ 0 := r.nonpos (by linarith)
    unfold Fl.containsBallBall
    simp [Fl.less, this]

/-- The box between (-3, -4) and (3, 4) touches the circle of radius 5 from inside at its four corners, and is found to lie in the disc: hypotheses of
`C119_contains_box`. -/
example (r : Rounding 53) : Fl.containsBallB r (⟨⟨![0, 0], true⟩, 5⟩ : Ball 2) ⟨⟨![-3, -4], true⟩, ⟨![3, 4], true⟩⟩ false = true := by
  refine (C119_contains_box r _ _ (by norm_num) (by norm_num) fun i => ?_).1 fun x hx => ?_
  · fin_cases i <;> norm_num
  · show eucl _ _ ≤ _
    rw [eucl_le_iff (by norm_num), Fin.sum_univ_two]
    have h0 := hx 0
    have h1 := hx 1
    simp at h0 h1 ⊢
    nlinarith [h0.1, h0.2, h1.1, h1.2]

/-- Two balls of radius 1 with centres 1 apart: hypotheses of `C119_balls`. -/
example (r : Rounding 53) : Fl.interBallBall r (⟨⟨![0, 0], true⟩, 1⟩ : Ball 2) ⟨⟨![1, 0], true⟩, 1⟩ true = true := by
  have he := epsilon_pos
  have he2 := epsilon_lt
  norm_num at he2
  refine (C119_balls r _ _ (by norm_num) (by norm_num) (by norm_num) true).1 ⟨![1 / 2, 0], ?_, ?_⟩ (.inl (by norm_num))
  all_goals
    show eucl _ _ ≤ _
    rw [eucl_le_iff (by positivity), Fin.sum_univ_two]
    have h : (1 : ℝ) / 2 ≤ 1 / (1 + epsilon) := by rw [div_le_div_iff₀ (by norm_num) (by linarith)]; linarith
    simp at h ⊢
    norm_num
    calc (1 / 4 : ℝ) ≤ (2⁻¹) ^ 2 := by norm_num
      _ ≤ _ := by rw [← inv_pow]; exact pow_le_pow_left₀ (by norm_num) h 2

end WFMath
