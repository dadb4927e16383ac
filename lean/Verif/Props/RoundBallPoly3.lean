/- Property theorems C151: balls that contain polygons in space, computed with rounding. -/
import Verif.Lemmas.RoundBallPoly3
import Verif.Props.RoundPoly3Inter

namespace WFMath
open Spec Matrix Rounding
variable {n : Nat}

namespace Spec
/-- The places in the plane at which a polygon has corners, as points of space. -/
def planeCorners (s : Poly n) : Set (Fin n → ℝ) := {x | ∃ q ∈ s.poly, x = spacePoint s q.elem}
/-- The margin of the test for the squares of distances: `D` is the distance of the center from the first corner, `M` bounds the distances of the corners from the first corner in the
plane, and `δ` says how far from perpendicular the axes of the plane are. -/
noncomputable def ballMargin (R D M δ : ℝ) : ℝ := (11 * δ + 2 ^ (-42 : ℤ)) * (R ^ 2 + D ^ 2 + M ^ 2)
end Spec

/-- The computed difference of squares, and the squares of the distances of the corners. -/
theorem Fl.containsBallPolyN_setup (r : Rounding 53) (hn : n ≤ 3) (s : Poly n) (hs : PlaneAxes s.orient) (b : Ball n) {δ : ℝ}
    (hδ : |s.orient.ax0.elem ⬝ᵥ s.orient.ax1.elem| ≤ δ) {M : ℝ} (hM : ∀ q ∈ s.poly, q.elem 0 ^ 2 + q.elem 1 ^ 2 ≤ M ^ 2) :
    ∃ (off : Vec n) (y : Fin 2 → ℝ), Fl.offset r s.orient b.center = some (off, ⟨y, false⟩) ∧ len off.elem ^ 2 ≤ 103 / 100 * eucl b.center.elem s.orient.origin.elem ^ 2 ∧
      |r (r (b.radius * b.radius) - Fl.sqrMag r off) - (b.radius ^ 2 - len off.elem ^ 2)| ≤ 3 * u 53 * b.radius ^ 2 + 10 * u 53 * len off.elem ^ 2 ∧
      ∀ q ∈ s.poly, eucl y q.elem ^ 2 ≤ 41 / 10 * eucl b.center.elem s.orient.origin.elem ^ 2 + 2 * M ^ 2 ∧
        |eucl b.center.elem (spacePoint s q.elem) ^ 2 - (eucl y q.elem ^ 2 + len off.elem ^ 2)| ≤
          (1840 * u 53 + 108 / 10 * δ) * (eucl b.center.elem s.orient.origin.elem ^ 2 + M ^ 2) := by
  have n0 : Fl.NearUnit s.orient.ax0.elem := by unfold Fl.NearUnit; rw [Fl.u53]; exact hs.unit0
  have n1 : Fl.NearUnit s.orient.ax1.elem := by unfold Fl.NearUnit; rw [Fl.u53]; exact hs.unit1
  obtain ⟨off, y, g, ho, hp, hg, y0, y1, hw, wa, wb⟩ := Fl.offset_dots r hn hs.origin n0 n1 b.center hδ
  have hu0 : 0 < u 53 := u_pos
  have hu : u 53 ≤ 1 / 1000000 := by rw [Fl.u53]; norm_num
  have hδ0 := (abs_nonneg _).trans hδ
  have hD := len_nonneg (b.center.elem - s.orient.origin.elem)
  have hw0 := len_nonneg off.elem
  rw [eucl_eq_len b.center.elem s.orient.origin.elem]
  refine ⟨off, y, ho, ?_, ?_, fun q hq => ?_⟩
  · have := pow_le_pow_left₀ hw0 hw 2
    rw [mul_pow] at this
    have h2 := sq_nonneg (len (b.center.elem - s.orient.origin.elem))
    linarith
  · have hq : off.sqrMag = len off.elem ^ 2 := by rw [len_sq]; rfl
    have hc := Fl.Close_u ((Fl.sqrMag_close r off).mono Fl.pos53 (show 1 + n ≤ 4 by omega)) (by norm_num)
    rw [hq, abs_of_nonneg (sq_nonneg (len off.elem))] at hc
    push_cast at hc
    have h1 := r.err Fl.pos53 (b.radius * b.radius)
    rw [abs_of_nonneg (mul_self_nonneg b.radius), ← sq] at h1
    have h2 := r.err Fl.pos53 (r (b.radius * b.radius) - Fl.sqrMag r off)
    rw [← sq] at h2 ⊢
    generalize r (r (b.radius ^ 2) - Fl.sqrMag r off) = d at *
    generalize r (b.radius ^ 2) = R' at *
    generalize Fl.sqrMag r off = w' at *
    have hR2 := sq_nonneg b.radius
    have hw2 := sq_nonneg (len off.elem)
    generalize b.radius ^ 2 = R2 at *
    generalize len off.elem ^ 2 = w2 at *
    have uR := mul_nonneg hu0.le hR2
    have uw := mul_nonneg hu0.le hw2
    have uR' : u 53 * R2 ≤ 1 / 1000000 * R2 := mul_le_mul_of_nonneg_right hu hR2
    have uw' : u 53 * w2 ≤ 1 / 1000000 * w2 := mul_le_mul_of_nonneg_right hu hw2
    have k1 : |(R' - w') - (R2 - w2)| ≤ u 53 * R2 + 8 * u 53 * w2 := by
      have e : (R' - w') - (R2 - w2) = (R' - R2) - (w' - w2) := by ring
      rw [e]
      have := abs_sub (R' - R2) (w' - w2)
      linarith
    have k2 : |R' - w'| ≤ 101 / 100 * (R2 + w2) := by
      have h3 := _root_.abs_le.1 k1
      rw [_root_.abs_le]
      constructor <;> linarith
    have k3 := mul_le_mul_of_nonneg_left k2 hu0.le
    have k4 := abs_sub_le d (R' - w') (R2 - w2)
    linarith
  · have hE : eucl y q.elem ^ 2 = (y 0 - q.elem 0) ^ 2 + (y 1 - q.elem 1) ^ 2 := by rw [eucl_sq, Fin.sum_univ_two]
    have hv : b.center.elem - spacePoint s q.elem = (y 0 - q.elem 0) • s.orient.ax0.elem + (y 1 - q.elem 1) • s.orient.ax1.elem + off.elem + g := by
      unfold spacePoint
      rw [sub_eq_iff_eq_add]
      refine hp.trans ?_
      module
    have hpy := Fl.pythagoras_err (x := y 0 - q.elem 0) (y := y 1 - q.elem 1) n0 n1 hδ hD hg hw wa wb
    rw [← hv, ← eucl_eq_len, ← hE] at hpy
    have hS : eucl y q.elem ^ 2 ≤ 41 / 10 * len (b.center.elem - s.orient.origin.elem) ^ 2 + 2 * M ^ 2 := by
      rw [hE]
      have a0 := pow_le_pow_left₀ (abs_nonneg _) y0 2
      have a1 := pow_le_pow_left₀ (abs_nonneg _) y1 2
      rw [sq_abs, mul_pow] at a0 a1
      have a2 := hM q hq
      have a3 := sq_nonneg (len (b.center.elem - s.orient.origin.elem))
      nlinarith [sq_nonneg (y 0 + q.elem 0), sq_nonneg (y 1 + q.elem 1)]
    refine ⟨hS, hpy.trans ?_⟩
    have h3 : eucl y q.elem ^ 2 + len (b.center.elem - s.orient.origin.elem) ^ 2 ≤ 51 / 10 * (len (b.center.elem - s.orient.origin.elem) ^ 2 + M ^ 2) := by
      have := sq_nonneg M
      linarith
    have h4 := mul_le_mul_of_nonneg_left h3 (show 0 ≤ 360 * u 53 + 21 / 10 * δ by positivity)
    have h5 := sq_nonneg M
    have h6 := sq_nonneg (len (b.center.elem - s.orient.origin.elem))
    have h7 := mul_nonneg hu0.le h5
    have h8 := mul_nonneg hu0.le h6
    have h9 := mul_nonneg hδ0 h5
    have h10 := mul_nonneg hδ0 h6
    linarith

/-- The comparison with a tolerance, computed. -/
theorem Fl.less_gap (r : Rounding 53) (a b : ℝ) (proper : Bool) :
    (Fl.less r a b proper = true → a + (if proper then 0 else epsilon) ≤ b) ∧ (Fl.less r a b proper = false → b ≤ a + 1001 / 1000 * epsilon) := by
  have hpos := epsilon_pos
  unfold Fl.less
  cases proper
  · simp only [Bool.false_eq_true, if_false, decide_eq_true_eq, decide_eq_false_iff_not, not_lt, gt_iff_lt]
    constructor
    · intro h
      by_contra hc
      push Not at hc
      have := r.mono (show b - a ≤ epsilon by linarith)
      rw [r.of_fl isFl_epsilon] at this
      exact absurd h (not_lt.2 this)
    · intro h
      have h1 := (_root_.abs_le.1 (r.err Fl.pos53 (b - a))).1
      have hu : u 53 ≤ 1 / 1000000 := by rw [Fl.u53]; norm_num
      rcases le_total 0 (b - a) with h0 | h0
      · rw [abs_of_nonneg h0] at h1
        have := mul_le_mul_of_nonneg_right hu h0
        linarith
      · linarith
  · simp only [if_true, decide_eq_true_eq, decide_eq_false_iff_not, not_le, add_zero]
    exact ⟨id, fun h => by linarith⟩

/-- C151: what the answer says. A ball that is found to contain a polygon contains its corners, and so their convex hull, up to the tolerance and the margin, whether properly or not. -/
theorem C151_yes (r : Rounding 53) (hn : n ≤ 3) (s : Poly n) (hs : PlaneAxes s.orient) (b : Ball n) (δ M : ℝ)
    (hδ : |s.orient.ax0.elem ⬝ᵥ s.orient.ax1.elem| ≤ δ) (hM : ∀ q ∈ s.poly, q.elem 0 ^ 2 + q.elem 1 ^ 2 ≤ M ^ 2) (hM0 : 0 ≤ M) (proper : Bool)
    (h : Fl.containsBallPolyN r b s proper = some true) (x : Fin n → ℝ) (hx : x ∈ convexHull ℝ (planeCorners s)) :
    eucl x b.center.elem ^ 2 ≤ b.radius ^ 2 + 3 * epsilon * (1 + M) + ballMargin b.radius (eucl b.center.elem s.orient.origin.elem) M δ := by
  obtain ⟨off, y, ho, hw, hd, hq⟩ := Fl.containsBallPolyN_setup r hn s hs b hδ hM
  have hu0 : 0 < u 53 := u_pos
  have hδ0 := (abs_nonneg _).trans hδ
  have e42 : (2 : ℝ) ^ (-42 : ℤ) = 2048 * u 53 := by rw [Fl.u53]; norm_num
  have key : ∀ q ∈ s.poly, eucl (spacePoint s q.elem) b.center.elem ^ 2 ≤ b.radius ^ 2 + 3 * epsilon * (1 + M) + ballMargin b.radius (eucl b.center.elem s.orient.origin.elem) M δ := by
    intro q hqm
    obtain ⟨hS, hE⟩ := hq q hqm
    have hne : s.poly.length ≠ 0 := fun h0 => by rw [List.length_eq_zero_iff.1 h0] at hqm; simp at hqm
    unfold Fl.containsBallPolyN at h
    rw [if_neg hne, ho] at h
    simp only [Option.map_some, Option.some.injEq] at h
    split_ifs at h with h1
    have h2 := List.all_eq_true.1 h q hqm
    rw [Bool.not_eq_true'] at h2
    have h3 := (Fl.less_gap r _ _ proper).2 h2
    have h4 := (Fl.sqDist_plane r ⟨y, false⟩ q (hM q hqm) hM0).2
    rw [eucl_comm]
    unfold ballMargin
    rw [e42]
    generalize r (r (b.radius * b.radius) - Fl.sqrMag r off) = d at *
    generalize Fl.sqDist r ⟨y, false⟩ q = sd at *
    have w1 := sq_nonneg (len off.elem)
    simp only at h4
    generalize eucl y q.elem ^ 2 = S at *
    generalize len off.elem ^ 2 = w2 at *
    generalize eucl b.center.elem (spacePoint s q.elem) ^ 2 = E at *
    have R1 := sq_nonneg b.radius
    have D1 := sq_nonneg (eucl b.center.elem s.orient.origin.elem)
    have M1 := sq_nonneg M
    generalize b.radius ^ 2 = R2 at *
    generalize eucl b.center.elem s.orient.origin.elem ^ 2 = D2 at *
    generalize hM2 : M ^ 2 = M2 at *
    have hd' := (_root_.abs_le.1 hd).2
    have hE' := (_root_.abs_le.1 hE).2
    have u1 := mul_le_mul_of_nonneg_left hS hu0.le
    have u2 := mul_le_mul_of_nonneg_left hw hu0.le
    have u3 := mul_nonneg hu0.le R1
    have u4 := mul_nonneg hu0.le D1
    have u5 := mul_nonneg hu0.le M1
    have u6 := mul_nonneg hδ0 R1
    have u7 := mul_nonneg hδ0 D1
    have u8 := mul_nonneg hδ0 M1
    have hpos := epsilon_pos
    have u9 := mul_nonneg hpos.le hM0
    linarith
  have hc : Convex ℝ {x : Fin n → ℝ | eucl x b.center.elem ^ 2 ≤ b.radius ^ 2 + 3 * epsilon * (1 + M) + ballMargin b.radius (eucl b.center.elem s.orient.origin.elem) M δ} := by
    have := convex_ballSet (⟨b.center, Real.sqrt (b.radius ^ 2 + 3 * epsilon * (1 + M) + ballMargin b.radius (eucl b.center.elem s.orient.origin.elem) M δ)⟩ : Ball n)
    refine (iff_of_eq (congrArg (Convex ℝ) ?_)).1 this
    ext z
    show eucl z b.center.elem ≤ Real.sqrt _ ↔ _
    have hz : 0 ≤ eucl z b.center.elem := by rw [eucl_eq_len]; exact len_nonneg _
    refine Real.le_sqrt hz ?_
    have := epsilon_pos
    unfold ballMargin
    positivity
  exact (hc.convexHull_subset_iff.2 (by rintro z ⟨q, hqm, rfl⟩; exact key q hqm)) hx

/-- C151: when a ball is found not to contain a polygon, some corner is outside it, or within the margin of its surface; and an answer is given. -/
theorem C151_no (r : Rounding 53) (hn : n ≤ 3) (s : Poly n) (hs : PlaneAxes s.orient) (b : Ball n) (δ M : ℝ)
    (hδ : |s.orient.ax0.elem ⬝ᵥ s.orient.ax1.elem| ≤ δ) (hM : ∀ q ∈ s.poly, q.elem 0 ^ 2 + q.elem 1 ^ 2 ≤ M ^ 2) (hM0 : 0 ≤ M) (proper : Bool)
    (h : Fl.containsBallPolyN r b s proper ≠ some true) :
    Fl.containsBallPolyN r b s proper = some false ∧ ∃ x ∈ planeCorners s,
      b.radius ^ 2 + (if proper then 0 else epsilon) - ballMargin b.radius (eucl b.center.elem s.orient.origin.elem) M δ ≤ eucl x b.center.elem ^ 2 := by
  obtain ⟨off, y, ho, hw, hd, hq⟩ := Fl.containsBallPolyN_setup r hn s hs b hδ hM
  have hu0 : 0 < u 53 := u_pos
  have hδ0 := (abs_nonneg _).trans hδ
  have e42 : (2 : ℝ) ^ (-42 : ℤ) = 2048 * u 53 := by rw [Fl.u53]; norm_num
  have fin : ∀ q ∈ s.poly, r (r (b.radius * b.radius) - Fl.sqrMag r off) + (if proper then 0 else epsilon) ≤ (1 + 11 * u 53) * eucl y q.elem ^ 2 →
      b.radius ^ 2 + (if proper then 0 else epsilon) - ballMargin b.radius (eucl b.center.elem s.orient.origin.elem) M δ ≤ eucl (spacePoint s q.elem) b.center.elem ^ 2 := by
    intro q hqm h3
    obtain ⟨hS, hE⟩ := hq q hqm
    rw [eucl_comm (spacePoint s q.elem)]
    unfold ballMargin
    rw [e42]
    generalize (if proper then 0 else epsilon : ℝ) = tol at *
    generalize r (r (b.radius * b.radius) - Fl.sqrMag r off) = d at *
    have w1 := sq_nonneg (len off.elem)
    generalize eucl y q.elem ^ 2 = S at *
    generalize len off.elem ^ 2 = w2 at *
    generalize eucl b.center.elem (spacePoint s q.elem) ^ 2 = E at *
    have R1 := sq_nonneg b.radius
    have D1 := sq_nonneg (eucl b.center.elem s.orient.origin.elem)
    have M1 := sq_nonneg M
    generalize b.radius ^ 2 = R2 at *
    generalize eucl b.center.elem s.orient.origin.elem ^ 2 = D2 at *
    generalize hM2 : M ^ 2 = M2 at *
    have hd' := (_root_.abs_le.1 hd).1
    have hE' := (_root_.abs_le.1 hE).1
    have u1 := mul_le_mul_of_nonneg_left hS hu0.le
    have u2 := mul_le_mul_of_nonneg_left hw hu0.le
    have u3 := mul_nonneg hu0.le R1
    have u4 := mul_nonneg hu0.le D1
    have u5 := mul_nonneg hu0.le M1
    have u6 := mul_nonneg hδ0 R1
    have u7 := mul_nonneg hδ0 D1
    have u8 := mul_nonneg hδ0 M1
    linarith
  unfold Fl.containsBallPolyN at h ⊢
  by_cases hne : s.poly.length = 0
  · rw [if_pos hne] at h; exact absurd rfl h
  rw [if_neg hne, ho] at h ⊢
  simp only [Option.map_some, Option.some.injEq, ne_eq, Bool.not_eq_true] at h ⊢
  refine ⟨h, ?_⟩
  by_cases h1 : Fl.less r (r (r (b.radius * b.radius) - Fl.sqrMag r off)) 0 proper = true
  · obtain ⟨q, hqm⟩ := List.exists_mem_of_ne_nil s.poly (by intro h; simp [h] at hne)
    refine ⟨_, ⟨q, hqm, rfl⟩, fin q hqm (((Fl.less_gap r _ _ proper).1 h1).trans ?_)⟩
    have := sq_nonneg (eucl y q.elem)
    positivity
  · rw [if_neg h1] at h
    obtain ⟨q, hqm, h2⟩ := List.all_eq_false.1 h
    rw [Bool.not_eq_true, Bool.not_eq_false'] at h2
    exact ⟨_, ⟨q, hqm, rfl⟩, fin q hqm (((Fl.less_gap r _ _ proper).1 h2).trans (Fl.sqDist_plane r ⟨y, false⟩ q (hM q hqm) hM0).1)⟩

/-- C151: a ball whose radius exceeds the distances of all corners by the margin is found to contain the polygon. -/
theorem C151_inside (r : Rounding 53) (hn : n ≤ 3) (s : Poly n) (hs : PlaneAxes s.orient) (b : Ball n) (δ M : ℝ)
    (hδ : |s.orient.ax0.elem ⬝ᵥ s.orient.ax1.elem| ≤ δ) (hM : ∀ q ∈ s.poly, q.elem 0 ^ 2 + q.elem 1 ^ 2 ≤ M ^ 2) (hM0 : 0 ≤ M) (proper : Bool)
    (h : ∀ x ∈ planeCorners s, eucl x b.center.elem ^ 2 < b.radius ^ 2 + (if proper then 0 else epsilon) - ballMargin b.radius (eucl b.center.elem s.orient.origin.elem) M δ) :
    Fl.containsBallPolyN r b s proper = some true := by
  by_contra hc
  obtain ⟨-, x, hx, h1⟩ := C151_no r hn s hs b δ M hδ hM hM0 proper hc
  exact absurd (h x hx) (not_lt.2 h1)

end WFMath
