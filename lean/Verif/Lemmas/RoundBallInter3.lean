/- Lemmas for C152: the margins of the test whether a polygon in space meets a ball. -/
import Verif.Props.RoundBallPoly3

namespace WFMath.Fl
open Spec Matrix Rounding
variable {n : Nat}

/-- The computed projection of the center of a ball, and the squares of the distances of the points of the plane. -/
theorem interPolyBallN_setup (r : Rounding 53) (hn : n ≤ 3) (s : Poly n) (hs : PlaneAxes s.orient) (b : Ball n) {δ : ℝ}
    (hδ : |s.orient.ax0.elem ⬝ᵥ s.orient.ax1.elem| ≤ δ) {M : ℝ} (hM : ∀ q ∈ s.poly, q.elem 0 ^ 2 + q.elem 1 ^ 2 ≤ M ^ 2) :
    ∃ (off : Vec n) (y : Fin 2 → ℝ), Fl.offset r s.orient b.center = some (off, ⟨y, false⟩) ∧ len off.elem ^ 2 ≤ 103 / 100 * eucl b.center.elem s.orient.origin.elem ^ 2 ∧
      |y 0| ≤ 101 / 100 * eucl b.center.elem s.orient.origin.elem ∧
      |r (r (b.radius * b.radius) - Fl.sqrMag r off) - (b.radius ^ 2 - len off.elem ^ 2)| ≤ 3 * u 53 * b.radius ^ 2 + 10 * u 53 * len off.elem ^ 2 ∧
      (∀ q ∈ s.poly, eucl y q.elem ^ 2 ≤ 41 / 10 * eucl b.center.elem s.orient.origin.elem ^ 2 + 2 * M ^ 2) ∧
      ∀ z : Fin 2 → ℝ, |eucl b.center.elem (spacePoint s z) ^ 2 - (eucl y z ^ 2 + len off.elem ^ 2)| ≤
          (360 * u 53 + 21 / 10 * δ) * (eucl y z ^ 2 + eucl b.center.elem s.orient.origin.elem ^ 2) := by
  have n0 : Fl.NearUnit s.orient.ax0.elem := by unfold Fl.NearUnit; rw [Fl.u53]; exact hs.unit0
  have n1 : Fl.NearUnit s.orient.ax1.elem := by unfold Fl.NearUnit; rw [Fl.u53]; exact hs.unit1
  obtain ⟨off, y, ho, h1, h2, h3⟩ := Fl.containsBallPolyN_setup r hn s hs b hδ hM
  obtain ⟨off', y', g, ho', hp, hg, y0, y1, hw, wa, wb⟩ := Fl.offset_dots r hn hs.origin n0 n1 b.center hδ
  rw [ho] at ho'
  simp only [Option.some.injEq, Prod.mk.injEq, Pt.mk.injEq, and_true] at ho'
  obtain ⟨rfl, rfl⟩ := ho'
  refine ⟨off, y, ho, h1, by rw [eucl_eq_len]; exact y0, h2, fun q hq => (h3 q hq).1, fun z => ?_⟩
  have hE : eucl y z ^ 2 = (y 0 - z 0) ^ 2 + (y 1 - z 1) ^ 2 := by rw [eucl_sq, Fin.sum_univ_two]
  have hv : b.center.elem - spacePoint s z = (y 0 - z 0) • s.orient.ax0.elem + (y 1 - z 1) • s.orient.ax1.elem + off.elem + g := by
    unfold spacePoint
    rw [sub_eq_iff_eq_add]
    refine hp.trans ?_
    module
  have hpy := Fl.pythagoras_err (x := y 0 - z 0) (y := y 1 - z 1) n0 n1 hδ (len_nonneg _) hg hw wa wb
  rw [← hv, ← eucl_eq_len, ← hE, ← eucl_eq_len] at hpy
  exact hpy

/-- The margin of the point test in the plane. -/
theorem sideMargin_le {a D M Z : ℝ} (ha : |a| ≤ 101 / 100 * D) (hD : 0 ≤ D) (hM : 0 ≤ M) (hZ : 1 + D + M ≤ Z) : sideMargin a M ≤ 125 * u 53 * Z := by
  unfold sideMargin
  have hu0 : 0 < u 53 := u_pos
  have e1 : epsilon = 60 * u 53 := by rw [u53]; unfold epsilon; norm_num
  have e2 : (2 : ℝ) ^ (-52 : ℤ) ≤ 1 / 1000 := by norm_num
  have e3 : (2 : ℝ) ^ (-48 : ℤ) = 32 * u 53 := by rw [u53]; norm_num
  have hm : max 1 (2 * |a|) ≤ 1 + 202 / 100 * D := max_le (by linarith) (by linarith)
  have hm0 : 0 ≤ max 1 (2 * |a|) := zero_le_one.trans (le_max_left _ _)
  rw [e1, e3]
  have e4 : (0 : ℝ) ≤ 2 ^ (-52 : ℤ) := by norm_num
  generalize (2 : ℝ) ^ (-52 : ℤ) = v at *
  have h1 : 60 * u 53 * max 1 (2 * |a|) * (1 + v) ≤ 60 * u 53 * (1 + 202 / 100 * D) * (1001 / 1000) :=
    mul_le_mul (mul_le_mul_of_nonneg_left hm (by positivity)) (by linarith) (by positivity) (by positivity)
  have h2 := mul_le_mul_of_nonneg_left hZ hu0.le
  have h3 := mul_nonneg hu0.le hD
  have h4 := mul_nonneg hu0.le hM
  linarith

/-- A distance in the plane, from its square. -/
theorem plane_dist_le {y z : Fin 2 → ℝ} {D M Z : ℝ} (h : eucl y z ^ 2 ≤ 41 / 10 * D ^ 2 + 2 * M ^ 2) (hD : 0 ≤ D) (hM : 0 ≤ M) (hZ : 1 + D + M ≤ Z) : eucl y z ≤ 203 / 100 * Z := by
  refine abs_le_of_sq_le_sq' (h.trans ?_) (by linarith) |>.2
  have : (D + M) ^ 2 ≤ Z ^ 2 := pow_le_pow_left₀ (by linarith) (by linarith) 2
  nlinarith [mul_nonneg hD hM]

/-- The arithmetic of the first direction: a gap in the squares is larger than the margins of the test in the plane. -/
theorem gap_meets {S D R w t δ Z dist E : ℝ} (ht : 0 ≤ t) (ht1 : t ≤ 1 / 1000000) (hδ : 0 ≤ δ) (hZ : 1 ≤ Z) (hR : 0 ≤ R) (hD : 0 ≤ D) (hRD : R + D ≤ Z)
    (hw0 : 0 ≤ w) (hw : w ≤ 103 / 100 * D ^ 2) (hd : |dist - (R ^ 2 - w)| ≤ 3 * t * R ^ 2 + 10 * t * w)
    (hE : |E - (S ^ 2 + w)| ≤ (360 * t + 21 / 10 * δ) * (S ^ 2 + D ^ 2)) (hE0 : 0 ≤ E) (h : E ≤ R ^ 2 - (11 * δ + 8192 * t) * Z ^ 2) :
    S ≤ 6 / 5 * Z ∧ S ^ 2 + 7000 * t * Z ^ 2 ≤ dist := by
  have hRD2 : R ^ 2 + D ^ 2 ≤ Z ^ 2 := by
    have : (R + D) ^ 2 ≤ Z ^ 2 := pow_le_pow_left₀ (by linarith) hRD 2
    nlinarith [mul_nonneg hR hD]
  have hZ2 : 1 ≤ Z ^ 2 := by nlinarith
  have hD2 := sq_nonneg D
  have hR2 := sq_nonneg R
  have hS2 := sq_nonneg S
  rw [_root_.abs_le] at hd hE
  have tZ := mul_nonneg ht (sq_nonneg Z)
  have hδ1 : 11 * δ ≤ 1 := by
    by_contra hc
    push Not at hc
    have := mul_lt_mul_of_pos_right hc (show 0 < Z ^ 2 by linarith)
    linarith
  have hκ : (360 * t + 21 / 10 * δ) * (S ^ 2 + D ^ 2) ≤ 1 / 5 * (S ^ 2 + D ^ 2) := mul_le_mul_of_nonneg_right (by linarith) (by linarith)
  have hδZ := mul_nonneg hδ (sq_nonneg Z)
  have hS3 : S ^ 2 + D ^ 2 ≤ 5 / 4 * Z ^ 2 := by linarith
  have hκ2 := mul_le_mul_of_nonneg_left hS3 (show 0 ≤ 360 * t + 21 / 10 * δ by positivity)
  have tR := mul_le_mul_of_nonneg_left (show 3 * R ^ 2 + 10 * w ≤ 11 * Z ^ 2 by linarith) ht
  refine ⟨abs_le_of_sq_le_sq' (by nlinarith) (by linarith) |>.2, by linarith⟩

/-- The root of the square, computed, exceeds the distance by the margins of the test in the plane. -/
theorem gap_root {S t Z dist q : ℝ} (ht : 0 ≤ t) (ht1 : t ≤ 1 / 1000000) (hZ : 1 ≤ Z) (hS : 0 ≤ S) (hSZ : S ≤ 6 / 5 * Z) (hd : S ^ 2 + 7000 * t * Z ^ 2 ≤ dist)
    (hq : |q - Real.sqrt dist| ≤ t * |Real.sqrt dist|) : (S + 2385 * t * Z) * (1 + 60 * t) ≤ q := by
  have tZ := mul_nonneg ht (zero_le_one.trans hZ)
  have ttZ := mul_nonneg ht tZ
  have ttZ' := mul_le_mul_of_nonneg_right ht1 tZ
  have tS := mul_le_mul_of_nonneg_left hSZ ht
  have tS0 := mul_nonneg ht hS
  have ttS := mul_le_mul_of_nonneg_right ht1 tS0
  have h1 : S + 2470 * t * Z ≤ Real.sqrt dist := by
    refine Real.le_sqrt_of_sq_le (le_trans ?_ hd)
    have a1 := mul_le_mul_of_nonneg_left hSZ tZ
    have a2 := mul_le_mul_of_nonneg_right ttZ' (zero_le_one.trans hZ)
    nlinarith
  rw [abs_of_nonneg (Real.sqrt_nonneg _), _root_.abs_le] at hq
  have h2 := mul_le_mul_of_nonneg_left h1 (show 0 ≤ 1 - t by linarith)
  nlinarith

/-- The arithmetic of the other direction. -/
theorem gap_found {S D R w t δ Z dist E q : ℝ} (ht : 0 ≤ t) (ht1 : t ≤ 1 / 1000000) (hδ : 0 ≤ δ) (hZ : 1 ≤ Z) (hS : 0 ≤ S) (hR : 0 ≤ R) (hD : 0 ≤ D) (hRD : R + D ≤ Z)
    (hw0 : 0 ≤ w) (hw : w ≤ 103 / 100 * D ^ 2) (hd : |dist - (R ^ 2 - w)| ≤ 3 * t * R ^ 2 + 10 * t * w) (hd0 : 0 ≤ dist)
    (hE : |E - (S ^ 2 + w)| ≤ (360 * t + 21 / 10 * δ) * (S ^ 2 + D ^ 2)) (hq : |q - Real.sqrt dist| ≤ t * |Real.sqrt dist|)
    (h : S ≤ q * (1 + 60 * t) + 160 * t * Z) : E ≤ R ^ 2 + (11 * δ + 8192 * t) * Z ^ 2 := by
  have hRD2 : R ^ 2 + D ^ 2 ≤ Z ^ 2 := by
    have : (R + D) ^ 2 ≤ Z ^ 2 := pow_le_pow_left₀ (by linarith) hRD 2
    nlinarith [mul_nonneg hR hD]
  have hZ2 : 1 ≤ Z ^ 2 := by nlinarith
  have hD2 := sq_nonneg D
  have hR2 := sq_nonneg R
  rw [_root_.abs_le] at hd hE
  rw [abs_of_nonneg (Real.sqrt_nonneg _), _root_.abs_le] at hq
  have tZ := mul_nonneg ht (zero_le_one.trans hZ)
  have tZ2 := mul_nonneg ht (sq_nonneg Z)
  have ttZ' := mul_le_mul_of_nonneg_right ht1 tZ
  have ttZ2' := mul_le_mul_of_nonneg_right ht1 (sq_nonneg Z)
  have tR := mul_le_mul_of_nonneg_left (show 3 * R ^ 2 + 10 * w ≤ 11 * Z ^ 2 by linarith) ht
  have hdZ : dist ≤ (101 / 100 * Z) ^ 2 := by nlinarith
  have hr : Real.sqrt dist ≤ 101 / 100 * Z := Real.sqrt_le_iff.2 ⟨by linarith, hdZ⟩
  have hr0 := Real.sqrt_nonneg dist
  have hrr := Real.sq_sqrt hd0
  generalize Real.sqrt dist = v at *
  have tv := mul_le_mul_of_nonneg_left hr ht
  have tv0 := mul_nonneg ht hr0
  have ttv := mul_le_mul_of_nonneg_right ht1 tv0
  have hq1 : q * (1 + 60 * t) ≤ (1 + t) * v * (1 + 60 * t) := mul_le_mul_of_nonneg_right (by linarith) (by linarith)
  have hS1 : S ≤ v + 225 * t * Z := by nlinarith
  have hS2 : S ^ 2 ≤ dist + 460 * t * Z ^ 2 := by
    have := pow_le_pow_left₀ hS hS1 2
    have a1 := mul_le_mul_of_nonneg_left hr tZ
    have a2 := mul_le_mul_of_nonneg_right ttZ' (zero_le_one.trans hZ)
    nlinarith
  have hSD : S ^ 2 + D ^ 2 ≤ 101 / 100 * Z ^ 2 := by linarith
  have hκ := mul_le_mul_of_nonneg_left hSD (show 0 ≤ 360 * t + 21 / 10 * δ by positivity)
  have hδZ := mul_nonneg hδ (sq_nonneg Z)
  linarith

/-- The same for a corner so near to the projected center that the squared distance is set to 0. -/
theorem gap_flushed {S D R w t δ Z dist E : ℝ} (ht : 0 ≤ t) (ht1 : t ≤ 1 / 1000000) (hδ : 0 ≤ δ) (hZ : 1 ≤ Z) (hR : 0 ≤ R) (hD : 0 ≤ D) (hRD : R + D ≤ Z)
    (hw : w ≤ 103 / 100 * D ^ 2) (hd : |dist - (R ^ 2 - w)| ≤ 3 * t * R ^ 2 + 10 * t * w) (hd0 : 0 ≤ dist)
    (hE : |E - (S ^ 2 + w)| ≤ (360 * t + 21 / 10 * δ) * (S ^ 2 + D ^ 2)) (h : S ^ 2 ≤ 123 * t * Z) : E ≤ R ^ 2 + (11 * δ + 8192 * t) * Z ^ 2 := by
  have hRD2 : R ^ 2 + D ^ 2 ≤ Z ^ 2 := by
    have : (R + D) ^ 2 ≤ Z ^ 2 := pow_le_pow_left₀ (by linarith) hRD 2
    nlinarith [mul_nonneg hR hD]
  have hZ2 : 1 ≤ Z ^ 2 := by nlinarith
  have hD2 := sq_nonneg D
  have hR2 := sq_nonneg R
  rw [_root_.abs_le] at hd hE
  have tZ := mul_nonneg ht (zero_le_one.trans hZ)
  have tZ2 := mul_nonneg ht (sq_nonneg Z)
  have ttZ2' := mul_le_mul_of_nonneg_right ht1 (sq_nonneg Z)
  have tR := mul_le_mul_of_nonneg_left (show 3 * R ^ 2 + 10 * w ≤ 11 * Z ^ 2 by linarith) ht
  have h2 : S ^ 2 ≤ 123 * t * Z ^ 2 := by nlinarith
  have hSD : S ^ 2 + D ^ 2 ≤ 101 / 100 * Z ^ 2 := by linarith
  have hκ := mul_le_mul_of_nonneg_left hSD (show 0 ≤ 360 * t + 21 / 10 * δ by positivity)
  have hδZ := mul_nonneg hδ (sq_nonneg Z)
  linarith

end WFMath.Fl
