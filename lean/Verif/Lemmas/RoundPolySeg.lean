/- The crossing of a segment with the plane of a polygon in floating point. -/
import Verif.Lemmas.RoundBallPoly3
import Verif.Model.RoundedPolySeg

namespace WFMath.Fl
open Spec Matrix Rounding
variable {n : Nat}

/-- The computed height and foot of a point that is `h` above the plane. -/
theorem offset_normal (r : Rounding 53) (hn : n ≤ 3) {o : Orient n} (hv : o.origin.valid = true) (h0 : NearUnit o.ax0.elem) (h1 : NearUnit o.ax1.elem) (p : Pt n)
    {δ : ℝ} (hδ : |o.ax0.elem ⬝ᵥ o.ax1.elem| ≤ δ) (hδ1 : δ ≤ 1 / 10) {w : Fin n → ℝ} (w0 : w ⬝ᵥ o.ax0.elem = 0) (w1 : w ⬝ᵥ o.ax1.elem = 0) {P : Fin 2 → ℝ} {h : ℝ}
    (hp : p.elem = o.origin.elem + P 0 • o.ax0.elem + P 1 • o.ax1.elem + h • w) :
    ∃ (off : Vec n) (y : Fin 2 → ℝ), offset r o p = some (off, ⟨y, false⟩) ∧
      (∀ i, |y i| ≤ 101 / 100 * len (p.elem - o.origin.elem)) ∧ len off.elem ≤ 101 / 100 * len (p.elem - o.origin.elem) ∧
      (∀ i, |y i - P i| ≤ (256 * u 53 + 3 / 2 * δ) * len (p.elem - o.origin.elem)) ∧ len (off.elem - h • w) ≤ (512 * u 53 + 3 * δ) * len (p.elem - o.origin.elem) := by
  have hu0 : 0 < u 53 := u_pos
  have hu : u 53 ≤ 1 / 1000000 := by rw [u53]; norm_num
  have hδ0 := (abs_nonneg _).trans hδ
  obtain ⟨off, y, g, k1, k2, k3, k4, k5, k6, k7, k8⟩ := offset_dots r hn hv h0 h1 p hδ
  have a0 := h0.len
  have a1 := h1.len
  have q0 := _root_.abs_le.1 (show |o.ax0.elem ⬝ᵥ o.ax0.elem - 1| ≤ 26 * u 53 from h0)
  have q1 := _root_.abs_le.1 (show |o.ax1.elem ⬝ᵥ o.ax1.elem - 1| ≤ 26 * u 53 from h1)
  have hD := len_nonneg (p.elem - o.origin.elem)
  have huD := mul_nonneg hu0.le hD
  have hdD := mul_nonneg hδ0 hD
  have e : off.elem = (P 0 - y 0) • o.ax0.elem + (P 1 - y 1) • o.ax1.elem + h • w - g := by
    have := k2.symm.trans hp
    have e2 : off.elem = (o.origin.elem + y 0 • o.ax0.elem + y 1 • o.ax1.elem + off.elem + g) - (o.origin.elem + y 0 • o.ax0.elem + y 1 • o.ax1.elem) - g := by abel
    rw [e2, this]
    module
  have l0 := len_nonneg o.ax0.elem
  have l1 := len_nonneg o.ax1.elem
  have g0 := abs_dot_le_len g o.ax0.elem
  have g1 := abs_dot_le_len g o.ax1.elem
  have hg := len_nonneg g
  generalize hDe : len (p.elem - o.origin.elem) = D at *
  have gb : ∀ a : Fin n → ℝ, len a ≤ 1 + 13 * u 53 → 0 ≤ len a → |g ⬝ᵥ a| ≤ 121 / 10 * u 53 * D := fun a ha ha0 => by
    have := abs_dot_le_len g a
    have m := mul_le_mul k3 (show len a ≤ 1001 / 1000 by linarith) ha0 (by positivity)
    linarith
  have gb0 := gb _ a0 l0
  have gb1 := gb _ a1 l1
  have d0 : off.elem ⬝ᵥ o.ax0.elem = (P 0 - y 0) * (o.ax0.elem ⬝ᵥ o.ax0.elem) + (P 1 - y 1) * (o.ax0.elem ⬝ᵥ o.ax1.elem) + -(g ⬝ᵥ o.ax0.elem) := by
    rw [e]
    simp only [add_dotProduct, sub_dotProduct, smul_dotProduct, smul_eq_mul, w0, dotProduct_comm o.ax1.elem o.ax0.elem]
    ring
  have d1 : off.elem ⬝ᵥ o.ax1.elem = (P 1 - y 1) * (o.ax1.elem ⬝ᵥ o.ax1.elem) + (P 0 - y 0) * (o.ax0.elem ⬝ᵥ o.ax1.elem) + -(g ⬝ᵥ o.ax1.elem) := by
    rw [e]
    simp only [add_dotProduct, sub_dotProduct, smul_dotProduct, smul_eq_mul, w1]
    ring
  have m0 : |(P 1 - y 1) * (o.ax0.elem ⬝ᵥ o.ax1.elem)| ≤ |P 1 - y 1| * δ := by
    rw [abs_mul]; exact mul_le_mul_of_nonneg_left hδ (abs_nonneg _)
  have m1 : |(P 0 - y 0) * (o.ax0.elem ⬝ᵥ o.ax1.elem)| ≤ |P 0 - y 0| * δ := by
    rw [abs_mul]; exact mul_le_mul_of_nonneg_left hδ (abs_nonneg _)
  have x0 := coord_err (B := (146 * u 53 + 101 / 100 * δ) * D + |P 1 - y 1| * δ + 121 / 10 * u 53 * D) d0 (by linarith) (by rw [abs_neg]; linarith)
  have x1 := coord_err (B := 141 * u 53 * D + |P 0 - y 0| * δ + 121 / 10 * u 53 * D) d1 (by linarith) (by rw [abs_neg]; linarith)
  have n0 := mul_le_mul_of_nonneg_left hδ1 (abs_nonneg (P 0 - y 0))
  have n1 := mul_le_mul_of_nonneg_left hδ1 (abs_nonneg (P 1 - y 1))
  have p0 := abs_nonneg (P 0 - y 0)
  have p1 := abs_nonneg (P 1 - y 1)
  have b0 : |P 0 - y 0| ≤ 180 * u 53 * D + 104 / 100 * δ * D := by linarith
  have b1 : |P 1 - y 1| ≤ 180 * u 53 * D + 11 / 100 * δ * D := by linarith
  refine ⟨off, y, k1, fun i => ?_, k6, fun i => ?_, ?_⟩
  · fin_cases i
    exacts [k4, k5]
  · rw [abs_sub_comm]
    fin_cases i
    · show |P 0 - y 0| ≤ _
      linarith
    · show |P 1 - y 1| ≤ _
      linarith
  · have e3 : off.elem - h • w = (P 0 - y 0) • o.ax0.elem + (P 1 - y 1) • o.ax1.elem + -g := by rw [e]; abel
    rw [e3]
    refine ((len_add_le _ _).trans (add_le_add (len_add_le _ _) le_rfl)).trans ?_
    rw [len_neg, len_smul', len_smul']
    have c0 := mul_le_mul b0 (show len o.ax0.elem ≤ 1001 / 1000 by linarith) l0 (by positivity)
    have c1 := mul_le_mul b1 (show len o.ax1.elem ≤ 1001 / 1000 by linarith) l1 (by positivity)
    linarith

/-- The computed length of the offset. -/
theorem height_err (r : Rounding 53) (hn : n ≤ 3) (v : Vec n) {w : Fin n → ℝ} (hw : w ⬝ᵥ w = 1) {h β D : ℝ} (hv : len (v.elem - h • w) ≤ β) (hD : len v.elem ≤ 101 / 100 * D)
    (hβ : 512 * u 53 * D ≤ β) : 0 ≤ mag r v ∧ |mag r v - (|h|)| ≤ 51 / 50 * β := by
  have hu0 : 0 < u 53 := u_pos
  have hm : v.mag = len v.elem := rfl
  have hc := Fl.Close_u ((mag_close r v).mono pos53 (show 1 + n + 1 ≤ 5 by omega)) (by norm_num)
  rw [hm] at hc
  have hl := len_nonneg v.elem
  rw [abs_of_nonneg hl] at hc
  push_cast at hc
  have h1 : |len v.elem - (|h|)| ≤ β := by
    have e : len (h • w) = |h| := by rw [len_smul', len, hw, Real.sqrt_one, mul_one]
    rw [← e]
    have t1 := len_add_le (v.elem - h • w) (h • w)
    have t2 := len_add_le (h • w - v.elem) v.elem
    rw [sub_add_cancel] at t1 t2
    rw [← neg_sub, len_neg] at t2
    rw [_root_.abs_le]
    constructor <;> linarith
  have h2 := abs_sub_le (mag r v) (len v.elem) (|h|)
  refine ⟨?_, ?_⟩
  · unfold mag
    rw [← r.zero]
    exact r.mono (Real.sqrt_nonneg _)
  · have huD := mul_le_mul_of_nonneg_left hD hu0.le
    have := mul_nonneg hu0.le (show 0 ≤ D by linarith)
    linarith

/-- The side test: heights of one sign. -/
theorem dot_sides (r : Rounding 53) (hn : n ≤ 3) (v1 v2 : Vec n) {w : Fin n → ℝ} (hw : w ⬝ᵥ w = 1) {h1 h2 β : ℝ} (e1 : len (v1.elem - h1 • w) ≤ β)
    (e2 : len (v2.elem - h2 • w) ≤ β) (k1 : 4 * β ≤ |h1|) (k2 : 4 * β ≤ |h2|) :
    (h1 * h2 < 0 → dot r v1 v2 ≤ 0) ∧ (0 < h1 * h2 → (8 * epsilon ≤ |h1| ∨ 8 * epsilon ≤ |h2|) → 0 < dot r v1 v2) := by
  have hu0 : 0 < u 53 := u_pos
  have hu : u 53 ≤ 1 / 1000000 := by rw [u53]; norm_num
  have lw : len w = 1 := by rw [len, hw, Real.sqrt_one]
  have a1 := abs_nonneg h1
  have a2 := abs_nonneg h2
  have lv : ∀ (v : Vec n) (h : ℝ), len (v.elem - h • w) ≤ β → 4 * β ≤ |h| → len v.elem ≤ 5 / 4 * |h| := fun v h hv hh => by
    have := len_add_le (v.elem - h • w) (h • w)
    rw [sub_add_cancel, len_smul', lw, mul_one] at this
    linarith
  have l1 := lv v1 h1 e1 k1
  have l2 := lv v2 h2 e2 k2
  have l10 := len_nonneg v1.elem
  have l20 := len_nonneg v2.elem
  have hprod : len v1.elem * len v2.elem ≤ 25 / 16 * (|h1| * |h2|) := by
    have := mul_le_mul l1 l2 l20 (by positivity)
    linarith
  have ex : |v1.elem ⬝ᵥ v2.elem - h1 * h2| ≤ 9 / 16 * (|h1| * |h2|) := by
    have e : v1.elem ⬝ᵥ v2.elem - h1 * h2 = (v1.elem - h1 • w) ⬝ᵥ v2.elem + h1 * (w ⬝ᵥ (v2.elem - h2 • w)) := by
      simp only [sub_dotProduct, dotProduct_sub, smul_dotProduct, dotProduct_smul, smul_eq_mul, hw]
      ring
    rw [e]
    refine (abs_add_le _ _).trans ?_
    rw [abs_mul]
    have t1 := (abs_dot_le_len (v1.elem - h1 • w) v2.elem).trans (mul_le_mul (e1.trans (show β ≤ |h1| / 4 by linarith)) l2 l20 (by positivity))
    have t2 := (abs_dot_le_len w (v2.elem - h2 • w))
    rw [lw, one_mul] at t2
    have t3 := mul_le_mul_of_nonneg_left (t2.trans (e2.trans (show β ≤ |h2| / 4 by linarith))) a1
    have := mul_nonneg a1 a2
    linarith
  have ex' := _root_.abs_le.1 ex
  have hpos := mul_nonneg a1 a2
  have tiny : 8 * u 53 * (len v1.elem * len v2.elem) ≤ 1 / 1000 * (|h1| * |h2|) := by
    have := mul_le_mul (show 8 * u 53 ≤ 8 / 1000000 by linarith) hprod (mul_nonneg l10 l20) (by norm_num)
    linarith
  constructor
  · intro hs
    have e : |h1| * |h2| = -(h1 * h2) := by rw [← abs_mul, abs_of_neg hs]
    rcases dot_or3 r hn v1 v2 with h | ⟨h, -⟩
    · have := _root_.abs_le.1 h
      linarith
    · exact h.le
  · intro hs hm
    have e : |h1| * |h2| = h1 * h2 := by rw [← abs_mul, abs_of_pos hs]
    have p1 : 0 < |h1| := abs_pos.2 (left_ne_zero_of_mul hs.ne')
    have p2 : 0 < |h2| := abs_pos.2 (right_ne_zero_of_mul hs.ne')
    rcases dot_or3 r hn v1 v2 with h | ⟨-, h⟩
    · have := _root_.abs_le.1 h
      linarith
    · exfalso
      have h' := (le_abs_self _).trans h
      have hmin : 2 * epsilon * min (len v1.elem) (len v2.elem) ≤ 5 / 16 * (|h1| * |h2|) := by
        have he := epsilon_pos
        rcases hm with hm | hm
        · have i1 : 2 * epsilon * min (len v1.elem) (len v2.elem) ≤ 2 * epsilon * (5 / 4 * |h2|) :=
            mul_le_mul_of_nonneg_left ((min_le_right _ _).trans l2) (by linarith)
          have i2 := mul_le_mul_of_nonneg_right hm a2
          linarith
        · have i1 : 2 * epsilon * min (len v1.elem) (len v2.elem) ≤ 2 * epsilon * (5 / 4 * |h1|) :=
            mul_le_mul_of_nonneg_left ((min_le_left _ _).trans l1) (by linarith)
          have i2 := mul_le_mul_of_nonneg_left hm a1
          linarith
      linarith

/-- The rounding errors of the weighted mean. -/
theorem mean_round (r : Rounding 53) {y1 y2 d1 d2 D : ℝ} (h1 : |y1| ≤ 101 / 100 * D) (h2 : |y2| ≤ 101 / 100 * D) (k1 : 0 ≤ d1) (k2 : 0 ≤ d2) (hS : 0 < d1 + d2) :
    |r (r (r (y1 * d2) + r (y2 * d1)) / r (d1 + d2)) - (y1 * d2 + y2 * d1) / (d1 + d2)| ≤ 5 * u 53 * D := by
  have hu0 : 0 < u 53 := u_pos
  have hu : u 53 ≤ 1 / 1000000 := by rw [u53]; norm_num
  have hD : 0 ≤ D := by have := (abs_nonneg _).trans h1; linarith
  have eA := r.err pos53 (y1 * d2)
  have eB := r.err pos53 (y2 * d1)
  have eN := r.err pos53 (r (y1 * d2) + r (y2 * d1))
  have eS := r.err pos53 (d1 + d2)
  rw [abs_of_pos hS] at eS
  have A : |y1 * d2| ≤ 101 / 100 * D * d2 := by rw [abs_mul, abs_of_nonneg k2]; exact mul_le_mul_of_nonneg_right h1 k2
  have B : |y2 * d1| ≤ 101 / 100 * D * d1 := by rw [abs_mul, abs_of_nonneg k1]; exact mul_le_mul_of_nonneg_right h2 k1
  have eQ := r.err pos53 (r (r (y1 * d2) + r (y2 * d1)) / r (d1 + d2))
  generalize r (r (r (y1 * d2) + r (y2 * d1)) / r (d1 + d2)) = q at *
  generalize r (r (y1 * d2) + r (y2 * d1)) = N at *
  generalize r (y1 * d2) = rA at *
  generalize r (y2 * d1) = rB at *
  generalize r (d1 + d2) = T at *
  have hAB : |y1 * d2 + y2 * d1| ≤ 101 / 100 * D * (d1 + d2) := (abs_add_le _ _).trans (by linarith)
  generalize y1 * d2 = a at *
  generalize y2 * d1 = b at *
  have hDS : 101 / 100 * D * d2 + 101 / 100 * D * d1 = 101 / 100 * (D * (d1 + d2)) := by ring
  have hDS' : 101 / 100 * D * (d1 + d2) = 101 / 100 * (D * (d1 + d2)) := by ring
  generalize hSe : d1 + d2 = S at *
  have hX := mul_nonneg hD hS.le
  have uX := mul_nonneg hu0.le hX
  have uuX := mul_le_mul_of_nonneg_right hu uX
  have uA := mul_le_mul_of_nonneg_left A hu0.le
  have uB := mul_le_mul_of_nonneg_left B hu0.le
  have s1 : |rA + rB - (a + b)| ≤ 101 / 100 * (u 53 * (D * S)) := by
    have : rA + rB - (a + b) = (rA - a) + (rB - b) := by ring
    rw [this]
    refine (abs_add_le _ _).trans ?_
    have e : u 53 * (101 / 100 * D * d2) + u 53 * (101 / 100 * D * d1) = u 53 * (101 / 100 * (D * S)) := by rw [← hDS]; ring
    linarith
  have s2 : |rA + rB| ≤ 102 / 100 * (D * S) := by
    have := abs_add_le (rA + rB - (a + b)) (a + b)
    rw [sub_add_cancel] at this
    rw [hDS'] at hAB
    have := mul_le_mul_of_nonneg_right hu hX
    linarith
  have s3 : |N - (a + b)| ≤ 204 / 100 * (u 53 * (D * S)) := by
    have := abs_sub_le N (rA + rB) (a + b)
    have m := mul_le_mul_of_nonneg_left s2 hu0.le
    linarith
  have eS' := _root_.abs_le.1 eS
  have uS := mul_le_mul_of_nonneg_right hu hS.le
  have hT : 999 / 1000 * S ≤ T := by linarith
  have hT0 : 0 < T := by linarith
  have s4 : |N / T - (a + b) / S| ≤ 31 / 10 * u 53 * D := by
    rw [div_sub_div _ _ hT0.ne' hS.ne', abs_div, abs_of_pos (mul_pos hT0 hS), div_le_iff₀ (mul_pos hT0 hS)]
    have e : N * S - T * (a + b) = (N - (a + b)) * S + (a + b) * (S - T) := by ring
    rw [e]
    refine (abs_add_le _ _).trans ?_
    rw [abs_mul, abs_mul, abs_of_pos hS]
    have m1 := mul_le_mul_of_nonneg_right s3 hS.le
    have eS2 : |S - T| ≤ u 53 * S := by rw [abs_sub_comm]; exact eS
    have m2 := mul_le_mul hAB eS2 (abs_nonneg _) (by positivity)
    have m3 := mul_le_mul_of_nonneg_left hT (show 0 ≤ 31 / 10 * u 53 * D * S by positivity)
    have m4 : 0 ≤ u 53 * (D * S) * S := by positivity
    nlinarith
  have s5 : |(a + b) / S| ≤ 101 / 100 * D := by
    rw [abs_div, abs_of_pos hS, div_le_iff₀ hS]; exact hAB
  have s6 : |N / T| ≤ 102 / 100 * D := by
    have := abs_add_le (N / T - (a + b) / S) ((a + b) / S)
    rw [sub_add_cancel] at this
    have := mul_le_mul_of_nonneg_right hu hD
    linarith
  have := abs_sub_le q (N / T) ((a + b) / S)
  have m := mul_le_mul_of_nonneg_left s6 hu0.le
  have := mul_nonneg hu0.le hD
  linarith

/-- The weighted mean of the feet is near the crossing. -/
theorem mean_near {y1 y2 P1 P2 d1 d2 a1 a2 β : ℝ} (hβ : 0 ≤ β) (h1 : |y1 - P1| ≤ β / 2) (h2 : |y2 - P2| ≤ β / 2) (k1 : 0 ≤ d1) (k2 : 0 ≤ d2) (b1 : 0 ≤ a1) (b2 : 0 ≤ a2)
    (c1 : |d1 - a1| ≤ 51 / 50 * β) (c2 : |d2 - a2| ≤ 51 / 50 * β) (hH : 8 * β ≤ a1 + a2) (hH0 : 0 < a1 + a2) :
    7 / 10 * (a1 + a2) ≤ d1 + d2 ∧ |(y1 * d2 + y2 * d1) / (d1 + d2) - (P1 * a2 + P2 * a1) / (a1 + a2)| ≤ β / 2 + 3 / 2 * β * |P1 - P2| / (a1 + a2) := by
  have c1' := _root_.abs_le.1 c1
  have c2' := _root_.abs_le.1 c2
  have hS : 7 / 10 * (a1 + a2) ≤ d1 + d2 := by linarith
  have hS0 : 0 < d1 + d2 := by linarith
  refine ⟨hS, ?_⟩
  have e : (y1 * d2 + y2 * d1) / (d1 + d2) - (P1 * a2 + P2 * a1) / (a1 + a2) =
      ((y1 - P1) * d2 + (y2 - P2) * d1) / (d1 + d2) + (P2 - P1) * ((d1 - a1) * a2 - a1 * (d2 - a2)) / ((d1 + d2) * (a1 + a2)) := by
    field_simp
    ring
  rw [e]
  refine (abs_add_le _ _).trans (add_le_add ?_ ?_)
  · rw [abs_div, abs_of_pos hS0, div_le_iff₀ hS0]
    refine (abs_add_le _ _).trans ?_
    rw [abs_mul, abs_mul, abs_of_nonneg k1, abs_of_nonneg k2]
    have m1 := mul_le_mul_of_nonneg_right h1 k2
    have m2 := mul_le_mul_of_nonneg_right h2 k1
    linarith
  · rw [abs_div, abs_of_pos (mul_pos hS0 hH0), div_le_div_iff₀ (mul_pos hS0 hH0) hH0, abs_mul, abs_sub_comm P2 P1]
    have m1 : |(d1 - a1) * a2 - a1 * (d2 - a2)| ≤ 51 / 50 * β * (a1 + a2) := by
      refine (abs_sub _ _).trans ?_
      rw [abs_mul, abs_mul, abs_of_nonneg b1, abs_of_nonneg b2]
      have n1 := mul_le_mul_of_nonneg_right c1 b2
      have n2 := mul_le_mul_of_nonneg_left c2 b1
      linarith
    have m2 := mul_le_mul_of_nonneg_left m1 (abs_nonneg (P1 - P2))
    have m3 := mul_le_mul_of_nonneg_right m2 hH0.le
    have m4 : |P1 - P2| * (51 / 50 * β * (a1 + a2)) ≤ 3 / 2 * β * |P1 - P2| * (d1 + d2) := by
      have : 0 ≤ β * |P1 - P2| := mul_nonneg hβ (abs_nonneg _)
      have := mul_le_mul_of_nonneg_left hS this
      nlinarith
    have m5 := mul_le_mul_of_nonneg_right m4 hH0.le
    calc _ ≤ _ := m3
      _ ≤ _ := m5
      _ = _ := by ring

end WFMath.Fl
