/- The projection to the plane of a polygon in floating point. -/
import Verif.Lemmas.RoundPoly3Move
import Verif.Model.RoundedPoly3Inter

namespace WFMath.Fl
open Spec Matrix Rounding
variable {n : Nat}

/-- The second coordinate of a vector of the plane. -/
theorem coord_bound {a b : Fin n → ℝ} (h0 : NearUnit a) (h1 : NearUnit b) (hQ : |a ⬝ᵥ b| ≤ 1 / 10) (x y : ℝ) : |y| ≤ 6 / 5 * len (x • a + y • b) := by
  have hu : u 53 ≤ 1 / 1000000 := by rw [u53]; norm_num
  have e3 := len_sq (x • a + y • b)
  simp only [add_dotProduct, dotProduct_add, smul_dotProduct, dotProduct_smul, smul_eq_mul] at e3
  rw [dotProduct_comm b a] at e3
  have q0 := (_root_.abs_le.1 h0).1
  have q1 := (_root_.abs_le.1 h1).1
  have e4 := len_nonneg (x • a + y • b)
  generalize len (x • a + y • b) = K at *
  generalize a ⬝ᵥ a = Q0 at *
  generalize b ⬝ᵥ b = Q1 at *
  generalize a ⬝ᵥ b = Q at *
  have e5 : |x * y * Q| ≤ (x ^ 2 + y ^ 2) / 2 * (1 / 10) := by
    rw [abs_mul]
    refine mul_le_mul ?_ hQ (abs_nonneg _) (by positivity)
    rw [abs_le']
    constructor
    · linarith [sq_nonneg (x - y), sub_sq x y]
    · linarith [sq_nonneg (x + y), add_sq x y]
  have e6 := (_root_.abs_le.1 e5).1
  have e7 : x ^ 2 * (999 / 1000) ≤ x ^ 2 * Q0 := mul_le_mul_of_nonneg_left (by linarith) (sq_nonneg x)
  have e8 : y ^ 2 * (999 / 1000) ≤ y ^ 2 * Q1 := mul_le_mul_of_nonneg_left (by linarith) (sq_nonneg y)
  have e9 : y ^ 2 ≤ (6 / 5 * K) ^ 2 := by
    have := sq_nonneg x
    have := sq_nonneg y
    have : K ^ 2 = x ^ 2 * Q0 + y ^ 2 * Q1 + 2 * (x * y * Q) := by rw [e3]; ring
    have e10 : (6 / 5 * K) ^ 2 = 36 / 25 * K ^ 2 := by ring
    linarith
  exact abs_le_of_sq_le_sq e9 (by positivity)

/-- Solving for one coordinate. -/
theorem coord_err {x q t v k B : ℝ} (h : t = x * q + v + k) (hq : 999 / 1000 ≤ q) (hB : |t| + |v| + |k| ≤ B) : |x| ≤ 101 / 100 * B := by
  have h1 : x * q = t - v - k := by rw [h]; ring
  have h2 : |x| * q ≤ B := by
    have : |x| * q = |x * q| := by rw [abs_mul, abs_of_nonneg (by linarith : 0 ≤ q)]
    rw [this, h1]
    have a1 := abs_sub (t - v) k
    have a2 := abs_sub t v
    linarith
  have h3 : |x| * (999 / 1000) ≤ |x| * q := mul_le_mul_of_nonneg_left hq (abs_nonneg x)
  have := abs_nonneg x
  linarith

/-- The pieces of the computed projection. -/
theorem offset_spec (r : Rounding 53) (hn : n ≤ 3) {o : Orient n} (hv : o.origin.valid = true) (h0 : NearUnit o.ax0.elem) (h1 : NearUnit o.ax1.elem) (p : Pt n) :
    ∃ (off : Vec n) (y : Fin 2 → ℝ) (g : Fin n → ℝ), offset r o p = some (off, ⟨y, false⟩) ∧
      p.elem = o.origin.elem + y 0 • o.ax0.elem + y 1 • o.ax1.elem + off.elem + g ∧ len g ≤ 12 * u 53 * len (p.elem - o.origin.elem) ∧
      ∀ (z : Fin 2 → ℝ) (w : Fin n → ℝ) (δ : ℝ), p.elem = o.origin.elem + z 0 • o.ax0.elem + z 1 • o.ax1.elem + w → |o.ax0.elem ⬝ᵥ o.ax1.elem| ≤ δ → δ ≤ 1 / 10 →
        len off.elem ≤ 4 * len w + (2 * δ + 400 * u 53) * len (p.elem - o.origin.elem) := by
  have hu0 : 0 < u 53 := u_pos
  have hu : u 53 ≤ 1 / 1000000 := by rw [u53]; norm_num
  obtain ⟨s1, s2⟩ := start_spec r p o.origin
  unfold offset
  rw [if_neg (by simp [hv])]
  simp only
  obtain ⟨b1, b2, -, b4, b5, -⟩ := step_spec r hn (ptSub r p o.origin) o.ax0 h0
  generalize hs : ptSub r p o.origin = s at *
  generalize hc0 : dot r s o.ax0 = c0 at *
  generalize ht1 : sub r s (scale r o.ax0 c0) = t1 at *
  obtain ⟨d1, d2, -, d4, d5, -⟩ := step_spec r hn t1 o.ax1 h1
  generalize hc1 : dot r t1 o.ax1 = c1 at *
  generalize ht2 : sub r t1 (scale r o.ax1 c1) = t2 at *
  have hD := len_nonneg (p.elem - o.origin.elem)
  have huD := mul_nonneg hu0.le hD
  have hL := len_nonneg s.elem
  have hT := len_nonneg t1.elem
  -- the three errors
  obtain ⟨g0, hg0⟩ : ∃ g0, g0 = s.elem - (p.elem - o.origin.elem) := ⟨_, rfl⟩
  obtain ⟨e, he⟩ : ∃ e, e = t1.elem - (s.elem - c0 • o.ax0.elem) := ⟨_, rfl⟩
  obtain ⟨f, hf⟩ : ∃ f, f = t2.elem - (t1.elem - c1 • o.ax1.elem) := ⟨_, rfl⟩
  rw [← hg0] at s1
  rw [← he] at b2
  rw [← hf] at d2
  have hsum : len (-(g0 + e + f)) ≤ len g0 + len e + len f := by
    rw [len_neg]
    exact (len_add_le _ _).trans (add_le_add (len_add_le _ _) le_rfl)
  generalize hDe : len (p.elem - o.origin.elem) = D at *
  have L1 : len s.elem ≤ 1001 / 1000 * D := by nlinarith
  have T1 : len t1.elem ≤ 1002 / 1000 * D := by nlinarith
  have E1 : len e ≤ 41 / 10 * u 53 * D := by nlinarith
  have F1 : len f ≤ 41 / 10 * u 53 * D := by nlinarith
  refine ⟨t2, ![c0, c1], -(g0 + e + f), rfl, ?_, by nlinarith, ?_⟩
  · rw [hg0, he, hf]; simp only [cons_val_zero, cons_val_one]; module
  intro z w δ hz hδ hδ1
  have hδ0 := (abs_nonneg _).trans hδ
  have hW := len_nonneg w
  have q0 := _root_.abs_le.1 h0
  have q1 := _root_.abs_le.1 h1
  have a0 := h0.len
  have a1 := h1.len
  have a0' := len_nonneg o.ax0.elem
  have a1' := len_nonneg o.ax1.elem
  generalize hA0 : o.ax0.elem = A0 at *
  generalize hA1 : o.ax1.elem = A1 at *
  -- the coordinates are bounded
  have hz1 : |z 1| ≤ 6 / 5 * (D + len w) := by
    have e1 : p.elem - o.origin.elem - w = z 0 • A0 + z 1 • A1 := by rw [hz]; abel
    have e2 : len (p.elem - o.origin.elem - w) ≤ D + len w := by
      rw [sub_eq_add_neg (p.elem - o.origin.elem) w]
      refine (len_add_le _ _).trans ?_
      rw [len_neg, hDe]
    rw [e1] at e2
    have := coord_bound h0 h1 (hδ.trans hδ1) (z 0) (z 1)
    linarith
  -- first coordinate
  have k1 : t1.elem = (z 0 - c0) • A0 + z 1 • A1 + (w + g0 + e) := by rw [he, hg0, hz]; module
  have k2 : t2.elem = (z 0 - c0) • A0 + (z 1 - c1) • A1 + (w + g0 + e + f) := by rw [hf, k1]; module
  have hV : len (w + g0 + e) ≤ len w + 52 / 10 * u 53 * D := by
    refine ((len_add_le _ _).trans (add_le_add (len_add_le _ _) le_rfl)).trans ?_
    linarith
  have hV2 : len (w + g0 + e + f) ≤ len w + 94 / 10 * u 53 * D := by
    refine (len_add_le _ _).trans ?_
    linarith
  generalize w + g0 + e + f = V2 at *
  generalize w + g0 + e = V at *
  have k3 := congrArg (· ⬝ᵥ A0) k1
  have k4 := congrArg (· ⬝ᵥ A1) k2
  simp only [add_dotProduct, smul_dotProduct, smul_eq_mul] at k3 k4
  rw [dotProduct_comm A1 A0] at k3
  have v0 := abs_dot_le_len V A0
  have v1 := abs_dot_le_len V2 A1
  have hl2 : len t2.elem ≤ |z 0 - c0| * len A0 + |z 1 - c1| * len A1 + len V2 := by
    rw [k2]
    refine (len_add_le _ _).trans (add_le_add ((len_add_le _ _).trans ?_) le_rfl)
    rw [len_smul', len_smul']
  have hc : |A0 ⬝ᵥ A1| ≤ 1 / 10 := hδ.trans hδ1
  have x0 := coord_err (B := 141 * u 53 * D + δ * |z 1| + 1001 / 1000 * (len w + 52 / 10 * u 53 * D)) k3 (by linarith) (by
    rw [abs_mul]
    have m1 := mul_le_mul_of_nonneg_left hδ (abs_nonneg (z 1))
    have m2 := mul_le_mul hV (show len A0 ≤ 1001 / 1000 by linarith) a0' (by positivity)
    have m3 := mul_le_mul_of_nonneg_left L1 hu0.le
    linarith)
  have x1 := coord_err (t := t2.elem ⬝ᵥ A1) (q := A1 ⬝ᵥ A1) (x := z 1 - c1) (v := (z 0 - c0) * (A0 ⬝ᵥ A1)) (k := V2 ⬝ᵥ A1)
    (B := 141 * u 53 * D + |z 0 - c0| * (1 / 10) + 1001 / 1000 * (len w + 94 / 10 * u 53 * D)) (by rw [k4]; ring) (by linarith) (by
    rw [abs_mul (z 0 - c0)]
    have m1 := mul_le_mul_of_nonneg_left hc (abs_nonneg (z 0 - c0))
    have m2 := mul_le_mul hV2 (show len A1 ≤ 1001 / 1000 by linarith) a1' (by positivity)
    have m3 := mul_le_mul_of_nonneg_left T1 hu0.le
    linarith)
  have m1 := mul_le_mul_of_nonneg_left hz1 hδ0
  have m2 := mul_le_mul_of_nonneg_right hδ1 hW
  have m3 := mul_le_mul_of_nonneg_left (show len A0 ≤ 1001 / 1000 by linarith) (abs_nonneg (z 0 - c0))
  have m4 := mul_le_mul_of_nonneg_left (show len A1 ≤ 1001 / 1000 by linarith) (abs_nonneg (z 1 - c1))
  have m5 := mul_nonneg hδ0 hD
  linarith

end WFMath.Fl
