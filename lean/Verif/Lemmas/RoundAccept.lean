/- Points near the plane of a polygon are accepted, with rounding. -/
import Verif.Lemmas.RoundPoly3

namespace WFMath.Fl
open Spec Matrix Rounding
variable {n : Nat}

/-- `Dot` with a nearly unit vector, whether the result is flushed to 0 or not. -/
theorem dot_loose (r : Rounding 53) (hn : n ≤ 3) (s a : Vec n) (ha : NearUnit a.elem) : |dot r s a - s.elem ⬝ᵥ a.elem| ≤ 140 * u 53 * len s.elem := by
  have hu0 : 0 < u 53 := u_pos
  have hu : u 53 ≤ 1 / 1000000 := by rw [u53]; norm_num
  have hL := len_nonneg s.elem
  have h1 := mul_le_mul_of_nonneg_left ha.len hL
  have huL := mul_nonneg hu0.le hL
  have h2 : 8 * u 53 * (len s.elem * len a.elem) ≤ 9 * (u 53 * len s.elem) := by
    have := mul_le_mul_of_nonneg_left h1 (show 0 ≤ 8 * u 53 by linarith)
    nlinarith
  rcases dot_or3 r hn s a with h | ⟨h, h'⟩
  · linarith
  · rw [h, zero_sub, abs_neg]
    rw [eps_u] at h'
    have := mul_le_mul_of_nonneg_left (min_le_left (len s.elem) (len a.elem)) (show 0 ≤ 2 * (60 * u 53) by linarith)
    linarith

/-- Coordinates with respect to nearly orthonormal axes are not much longer than the vector. -/
theorem coords_le {a b : Fin n → ℝ} (ha : NearUnit a) (hb : NearUnit b) (hd : |a ⬝ᵥ b| ≤ 1 / 10) (x y : ℝ) :
    |x| ≤ 27 / 25 * len (x • a + y • b) ∧ |y| ≤ 27 / 25 * len (x • a + y • b) := by
  have hu0 : 0 < u 53 := u_pos
  have hu : u 53 ≤ 1 / 1000000 := by rw [u53]; norm_num
  have hl := len_nonneg (x • a + y • b)
  have h1 : len (x • a + y • b) ^ 2 = x ^ 2 * (a ⬝ᵥ a) + 2 * (x * y) * (a ⬝ᵥ b) + y ^ 2 * (b ⬝ᵥ b) := by
    rw [len_sq]
    simp only [add_dotProduct, dotProduct_add, smul_dotProduct, dotProduct_smul, smul_eq_mul, dotProduct_comm b a]; ring
  have k1 := (_root_.abs_le.1 ha).1
  have k2 := (_root_.abs_le.1 hb).1
  have k3 : |2 * (x * y) * (a ⬝ᵥ b)| ≤ (x ^ 2 + y ^ 2) * (1 / 10) := by
    rw [abs_mul]
    refine mul_le_mul ?_ hd (abs_nonneg _) (by positivity)
    rw [_root_.abs_le]; constructor <;> nlinarith [sq_nonneg (x + y), sq_nonneg (x - y)]
  have k4 := (_root_.abs_le.1 k3).1
  have k5 : 89 / 100 * (x ^ 2 + y ^ 2) ≤ len (x • a + y • b) ^ 2 := by
    have := mul_le_mul_of_nonneg_left k1 (sq_nonneg x)
    have := mul_le_mul_of_nonneg_left k2 (sq_nonneg y)
    nlinarith [mul_le_mul_of_nonneg_right hu (sq_nonneg x), mul_le_mul_of_nonneg_right hu (sq_nonneg y)]
  constructor <;> refine abs_le_of_sq_le_sq ?_ (by positivity) <;> nlinarith [sq_nonneg x, sq_nonneg y]

/-- Scalars of the acceptance bound. -/
theorem accept_num {L A B G T δ η U x y : ℝ} (hU0 : 0 < U) (hU : U ≤ 1 / 1000000) (hL : 0 ≤ L) (hδ0 : 0 ≤ δ) (hδ : δ ≤ 1 / 10) (hη0 : 0 ≤ η)
    (hG : G ≤ (1 + 3 * U) * (η + U) * L) (hη : η ≤ 1 / 100) (hG0 : 0 ≤ G) (hA0 : 0 ≤ A) (hB0 : 0 ≤ B)
    (hx : x ≤ 27 / 25 * (L + G)) (hy : y ≤ 27 / 25 * (L + G))
    (hA : A ≤ 26 * U * x + δ * y + (1 + 13 * U) * G + 140 * U * L) (hB : B ≤ A * δ + 26 * U * y + (1 + 13 * U) * (G + 4 * U * L) + 141 * U * L)
    (hT : T ≤ (1 + 13 * U) * (A + B) + G + 9 * U * L) : T ≤ (27 / 20 * δ + 7 / 2 * η + 450 * U) * L := by
  have hUL := mul_nonneg hU0.le hL
  have hηL := mul_nonneg hη0 hL
  have hδL := mul_nonneg hδ0 hL
  have g1 : G ≤ 1001 / 1000 * (η * L) + 1001 / 1000 * (U * L) := by
    have : (1 + 3 * U) * (η + U) * L = (1 + 3 * U) * (η * L + U * L) := by ring
    rw [this] at hG
    nlinarith
  have g2 : G ≤ 1 / 99 * L := by
    have := mul_le_mul_of_nonneg_right hη hL
    have := mul_le_mul_of_nonneg_right hU hL
    linarith
  have hx' : x ≤ 11 / 10 * L := by linarith
  have hy' : y ≤ 11 / 10 * L := by linarith
  have b1 := mul_le_mul_of_nonneg_left hx' hU0.le
  have b2 := mul_le_mul_of_nonneg_left hy' hδ0
  have b3 := mul_le_mul_of_nonneg_left hy' hU0.le
  have b4 := mul_le_mul_of_nonneg_right hU hG0
  have b5 := mul_le_mul_of_nonneg_left hδ hA0
  have b6 := mul_le_mul_of_nonneg_right hU hUL
  have b7 := mul_le_mul_of_nonneg_right hU (add_nonneg hA0 hB0)
  have A1 : A ≤ 11 / 10 * (δ * L) + 101 / 100 * (η * L) + 171 * (U * L) := by linarith
  have B1 : B ≤ 1 / 10 * A + 101 / 100 * (η * L) + 176 * (U * L) := by linarith
  have : (27 / 20 * δ + 7 / 2 * η + 450 * U) * L = 27 / 20 * (δ * L) + 7 / 2 * (η * L) + 450 * (U * L) := by ring
  rw [this]
  linarith

set_option maxHeartbeats 600000 in
/-- A point near the plane is accepted. -/
theorem expand_accept (r : Rounding 53) (hn : n ≤ 3) {o : Orient n} {pd : Pt n} {eps δ η x y : ℝ} (hok : OrientOk3 o) (h1 : o.ax1.valid = true)
    (hδ : skew o ≤ δ) (hδ1 : δ ≤ 1 / 10) (hη0 : 0 ≤ η) (hη : η ≤ 1 / 100) (hp : len (pd.elem - o.at x y) ≤ η * len (pd.elem - o.origin.elem))
    (he : 2 * δ + 4 * η + 2 ^ (-44 : ℤ) ≤ eps) : (expand r o pd eps).1 = true := by
  have hu0 : 0 < u 53 := u_pos
  have hu : u 53 ≤ 1 / 1000000 := by rw [u53]; norm_num
  have e44 : (2 : ℝ) ^ (-44 : ℤ) = 512 * u 53 := by rw [u53]; norm_num
  have h0 := hok.second h1
  have hov := hok.first h0
  have hδ0 := (skew_nonneg o).trans hδ
  have he0 : 0 ≤ eps := by rw [e44] at he; linarith
  rw [e44] at he
  unfold expand
  rw [if_neg (by simp [hov])]
  obtain ⟨hst1, hst2⟩ := start_spec r pd o.origin
  generalize ptSub r pd o.origin = s at *
  have hS0 := len_nonneg (pd.elem - o.origin.elem)
  have hL0 := len_nonneg s.elem
  simp only
  split_ifs with q1 q2 q3 q4 q5
  · rfl
  · rfl
  · rfl
  · rfl
  · rfl
  exfalso
  apply q5
  have hbd := bound_spec r hn s he0
  obtain ⟨y1, y2, -, -, y5, -⟩ := step_spec r hn s o.ax0 (hok.unit0 h0)
  have d0 := dot_loose r hn s o.ax0 (hok.unit0 h0)
  generalize hc0 : dot r s o.ax0 = c0 at *
  generalize hsh1 : sub r s (scale r o.ax0 c0) = t1 at *
  obtain ⟨z1, z2, -, -, z5, -⟩ := step_spec r hn t1 o.ax1 (hok.unit1 h1)
  have d1 := dot_loose r hn t1 o.ax1 (hok.unit1 h1)
  generalize hc1 : dot r t1 o.ax1 = c1 at *
  generalize hsh2 : sub r t1 (scale r o.ax1 c1) = t2 at *
  clear q1 q2 q3 q4 q5
  have hsk : |o.ax0.elem ⬝ᵥ o.ax1.elem| ≤ δ := by unfold skew at hδ; rwa [if_pos h1] at hδ
  have N0 := hok.unit0 h0
  have N1 := hok.unit1 h1
  obtain ⟨k1, k2⟩ := coords_le N0 N1 (hsk.trans hδ1) x y
  have l0 := N0.len
  have l1 := N1.len
  have hT1 := len_nonneg t1.elem
  have huL := mul_nonneg hu0.le hL0
  -- the errors
  obtain ⟨g, hg⟩ : ∃ g, g = s.elem - (x • o.ax0.elem + y • o.ax1.elem) := ⟨_, rfl⟩
  obtain ⟨e1, he1⟩ : ∃ e, e = t1.elem - (s.elem - c0 • o.ax0.elem) := ⟨_, rfl⟩
  obtain ⟨e2, he2⟩ : ∃ e, e = t2.elem - (t1.elem - c1 • o.ax1.elem) := ⟨_, rfl⟩
  rw [← he1] at y2
  rw [← he2] at z2
  have G : len g ≤ (1 + 3 * u 53) * (η + u 53) * len s.elem := by
    have t := len_add_le (s.elem - (pd.elem - o.origin.elem)) (pd.elem - o.at x y)
    rw [show s.elem - (pd.elem - o.origin.elem) + (pd.elem - o.at x y) = g by rw [hg]; unfold Orient.at; abel] at t
    have t2 := len_triangle (pd.elem - o.origin.elem) s.elem 0
    rw [sub_zero, sub_zero, len_sub_comm _ s.elem] at t2
    have t3 : len (pd.elem - o.origin.elem) ≤ (1 + 3 * u 53) * len s.elem := by nlinarith
    have t4 := mul_le_mul_of_nonneg_left t3 (show 0 ≤ η + u 53 by linarith)
    linarith
  have G0 := len_nonneg g
  have hxy : len (x • o.ax0.elem + y • o.ax1.elem) ≤ len s.elem + len g := by
    have := len_triangle (x • o.ax0.elem + y • o.ax1.elem) s.elem 0
    rw [sub_zero, sub_zero, len_sub_comm, ← hg] at this
    linarith
  have hs : s.elem = x • o.ax0.elem + y • o.ax1.elem + g := by rw [hg]; abel
  have ht1 : t1.elem = (x - c0) • o.ax0.elem + y • o.ax1.elem + (g + e1) := by rw [he1, hg]; module
  have ht2 : t2.elem = (x - c0) • o.ax0.elem + (y - c1) • o.ax1.elem + ((g + e1) + e2) := by
    rw [show t2.elem = t1.elem - c1 • o.ax1.elem + e2 by rw [he2]; abel, ht1]; module
  have A : |x - c0| ≤ 26 * u 53 * |x| + δ * |y| + (1 + 13 * u 53) * len g + 140 * u 53 * len s.elem := by
    have e : x - c0 = -(x * (o.ax0.elem ⬝ᵥ o.ax0.elem - 1)) - y * (o.ax0.elem ⬝ᵥ o.ax1.elem) - g ⬝ᵥ o.ax0.elem - (c0 - s.elem ⬝ᵥ o.ax0.elem) := by
      rw [hs, add_dotProduct, add_dotProduct, smul_dotProduct, smul_dotProduct, dotProduct_comm o.ax1.elem]; simp only [smul_eq_mul]; ring
    have a1 : |x * (o.ax0.elem ⬝ᵥ o.ax0.elem - 1)| ≤ 26 * u 53 * |x| := by
      rw [abs_mul, mul_comm]; exact mul_le_mul_of_nonneg_right N0 (abs_nonneg _)
    have a2 : |y * (o.ax0.elem ⬝ᵥ o.ax1.elem)| ≤ δ * |y| := by
      rw [abs_mul, mul_comm]; exact mul_le_mul_of_nonneg_right hsk (abs_nonneg _)
    have a3 : |g ⬝ᵥ o.ax0.elem| ≤ (1 + 13 * u 53) * len g := by
      refine (abs_dot_le_len _ _).trans ?_
      rw [mul_comm]; exact mul_le_mul_of_nonneg_right l0 G0
    rw [e]
    rw [_root_.abs_le] at *
    constructor <;> linarith [a1.1, a1.2, a2.1, a2.2, a3.1, a3.2, d0.1, d0.2]
  have GE := len_add_le g e1
  have B : |y - c1| ≤ |x - c0| * δ + 26 * u 53 * |y| + (1 + 13 * u 53) * (len g + 4 * u 53 * len s.elem) + 141 * u 53 * len s.elem := by
    have e : y - c1 = -((x - c0) * (o.ax0.elem ⬝ᵥ o.ax1.elem)) - y * (o.ax1.elem ⬝ᵥ o.ax1.elem - 1) - (g + e1) ⬝ᵥ o.ax1.elem - (c1 - t1.elem ⬝ᵥ o.ax1.elem) := by
      rw [ht1, add_dotProduct ((x - c0) • o.ax0.elem + y • o.ax1.elem), add_dotProduct ((x - c0) • o.ax0.elem), smul_dotProduct, smul_dotProduct]; simp only [smul_eq_mul]; ring
    have a1 : |y * (o.ax1.elem ⬝ᵥ o.ax1.elem - 1)| ≤ 26 * u 53 * |y| := by
      rw [abs_mul, mul_comm]; exact mul_le_mul_of_nonneg_right N1 (abs_nonneg _)
    have a2 : |(x - c0) * (o.ax0.elem ⬝ᵥ o.ax1.elem)| ≤ |x - c0| * δ := by
      rw [abs_mul]; exact mul_le_mul_of_nonneg_left hsk (abs_nonneg _)
    have a3 : |(g + e1) ⬝ᵥ o.ax1.elem| ≤ (1 + 13 * u 53) * (len g + 4 * u 53 * len s.elem) := by
      refine (abs_dot_le_len _ _).trans ?_
      rw [mul_comm]; exact mul_le_mul l1 (GE.trans (by linarith)) (len_nonneg _) (by linarith)
    have a4 : 140 * u 53 * len t1.elem ≤ 141 * u 53 * len s.elem := by
      have := mul_le_mul_of_nonneg_left y5 hu0.le
      have := mul_le_mul_of_nonneg_right hu (mul_nonneg hu0.le hL0)
      linarith
    have d1' := d1.trans a4
    rw [e]
    clear d1
    rw [_root_.abs_le] at a1 a2 a3 d1' ⊢
    constructor <;> linarith [a1.1, a1.2, a2.1, a2.2, a3.1, a3.2, d1'.1, d1'.2]
  have T : len t2.elem ≤ (1 + 13 * u 53) * (|x - c0| + |y - c1|) + len g + 9 * u 53 * len s.elem := by
    rw [ht2]
    have b1 := len_add_le ((x - c0) • o.ax0.elem + (y - c1) • o.ax1.elem) (g + e1 + e2)
    have b2 := len_add_le ((x - c0) • o.ax0.elem) ((y - c1) • o.ax1.elem)
    have b3 := len_add_le (g + e1) e2
    rw [len_smul', len_smul'] at b2
    have b4 := mul_le_mul_of_nonneg_left l0 (abs_nonneg (x - c0))
    have b5 := mul_le_mul_of_nonneg_left l1 (abs_nonneg (y - c1))
    have b6 := mul_le_mul_of_nonneg_left y5 hu0.le
    have b7 := mul_le_mul_of_nonneg_right hu (mul_nonneg hu0.le hL0)
    linarith
  have key := accept_num hu0 hu hL0 hδ0 hδ1 hη0 G hη G0 (abs_nonneg (x - c0)) (abs_nonneg (y - c1)) (k1.trans (by linarith)) (k2.trans (by linarith)) A B T
  have f1 : dot r t2 s ≤ (1 + 8 * u 53) * (len t2.elem * len s.elem) := by
    have := dot_le_len t2.elem s.elem
    have h2 := mul_nonneg (len_nonneg t2.elem) hL0
    rcases dot_or3 r hn t2 s with h | ⟨h, -⟩
    · have := (_root_.abs_le.1 h).2
      linarith
    · rw [h]; positivity
  refine f1.trans (le_trans ?_ hbd.2.1)
  have f2 := mul_le_mul_of_nonneg_right key hL0
  have f3 : (1 + 8 * u 53) * (27 / 20 * δ + 7 / 2 * η + 450 * u 53) ≤ (1 - 11 * u 53) * eps := by
    have : (1 - 11 * u 53) * (2 * δ + 4 * η + 512 * u 53) ≤ (1 - 11 * u 53) * eps := mul_le_mul_of_nonneg_left he (by linarith)
    have v1 := mul_le_mul_of_nonneg_right hu hδ0
    have v2 := mul_le_mul_of_nonneg_right hu hη0
    have v3 := mul_le_mul_of_nonneg_right hu hu0.le
    nlinarith
  have f4 := mul_le_mul_of_nonneg_right f3 (mul_nonneg hL0 hL0)
  have f5 := mul_le_mul_of_nonneg_left f2 (show 0 ≤ 1 + 8 * u 53 by linarith)
  rw [pow_two]
  linarith

end WFMath.Fl
