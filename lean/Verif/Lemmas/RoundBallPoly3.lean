/- Lemmas for C151: the computed projection of a point to the plane of a polygon, and the squares of its distances. -/
import Verif.Lemmas.RoundPoly3Inter
import Verif.Props.RoundVector
import Verif.Props.RoundCompare

namespace WFMath.Fl
open Spec Matrix Rounding
variable {n : Nat}

/-- The computed projection: coordinates and remainder are not larger than the distance from the first corner, and the remainder is nearly perpendicular to the axes. -/
theorem offset_dots (r : Rounding 53) (hn : n ≤ 3) {o : Orient n} (hv : o.origin.valid = true) (h0 : NearUnit o.ax0.elem) (h1 : NearUnit o.ax1.elem) (p : Pt n)
    {δ : ℝ} (hδ : |o.ax0.elem ⬝ᵥ o.ax1.elem| ≤ δ) :
    ∃ (off : Vec n) (y : Fin 2 → ℝ) (g : Fin n → ℝ), offset r o p = some (off, ⟨y, false⟩) ∧
      p.elem = o.origin.elem + y 0 • o.ax0.elem + y 1 • o.ax1.elem + off.elem + g ∧ len g ≤ 12 * u 53 * len (p.elem - o.origin.elem) ∧
      |y 0| ≤ 101 / 100 * len (p.elem - o.origin.elem) ∧ |y 1| ≤ 101 / 100 * len (p.elem - o.origin.elem) ∧ len off.elem ≤ 101 / 100 * len (p.elem - o.origin.elem) ∧
      |off.elem ⬝ᵥ o.ax0.elem| ≤ (146 * u 53 + 101 / 100 * δ) * len (p.elem - o.origin.elem) ∧ |off.elem ⬝ᵥ o.ax1.elem| ≤ 141 * u 53 * len (p.elem - o.origin.elem) := by
  have hu0 : 0 < u 53 := u_pos
  have hu : u 53 ≤ 1 / 1000000 := by rw [u53]; norm_num
  have hδ0 := (abs_nonneg _).trans hδ
  obtain ⟨s1, s2⟩ := start_spec r p o.origin
  unfold offset
  rw [if_neg (by simp [hv])]
  simp only
  obtain ⟨b1, b2, -, b4, b5, -⟩ := step_spec r hn (ptSub r p o.origin) o.ax0 h0
  generalize hs : ptSub r p o.origin = s at *
  generalize hc0 : dot r s o.ax0 = c0 at *
  generalize ht1 : sub r s (scale r o.ax0 c0) = t1 at *
  obtain ⟨d1, d2, -, d4, d5, -⟩ := step_spec r hn t1 o.ax1 h1
  generalize hc1 : dot r t1 o.ax1 = c1 at *
  generalize ht2 : sub r t1 (scale r o.ax1 c1) = t2 at *
  have hD := len_nonneg (p.elem - o.origin.elem)
  have huD := mul_nonneg hu0.le hD
  have hL := len_nonneg s.elem
  have hT := len_nonneg t1.elem
  obtain ⟨g0, hg0⟩ : ∃ g0, g0 = s.elem - (p.elem - o.origin.elem) := ⟨_, rfl⟩
  obtain ⟨e, he⟩ : ∃ e, e = t1.elem - (s.elem - c0 • o.ax0.elem) := ⟨_, rfl⟩
  obtain ⟨f, hf⟩ : ∃ f, f = t2.elem - (t1.elem - c1 • o.ax1.elem) := ⟨_, rfl⟩
  rw [← hg0] at s1
  rw [← he] at b2
  rw [← hf] at d2
  have hsum : len (-(g0 + e + f)) ≤ len g0 + len e + len f := by
    rw [len_neg]
    exact (len_add_le _ _).trans (add_le_add (len_add_le _ _) le_rfl)
  have hrel : t2.elem ⬝ᵥ o.ax0.elem = t1.elem ⬝ᵥ o.ax0.elem - c1 * (o.ax0.elem ⬝ᵥ o.ax1.elem) + f ⬝ᵥ o.ax0.elem := by
    rw [hf, sub_dotProduct, sub_dotProduct, smul_dotProduct, smul_eq_mul, dotProduct_comm o.ax1.elem]
    ring
  have hf0 := abs_dot_le_len f o.ax0.elem
  have a0 := h0.len
  have a0' := len_nonneg o.ax0.elem
  have hlf := len_nonneg f
  generalize hDe : len (p.elem - o.origin.elem) = D at *
  have hDD : u 53 * D ≤ 1 / 1000000 * D := mul_le_mul_of_nonneg_right hu hD
  have L1 : len s.elem ≤ 1001 / 1000 * D := by nlinarith
  have hLL : u 53 * len s.elem ≤ 1 / 1000000 * len s.elem := mul_le_mul_of_nonneg_right hu hL
  have T1 : len t1.elem ≤ 1002 / 1000 * D := by linarith
  have hTT : u 53 * len t1.elem ≤ 1 / 1000000 * len t1.elem := mul_le_mul_of_nonneg_right hu hT
  have m1 := mul_le_mul_of_nonneg_left L1 hu0.le
  have m2 := mul_le_mul_of_nonneg_left T1 hu0.le
  have E1 : len e ≤ 41 / 10 * u 53 * D := by linarith
  have F1 : len f ≤ 41 / 10 * u 53 * D := by linarith
  have C1 : |c1| ≤ 101 / 100 * D := by linarith
  refine ⟨t2, ![c0, c1], -(g0 + e + f), rfl, ?_, by linarith, ?_, ?_, by linarith, ?_, by linarith⟩
  · rw [hg0, he, hf]; simp only [cons_val_zero, cons_val_one]; module
  · show |c0| ≤ _
    linarith
  · exact C1
  · rw [hrel]
    have k1 := abs_add_le (t1.elem ⬝ᵥ o.ax0.elem - c1 * (o.ax0.elem ⬝ᵥ o.ax1.elem)) (f ⬝ᵥ o.ax0.elem)
    have k2 := abs_sub (t1.elem ⬝ᵥ o.ax0.elem) (c1 * (o.ax0.elem ⬝ᵥ o.ax1.elem))
    rw [abs_mul] at k2
    have k3 := mul_le_mul C1 hδ (abs_nonneg _) (by positivity)
    have k4 : len f * len o.ax0.elem ≤ len f * (1001 / 1000) := mul_le_mul_of_nonneg_left (by linarith) hlf
    linarith

/-- The square of a length of a sum of two multiples of nearly perpendicular unit vectors and of a vector nearly perpendicular to them. -/
theorem pythagoras_err {a b w g : Fin n → ℝ} {x y D δ : ℝ} (h0 : NearUnit a) (h1 : NearUnit b) (hδ : |a ⬝ᵥ b| ≤ δ) (hD : 0 ≤ D)
    (hg : len g ≤ 12 * u 53 * D) (hw : len w ≤ 101 / 100 * D) (wa : |w ⬝ᵥ a| ≤ (146 * u 53 + 101 / 100 * δ) * D) (wb : |w ⬝ᵥ b| ≤ 141 * u 53 * D) :
    |len (x • a + y • b + w + g) ^ 2 - (x ^ 2 + y ^ 2 + len w ^ 2)| ≤ (360 * u 53 + 21 / 10 * δ) * (x ^ 2 + y ^ 2 + D ^ 2) := by
  have hu0 : 0 < u 53 := u_pos
  have hu : u 53 ≤ 1 / 1000000 := by rw [u53]; norm_num
  have hδ0 := (abs_nonneg _).trans hδ
  have e1 : len (x • a + y • b + w + g) ^ 2 - (x ^ 2 + y ^ 2 + len w ^ 2) = x ^ 2 * (a ⬝ᵥ a - 1) + y ^ 2 * (b ⬝ᵥ b - 1) + 2 * (x * y) * (a ⬝ᵥ b) +
      2 * x * (w ⬝ᵥ a) + 2 * y * (w ⬝ᵥ b) + (2 * x * (g ⬝ᵥ a) + 2 * y * (g ⬝ᵥ b) + 2 * (g ⬝ᵥ w) + len g ^ 2) := by
    rw [len_sq, len_sq, len_sq]
    simp only [add_dotProduct, dotProduct_add, smul_dotProduct, dotProduct_smul, smul_eq_mul]
    rw [dotProduct_comm b a, dotProduct_comm a w, dotProduct_comm b w, dotProduct_comm a g, dotProduct_comm b g, dotProduct_comm w g]
    ring
  have n0 : |a ⬝ᵥ a - 1| ≤ 26 * u 53 := h0
  have n1 : |b ⬝ᵥ b - 1| ≤ 26 * u 53 := h1
  have ga := abs_dot_le_len g a
  have gb := abs_dot_le_len g b
  have gw := abs_dot_le_len g w
  have a0 := h0.len
  have a1 := h1.len
  have hg0 := len_nonneg g
  have hw0 := len_nonneg w
  have uD := mul_nonneg hu0.le hD
  have ga' : |g ⬝ᵥ a| ≤ 13 * u 53 * D := by
    have := mul_le_mul hg (show len a ≤ 1001 / 1000 by linarith) (len_nonneg a) (by positivity)
    linarith
  have gb' : |g ⬝ᵥ b| ≤ 13 * u 53 * D := by
    have := mul_le_mul hg (show len b ≤ 1001 / 1000 by linarith) (len_nonneg b) (by positivity)
    linarith
  have gw' : |g ⬝ᵥ w| ≤ 13 * u 53 * D ^ 2 := by
    have := mul_le_mul hg hw hw0 (by positivity)
    have uD2 : 0 ≤ u 53 * D ^ 2 := by positivity
    nlinarith
  have gg' : |len g ^ 2| ≤ u 53 * D ^ 2 := by
    rw [abs_of_nonneg (sq_nonneg _)]
    have h := pow_le_pow_left₀ hg0 hg 2
    have : (12 * u 53 * D) ^ 2 ≤ u 53 * D ^ 2 := by
      have e : (12 * u 53 * D) ^ 2 = 144 * u 53 * (u 53 * D ^ 2) := by ring
      rw [e]
      have uD2 : 0 ≤ u 53 * D ^ 2 := by positivity
      nlinarith
    exact h.trans this
  rw [e1]
  clear e1 ga gb gw hg hw a0 a1 hg0 hw0 h0 h1
  generalize a ⬝ᵥ a - 1 = A at *
  generalize b ⬝ᵥ b - 1 = B at *
  generalize a ⬝ᵥ b = C at *
  generalize w ⬝ᵥ a = E at *
  generalize w ⬝ᵥ b = F at *
  generalize g ⬝ᵥ a = G at *
  generalize g ⬝ᵥ b = H at *
  generalize g ⬝ᵥ w = I at *
  generalize len g ^ 2 = J at *
  generalize u 53 = t at *
  have xx := sq_nonneg x
  have yy := sq_nonneg y
  have DD := sq_nonneg D
  have sx := abs_nonneg x
  have sy := abs_nonneg y
  have xD : 2 * |x| * D ≤ x ^ 2 + D ^ 2 := by nlinarith [sq_nonneg (|x| - D), sq_abs x]
  have yD : 2 * |y| * D ≤ y ^ 2 + D ^ 2 := by nlinarith [sq_nonneg (|y| - D), sq_abs y]
  have xy : 2 * |x * y| ≤ x ^ 2 + y ^ 2 := by rw [abs_mul]; nlinarith [sq_nonneg (|x| - |y|), sq_abs x, sq_abs y]
  have q1 : |x ^ 2 * A| ≤ 26 * t * x ^ 2 := by rw [abs_mul, abs_of_nonneg xx]; nlinarith
  have q2 : |y ^ 2 * B| ≤ 26 * t * y ^ 2 := by rw [abs_mul, abs_of_nonneg yy]; nlinarith
  have q3 : |2 * (x * y) * C| ≤ δ * (x ^ 2 + y ^ 2) := by
    rw [abs_mul, abs_mul, abs_two]
    have := mul_le_mul xy hδ (abs_nonneg C) (by positivity)
    linarith
  have lin : ∀ (z Z K : ℝ), 2 * |z| * D ≤ z ^ 2 + D ^ 2 → 0 ≤ K → |Z| ≤ K * D → |2 * z * Z| ≤ K * (z ^ 2 + D ^ 2) := fun z Z K h1 h2 h3 => by
    rw [abs_mul, abs_mul, abs_two]
    have h4 := mul_le_mul_of_nonneg_left h3 (show 0 ≤ 2 * |z| by positivity)
    have h5 := mul_le_mul_of_nonneg_left h1 h2
    linarith
  have q4 := lin x E _ xD (by positivity) wa
  have q5 := lin y F _ yD (by positivity) wb
  have q6 := lin x G _ xD (by positivity) ga'
  have q7 := lin y H _ yD (by positivity) gb'
  have q8 : |2 * I| ≤ 26 * t * D ^ 2 := by rw [abs_mul, abs_two]; linarith
  have s1 := abs_add_le (x ^ 2 * A + y ^ 2 * B + 2 * (x * y) * C + 2 * x * E + 2 * y * F) (2 * x * G + 2 * y * H + 2 * I + J)
  have s2 := abs_add_le (x ^ 2 * A + y ^ 2 * B + 2 * (x * y) * C + 2 * x * E) (2 * y * F)
  have s3 := abs_add_le (x ^ 2 * A + y ^ 2 * B + 2 * (x * y) * C) (2 * x * E)
  have s4 := abs_add_le (x ^ 2 * A + y ^ 2 * B) (2 * (x * y) * C)
  have s5 := abs_add_le (x ^ 2 * A) (y ^ 2 * B)
  have s6 := abs_add_le (2 * x * G + 2 * y * H + 2 * I) J
  have s7 := abs_add_le (2 * x * G + 2 * y * H) (2 * I)
  have s8 := abs_add_le (2 * x * G) (2 * y * H)
  have p1 := mul_nonneg hu0.le xx
  have p2 := mul_nonneg hu0.le yy
  have p3 := mul_nonneg hu0.le DD
  have p4 := mul_nonneg hδ0 xx
  have p5 := mul_nonneg hδ0 yy
  have p6 := mul_nonneg hδ0 DD
  linarith

/-- The computed squared distance in the plane; the cut-off can make it 0. -/
theorem sqDist_plane (r : Rounding 53) (c q : Pt 2) {M : ℝ} (hM : q.elem 0 ^ 2 + q.elem 1 ^ 2 ≤ M ^ 2) (hM0 : 0 ≤ M) :
    sqDist r c q ≤ (1 + 11 * u 53) * eucl c.elem q.elem ^ 2 ∧
    (1 - 11 * u 53) * eucl c.elem q.elem ^ 2 - epsilon * (1 + 2 * M) ≤ sqDist r c q := by
  have hu0 : 0 < u 53 := u_pos
  have hsq := sq_nonneg (eucl c.elem q.elem)
  have close : ∀ s, Close 53 (3 + 2) s (eucl c.elem q.elem ^ 2) → |s - eucl c.elem q.elem ^ 2| ≤ 11 * u 53 * eucl c.elem q.elem ^ 2 := fun s h => by
    have := h.err pos53 (by rw [u53]; norm_num)
    rw [abs_of_nonneg hsq] at this
    push_cast at this
    have := mul_nonneg hu0.le hsq
    linarith
  have hE : 0 ≤ epsilon * (1 + 2 * M) := mul_nonneg epsilon_pos.le (by linarith)
  rcases sqDist_cases r c q with h | ⟨h, s, hs, hc⟩
  · have := _root_.abs_le.1 (close _ h)
    constructor <;> linarith
  · have := _root_.abs_le.1 (close _ hc)
    have hup : scaleEpsilonArr c.elem q.elem epsilon ≤ epsilon * (1 + 2 * M) := by
      by_cases hz : c.elem = 0 ∨ q.elem = 0
      · rw [scaleEpsilonArr_zero hz]
        have := mul_nonneg epsilon_pos.le hM0
        linarith
      · push Not at hz
        refine (scaleEpsilonArr_le epsilon_pos.le hz.1 hz.2).trans ?_
        have hmx : maxAbs q.elem ≤ M := by
          refine maxAbs_le hM0 fun i => ?_
          refine abs_le_of_sq_le_sq ?_ hM0
          fin_cases i
          · have := sq_nonneg (q.elem 1); simp only [Fin.zero_eta]; linarith
          · have := sq_nonneg (q.elem 0); simp only [Fin.mk_one]; linarith
        have h2 := (min_le_right (maxAbs c.elem) (maxAbs q.elem)).trans hmx
        have := mul_le_mul_of_nonneg_left h2 epsilon_pos.le
        have := epsilon_pos
        linarith
    have hpos := mul_nonneg hu0.le hsq
    rw [h]
    constructor
    · nlinarith
    · linarith

end WFMath.Fl
