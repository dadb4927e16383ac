/- Property theorems C135, continued: two rotated boxes in space, computed in doubles. -/
import Verif.Props.RoundSatSpace

namespace WFMath
open Spec Matrix Rounding

namespace Fl

theorem space_margin {u E X Y D C Lf G Cc CS Y' w f K Q : ℝ} (u0 : 0 ≤ u) (u1 : u ≤ 1 / 1000000) (hN : 24 * u ≤ E) (hE1 : E ≤ 1 / 12) (hX : 0 ≤ X) (hY : 0 ≤ Y) (hD : 0 ≤ D) (hC : 0 ≤ C)
    (hw : w = (2 * E + 3 * u) * D + u * C) (hY' : Y' ≤ C + Y) (hf : f = u * Y') (hL : Lf ≤ Y + f) (hG : G ≤ Y + f + (D + w)) (hCc : Cc ≤ C + D + w) (hCS : CS ≤ Cc + X)
    (hK : K = 3 * E * X + (3 * E + 4 * u) * Lf + (3 * (3 * E) + 4 * u) * G + 4 * (8 * u) * Cc + u * CS) (hQ : Q = 8 * (3 * E + 60 * u) * (X + Lf + G)) :
    K + Q + w + 2 * f ≤ 70 * (E + 60 * u) * (X + Y + D) + 128 * u * C := by
  have hE : 0 ≤ E := le_trans (by positivity) hN
  have p := plane_margin u0 (u1.trans (by norm_num)) hN hE1 hX hY hD hC hw hY' hf hL hG hCc hCS rfl
  have uE : u ≤ E / 24 := by linarith
  have zC := mul_nonneg u0 hC
  have uY := mul_le_mul_of_nonneg_right uE hY
  have uD := mul_le_mul_of_nonneg_right uE hD
  have ED := mul_le_mul_of_nonneg_right hE1 hD
  have uC := mul_le_mul_of_nonneg_right u1 hC
  have uY' := mul_le_mul_of_nonneg_right u1 hY
  have uD' := mul_le_mul_of_nonneg_right u1 hD
  have f1 : f ≤ u * C + u * Y := by rw [hf]; linarith [mul_le_mul_of_nonneg_left hY' u0]
  have hw2 : w ≤ D / 5 + u * C := by rw [hw]; linarith
  have eC : u * Cc ≤ 6 / 5 * (u * D) + 11 / 10 * (u * C) := by
    have : u * Cc ≤ u * (6 / 5 * D + 11 / 10 * C) := mul_le_mul_of_nonneg_left (by linarith) u0
    linarith
  have eQ : Q ≤ 8 * (3 * E + 60 * u) * (X + 1001 / 500 * Y + 6 / 5 * D + 3 * (u * C)) := by
    rw [hQ]
    exact mul_le_mul_of_nonneg_left (by linarith) (by positivity)
  have eQ2 : (3 * E + 60 * u) * (u * C) ≤ 1 * (u * C) := mul_le_mul_of_nonneg_right (by linarith) zC
  have zX := mul_nonneg hE hX
  have zY := mul_nonneg hE hY
  have zD := mul_nonneg hE hD
  have vX := mul_nonneg u0 hX
  have vY := mul_nonneg u0 hY
  have vD := mul_nonneg u0 hD
  rw [hK]
  linarith

end Fl

/-- C135, two rotated boxes in space: computed in doubles, compared with the exact boxes. -/
theorem C135_space_rotated (r : Rounding 53) (b₁ b₂ : RBox 3) (R S : Matrix (Fin 3) (Fin 3) ℝ) (E lam : ℝ) (hR : Rᵀ * R = 1) (hS : Sᵀ * S = 1)
    (h0 : 24 * 2 ^ (-52 : ℤ) ≤ E) (h1 : E ≤ 1 / 12) (hm : Stands b₁.orient.elem R (E - 24 * 2 ^ (-52 : ℤ))) (hm' : Stands b₂.orient.elem S (E - 24 * 2 ^ (-52 : ℤ)))
    (hl : 3 * E + 2 * epsilon ≤ lam) (hl1 : lam ≤ 1) (hax : ∀ i j, (R i ⬝ᵥ S j) ^ 2 ≤ 1 - lam ^ 2) (M : ℝ)
    (hM : M = 70 * (E + epsilon) * (len b₁.size.elem + len b₂.size.elem + eucl b₁.corner.elem b₂.corner.elem) + 2 ^ (-46 : ℤ) * len b₂.corner.elem) :
    (∀ d₁ d₂ e x y, 0 ≤ d₁ → 0 ≤ d₂ → x ∈ turnedBox b₁.corner.elem b₁.size.elem R (-d₁) → y ∈ turnedBox b₂.corner.elem b₂.size.elem S (-d₂) → eucl x y ≤ e →
      (M + e ≤ d₁ + d₂ + epsilon → M ≤ lam * (d₁ + d₂ - e) + epsilon → Fl.interRR3 r b₁ b₂ false = true) ∧ (M < lam * (d₁ + d₂ - e) → Fl.interRR3 r b₁ b₂ true = true)) ∧
    (Fl.interRR3 r b₁ b₂ false = true → ∃ x ∈ turnedBox b₁.corner.elem b₁.size.elem R ((epsilon * (1 + 2 ^ (-52 : ℤ)) + M) / lam),
      x ∈ turnedBox b₂.corner.elem b₂.size.elem S ((epsilon * (1 + 2 ^ (-52 : ℤ)) + M) / lam)) ∧
    (Fl.interRR3 r b₁ b₂ true = true → ∃ x ∈ turnedBox b₁.corner.elem b₁.size.elem R (M / lam), x ∈ turnedBox b₂.corner.elem b₂.size.elem S (M / lam)) := by
  have hκ : (2 : ℝ) * (3 : ℕ) * ((3 : ℕ) + 1) * 2 ^ (-52 : ℤ) = 24 * 2 ^ (-52 : ℤ) := by norm_num
  obtain ⟨δ, d1, d2, d3, d4, d5, d6⟩ := Fl.two_boxes r b₁ b₂ R S E (by norm_num) hR hS (by rw [hκ]; exact h0) h1 (by rw [hκ]; exact hm) (by rw [hκ]; exact hm')
  rw [hκ] at d4
  have hE : 0 ≤ E := le_trans (by positivity) h0
  have hRS : (R * Sᵀ)ᵀ * (R * Sᵀ) = 1 := by
    rw [transpose_mul, transpose_transpose, Matrix.mul_assoc, ← Matrix.mul_assoc Rᵀ, hR, Matrix.one_mul]
    exact mul_eq_one_comm.1 hS
  obtain ⟨e1, e2, e3⟩ := C135_space r (Fl.rbRotate r b₁ b₂.orient.inverse b₂.corner) (R * Sᵀ) (3 * E) lam hRS (by linarith) (by linarith) d4 (Fl.rbFlat r b₂) (Fl.flat_ordered r b₂) hl hl1
    (fun i j => Or.inl (hax i j)) _ _ rfl rfl
  have face := Fl.flat_face r b₂
  have hsz : (Fl.rbRotate r b₁ b₂.orient.inverse b₂.corner).size.elem = b₁.size.elem := rfl
  rw [hsz] at e1 e2 e3
  have fl0 : ∀ i, |(Fl.rbFlat r b₂).low.elem i - b₂.corner.elem i| ≤ |(Fl.addVec r b₂.corner b₂.size).elem i - b₂.corner.elem i| := fun i => by
    rw [Fl.flat_low]
    show _ ≤ |r (b₂.corner.elem i + b₂.size.elem i) - b₂.corner.elem i|
    rcases min_choice (b₂.corner.elem i) (r (b₂.corner.elem i + b₂.size.elem i)) with g | g <;> rw [g]
    rw [sub_self, abs_zero]; exact abs_nonneg _
  have fl1 : ∀ i, |(Fl.rbFlat r b₂).low.elem i - (Fl.rbFlat r b₂).high.elem i| ≤ |(Fl.addVec r b₂.corner b₂.size).elem i - b₂.corner.elem i| := fun i => by
    rw [Fl.flat_low, Fl.flat_high]
    show _ ≤ |r (b₂.corner.elem i + b₂.size.elem i) - b₂.corner.elem i|
    rw [abs_sub_comm, max_sub_min_eq_abs, abs_abs]
  have add0 : len ((Fl.addVec r b₂.corner b₂.size).elem - b₂.corner.elem) ≤ len b₂.size.elem + 2 ^ (-53 : ℤ) * len (b₂.corner.elem + b₂.size.elem) := by
    have h2 : len ((Fl.addVec r b₂.corner b₂.size).elem - (b₂.corner.elem + b₂.size.elem)) ≤ 2 ^ (-53 : ℤ) * len (b₂.corner.elem + b₂.size.elem) := Fl.len_round r _
    have := len_add_le ((Fl.addVec r b₂.corner b₂.size).elem - (b₂.corner.elem + b₂.size.elem)) b₂.size.elem
    rw [show (Fl.addVec r b₂.corner b₂.size).elem - (b₂.corner.elem + b₂.size.elem) + b₂.size.elem = (Fl.addVec r b₂.corner b₂.size).elem - b₂.corner.elem by abel] at this
    linarith
  have lf : eucl (Fl.rbFlat r b₂).low.elem (Fl.rbFlat r b₂).high.elem ≤ len b₂.size.elem + 2 ^ (-53 : ℤ) * len (b₂.corner.elem + b₂.size.elem) := by
    rw [eucl_eq_len]; exact (Fl.len_mono (b := (Fl.addVec r b₂.corner b₂.size).elem - b₂.corner.elem) one_pos.le fun i => (fl1 i).trans (one_mul _).ge).trans (by rw [one_mul]; exact add0)
  have lg : eucl (Fl.rbFlat r b₂).low.elem (Fl.rbRotate r b₁ b₂.orient.inverse b₂.corner).corner.elem ≤ len b₂.size.elem + 2 ^ (-53 : ℤ) * len (b₂.corner.elem + b₂.size.elem) +
      (eucl b₁.corner.elem b₂.corner.elem + ((2 * E + 3 * 2 ^ (-53 : ℤ)) * eucl b₁.corner.elem b₂.corner.elem + 2 ^ (-53 : ℤ) * len b₂.corner.elem)) := by
    rw [eucl_eq_len (Fl.rbFlat r b₂).low.elem]
    have t1 : len ((Fl.rbFlat r b₂).low.elem - b₂.corner.elem) ≤ len b₂.size.elem + 2 ^ (-53 : ℤ) * len (b₂.corner.elem + b₂.size.elem) :=
      (Fl.len_mono (b := (Fl.addVec r b₂.corner b₂.size).elem - b₂.corner.elem) one_pos.le fun i => (fl0 i).trans (one_mul _).ge).trans (by rw [one_mul]; exact add0)
    have t2 := len_triangle (Fl.rbFlat r b₂).low.elem b₂.corner.elem (Fl.rbRotate r b₁ b₂.orient.inverse b₂.corner).corner.elem
    rw [← eucl_eq_len b₂.corner.elem, eucl_comm, eucl_eq_len] at t2
    linarith
  have tot := Fl.space_margin (u := 2 ^ (-53 : ℤ)) (E := E) (by positivity) (by norm_num) (le_trans (by norm_num) h0) h1 (len_nonneg b₁.size.elem)
    (len_nonneg b₂.size.elem) (eucl_nonneg b₁.corner.elem b₂.corner.elem) (len_nonneg b₂.corner.elem) rfl (len_add_le b₂.corner.elem b₂.size.elem) rfl lf lg d2
    (len_add_le _ b₁.size.elem) rfl rfl
  rw [show 4 * (2 : ℝ) ^ (-53 : ℤ) = 2 ^ (-51 : ℤ) by norm_num, show 8 * (2 : ℝ) ^ (-53 : ℤ) = 2 ^ (-50 : ℤ) by norm_num, show 128 * (2 : ℝ) ^ (-53 : ℤ) = 2 ^ (-46 : ℤ) by norm_num,
    show 60 * (2 : ℝ) ^ (-53 : ℤ) = epsilon by unfold epsilon; norm_num, ← hM] at tot
  have hK0 : 0 ≤ 3 * E * len b₁.size.elem + (3 * E + 2 ^ (-51 : ℤ)) * eucl (Fl.rbFlat r b₂).low.elem (Fl.rbFlat r b₂).high.elem +
    (3 * (3 * E) + 2 ^ (-51 : ℤ)) * eucl (Fl.rbFlat r b₂).low.elem (Fl.rbRotate r b₁ b₂.orient.inverse b₂.corner).corner.elem +
    4 * 2 ^ (-50 : ℤ) * len (Fl.rbRotate r b₁ b₂.orient.inverse b₂.corner).corner.elem +
    2 ^ (-53 : ℤ) * len ((Fl.rbRotate r b₁ b₂.orient.inverse b₂.corner).corner.elem + b₁.size.elem) :=
    add_nonneg (add_nonneg (add_nonneg (add_nonneg (mul_nonneg (by positivity) (len_nonneg _)) (mul_nonneg (by positivity) (eucl_nonneg _ _)))
      (mul_nonneg (by positivity) (eucl_nonneg _ _))) (mul_nonneg (by positivity) (len_nonneg _))) (mul_nonneg (by positivity) (len_nonneg _))
  have hQ0 : 0 ≤ 8 * (3 * E + epsilon) * (len b₁.size.elem + eucl (Fl.rbFlat r b₂).low.elem (Fl.rbFlat r b₂).high.elem +
    eucl (Fl.rbFlat r b₂).low.elem (Fl.rbRotate r b₁ b₂.orient.inverse b₂.corner).corner.elem) :=
    mul_nonneg (mul_nonneg (by norm_num) (add_nonneg (by linarith) epsilon_pos.le)) (add_nonneg (add_nonneg (len_nonneg _) (eucl_nonneg _ _)) (eucl_nonneg _ _))
  have dx : ∀ i, |δ i| ≤ len δ := abs_le_len δ
  have near' := fun y hy => Fl.flat_near' r b₂ (y := y) hy
  generalize 3 * E * len b₁.size.elem + (3 * E + 2 ^ (-51 : ℤ)) * eucl (Fl.rbFlat r b₂).low.elem (Fl.rbFlat r b₂).high.elem +
    (3 * (3 * E) + 2 ^ (-51 : ℤ)) * eucl (Fl.rbFlat r b₂).low.elem (Fl.rbRotate r b₁ b₂.orient.inverse b₂.corner).corner.elem +
    4 * 2 ^ (-50 : ℤ) * len (Fl.rbRotate r b₁ b₂.orient.inverse b₂.corner).corner.elem +
    2 ^ (-53 : ℤ) * len ((Fl.rbRotate r b₁ b₂.orient.inverse b₂.corner).corner.elem + b₁.size.elem) = K at *
  generalize 8 * (3 * E + epsilon) * (len b₁.size.elem + eucl (Fl.rbFlat r b₂).low.elem (Fl.rbFlat r b₂).high.elem +
    eucl (Fl.rbFlat r b₂).low.elem (Fl.rbRotate r b₁ b₂.orient.inverse b₂.corner).corner.elem) = Q at *
  have w0 : 0 ≤ (2 * E + 3 * 2 ^ (-53 : ℤ)) * eucl b₁.corner.elem b₂.corner.elem + 2 ^ (-53 : ℤ) * len b₂.corner.elem := (len_nonneg δ).trans d1
  generalize (2 * E + 3 * 2 ^ (-53 : ℤ)) * eucl b₁.corner.elem b₂.corner.elem + 2 ^ (-53 : ℤ) * len b₂.corner.elem = w at *
  have f0 : 0 ≤ (2 : ℝ) ^ (-53 : ℤ) * len (b₂.corner.elem + b₂.size.elem) := mul_nonneg (by positivity) (len_nonneg _)
  generalize (2 : ℝ) ^ (-53 : ℤ) * len (b₂.corner.elem + b₂.size.elem) = f at *
  have hl0 : 0 < lam := by linarith [epsilon_pos]
  unfold Fl.interRR3
  have sound : ∀ w', (∃ x ∈ turnedBox (Fl.rbRotate r b₁ b₂.orient.inverse b₂.corner).corner.elem b₁.size.elem (R * Sᵀ) ((w' + K + Q) / lam),
      ∀ i, (Fl.rbFlat r b₂).low.elem i - (w' + K + Q) / lam ≤ x i ∧ x i ≤ (Fl.rbFlat r b₂).high.elem i + (w' + K + Q) / lam) →
      ∃ x ∈ turnedBox b₁.corner.elem b₁.size.elem R ((w' + M) / lam), x ∈ turnedBox b₂.corner.elem b₂.size.elem S ((w' + M) / lam) := by
    rintro w' ⟨y, hy, hy2⟩
    obtain ⟨x, ex, hx⟩ := d6 y
    have := len_nonneg δ
    have hV : (w' + K + Q) / lam + (w + f) ≤ (w' + M) / lam := by
      rw [div_add' _ _ _ hl0.ne']
      refine div_le_div_of_nonneg_right ?_ hl0.le
      have := mul_le_mul_of_nonneg_left hl1 (add_nonneg w0 f0)
      linarith
    generalize (w' + K + Q) / lam = V at *
    generalize (w' + M) / lam = V' at *
    refine ⟨x, fun k => ?_, fun k => ?_⟩
    · have := hx _ hy k
      constructor <;> linarith
    · have g := hy2 k
      have := _root_.abs_le.1 (dx k)
      have f1 := _root_.abs_le.1 (face k).1
      have f2 := _root_.abs_le.1 (face k).2
      have e : y k = b₂.corner.elem k + (S *ᵥ (x - b₂.corner.elem)) k + δ k := by rw [← ex]; rfl
      constructor <;> linarith
  have K0 : 0 ≤ K := hK0
  have Q0 : 0 ≤ Q := hQ0
  refine ⟨fun q₁ q₂ e x y hq1 hq2 hx hy he => ?_, fun h => sound _ (e2 h), fun h => ?_⟩
  · have hx' := d5 x _ hx
    have pos : M < lam * (q₁ + q₂ - e) → 0 < q₁ + q₂ - e := fun h => pos_of_mul_pos_right (lt_of_le_of_lt (by linarith : (0 : ℝ) ≤ M) h) hl0.le
    have dist : len (b₂.corner.elem + S *ᵥ (x - b₂.corner.elem) + δ - (b₂.corner.elem + S *ᵥ (y - b₂.corner.elem))) ≤ e + w := by
      have t := len_add_le (S *ᵥ (x - y)) δ
      rw [Fl.len_orth hS, ← eucl_eq_len] at t
      rw [show b₂.corner.elem + S *ᵥ (x - b₂.corner.elem) + δ - (b₂.corner.elem + S *ᵥ (y - b₂.corner.elem)) = S *ᵥ (x - y) + δ by
        rw [← sub_sub_sub_cancel_right x y b₂.corner.elem, mulVec_sub S (x - b₂.corner.elem)]; abel]
      linarith
    by_cases hf : f ≤ q₂
    · obtain ⟨g1, g2⟩ := e1 q₁ (q₂ - f) (e + w) _ (b₂.corner.elem + S *ᵥ (y - b₂.corner.elem)) hq1 (by linarith) hx' (fun i => by
        have f1 := _root_.abs_le.1 (face i).1
        have f2 := _root_.abs_le.1 (face i).2
        have := hy i
        rw [Pi.add_apply]
        constructor <;> linarith) (by rw [eucl_eq_len]; exact dist)
      have hs := mul_le_mul_of_nonneg_left hl1 (add_nonneg w0 f0)
      refine ⟨fun h h' => g1 (by linarith) (by linarith) (by linarith), fun h => ?_⟩
      have hD := pos h
      have hk := mul_le_mul_of_nonneg_right hl1 hD.le
      exact g2 (by linarith) (by linarith)
    · push Not at hf
      obtain ⟨z, hz, ez⟩ := near' (b₂.corner.elem + S *ᵥ (y - b₂.corner.elem)) (fun i => by
        have := hy i
        rw [Pi.add_apply]
        constructor <;> linarith)
      obtain ⟨g1, g2⟩ := e1 q₁ 0 (e + w + f) _ z hq1 le_rfl hx' (fun i => by
        have := hz i
        constructor <;> linarith [this.1, this.2]) (by
        rw [eucl_eq_len]
        have t := len_triangle (b₂.corner.elem + S *ᵥ (x - b₂.corner.elem) + δ) (b₂.corner.elem + S *ᵥ (y - b₂.corner.elem)) z
        linarith)
      have hs := mul_le_mul_of_nonneg_left hl1 (add_nonneg w0 f0)
      have hs' := mul_le_mul_of_nonneg_left hf.le hl0.le
      have hs'' := mul_le_mul_of_nonneg_left hl1 f0
      refine ⟨fun h h' => g1 (by linarith) (by linarith) (by linarith), fun h => ?_⟩
      have hD := pos h
      have hk := mul_le_mul_of_nonneg_right hl1 hD.le
      exact g2 (by linarith) (by linarith)
  · have := sound 0 (by rw [zero_add]; exact e3 h)
    rwa [zero_add] at this

end WFMath
