/- Property theorems C135, continued: rotated boxes meeting boxes in space, computed in doubles. -/
import Verif.Props.RoundSatTest

namespace WFMath
open Spec Matrix Rounding

namespace Fl

theorem isRotation_of (R : Matrix (Fin 3) (Fin 3) ℝ) (hR : Rᵀ * R = 1) : ∃ f, IsRotation (⟨R, f, true, 0⟩ : RotMat 3) := by
  have hd : R.det * R.det = 1 := by have := congrArg det hR; rwa [det_mul, det_transpose, det_one] at this
  rcases mul_self_eq_one_iff.1 hd with h | h
  · exact ⟨false, mul_eq_one_comm.1 hR, by simpa using h⟩
  · exact ⟨true, mul_eq_one_comm.1 hR, by simpa using h⟩

/-- The squares of the tolerance, as computed. -/
theorem tol_sq (r : Rounding 53) : 0 < r (epsilon * epsilon) ∧ r (epsilon * epsilon) ≤ 2 * (epsilon * epsilon) := by
  have h := r.err pos53 (epsilon * epsilon)
  have hp := mul_pos epsilon_pos epsilon_pos
  rw [u53, abs_of_pos hp] at h
  have h := _root_.abs_le.1 h
  have w1 : (2 : ℝ) ^ (-53 : ℤ) ≤ 1 / 2 := by norm_num
  have := mul_le_mul_of_nonneg_right w1 hp.le
  generalize (2 : ℝ) ^ (-53 : ℤ) * (epsilon * epsilon) = z at *
  constructor <;> linarith [h.1, h.2]

/-- A normal that is long enough is not taken for that of parallel edges. -/
theorem not_parallel (r : Rounding 53) (v : Vec 3) (h : 2 * epsilon ≤ len v.elem) : ¬ sqrMag r v < r (epsilon * epsilon) := by
  have e := Close_err' (sqrMag_close r v) (by norm_num)
  rw [abs_of_nonneg (Vec.sqrMag_nonneg v), show v.sqrMag = len v.elem ^ 2 from (len_sq _).symm] at e
  have e := (_root_.abs_le.1 e).1
  have hp := mul_pos epsilon_pos epsilon_pos
  have h2 : 4 * (epsilon * epsilon) ≤ len v.elem ^ 2 := by
    have := mul_self_le_mul_self (by linarith [epsilon_pos]) h
    nlinarith
  have w1 : ((1 + 3 : ℕ) : ℝ) * 2 ^ (-52 : ℤ) ≤ 1 / 4 := by norm_num
  have := mul_le_mul_of_nonneg_right w1 (sq_nonneg (len v.elem))
  have := (tol_sq r).2
  generalize ((1 + 3 : ℕ) : ℝ) * 2 ^ (-52 : ℤ) * len v.elem ^ 2 = z at *
  linarith

theorem parallel_zero (r : Rounding 53) (v : Vec 3) (h : v.elem = 0) : sqrMag r v < r (epsilon * epsilon) := by
  have e := Close_err' (sqrMag_close r v) (by norm_num)
  rw [Vec.sqrMag_eq_zero.2 h, abs_zero, mul_zero, sub_zero] at e
  rw [abs_eq_zero.1 (le_antisymm e (abs_nonneg _))]
  exact (tol_sq r).1

end Fl

/-- C135, rotated box meeting a box in space: computed in doubles, compared with the exact boxes. -/
theorem C135_space (r : Rounding 53) (b : RBox 3) (R : Matrix (Fin 3) (Fin 3) ℝ) (E lam : ℝ) (hR : Rᵀ * R = 1)
    (h0 : 24 * 2 ^ (-52 : ℤ) ≤ E) (h1 : E ≤ 1 / 4) (hm : Stands b.orient.elem R (E - 24 * 2 ^ (-52 : ℤ))) (a : Box 3) (ho : Ordered a)
    (hl : E + 2 * epsilon ≤ lam) (hl1 : lam ≤ 1) (hax : ∀ i j, R i j ^ 2 ≤ 1 - lam ^ 2 ∨ ∀ k, k ≠ j → R i k = 0 ∧ b.orient.elem i k = 0) (M G : ℝ)
    (hM : M = E * len b.size.elem + (E + 2 ^ (-51 : ℤ)) * eucl a.low.elem a.high.elem + (3 * E + 2 ^ (-51 : ℤ)) * eucl a.low.elem b.corner.elem +
      4 * 2 ^ (-50 : ℤ) * len b.corner.elem + 2 ^ (-53 : ℤ) * len (b.corner.elem + b.size.elem))
    (hG : G = 8 * (E + epsilon) * (len b.size.elem + eucl a.low.elem a.high.elem + eucl a.low.elem b.corner.elem)) :
    (∀ d₁ d₂ e x y, 0 ≤ d₁ → 0 ≤ d₂ → x ∈ turnedBox b.corner.elem b.size.elem R (-d₁) → (∀ i, a.low.elem i + d₂ ≤ y i ∧ y i ≤ a.high.elem i - d₂) → eucl x y ≤ e →
      (M + e ≤ d₁ + d₂ + epsilon → G + e ≤ d₁ + d₂ + epsilon → G ≤ lam * (d₁ + d₂ - e) + epsilon → Fl.interRB3 r b a false = true) ∧
      (M + e < d₁ + d₂ → G < lam * (d₁ + d₂ - e) → Fl.interRB3 r b a true = true)) ∧
    (Fl.interRB3 r b a false = true → ∃ x ∈ turnedBox b.corner.elem b.size.elem R ((epsilon * (1 + 2 ^ (-52 : ℤ)) + M + G) / lam),
      ∀ i, a.low.elem i - (epsilon * (1 + 2 ^ (-52 : ℤ)) + M + G) / lam ≤ x i ∧ x i ≤ a.high.elem i + (epsilon * (1 + 2 ^ (-52 : ℤ)) + M + G) / lam) ∧
    (Fl.interRB3 r b a true = true → ∃ x ∈ turnedBox b.corner.elem b.size.elem R ((M + G) / lam),
      ∀ i, a.low.elem i - (M + G) / lam ≤ x i ∧ x i ≤ a.high.elem i + (M + G) / lam) := by
  obtain ⟨t1, t2, t3, t4⟩ := Fl.tests_of_points r b R E (by norm_num) hR (by refine le_trans (le_of_eq ?_) h0; norm_num) h1
    (by convert hm using 2; norm_num) a ho M (by rw [hM]; norm_num)
  have hE : 0 ≤ E := le_trans (by positivity) h0
  have hz : (0 : ℝ) ≤ 24 * 2 ^ (-52 : ℤ) := by positivity
  have hm' : Stands b.orient.elem R E := fun v => (hm v).trans (mul_le_mul_of_nonneg_right (sub_le_self _ hz) (len_nonneg v))
  have hM0 : 0 ≤ M := by
    have := mul_nonneg hE (len_nonneg b.size.elem)
    have q1 : 0 ≤ (E + 2 ^ (-51 : ℤ)) * eucl a.low.elem a.high.elem := mul_nonneg (by positivity) (eucl_nonneg _ _)
    have q2 : 0 ≤ (3 * E + 2 ^ (-51 : ℤ)) * eucl a.low.elem b.corner.elem := mul_nonneg (by positivity) (eucl_nonneg _ _)
    have q3 : 0 ≤ (2 : ℝ) ^ (-53 : ℤ) * len (b.corner.elem + b.size.elem) := mul_nonneg (by positivity) (len_nonneg _)
    have q4 : 0 ≤ 4 * (2 : ℝ) ^ (-50 : ℤ) * len b.corner.elem := mul_nonneg (by positivity) (len_nonneg _)
    rw [hM]; linarith
  have hG0 : 0 ≤ G := by
    rw [hG]
    exact mul_nonneg (mul_nonneg (by norm_num) (add_nonneg hE epsilon_pos.le)) (add_nonneg (add_nonneg (len_nonneg _) (eucl_nonneg _ _)) (eucl_nonneg _ _))
  have serr := Fl.sat_err r b a R E hR hE h1 hm'
  simp only [← hG] at serr
  clear hM hG hm h0
  have hl0 : 0 < lam := by linarith [epsilon_pos]
  -- the exact normals that are not 0 are long
  have long : ∀ i j, R i j ^ 2 ≤ 1 - lam ^ 2 → lam ≤ len (Fl.axisOf R i j) := fun i j h => by
    refine Real.le_sqrt_of_sq_le ?_
    rw [Fl.axis_len_sq]
    have := len_sq (R i)
    rw [Fl.row_len hR] at this
    linarith
  have flat : ∀ (m : Matrix (Fin 3) (Fin 3) ℝ) i j, (∀ k, k ≠ j → m i k = 0) → Fl.axisOf m i j = 0 := fun m i j h => by
    funext k
    have h0 := h 0
    have h1 := h 1
    have h2 := h 2
    fin_cases j <;> fin_cases k <;> simp [Fl.axisOf, satAxis] at h0 h1 h2 ⊢ <;> assumption
  have split : ∀ proper, Fl.interRB3 r b a proper = true ↔
      Fl.interBB r (Fl.rbBox r b) a proper = true ∧ Fl.interBB r (Fl.rbBox r (Fl.rbSeen r b a)) (Fl.rbFlat r b) proper = true ∧ Fl.satLoop r b a proper satPairs = true := fun proper => by
    unfold Fl.interRB3
    by_cases g : Fl.interBB r (Fl.rbBox r b) a proper = true <;> by_cases g' : Fl.interBB r (Fl.rbBox r (Fl.rbSeen r b a)) (Fl.rbFlat r b) proper = true <;> simp [g, g']
  -- from the tests, with any slack, to a common point of the enlarged boxes
  have sound : ∀ w proper, 0 ≤ w →
      (∀ i, (Fl.rbBox r b).low.elem i ≤ a.high.elem i + w ∧ a.low.elem i ≤ (Fl.rbBox r b).high.elem i + w) →
      (∀ i, (Fl.rbBox r (Fl.rbSeen r b a)).low.elem i ≤ (Fl.rbFlat r b).high.elem i + w ∧ (Fl.rbFlat r b).low.elem i ≤ (Fl.rbBox r (Fl.rbSeen r b a)).high.elem i + w) →
      Fl.satLoop r b a proper satPairs = true →
      (∀ x y, ¬ Fl.greater r x y proper = true → x ≤ y + w) → (∀ x y, ¬ Fl.less r x y proper = true → y ≤ x + w) →
      ∃ x ∈ turnedBox b.corner.elem b.size.elem R ((w + M + G) / lam), ∀ i, a.low.elem i - (w + M + G) / lam ≤ x i ∧ x i ≤ a.high.elem i + (w + M + G) / lam := by
    intro w proper hw g1 g2 g3 cg cl
    obtain ⟨f, hrot⟩ := Fl.isRotation_of R hR
    have hV : w + M ≤ (w + M + G) / lam := by
      rw [le_div_iff₀ hl0]
      have := mul_le_mul_of_nonneg_left hl1 (add_nonneg hw hM0)
      linarith
    have hV2 : (w + G) / lam ≤ (w + M + G) / lam := div_le_div_of_nonneg_right (by linarith) hl0.le
    generalize (w + M + G) / lam = V at hV hV2 ⊢
    have cI : ∀ j, Convex ℝ (Set.Icc (a.low.elem j - V) (a.high.elem j + V)) := fun j => convex_Icc _ _
    have cJ : ∀ k, Convex ℝ (Set.Icc (b.corner.elem k + (min 0 (b.size.elem k) - V)) (b.corner.elem k + (max 0 (b.size.elem k) + V))) := fun k => convex_Icc _ _
    have F1 : ∀ k, ∃ x : Fin 3 → ℝ, (∀ j, x j ∈ Set.Icc (a.low.elem j - V) (a.high.elem j + V)) ∧
        turn ⟨b.corner, b.size, ⟨R, f, true, 0⟩⟩ x k ∈ Set.Icc (b.corner.elem k + (min 0 (b.size.elem k) - V)) (b.corner.elem k + (max 0 (b.size.elem k) + V)) := fun k => by
      obtain ⟨⟨xa, ha, ea⟩, ⟨xb, hb, eb⟩⟩ := t4 k
      have f1 := le_abs_self ((Fl.rbFlat r b).high.elem k - (b.corner.elem k + max 0 (b.size.elem k)))
      have f2 := neg_abs_le ((Fl.rbFlat r b).low.elem k - (b.corner.elem k + min 0 (b.size.elem k)))
      have := g2 k
      obtain ⟨x, hx, l1, l2⟩ := Fl.mid (Fl.boxSet_mid a) (fun x => (R *ᵥ (x - b.corner.elem)) k) (fun x y t => Fl.turned_line R _ x y t k) (l := min 0 (b.size.elem k) - (w + M))
        (h := max 0 (b.size.elem k) + (w + M)) ha hb
        (by show (R *ᵥ (xa - b.corner.elem)) k ≤ _; linarith) (by show _ ≤ (R *ᵥ (xb - b.corner.elem)) k; linarith)
        (by have := min_le_left 0 (b.size.elem k); have := le_max_left 0 (b.size.elem k); linarith)
      refine ⟨x, fun j => ⟨?_, ?_⟩, ⟨add_le_add_right (by linarith) _, add_le_add_right (by linarith) _⟩⟩
      · have := (hx j).1; linarith
      · have := (hx j).2; linarith
    have F2 : ∀ j, ∃ x : Fin 3 → ℝ, (∀ k, turn ⟨b.corner, b.size, ⟨R, f, true, 0⟩⟩ x k ∈
        Set.Icc (b.corner.elem k + (min 0 (b.size.elem k) - V)) (b.corner.elem k + (max 0 (b.size.elem k) + V))) ∧ x j ∈ Set.Icc (a.low.elem j - V) (a.high.elem j + V) := fun j => by
      obtain ⟨⟨xa, ha, ea⟩, ⟨xb, hb, eb⟩⟩ := t2 j
      have := g1 j
      have hoj := ho j
      obtain ⟨x, hx, l1, l2⟩ := Fl.mid (Fl.turnedBox_mid _ _ R 0) (fun x => x j) (fun x y t => rfl) (l := a.low.elem j - (w + M)) (h := a.high.elem j + (w + M)) ha hb
        (by show xa j ≤ _; linarith) (by show _ ≤ xb j; linarith) (by linarith)
      refine ⟨x, fun k => ?_, ⟨by linarith, by linarith⟩⟩
      have := hx k
      exact ⟨add_le_add_right (by linarith) _, add_le_add_right (by linarith) _⟩
    have fin : ∃ x : Fin 3 → ℝ, (∀ j, x j ∈ Set.Icc (a.low.elem j - V) (a.high.elem j + V)) ∧ ∀ k, turn ⟨b.corner, b.size, ⟨R, f, true, 0⟩⟩ x k ∈
        Set.Icc (b.corner.elem k + (min 0 (b.size.elem k) - V)) (b.corner.elem k + (max 0 (b.size.elem k) + V)) := by
      rcases Fl.of_satLoop r _ g3 with ⟨⟨i, j⟩, -, hn⟩ | hall
      · rcases hax i j with hh | hh
        · exfalso
          have hlen : 2 * epsilon ≤ len (satAxis b.orient i j).elem := by
            have e0 : len ((R - b.orient.elem) i) ≤ E := by
              have := Fl.stands_row_sub hE hm' i
              rw [← len_neg] at this
              refine le_of_eq_of_le (congrArg len ?_) this
              funext k
              exact (neg_sub (b.orient.elem i k) (R i k)).symm
            have e1 := (Fl.axis_len_le (R - b.orient.elem) i j).trans e0
            rw [← Fl.axis_sub] at e1
            have e2 := len_add_le (Fl.axisOf R i j - Fl.axisOf b.orient.elem i j) (Fl.axisOf b.orient.elem i j)
            rw [sub_add_cancel] at e2
            have := long i j hh
            rw [Fl.axisOf_eq]; linarith
          have := Fl.not_parallel r _ hlen
          unfold Fl.satStep at hn
          simp [this] at hn
        · exact sat_parallel hrot cI cJ F1 F2 (i0 := i) (j0 := j) (flat R i j fun k hk => (hh k hk).1)
      · refine sat3 hrot cI cJ F1 F2 fun i j hne => ?_
        have hlong : lam ≤ len (Fl.axisOf R i j) := by
          rcases hax i j with hh | hh
          · exact long i j hh
          · exact absurd (flat R i j fun k hk => (hh k hk).1) hne
        have hs := hall (i, j) (Fl.mem_satPairs i j)
        obtain ⟨s1, s2⟩ := serr i j
        simp only [Fl.satStep] at hs
        split_ifs at hs
        rw [Option.some.injEq, not_or_bool] at hs
        have p1 := cg _ _ hs.1
        have p2 := cl _ _ hs.2
        have s1 := _root_.abs_le.1 s1
        have s2 := _root_.abs_le.1 s2
        obtain ⟨x, hx, y, hy, hxy⟩ := Fl.near_points R hR b.corner.elem b.size.elem (Fl.axisOf R i j) a ho (W := w + G) (by linarith) (by linarith [s1.1]) (by linarith [s2.1])
        obtain ⟨z, hz, ez⟩ := Fl.level hl0 hlong hxy
        refine ⟨z, y, fun k => ?_, fun k => ?_, ez⟩
        · have q := _root_.abs_le.1 (hz k)
          have := hx k
          exact ⟨by linarith [q.1, this.1], by linarith [q.2, this.2]⟩
        · have := hy k
          exact ⟨add_le_add_right (by linarith [this.1]) _, add_le_add_right (by linarith [this.2]) _⟩
    obtain ⟨x, hx1, hx2⟩ := fin
    exact ⟨x, fun k => ⟨le_of_add_le_add_left (hx2 k).1, le_of_add_le_add_left (hx2 k).2⟩, fun j => hx1 j⟩
  -- the values compared, for two close points deep in the boxes
  have complete : ∀ d₁ d₂ e x y, 0 ≤ d₁ → 0 ≤ d₂ → x ∈ turnedBox b.corner.elem b.size.elem R (-d₁) → (∀ i, a.low.elem i + d₂ ≤ y i ∧ y i ≤ a.high.elem i - d₂) → eucl x y ≤ e →
      (∀ i, (Fl.rbBox r b).low.elem i ≤ a.high.elem i + (M + e - (d₁ + d₂)) ∧ a.low.elem i ≤ (Fl.rbBox r b).high.elem i + (M + e - (d₁ + d₂))) ∧
      ∀ i, (Fl.rbBox r (Fl.rbSeen r b a)).low.elem i ≤ (Fl.rbFlat r b).high.elem i + (M + e - (d₁ + d₂)) ∧
        (Fl.rbFlat r b).low.elem i ≤ (Fl.rbBox r (Fl.rbSeen r b a)).high.elem i + (M + e - (d₁ + d₂)) := by
    intro d₁ d₂ e x y hd1 hd2 hx hy he
    rw [eucl_comm, eucl_eq_len] at he
    refine ⟨fun i => ?_, fun i => ?_⟩
    · obtain ⟨⟨p, hp, ep⟩, ⟨q, hq, eq⟩⟩ := Fl.shrunk_turned R hR _ _ hd1 hx i
      have := t1 p hp i
      have := t1 q hq i
      have := hy i
      have := _root_.abs_le.1 ((abs_le_len (y - x) i).trans he)
      rw [Pi.sub_apply] at this
      constructor <;> linarith
    · obtain ⟨⟨p, hp, ep⟩, ⟨q, hq, eq⟩⟩ := Fl.shrunk_box R hR b.corner.elem a hd2 hy i
      have := t3 p hp i
      have := t3 q hq i
      have := hx i
      have f1 := neg_abs_le ((Fl.rbFlat r b).high.elem i - (b.corner.elem i + max 0 (b.size.elem i)))
      have f2 := le_abs_self ((Fl.rbFlat r b).low.elem i - (b.corner.elem i + min 0 (b.size.elem i)))
      have g0 : len (R *ᵥ (y - b.corner.elem) - R *ᵥ (x - b.corner.elem)) ≤ e := by rw [← mulVec_sub, sub_sub_sub_cancel_right, Fl.len_orth hR]; exact he
      have g := (abs_le_len _ i).trans g0
      have := _root_.abs_le.1 g
      rw [Pi.sub_apply] at this
      constructor <;> linarith
  have loop : ∀ d₁ d₂ e x y proper T, 0 ≤ d₁ → 0 ≤ d₂ → x ∈ turnedBox b.corner.elem b.size.elem R (-d₁) → (∀ i, a.low.elem i + d₂ ≤ y i ∧ y i ≤ a.high.elem i - d₂) → eucl x y ≤ e →
      G - lam * (d₁ + d₂ - e) ≤ T → G - (d₁ + d₂ - e) ≤ T → (∀ x y, x - y ≤ T → ¬ Fl.greater r x y proper = true) → (∀ x y, y - x ≤ T → ¬ Fl.less r x y proper = true) →
      Fl.satLoop r b a proper satPairs = true := by
    intro d₁ d₂ e x y proper T hd1 hd2 hx hy he hT1 hT2 cg cl
    refine Fl.satLoop_of r _ fun ⟨i, j⟩ _ => ?_
    rcases hax i j with hh | hh
    · have hlong := long i j hh
      obtain ⟨s1, s2⟩ := serr i j
      obtain ⟨o1, o2⟩ := Fl.overlap R hR b.corner.elem b.size.elem (Fl.axisOf R i j) a ho hd1 hd2 hx hy he
      have s1 := (_root_.abs_le.1 s1).2
      have s2 := (_root_.abs_le.1 s2).2
      have hshort : len (Fl.axisOf R i j) ≤ 1 := (Fl.axis_len_le R i j).trans (Fl.row_len hR i).le
      have k : G + (e - (d₁ + d₂)) * len (Fl.axisOf R i j) ≤ T := by
        rcases le_total 0 (d₁ + d₂ - e) with g | g
        · have := mul_le_mul_of_nonneg_right hlong g; linarith
        · have := mul_le_mul_of_nonpos_left hshort g; linarith
      simp only [Fl.satStep]
      split_ifs
      · simp
      · rw [ne_eq, Option.some.injEq, Bool.not_eq_false, not_or_bool]
        exact ⟨cg _ _ (by linarith), cl _ _ (by linarith)⟩
    · have := Fl.parallel_zero r (satAxis b.orient i j) (flat b.orient.elem i j fun k hk => (hh k hk).2)
      simp only [Fl.satStep, this, if_true]
      simp
  refine ⟨fun d₁ d₂ e x y hd1 hd2 hx hy he => ⟨fun h hg' hg => ?_, fun h hg => ?_⟩, fun h => ?_, fun h => ?_⟩
  · obtain ⟨g1, g2⟩ := complete d₁ d₂ e x y hd1 hd2 hx hy he
    refine (split false).2 ⟨Fl.interBB_false_of r fun i => ?_, Fl.interBB_false_of r fun i => ?_, loop d₁ d₂ e x y false epsilon hd1 hd2 hx hy he (by linarith) (by linarith) (fun p q hpq => ?_) fun p q hpq => ?_⟩
    · have := g1 i; constructor <;> linarith
    · have := g2 i; constructor <;> linarith
    · simp only [Fl.greater, Bool.false_eq_true, if_false, decide_eq_true_eq, gt_iff_lt, not_lt]
      exact r.le_fl Fl.isFl_epsilon (by linarith)
    · simp only [Fl.less, Bool.false_eq_true, if_false, decide_eq_true_eq, gt_iff_lt, not_lt]
      exact r.le_fl Fl.isFl_epsilon (by linarith)
  · obtain ⟨g1, g2⟩ := complete d₁ d₂ e x y hd1 hd2 hx hy he
    have hk := mul_le_mul_of_nonneg_right hl1 (show 0 ≤ d₁ + d₂ - e by linarith)
    refine (split true).2 ⟨(Fl.interBB_true_iff r).2 fun i => ?_, (Fl.interBB_true_iff r).2 fun i => ?_, loop d₁ d₂ e x y true (G - lam * (d₁ + d₂ - e)) hd1 hd2 hx hy he le_rfl (by linarith) (fun p q hpq => ?_) fun p q hpq => ?_⟩
    · have := g1 i; constructor <;> linarith
    · have := g2 i; constructor <;> linarith
    · rw [Fl.greater_proper, greater_true]; linarith
    · rw [Fl.less_proper, less_true]; linarith
  · obtain ⟨g1, g2, g3⟩ := (split false).1 h
    exact sound _ false (mul_nonneg epsilon_pos.le (by positivity)) (Fl.of_interBB_false r g1) (Fl.of_interBB_false r g2) g3 (fun x y => Fl.not_greater) fun x y => Fl.not_less
  · obtain ⟨g1, g2, g3⟩ := (split true).1 h
    have g4 := (Fl.interBB_true_iff r).1 g1
    have g5 := (Fl.interBB_true_iff r).1 g2
    have := sound 0 true le_rfl (fun i => by have := g4 i; constructor <;> linarith) (fun i => by have := g5 i; constructor <;> linarith) g3
      (fun x y hx => by rw [Fl.greater_proper, greater_true] at hx; linarith) fun x y hx => by rw [Fl.less_proper, less_true] at hx; linarith
    rwa [zero_add] at this

end WFMath
