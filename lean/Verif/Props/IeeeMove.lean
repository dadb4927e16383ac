/- Property theorems C145: sums, midpoints, rotations and coordinate changes over the whole range of doubles. -/
import Verif.Spec.IeeeRange
import Verif.Lemmas.IeeeMove
import Verif.Props.RoundBary

namespace WFMath
open Spec Matrix
open WFMath.Spec.Rounding (u)
variable {n : Nat}

namespace Ie

theorem dblMax_lt : dblMax < 2 ^ (1024 : ℤ) := by
  unfold dblMax
  rw [show (1024 : ℤ) = 53 + 971 by norm_num, zpow_add₀ two_ne_zero]
  exact mul_lt_mul_of_pos_right (by norm_num) (by positivity)

theorem dblMax_zpow (e : ℤ) (he : -1074 ≤ e) : IsDbl ((2 ^ 53 - 1) * (2 : ℝ) ^ e) := ⟨2 ^ 53 - 1, e, by norm_num, he, by norm_num⟩

theorem pow_le_dblMax : (2 : ℝ) ^ (1023 : ℤ) ≤ dblMax := by
  unfold dblMax
  rw [show (1023 : ℤ) = 52 + 971 by norm_num, zpow_add₀ two_ne_zero]
  exact mul_le_mul_of_nonneg_right (by norm_num) (by positivity)

theorem le_dblMax {x : ℝ} (h : IsFinite x) : |x| ≤ dblMax := by
  obtain ⟨⟨m, e, hm, -, rfl⟩, h2⟩ := h
  unfold dblMax
  rw [abs_mul, abs_of_pos (by positivity : (0 : ℝ) < 2 ^ e)] at h2 ⊢
  have hm' : |(m : ℝ)| ≤ 2 ^ 53 - 1 := by
    have : |m| ≤ 2 ^ 53 - 1 := by omega
    exact_mod_cast this
  by_cases he : e ≤ 971
  · exact mul_le_mul hm' (zpow_le_zpow_right₀ one_le_two he) (by positivity) (by norm_num)
  · push Not at he
    obtain ⟨k, hk⟩ := Int.eq_ofNat_of_zero_le (show 0 ≤ e - 971 by omega)
    have e1 : e = k + 971 := by omega
    have hp : (0 : ℝ) < 2 ^ (971 : ℤ) := by positivity
    rw [e1, zpow_add₀ two_ne_zero, zpow_natCast, ← mul_assoc] at h2 ⊢
    rw [show (1024 : ℤ) = 53 + 971 by norm_num, zpow_add₀ two_ne_zero] at h2
    have h3 : |(m : ℝ)| * 2 ^ k < 2 ^ (53 : ℤ) := lt_of_mul_lt_mul_right h2 hp.le
    have h4 : |m| * 2 ^ k < 2 ^ 53 := by exact_mod_cast h3
    have h5 : |m| * 2 ^ k ≤ 2 ^ 53 - 1 := by omega
    refine mul_le_mul_of_nonneg_right ?_ (by positivity)
    exact_mod_cast h5

theorem round_le_max (g : Nearest) {x : ℝ} (h : |x| ≤ dblMax) : Dbl.round g x = .num (g x) ∧ IsFinite (g x) := by
  have h1 : |g x| < 2 ^ (1024 : ℤ) := (g.abs_le_dbl (dblMax_zpow 971 (by norm_num)) h).trans_lt dblMax_lt
  exact ⟨by unfold Dbl.round; rw [if_pos h1], g.isDbl _, h1⟩

theorem fin_of_le {x : ℝ} (h : IsDbl x) (h1 : |x| ≤ 2 ^ (1023 : ℤ)) : IsFinite x := ⟨h, h1.trans_lt (zpow_lt_zpow_right₀ one_lt_two (by norm_num))⟩

end Ie

/-- C145, sums and differences of vectors and points: a coordinate is the exact sum or difference up to rounding, without any error from underflow, as long as it is not larger
than the largest double; from 2^1024 on it is an infinity of the right sign. -/
theorem C145_sum (g : Nearest) (v w : Fin n → ℝ) (dv : ∀ i, IsFinite (v i)) (dw : ∀ i, IsFinite (w i)) (i : Fin n) :
    (|v i + w i| ≤ dblMax → ∃ y, Ie.vadd g (nums v) (nums w) i = .num y ∧ IsFinite y ∧ |y - (v i + w i)| ≤ 2 ^ (-53 : ℤ) * |v i + w i|) ∧
    (|v i - w i| ≤ dblMax → ∃ y, Ie.vsub g (nums v) (nums w) i = .num y ∧ IsFinite y ∧ |y - (v i - w i)| ≤ 2 ^ (-53 : ℤ) * |v i - w i|) ∧
    (2 ^ (1024 : ℤ) ≤ |v i + w i| → Ie.vadd g (nums v) (nums w) i = .inf (decide (v i + w i < 0))) ∧
    (2 ^ (1024 : ℤ) ≤ |v i - w i| → Ie.vsub g (nums v) (nums w) i = .inf (decide (v i - w i < 0))) := by
  have e : ∀ w : Fin n → ℝ, IsDbl (w i) → |g (v i + w i) - (v i + w i)| ≤ 2 ^ (-53 : ℤ) * |v i + w i| := fun w hw => by
    have := Ie.diff_err (g := g) (dv i).1 hw.neg
    rwa [sub_neg_eq_add, Fl.u53] at this
  refine ⟨fun h => ?_, fun h => ?_, fun h => Ie.round_inf h, fun h => ?_⟩
  · obtain ⟨h1, h2⟩ := Ie.round_le_max g h
    exact ⟨_, h1, h2, e w (dw i).1⟩
  · obtain ⟨h1, h2⟩ := Ie.round_le_max g h
    refine ⟨_, (Ie.sub_num _ _).trans h1, h2, ?_⟩
    have := e (-w) (dw i).1.neg
    rwa [Pi.neg_apply, ← sub_eq_add_neg] at this
  · exact (Ie.sub_num _ _).trans (Ie.round_inf h)

/-- C145, a vector times or divided by a number: a component is the exact product or quotient up to rounding and half the smallest double, as long as it is not larger than the
largest double; from 2^1024 on it is an infinity of the right sign, and divided by 0 it is not a number at all. -/
theorem C145_scale (g : Nearest) (v : Fin n → ℝ) (d : ℝ) (i : Fin n) :
    (|v i * d| ≤ dblMax → ∃ y, Ie.vscale g (nums v) (.num d) i = .num y ∧ IsFinite y ∧ |y - v i * d| ≤ 2 ^ (-53 : ℤ) * |v i * d| + 2 ^ (-1075 : ℤ)) ∧
    (d ≠ 0 → |v i / d| ≤ dblMax → ∃ y, Ie.vdiv g (nums v) (.num d) i = .num y ∧ IsFinite y ∧ |y - v i / d| ≤ 2 ^ (-53 : ℤ) * |v i / d| + 2 ^ (-1075 : ℤ)) ∧
    (2 ^ (1024 : ℤ) ≤ |v i * d| → Ie.vscale g (nums v) (.num d) i = .inf (decide (v i * d < 0))) ∧
    (d ≠ 0 → 2 ^ (1024 : ℤ) ≤ |v i / d| → Ie.vdiv g (nums v) (.num d) i = .inf (decide (v i / d < 0))) ∧
    (d = 0 → ∀ y, Ie.vdiv g (nums v) (.num d) i ≠ .num y) := by
  have hdiv : d ≠ 0 → Ie.vdiv g (nums v) (.num d) i = Dbl.round g (v i / d) := fun hd => by
    show (if d = 0 then _ else _) = _
    rw [if_neg hd]
  have he := fun x => Ie.rnd_any g x
  rw [Fl.u53] at he
  refine ⟨fun h => ?_, fun hd h => ?_, fun h => Ie.round_inf h, fun hd h => (hdiv hd).trans (Ie.round_inf h), ?_⟩
  · obtain ⟨h1, h2⟩ := Ie.round_le_max g h
    exact ⟨_, h1, h2, he _⟩
  · obtain ⟨h1, h2⟩ := Ie.round_le_max g h
    exact ⟨_, (hdiv hd).trans h1, h2, he _⟩
  · rintro rfl y
    show (if (0 : ℝ) = 0 then (if v i = 0 then Dbl.nan else Dbl.inf _) else _) ≠ _
    rw [if_pos rfl]
    split_ifs <;> simp

namespace Ie

/-- Half of a double: exact, or off by half the smallest double. -/
theorem half_err (g : Nearest) {x : ℝ} (hx : IsDbl x) : |g (x / 2) - x / 2| ≤ 2 ^ (-1075 : ℤ) := by
  by_cases h : |x / 2| < 2 ^ (-1022 : ℤ)
  · exact sub_err h
  · have : IsFl 53 (x / 2) := by
      have := hx.isFl.mul_zpow (-1)
      rwa [show x * (2 : ℝ) ^ (-1 : ℤ) = x / 2 by rw [zpow_neg_one]; ring] at this
    rw [g.of_dbl (IsDbl.of_fl this (not_lt.1 h)), sub_self, abs_zero]
    positivity

theorem half_num (g : Nearest) {x : ℝ} (hx : IsFinite x) : Dbl.round g (x / 2) = .num (g (x / 2)) ∧ IsDbl (g (x / 2)) ∧ |g (x / 2)| ≤ dblMax / 2 := by
  have e : dblMax / 2 = (2 ^ 53 - 1) * (2 : ℝ) ^ (970 : ℤ) := by
    unfold dblMax
    rw [show (971 : ℤ) = 1 + 970 by norm_num, zpow_add₀ two_ne_zero]; ring
  have h1 : |x / 2| ≤ dblMax / 2 := by
    rw [abs_div, abs_two]
    exact div_le_div_of_nonneg_right (le_dblMax hx) (by norm_num)
  have h2 : |g (x / 2)| ≤ dblMax / 2 := by
    rw [e] at h1 ⊢
    exact g.abs_le_dbl (dblMax_zpow 970 (by norm_num)) h1
  have h3 : 0 ≤ dblMax := (abs_nonneg _).trans (le_dblMax hx)
  exact ⟨(round_le_max g (h1.trans (half_le_self h3))).1, g.isDbl _, h2⟩

end Ie

/-- C145, `Midpoint` with the default distance, and so the centre of every box and segment: it never overflows, whatever the finite coordinates, and is the exact middle up to
rounding and 2^-1073. -/
theorem C145_midpoint (g : Nearest) (p q : Fin n → ℝ) (dp : ∀ i, IsFinite (p i)) (dq : ∀ i, IsFinite (q i)) :
    ∃ y : Fin n → ℝ, Ie.midpoint g (nums p) (nums q) (.num (1 / 2)) = nums y ∧
      ∀ i, IsFinite (y i) ∧ |y i - (p i + q i) / 2| ≤ 2 ^ (-53 : ℤ) * |(p i + q i) / 2| + 2 ^ (-1073 : ℤ) := by
  have h1 : Dbl.sub g (.num 1) (.num (1 / 2)) = .num (1 / 2) := by
    rw [Ie.sub_num, show (1 : ℝ) - 1 / 2 = 1 / 2 by norm_num]
    have : IsDbl (1 / 2 : ℝ) := ⟨1, -1, by norm_num, by norm_num, by norm_num⟩
    refine Ie.round_dbl this ?_
    rw [abs_of_pos (by norm_num)]
    exact lt_of_lt_of_le (by norm_num : (1 / 2 : ℝ) < 2 ^ (0 : ℤ)) (zpow_le_zpow_right₀ one_le_two (by norm_num))
  have hm : ∀ x : ℝ, Dbl.mul g (.num x) (.num (1 / 2)) = Dbl.round g (x / 2) := fun x => by
    show Dbl.round g (x * (1 / 2)) = _
    rw [mul_one_div]
  obtain ⟨r, hr⟩ := g.extends_
  have key : ∀ i, Ie.midpoint g (nums p) (nums q) (.num (1 / 2)) i = .num (g (g (p i / 2) + g (q i / 2))) ∧ IsFinite (g (g (p i / 2) + g (q i / 2))) ∧
      |g (g (p i / 2) + g (q i / 2)) - (p i + q i) / 2| ≤ 2 ^ (-53 : ℤ) * |(p i + q i) / 2| + 2 ^ (-1073 : ℤ) := fun i => by
    obtain ⟨a1, a2, a3⟩ := Ie.half_num g (dp i)
    obtain ⟨b1, b2, b3⟩ := Ie.half_num g (dq i)
    have hs : |g (p i / 2) + g (q i / 2)| ≤ dblMax := (abs_add_le _ _).trans (by linarith)
    obtain ⟨k1, k2⟩ := Ie.round_le_max g hs
    refine ⟨?_, k2, ?_⟩
    · show Dbl.add g (Dbl.mul g (.num (p i)) (Dbl.sub g (.num 1) (.num (1 / 2)))) (Dbl.mul g (.num (q i)) (.num (1 / 2))) = _
      rw [h1, hm, hm, a1, b1]
      exact k1
    · have e1 := Ie.half_err g (dp i).1
      have e2 := Ie.half_err g (dq i).1
      have e3 := Ie.diff_err (g := g) a2 b2.neg
      rw [sub_neg_eq_add, Fl.u53] at e3
      have e4 : |g (p i / 2) + g (q i / 2) - (p i + q i) / 2| ≤ 2 * 2 ^ (-1075 : ℤ) := by
        rw [show g (p i / 2) + g (q i / 2) - (p i + q i) / 2 = (g (p i / 2) - p i / 2) + (g (q i / 2) - q i / 2) by ring]
        exact (abs_add_le _ _).trans (by linarith)
      have e5 := abs_sub_abs_le_abs_sub (g (p i / 2) + g (q i / 2)) ((p i + q i) / 2)
      have e6 := abs_sub_le (g (g (p i / 2) + g (q i / 2))) (g (p i / 2) + g (q i / 2)) ((p i + q i) / 2)
      have e7 : (2 : ℝ) ^ (-1073 : ℤ) = 4 * 2 ^ (-1075 : ℤ) := by
        rw [show (-1073 : ℤ) = 2 + -1075 by norm_num, zpow_add₀ two_ne_zero]; norm_num
      have p75 : (0 : ℝ) < 2 ^ (-1075 : ℤ) := by positivity
      rw [e7]
      generalize (2 : ℝ) ^ (-1075 : ℤ) = η at *
      have hu : (2 : ℝ) ^ (-53 : ℤ) ≤ 1 := by norm_num
      have hu0 : (0 : ℝ) < 2 ^ (-53 : ℤ) := by positivity
      generalize (2 : ℝ) ^ (-53 : ℤ) = t at *
      have e8 : t * |g (p i / 2) + g (q i / 2)| ≤ t * (|(p i + q i) / 2| + 2 * η) := mul_le_mul_of_nonneg_left (by linarith) hu0.le
      have e9 : t * η ≤ 1 * η := mul_le_mul_of_nonneg_right hu p75.le
      rw [mul_add] at e8
      linarith
  exact ⟨_, funext fun i => (key i).1, fun i => (key i).2⟩

/-- A point of the smallest double, 2^-1074, is not its own midpoint with itself: both halves are rounded to 0 or both up. -/
theorem C145_midpoint_false (g : Nearest) : IsFinite (2 ^ (-1074 : ℤ)) ∧
    ∃ y : ℝ, Ie.midpoint g (nums ![2 ^ (-1074 : ℤ)]) (nums ![2 ^ (-1074 : ℤ)]) (.num (1 / 2)) 0 = .num y ∧ y ≠ 2 ^ (-1074 : ℤ) := by
  have d1 : IsDbl ((2 : ℝ) ^ (-1074 : ℤ)) := IsDbl.zpow le_rfl
  have hf : IsFinite (2 ^ (-1074 : ℤ)) := Ie.fin_of_le d1 (by rw [abs_of_pos (by positivity)]; exact zpow_le_zpow_right₀ one_le_two (by norm_num))
  have h1 : Dbl.sub g (.num 1) (.num (1 / 2)) = .num (1 / 2) := by
    rw [Ie.sub_num, show (1 : ℝ) - 1 / 2 = 1 / 2 by norm_num]
    have : IsDbl (1 / 2 : ℝ) := ⟨1, -1, by norm_num, by norm_num, by norm_num⟩
    refine Ie.round_dbl this ?_
    rw [abs_of_pos (by norm_num)]
    exact lt_of_lt_of_le (by norm_num : (1 / 2 : ℝ) < 2 ^ (0 : ℤ)) (zpow_le_zpow_right₀ one_le_two (by norm_num))
  have hm : ∀ x : ℝ, Dbl.mul g (.num x) (.num (1 / 2)) = Dbl.round g (x / 2) := fun x => by
    show Dbl.round g (x * (1 / 2)) = _
    rw [mul_one_div]
  obtain ⟨a1, a2, a3⟩ := Ie.half_num g hf
  obtain ⟨j, hj⟩ := a2.grid
  have hs : |g ((2 : ℝ) ^ (-1074 : ℤ) / 2) + g ((2 : ℝ) ^ (-1074 : ℤ) / 2)| ≤ dblMax := (abs_add_le _ _).trans (by linarith)
  obtain ⟨k1, k2⟩ := Ie.round_le_max g hs
  refine ⟨hf, g (g ((2 : ℝ) ^ (-1074 : ℤ) / 2) + g ((2 : ℝ) ^ (-1074 : ℤ) / 2)), ?_, ?_⟩
  · show Dbl.add g (Dbl.mul g (.num (2 ^ (-1074 : ℤ))) (Dbl.sub g (.num 1) (.num (1 / 2)))) (Dbl.mul g (.num (2 ^ (-1074 : ℤ))) (.num (1 / 2))) = _
    rw [h1, hm, a1]
    exact k1
  · intro h
    have hp : (0 : ℝ) < 2 ^ (-1074 : ℤ) := by positivity
    have hb := Ie.half_err g d1
    have hd : IsDbl (g ((2 : ℝ) ^ (-1074 : ℤ) / 2) + g ((2 : ℝ) ^ (-1074 : ℤ) / 2)) := by
      refine ⟨2 * j, -1074, ?_, le_rfl, by rw [hj]; push_cast; ring⟩
      have hj2 : |g ((2 : ℝ) ^ (-1074 : ℤ) / 2)| ≤ 2 ^ (-1074 : ℤ) := g.abs_le_dbl d1 (by rw [abs_of_pos (by positivity)]; linarith)
      rw [hj, abs_mul, abs_of_pos hp] at hj2
      have hj3 : |(j : ℝ)| ≤ 1 := le_of_mul_le_mul_right (by linarith) hp
      have hj4 : |j| ≤ 1 := by exact_mod_cast hj3
      rw [abs_mul, abs_two]; omega
    rw [g.of_dbl hd, hj] at h
    have h2 : ((2 * j : ℤ) : ℝ) * (2 : ℝ) ^ (-1074 : ℤ) = (1 : ℤ) * (2 : ℝ) ^ (-1074 : ℤ) := by push_cast; linarith
    have h3 := mul_right_cancel₀ hp.ne' h2
    have h4 : 2 * j = 1 := by exact_mod_cast h3
    omega

/-- C145, rotating a vector by a matrix that stands for the orthogonal matrix `R`, from either side: with coordinates up to 2^1000 nothing overflows, and underflow adds at
most `n² 2^-1074` to the error of C124. -/
theorem C145_rotate (g : Nearest) (hn : n ≤ 2 ^ 20) (M R : Matrix (Fin n) (Fin n) ℝ) (δ : ℝ) (h0 : 0 ≤ δ) (h1 : δ ≤ 1) (hR : Rᵀ * R = 1) (hM : Stands M R δ)
    (v : Fin n → ℝ) (hv : ∀ i, |v i| ≤ 2 ^ (1000 : ℤ)) :
    (∃ y : Fin n → ℝ, Ie.matVec g (fun i => nums (M i)) (nums v) = nums y ∧ (∀ i, IsFinite (y i)) ∧
      len (y - R *ᵥ v) ≤ (δ + 2 * n * (n + 1) * 2 ^ (-52 : ℤ)) * len v + n ^ 2 * 2 ^ (-1074 : ℤ)) ∧
    ∃ y : Fin n → ℝ, Ie.vecMat g (fun i => nums (M i)) (nums v) = nums y ∧ (∀ i, IsFinite (y i)) ∧
      len (y - v ᵥ* R) ≤ (δ + 2 * n * (n + 1) * 2 ^ (-52 : ℤ)) * len v + n ^ 2 * 2 ^ (-1074 : ℤ) := by
  have hb : ∀ y : ℝ, IsDbl y → |y| ≤ n * 2 ^ (1000 + 1 : ℤ) → IsFinite y := fun y d h => Ie.fin_of_le d (h.trans (by
    have : (n : ℝ) ≤ 2 ^ (20 : ℤ) := by exact_mod_cast hn
    calc (n : ℝ) * 2 ^ (1000 + 1 : ℤ) ≤ 2 ^ (20 : ℤ) * 2 ^ (1000 + 1 : ℤ) := mul_le_mul_of_nonneg_right this (by positivity)
      _ ≤ 2 ^ (1023 : ℤ) := by rw [← zpow_add₀ two_ne_zero]; exact zpow_le_zpow_right₀ one_le_two (by norm_num)))
  constructor
  · obtain ⟨y, y1, y2, y3, y4⟩ := Ie.mat_num g hn M R δ h0 h1 hR hM v 1000 (by norm_num) (by norm_num) hv
    exact ⟨y, y1, fun i => hb _ (y2 i) (y3 i), y4⟩
  · obtain ⟨y, y1, y2, y3, y4⟩ := Ie.mat_num g hn Mᵀ Rᵀ δ h0 h1 (by rw [transpose_transpose]; exact mul_eq_one_comm.1 hR) (Fl.stands_transpose h0 hM) v 1000
      (by norm_num) (by norm_num) hv
    refine ⟨y, y1, fun i => hb _ (y2 i) (y3 i), ?_⟩
    rwa [mulVec_transpose] at y4

end WFMath
