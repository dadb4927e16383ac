/- Lengths, distances and tolerances of doubles without a lower limit on their size. -/
import Verif.Lemmas.IeeeMove

namespace WFMath
open Spec Matrix
open WFMath.Spec.Rounding (u)

namespace Ie
variable {g : Nearest} {r : Rounding 53} {n : Nat}

theorem IsDbl_ge {s : ℝ} (h : IsDbl s) (h0 : 0 < s) : (2 : ℝ) ^ (-1074 : ℤ) ≤ s := by
  obtain ⟨j, rfl⟩ := h.grid
  have hp : (0 : ℝ) < 2 ^ (-1074 : ℤ) := by positivity
  have hj : (0 : ℝ) < j := by by_contra hc; nlinarith
  have : (1 : ℝ) ≤ j := by exact_mod_cast Int.add_one_le_iff.2 (by exact_mod_cast hj : (0 : ℤ) < j)
  nlinarith

/-- A sum of squares in doubles: up to the errors of additions it is a sum `T` that is next to the exact one. -/
theorem sqrMag_any (hr : Ext g r) (hn : n ≤ 2 ^ 20) (v : Fin n → ℝ) (hv : ∀ i, |v i| ≤ 2 ^ (500 : ℤ)) :
    ∃ s T : ℝ, sqrMag g (fun i => .num (v i)) = .num s ∧ IsDbl s ∧ 0 ≤ T ∧ s ≤ 2 ^ (1020 : ℤ) ∧ Close 53 n s T ∧
      |T - ∑ i, v i ^ 2| ≤ u 53 * ∑ i, v i ^ 2 + n * 2 ^ (-1075 : ℤ) := by
  have hb : ∀ i, |v i * v i| ≤ 2 ^ (1000 : ℤ) := fun i => by
    rw [abs_mul, show (1000 : ℤ) = 500 + 500 by norm_num, zpow_add₀ two_ne_zero]
    exact mul_le_mul (hv i) (hv i) (abs_nonneg _) (by positivity)
  have hf : ∀ i, Dbl.mul g (.num (v i)) (.num (v i)) = .num (g (v i * v i)) := fun i =>
    round_of_le ((hb i).trans (zpow_le_zpow_right₀ one_le_two (by norm_num)))
  obtain ⟨h1, h2, h3⟩ := sum_num2 hr hn (fun i => g (v i * v i)) 1000 (by norm_num) fun i => ⟨g.isDbl _, g.abs_le_dbl (IsDbl.zpow (by norm_num)) (hb i)⟩
  have h4 : Close 53 (0 + n) (Fl.sum r fun i => g (v i * v i)) (∑ i, g (v i * v i)) := Fl.sum_close r (fun i => Close.refl Fl.pos53 _ _) fun i => g.nonneg (mul_self_nonneg _)
  rw [zero_add] at h4
  refine ⟨_, ∑ i, g (v i * v i), ?_, h2, Finset.sum_nonneg fun i _ => g.nonneg (mul_self_nonneg _), ?_, h4, ?_⟩
  · unfold sqrMag
    rw [show (fun i => Dbl.mul g (Dbl.num (v i)) (.num (v i))) = fun i => .num (g (v i * v i)) from funext hf, h1]
  · refine (le_abs_self _).trans (h3.trans ?_)
    rw [show (1020 : ℤ) = 20 + 1000 by norm_num, zpow_add₀ two_ne_zero]
    refine mul_le_mul_of_nonneg_right ?_ (by positivity)
    have : (n : ℝ) ≤ (2 ^ 20 : ℕ) := by exact_mod_cast hn
    push_cast at this
    exact this.trans (le_of_eq (by norm_num))
  · rw [← Finset.sum_sub_distrib]
    refine (Finset.abs_sum_le_sum_abs _ _).trans ?_
    have ec : (n : ℝ) * 2 ^ (-1075 : ℤ) = ∑ _i : Fin n, (2 : ℝ) ^ (-1075 : ℤ) := by rw [Finset.sum_const, Finset.card_fin, nsmul_eq_mul]
    rw [Finset.mul_sum, ec, ← Finset.sum_add_distrib]
    refine Finset.sum_le_sum fun i _ => ?_
    have := rnd_any g (v i * v i)
    rw [abs_of_nonneg (mul_self_nonneg (v i))] at this
    rw [sq]; exact this

theorem sqrt_near {T S τ : ℝ} (T0 : 0 ≤ T) (S0 : 0 ≤ S) (τ0 : 0 ≤ τ) (h : |T - S| ≤ u 53 * S + τ) : |Real.sqrt T - Real.sqrt S| ≤ u 53 * Real.sqrt S + Real.sqrt τ := by
  have hu0 : 0 < u 53 := Rounding.u_pos
  have hus : u 53 ≤ 1 / 1000000 := by rw [Fl.u53]; norm_num
  obtain ⟨h1, h2⟩ := _root_.abs_le.1 h
  have a := Real.sqrt_nonneg T
  have b := Real.sqrt_nonneg S
  have c := Real.sqrt_nonneg τ
  have ea := Real.sq_sqrt T0
  have eb := Real.sq_sqrt S0
  have ec := Real.sq_sqrt τ0
  generalize Real.sqrt T = x at *
  generalize Real.sqrt S = y at *
  generalize Real.sqrt τ = z at *
  subst ea eb ec
  refine _root_.abs_le.2 ⟨?_, ?_⟩
  · have : (1 - u 53) * y ≤ x + z := by
      refine abs_le_of_sq_le_sq' ?_ (by linarith) |>.2
      have h5 : (1 - u 53) ^ 2 ≤ 1 - u 53 := by nlinarith
      have := mul_le_mul_of_nonneg_right h5 (sq_nonneg y)
      nlinarith [mul_nonneg a c]
    linarith
  · have : x ≤ (1 + u 53) * y + z := by
      refine abs_le_of_sq_le_sq' ?_ (by nlinarith [mul_nonneg hu0.le b]) |>.2
      have h5 : 1 + u 53 ≤ (1 + u 53) ^ 2 := by nlinarith
      have := mul_le_mul_of_nonneg_right h5 (sq_nonneg y)
      nlinarith [mul_nonneg b c, mul_nonneg (mul_nonneg hu0.le b) c]
    linarith

theorem tau_le {n : Nat} (hn : n ≤ 2 ^ 20) : Real.sqrt (n * 2 ^ (-1075 : ℤ)) ≤ 1 / 2 * 2 ^ (-526 : ℤ) := by
  have h : (n : ℝ) ≤ 2 ^ (20 : ℤ) := by
    have : (n : ℝ) ≤ (2 ^ 20 : ℕ) := by exact_mod_cast hn
    push_cast at this
    exact this.trans (le_of_eq (by norm_num))
  refine Real.sqrt_le_iff.2 ⟨by positivity, (mul_le_mul_of_nonneg_right h (by positivity)).trans ?_⟩
  rw [← zpow_add₀ two_ne_zero, show (1 / 2 : ℝ) = 2 ^ (-1 : ℤ) by norm_num, ← zpow_add₀ two_ne_zero, sq, ← zpow_add₀ two_ne_zero]
  exact zpow_le_zpow_right₀ one_le_two (by norm_num)

/-- The root of such a sum. -/
theorem root_any (hr : Ext g r) (hn : n ≤ 2 ^ 20) {s T S : ℝ} (ds : IsDbl s) (T0 : 0 ≤ T) (S0 : 0 ≤ S) (hs : s ≤ 2 ^ (1020 : ℤ)) (hc : Close 53 n s T)
    (hT : |T - S| ≤ u 53 * S + n * 2 ^ (-1075 : ℤ)) :
    ∃ m, Dbl.sqrt g (.num s) = .num m ∧ 0 ≤ m ∧ |m - Real.sqrt S| ≤ (n + 2) * 2 ^ (-52 : ℤ) * Real.sqrt S + 2 ^ (-526 : ℤ) := by
  have hu0 : 0 < u 53 := Rounding.u_pos
  have e52 : (2 : ℝ) ^ (-52 : ℤ) = 2 * u 53 := by rw [Fl.u53]; norm_num
  have s0 : 0 ≤ s := hc.nonneg Fl.pos53 T0
  have hN : Nrm (2 * -537) (2 * 510) s := by
    rcases s0.eq_or_lt with h | h
    · exact Or.inl h.symm
    · right; rw [abs_of_pos h]; norm_num; exact ⟨by have := IsDbl_ge ds h; norm_num at this; exact this, by norm_num at hs; exact hs⟩
  obtain ⟨h1, h2⟩ := sqrt_num hr hN s0 (by norm_num) (by norm_num)
  have h3 := (hc.sqrt Fl.pos53).round Fl.pos53 r
  have h4 := Fl.Close_err' h3 (by omega)
  rw [abs_of_nonneg (Real.sqrt_nonneg _)] at h4
  have h5 := sqrt_near T0 S0 (by positivity) hT
  have h6 := tau_le hn
  refine ⟨_, h1, r.nonneg (Real.sqrt_nonneg _), ?_⟩
  have hn' : ((n + 1 : ℕ) : ℝ) * u 53 ≤ 1 / 4 := by
    have : ((n + 1 : ℕ) : ℝ) ≤ 2 ^ 21 := by
      have : n + 1 ≤ 2 ^ 21 := by omega
      exact_mod_cast this
    refine (mul_le_mul_of_nonneg_right this hu0.le).trans ?_
    rw [Fl.u53]; norm_num
  have h7 := abs_sub_le (r (Real.sqrt s)) (Real.sqrt T) (Real.sqrt S)
  rw [e52] at h4 ⊢
  have L0 := Real.sqrt_nonneg S
  have z0 : (0 : ℝ) < 2 ^ (-526 : ℤ) := by positivity
  push_cast at h4 hn'
  clear hN h1 h2 h3 hs hc hT
  generalize Real.sqrt (n * 2 ^ (-1075 : ℤ)) = τ at *
  generalize (2 : ℝ) ^ (-526 : ℤ) = ζ at *
  generalize r (Real.sqrt s) = m at *
  generalize Real.sqrt T = t at *
  generalize Real.sqrt S = L at *
  have h8 := (_root_.abs_le.1 h5).2
  have n0 : (0 : ℝ) ≤ n := Nat.cast_nonneg n
  have h9 : ((n : ℝ) + 1) * (2 * u 53) * t ≤ (n + 1) * (2 * u 53) * (L + u 53 * L + τ) := mul_le_mul_of_nonneg_left (by linarith) (by positivity)
  have h10 := mul_le_mul_of_nonneg_right hn' (by positivity : 0 ≤ u 53 * L)
  have h11 := mul_le_mul_of_nonneg_right hn' (by linarith [abs_nonneg (t - L)] : 0 ≤ ζ)
  have h12 : ((n : ℝ) + 1) * u 53 * τ ≤ (n + 1) * u 53 * (1 / 2 * ζ) := mul_le_mul_of_nonneg_left h6 (by positivity)
  nlinarith

/-- An inner product in doubles. -/
theorem inner_any (hr : Ext g r) (hn : n ≤ 2 ^ 20) (a v : Fin n → ℝ) (ha : ∀ i, |a i| ≤ 2 ^ (500 : ℤ)) (hv : ∀ i, |v i| ≤ 2 ^ (500 : ℤ)) :
    ∃ y, sum g (fun i => Dbl.mul g (.num (a i)) (.num (v i))) = .num y ∧ |y - ∑ i, a i * v i| ≤ (n + 1) * 2 ^ (-52 : ℤ) * ∑ i, |a i * v i| + n * 2 ^ (-1074 : ℤ) := by
  have hb0 : ∀ i, |a i * v i| ≤ 2 ^ (1000 : ℤ) := fun i => by
    rw [abs_mul, show (1000 : ℤ) = 500 + 500 by norm_num, zpow_add₀ two_ne_zero]
    exact mul_le_mul (ha i) (hv i) (abs_nonneg _) (by positivity)
  have hm : ∀ i, Dbl.mul g (.num (a i)) (.num (v i)) = .num (g (a i * v i)) := fun i =>
    round_of_le ((hb0 i).trans (zpow_le_zpow_right₀ one_le_two (by norm_num)))
  obtain ⟨s1, -, -⟩ := sum_num2 hr hn (fun i => g (a i * v i)) 1000 (by norm_num) fun i => ⟨g.isDbl _, g.abs_le_dbl (IsDbl.zpow (by norm_num)) (hb0 i)⟩
  refine ⟨_, by simp only [hm]; exact s1, ?_⟩
  choose t t1 t2 using fun i => near_split hr (a i * v i)
  have h1 := Fl.sum_err r (k := 1) t1
  have hn52 : n + 1 ≤ 2 ^ 52 := by omega
  have h2 : Fl.gam (1 + n) ≤ (n + 1) * 2 ^ (-52 : ℤ) := by
    have := Fl.gam_le (k := 1 + n) (by omega)
    push_cast at this; linarith
  have e75 : (2 : ℝ) ^ (-1074 : ℤ) = 2 * 2 ^ (-1075 : ℤ) := by
    rw [show (-1074 : ℤ) = 1 + -1075 by norm_num, zpow_add₀ two_ne_zero, zpow_one]
  have h3 : ∑ i, |t i| ≤ ∑ i, |a i * v i| + n * 2 ^ (-1075 : ℤ) := by
    have : ∑ i, |t i| ≤ ∑ i, (|a i * v i| + 2 ^ (-1075 : ℤ)) := Finset.sum_le_sum fun i _ => by
      have := abs_sub_abs_le_abs_sub (t i) (a i * v i)
      linarith [t2 i]
    rwa [Finset.sum_add_distrib, Finset.sum_const, Finset.card_univ, Fintype.card_fin, nsmul_eq_mul] at this
  have h4 : |∑ i, t i - ∑ i, a i * v i| ≤ n * 2 ^ (-1075 : ℤ) := by
    rw [← Finset.sum_sub_distrib]
    refine (Finset.abs_sum_le_sum_abs _ _).trans ((Finset.sum_le_sum fun i _ => t2 i).trans (le_of_eq ?_))
    rw [Finset.sum_const, Finset.card_univ, Fintype.card_fin, nsmul_eq_mul]
  have h5 : (n + 1 : ℝ) * 2 ^ (-52 : ℤ) ≤ 1 := by
    have : (n + 1 : ℝ) ≤ 2 ^ (52 : ℤ) := by exact_mod_cast hn52
    calc (n + 1 : ℝ) * 2 ^ (-52 : ℤ) ≤ 2 ^ (52 : ℤ) * 2 ^ (-52 : ℤ) := mul_le_mul_of_nonneg_right this (by positivity)
      _ = 1 := by norm_num
  have h6 := h1.trans (mul_le_mul h2 h3 (Finset.sum_nonneg fun i _ => abs_nonneg _) (by positivity))
  have h7 := mul_le_mul_of_nonneg_right h5 (show (0 : ℝ) ≤ n * 2 ^ (-1075 : ℤ) by positivity)
  have h8 := abs_sub_le (Fl.sum r fun i => g (a i * v i)) (∑ i, t i) (∑ i, a i * v i)
  rw [e75]
  rw [mul_add] at h6
  linarith

/-! ### Tolerances -/

theorem maxAbs_lt {v : Fin n → ℝ} {b : ℝ} (hb : 0 < b) (hv : ∀ i, |v i| < b) : 0 ≤ WFMath.maxAbs v ∧ WFMath.maxAbs v < b := by
  unfold WFMath.maxAbs
  have : ∀ (l : List (Fin n)) (s : ℝ), 0 ≤ s ∧ s < b → 0 ≤ l.foldl (fun m i => if |v i| > m then |v i| else m) s ∧ l.foldl (fun m i => if |v i| > m then |v i| else m) s < b := by
    intro l
    induction l with
    | nil => exact fun s h => h
    | cons i l ih =>
      intro s hs
      simp only [List.foldl_cons]
      split_ifs
      · exact ih _ ⟨abs_nonneg _, hv i⟩
      · exact ih _ hs
  exact this _ _ ⟨le_rfl, hb⟩

/-- The tolerance is the exact one, rounded once. -/
theorem scaleEps_any (g : Nearest) (fe : ℤ) {x y eps : ℝ} (hx : |x| < 2 ^ (1024 : ℤ)) (hy : |y| < 2 ^ (1024 : ℤ)) (h0 : 0 ≤ eps) (h1 : eps ≤ 1 / 4) :
    scaleEpsilon g fe (.num x) (.num y) (.num eps) = .num (g (WFMath.scaleEpsilon x y eps)) ∧ 0 ≤ WFMath.scaleEpsilon x y eps ∧
      WFMath.scaleEpsilon x y eps ≤ 2 ^ (1023 : ℤ) := by
  unfold scaleEpsilon WFMath.scaleEpsilon
  simp only [Dbl.abs, Dbl.lt, decide_eq_true_eq]
  have key : ∀ z : ℝ, |z| < 2 ^ (1024 : ℤ) → ldexp g (.num eps) (frexpExp fe (.num z)) = .num (g (WFMath.ldexp eps (WFMath.frexpExp z))) ∧
      0 ≤ WFMath.ldexp eps (WFMath.frexpExp z) ∧ WFMath.ldexp eps (WFMath.frexpExp z) ≤ 2 ^ (1023 : ℤ) := by
    intro z hz
    have h2 : (2 : ℝ) ^ WFMath.frexpExp z ≤ 2 ^ (1025 : ℤ) := by
      rcases eq_or_ne z 0 with rfl | h
      · rw [frexpExp_zero]; exact zpow_le_zpow_right₀ one_le_two (by norm_num)
      · refine (frexp_lower h).trans ?_
        rw [show (1025 : ℤ) = 1 + 1024 by norm_num, zpow_add₀ two_ne_zero, zpow_one]
        exact mul_le_mul_of_nonneg_left hz.le (by norm_num)
    have h3 : 0 ≤ eps * (2 : ℝ) ^ WFMath.frexpExp z := by positivity
    have h4 : eps * (2 : ℝ) ^ WFMath.frexpExp z ≤ 2 ^ (1023 : ℤ) := by
      refine (mul_le_mul h1 h2 (by positivity) (by norm_num)).trans (le_of_eq ?_)
      rw [show (1 / 4 : ℝ) = 2 ^ (-2 : ℤ) by norm_num, ← zpow_add₀ two_ne_zero]; norm_num
    exact ⟨round_of_le (x := eps * (2 : ℝ) ^ WFMath.frexpExp z) (by rwa [abs_of_nonneg h3]), h3, h4⟩
  split_ifs
  · exact key x hx
  · exact key y hy

theorem scaleArr_any (g : Nearest) (fe : ℤ) {x y : Fin n → ℝ} {eps : ℝ} (hx : ∀ i, |x i| < 2 ^ (1024 : ℤ)) (hy : ∀ i, |y i| < 2 ^ (1024 : ℤ)) (h0 : 0 ≤ eps) (h1 : eps ≤ 1 / 4) :
    scaleEpsilonArr g fe (fun i => .num (x i)) (fun i => .num (y i)) (.num eps) = .num (g (WFMath.scaleEpsilonArr x y eps)) ∧ 0 ≤ WFMath.scaleEpsilonArr x y eps ∧
      WFMath.scaleEpsilonArr x y eps ≤ 2 ^ (1023 : ℤ) := by
  unfold scaleEpsilonArr WFMath.scaleEpsilonArr
  rw [maxAbs_num, maxAbs_num]
  obtain ⟨a, b⟩ := maxAbs_lt (by positivity) hx
  obtain ⟨c, d⟩ := maxAbs_lt (by positivity) hy
  exact scaleEps_any g fe (by rwa [abs_of_nonneg a]) (by rwa [abs_of_nonneg c]) h0 h1

/-- A difference of doubles compared with a rounded tolerance. -/
theorem cmp_any (hr : Ext g r) {x y δ : ℝ} (dx : IsDbl x) (dy : IsDbl y) (h0 : 0 ≤ δ) (h1 : δ ≤ 2 ^ (1023 : ℤ)) :
    (|x - y| ≤ δ → ∃ a, (Dbl.sub g (.num x) (.num y)).abs = .num a ∧ a ≤ g δ) ∧
    (Dbl.lt (.num (g δ)) (Dbl.sub g (.num x) (.num y)).abs = false → |x - y| ≤ (1 + 2 ^ (-51 : ℤ)) * δ + 2 ^ (-1074 : ℤ)) := by
  have hu0 : 0 < u 53 := Rounding.u_pos
  have hus : u 53 ≤ 1 / 1000000 := by rw [Fl.u53]; norm_num
  have e51 : (2 : ℝ) ^ (-51 : ℤ) = 4 * u 53 := by rw [Fl.u53]; norm_num
  rw [sub_num]
  constructor
  · intro h
    refine ⟨|g (x - y)|, by rw [round_of_le (h.trans h1)]; rfl, ?_⟩
    rw [g.abs_eq]
    exact g.mono h
  · intro h
    by_cases hc : |g (x - y)| < 2 ^ (1024 : ℤ)
    · unfold Dbl.round at h
      rw [if_pos hc] at h
      have h2 : |g (x - y)| ≤ g δ := by simpa [Dbl.lt, Dbl.abs] using h
      have e : g (x - y) = r (x - y) := by have := add_eq hr dx dy.neg; rwa [← sub_eq_add_neg] at this
      have k1 := (_root_.abs_le.1 (rnd_any g δ)).2
      have k2 := r.err Fl.pos53 (x - y)
      rw [e] at h2
      have k3 := abs_sub_abs_le_abs_sub (x - y) (r (x - y))
      rw [abs_sub_comm (x - y) (r (x - y))] at k3
      rw [abs_of_nonneg h0] at k1
      have k4 : |x - y| * (1 - u 53) ≤ (1 + u 53) * δ + 2 ^ (-1075 : ℤ) := by
        clear h1 hc
        generalize (2 : ℝ) ^ (-1075 : ℤ) = η at *
        linarith
      have e2 : (2 : ℝ) ^ (-1074 : ℤ) = 2 * 2 ^ (-1075 : ℤ) := by rw [← zpow_one_add₀ two_ne_zero]; norm_num
      rw [e51, e2]
      have η0 : (0 : ℝ) < 2 ^ (-1075 : ℤ) := by positivity
      clear h1 hc
      generalize (2 : ℝ) ^ (-1075 : ℤ) = η at *
      refine le_of_mul_le_mul_right (k4.trans ?_) (by linarith : 0 < 1 - u 53)
      have q1 := mul_nonneg hu0.le h0
      have q2 := mul_le_mul_of_nonneg_right hus q1
      have q3 := mul_le_mul_of_nonneg_right hus η0.le
      linarith
    · unfold Dbl.round at h
      rw [if_neg hc] at h
      simp [Dbl.lt, Dbl.abs] at h

end Ie
end WFMath
