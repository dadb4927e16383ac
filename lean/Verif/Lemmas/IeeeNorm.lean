/- Sums of squares of doubles, with underflow: a relative error and a multiple of the smallest double. -/
import Verif.Model.IeeeQuat
import Verif.Lemmas.IeeeQuat

namespace WFMath
open Spec Matrix Quaternion
open WFMath.Spec.Rounding (u)

namespace Ie
variable {g : Nearest} {r : Rounding 53} {D D' : Dbl} {x y a b b' : ℝ}

/-- `D` is a finite double, not negative, that differs from `x` by at most `a` units relative to `x` and `b` units of underflow. -/
def Sq (D : Dbl) (x a b : ℝ) : Prop := ∃ y, D = .num y ∧ IsDbl y ∧ 0 ≤ y ∧ 0 ≤ x ∧ |y - x| ≤ a * (u 53 * x) + b * 2 ^ (-1075 : ℤ)

theorem small_const : (0 : ℝ) < 2 ^ (-1075 : ℤ) ∧ (2 : ℝ) ^ (-1075 : ℤ) ≤ u 53 * (1 / 1000000 * 2 ^ (-900 : ℤ)) := by
  refine ⟨by positivity, ?_⟩
  have h : (2 : ℝ) ^ (-1075 : ℤ) = 2 ^ (-175 : ℤ) * 2 ^ (-900 : ℤ) := by rw [← zpow_add₀ two_ne_zero]; norm_num
  rw [h, ← mul_assoc]
  refine mul_le_mul_of_nonneg_right ?_ (by positivity)
  rw [Fl.u53]; norm_num

theorem Sq.square (v : ℝ) (hv : |v| ≤ 2 ^ (500 : ℤ)) : Sq (Dbl.mul g (.num v) (.num v)) (v ^ 2) 1 1 := by
  have h : |v * v| ≤ 2 ^ (1000 : ℤ) := by
    rw [abs_mul, show (1000 : ℤ) = 500 + 500 by norm_num, zpow_add₀ two_ne_zero]
    exact mul_le_mul hv hv (abs_nonneg _) (by positivity)
  refine ⟨g (v * v), round_of_le (h.trans (zpow_le_zpow_right₀ one_le_two (by norm_num))), g.isDbl _, g.nonneg (mul_self_nonneg v), sq_nonneg v, ?_⟩
  have := rnd_any g (v * v)
  rw [abs_of_nonneg (mul_self_nonneg v)] at this
  rw [sq, one_mul, one_mul]; exact this

theorem Sq.zero : Sq (.num 0) 0 1 0 := ⟨0, rfl, IsDbl.zero, le_rfl, le_rfl, by simp⟩

theorem Sq.add (h : Sq D x a b) (h' : Sq D' y a b') (ha : a ≤ 5) (hb0 : 0 ≤ b) (hb0' : 0 ≤ b') (hb : b ≤ 50) (hb' : b' ≤ 50) (hx : x ≤ 2 ^ (1010 : ℤ))
    (hy : y ≤ 2 ^ (1010 : ℤ)) : Sq (Dbl.add g D D') (x + y) (a + 101 / 100) (2 * (b + b')) := by
  obtain ⟨r, hr⟩ := g.extends_
  obtain ⟨s, rfl, d1, s0, x0, e1⟩ := h
  obtain ⟨t, rfl, d2, t0, y0, e2⟩ := h'
  have hu0 : 0 < u 53 := Rounding.u_pos
  have hus : u 53 ≤ 1 / 1000000 := by rw [Fl.u53]; norm_num
  obtain ⟨c0, -⟩ := small_const
  have c1 : (2 : ℝ) ^ (-1075 : ℤ) ≤ 1 := zpow_le_one_of_nonpos₀ one_le_two (by norm_num)
  have c2 : (8 : ℝ) * 2 ^ (1010 : ℤ) ≤ 2 ^ (1023 : ℤ) := by
    have : (2 : ℝ) ^ (1023 : ℤ) = 8192 * 2 ^ (1010 : ℤ) := by rw [show (1023 : ℤ) = 13 + 1010 by norm_num, zpow_add₀ two_ne_zero]; norm_num
    rw [this]; exact mul_le_mul_of_nonneg_right (by norm_num) (by positivity)
  have c3 : (200 : ℝ) ≤ 2 ^ (1010 : ℤ) := le_trans (by norm_num : (200 : ℝ) ≤ 2 ^ (10 : ℤ)) (zpow_le_zpow_right₀ one_le_two (by norm_num))
  unfold Sq
  generalize (2 : ℝ) ^ (-1075 : ℤ) = η at *
  generalize (2 : ℝ) ^ (1010 : ℤ) = T at *
  have e1' := abs_le.1 e1
  have e2' := abs_le.1 e2
  have ux := mul_nonneg hu0.le x0
  have uy := mul_nonneg hu0.le y0
  have ax := mul_le_mul_of_nonneg_right ha ux
  have ay := mul_le_mul_of_nonneg_right ha uy
  have bx := mul_le_mul_of_nonneg_right hus x0
  have bz := mul_le_mul_of_nonneg_right hus y0
  have q1 := mul_le_mul hb c1 c0.le (by norm_num)
  have q2 := mul_le_mul hb' c1 c0.le (by norm_num)
  have hst : |s + t| ≤ 2 ^ (1023 : ℤ) := by
    rw [abs_of_nonneg (by linarith)]
    refine le_trans ?_ c2
    linarith [e1'.2, e2'.2]
  obtain ⟨k1, k2⟩ := add_num hr d1 d2 hst
  refine ⟨_, k1, k2, r.nonneg (by linarith), by linarith, ?_⟩
  have k3 := r.err Fl.pos53 (s + t)
  rw [abs_of_nonneg (by linarith : 0 ≤ s + t)] at k3
  have k4 := mul_le_mul_of_nonneg_left (add_le_add e1'.2 e2'.2) hu0.le
  have k5 := abs_sub_le (r (s + t)) (s + t) (x + y)
  have k6 : |s + t - (x + y)| ≤ (a * (u 53 * x) + b * η) + (a * (u 53 * y) + b' * η) := by rw [add_sub_add_comm]; exact (abs_add_le _ _).trans (add_le_add e1 e2)
  have p1 := mul_nonneg hb0 c0.le
  have p2 := mul_nonneg hb0' c0.le
  have k7 := mul_le_mul_of_nonneg_right hus p1
  have k8 := mul_le_mul_of_nonneg_right hus p2
  have k9 := mul_le_mul_of_nonneg_left ax hu0.le
  have k10 := mul_le_mul_of_nonneg_left ay hu0.le
  have k11 := mul_le_mul_of_nonneg_right hus ux
  have k12 := mul_le_mul_of_nonneg_right hus uy
  clear c2 hst hr
  linarith

theorem Sq.weaken (h : Sq D x a b) {a' : ℝ} (ha : a ≤ a') (hb : b ≤ b') : Sq D x a' b' := by
  obtain ⟨y, h1, h2, h3, h4, h5⟩ := h
  refine ⟨y, h1, h2, h3, h4, h5.trans (add_le_add (mul_le_mul_of_nonneg_right ha (mul_nonneg Rounding.u_pos.le h4)) (mul_le_mul_of_nonneg_right hb (by positivity)))⟩

/-- The root of a sum of squares. -/
theorem Sq.root (h : Sq D x 6 100) (h0 : 2 ^ (-900 : ℤ) ≤ x) (h1 : x ≤ 2 ^ (1010 : ℤ)) :
    ∃ N, Dbl.sqrt g D = .num N ∧ IsDbl N ∧ |N - Real.sqrt x| ≤ 5 * u 53 * Real.sqrt x := by
  obtain ⟨r, hr⟩ := g.extends_
  obtain ⟨s, rfl, d1, s0, x0, e1⟩ := h
  have hu0 : 0 < u 53 := Rounding.u_pos
  have hus : u 53 ≤ 1 / 1000000 := by rw [Fl.u53]; norm_num
  obtain ⟨c0, cs⟩ := small_const
  have ec : |s - x| ≤ 61 / 10 * (u 53 * x) := by
    have := mul_le_mul_of_nonneg_left (mul_le_mul_of_nonneg_left h0 (by norm_num : (0 : ℝ) ≤ 1 / 1000000)) hu0.le
    generalize (2 : ℝ) ^ (-1075 : ℤ) = η at *
    generalize (2 : ℝ) ^ (-900 : ℤ) = ζ at *
    nlinarith [mul_nonneg hu0.le x0]
  have ux := mul_le_mul_of_nonneg_right hus x0
  have e' := abs_le.1 ec
  have xp : 0 < x := lt_of_lt_of_le (by positivity) h0
  have sl : 4 / 5 * x ≤ s := by linarith [e'.1]
  have su : s ≤ 2 * x := by linarith [e'.2]
  set X := Real.sqrt x with hX
  set S := Real.sqrt s with hS
  have XX : X * X = x := Real.mul_self_sqrt x0
  have SS : S * S = s := Real.mul_self_sqrt s0
  have X0 : 0 < X := Real.sqrt_pos.2 xp
  have S0 : 0 ≤ S := Real.sqrt_nonneg _
  have dS : |S - X| ≤ 61 / 10 * u 53 * X * (10 / 18) := by
    have sx : 4 / 5 * X ≤ S := by
      by_contra hc
      have := mul_self_lt_mul_self S0 (not_le.1 hc)
      nlinarith
    have e : (S - X) * (S + X) = s - x := by rw [← SS, ← XX]; ring
    have e2 : |S - X| * (S + X) ≤ 61 / 10 * (u 53 * x) := by
      rw [← abs_of_nonneg (by linarith : 0 ≤ S + X), ← abs_mul, e]; exact ec
    have e3 := mul_le_mul_of_nonneg_left (by linarith : 9 / 5 * X ≤ S + X) (abs_nonneg (S - X))
    have e4 : |S - X| * (9 / 5 * X) ≤ 61 / 10 * (u 53 * (X * X)) := by rw [XX]; exact e3.trans e2
    have e5 : (|S - X| * (9 / 5)) * X ≤ (61 / 10 * (u 53 * X)) * X := by linarith
    have := le_of_mul_le_mul_right e5 X0
    linarith
  have lo : (2 : ℝ) ^ (-1022 : ℤ) ≤ S := by
    have : (2 : ℝ) ^ (-451 : ℤ) ≤ S := by
      refine Real.le_sqrt_of_sq_le ?_
      rw [← zpow_natCast, ← zpow_mul]
      refine le_trans ?_ ((mul_le_mul_of_nonneg_left h0 (by norm_num : (0 : ℝ) ≤ 4 / 5)).trans sl)
      have : (2 : ℝ) ^ ((-451 : ℤ) * ((2 : ℕ) : ℤ)) = 1 / 4 * 2 ^ (-900 : ℤ) := by
        rw [show (-451 : ℤ) * ((2 : ℕ) : ℤ) = -2 + -900 by norm_num, zpow_add₀ two_ne_zero]; norm_num
      rw [this]
      exact mul_le_mul_of_nonneg_right (by norm_num) (by positivity)
    exact le_trans (zpow_le_zpow_right₀ one_le_two (by norm_num)) this
  have hi : S ≤ 2 ^ (1023 : ℤ) := by
    refine Real.sqrt_le_iff.2 ⟨by positivity, ?_⟩
    refine su.trans ((mul_le_mul_of_nonneg_left h1 (by norm_num)).trans ?_)
    rw [← zpow_natCast, ← zpow_mul, show (2 : ℝ) * 2 ^ (1010 : ℤ) = 2 ^ (1011 : ℤ) by rw [show (1011 : ℤ) = 1 + 1010 by norm_num, zpow_add₀ two_ne_zero]; norm_num]
    exact zpow_le_zpow_right₀ one_le_two (by norm_num)
  have aS : |S| = S := abs_of_nonneg S0
  refine ⟨g S, ?_, g.isDbl _, ?_⟩
  · show (if s < 0 then Dbl.nan else Dbl.round g (Real.sqrt s)) = _
    rw [if_neg (not_lt.2 s0)]
    exact round_of_le (by rw [aS]; exact hi)
  · rw [hr _ (Or.inr (by rw [aS]; exact lo))]
    have k1 := r.err Fl.pos53 S
    rw [aS] at k1
    have k2 := abs_sub_le (r S) S X
    have k3 := mul_le_mul_of_nonneg_left (by linarith [(abs_le.1 dS).2] : S ≤ X + 61 / 10 * u 53 * X * (10 / 18)) hu0.le
    have k4 := mul_le_mul_of_nonneg_right hus (mul_nonneg hu0.le X0.le)
    have k5 := mul_nonneg hu0.le X0.le
    linarith

/-- A number divided by the norm. -/
theorem div_comp {N X v : ℝ} (X0 : 0 < X) (hN : |N - X| ≤ 5 * u 53 * X) (hvX : |v| / X ≤ 2 ^ 60) :
    ∃ c, Dbl.div g (.num v) (.num N) = .num c ∧ IsDbl c ∧ |c - v / X| ≤ 13 / 2 * u 53 * (|v| / X) + 2 ^ (-1075 : ℤ) := by
  have hu0 : 0 < u 53 := Rounding.u_pos
  have hus : u 53 ≤ 1 / 1000000 := by rw [Fl.u53]; norm_num
  have uX := mul_le_mul_of_nonneg_right hus X0.le
  have h' := abs_le.1 hN
  have N0 : 0 < N := by linarith [h'.1]
  have hq : |v / N - v / X| ≤ 26 / 5 * u 53 * (|v| / X) := by
    have e : v / N - v / X = (v / X) * ((X - N) / N) := by field_simp
    rw [e, abs_mul, abs_div, abs_of_pos X0, mul_comm]
    refine mul_le_mul_of_nonneg_right ?_ (by positivity)
    rw [abs_div, abs_of_pos N0, div_le_iff₀ N0, abs_sub_comm]
    have := mul_le_mul_of_nonneg_left h'.1 hu0.le
    have k4 := mul_le_mul_of_nonneg_right hus (mul_nonneg hu0.le X0.le)
    linarith
  have e0 : |v / X| = |v| / X := by rw [abs_div, abs_of_pos X0]
  have p0 : 0 ≤ |v| / X := by positivity
  have vN : |v / N| ≤ |v| / X + 26 / 5 * u 53 * (|v| / X) := by
    have := abs_sub_abs_le_abs_sub (v / N) (v / X)
    linarith
  have t := mul_le_mul_of_nonneg_left hvX hu0.le
  refine ⟨g (v / N), ?_, g.isDbl _, ?_⟩
  · show (if N = 0 then _ else Dbl.round g (v / N)) = _
    rw [if_neg N0.ne']
    refine round_of_le (le_trans ?_ (zpow_le_zpow_right₀ one_le_two (by norm_num : (61 : ℤ) ≤ 1023)))
    norm_num at hvX t ⊢
    have k4 := mul_le_mul_of_nonneg_right hus p0
    linarith
  · have k1 := rnd_any g (v / N)
    have k2 := abs_sub_le (g (v / N)) (v / N) (v / X)
    have k3 := mul_le_mul_of_nonneg_left vN hu0.le
    have k4 := mul_le_mul_of_nonneg_right hus (mul_nonneg hu0.le p0)
    have k5 := mul_nonneg hu0.le p0
    generalize (2 : ℝ) ^ (-1075 : ℤ) = η at *
    linarith

/-- A component divided by the norm. -/
theorem unit_comp {N X v : ℝ} (X0 : 0 < X) (hN : |N - X| ≤ 5 * u 53 * X) (hv : |v| ≤ X) :
    ∃ c, Dbl.div g (.num v) (.num N) = .num c ∧ IsDbl c ∧ |c - v / X| ≤ 13 / 2 * u 53 * (|v| / X) + 2 ^ (-1075 : ℤ) :=
  div_comp X0 hN (((div_le_one X0).2 hv).trans (by norm_num))

end Ie
end WFMath
