/- Bounds on the linear approximation to the length of a vector. -/
import Verif.Lemmas.Vector

namespace WFMath.Sloppy

theorem sqrt2_lo : (1.4142135623730 : ℝ) < Real.sqrt 2 := Real.lt_sqrt_of_sq_lt (by norm_num)
theorem sqrt2_hi : Real.sqrt 2 < (1.4142135623731 : ℝ) := by
  rw [Real.sqrt_lt' (by norm_num)]; norm_num
theorem sqrt3_lo : (1.7320508075688 : ℝ) < Real.sqrt 3 := Real.lt_sqrt_of_sq_lt (by norm_num)
theorem sqrt3_hi : Real.sqrt 3 < (1.7320508075689 : ℝ) := by
  rw [Real.sqrt_lt' (by norm_num)]; norm_num

noncomputable abbrev p : ℝ := Real.sqrt 2 - 1
noncomputable abbrev q : ℝ := Real.sqrt 3 + 1 - 2 * Real.sqrt 2

theorem p_lo : (0.4142135623730 : ℝ) < p := by have := sqrt2_lo; unfold p; linarith
theorem p_hi : p < (0.4142135623731 : ℝ) := by have := sqrt2_hi; unfold p; linarith
theorem q_lo : (-0.0963763171774 : ℝ) < q := by
  have := sqrt2_hi; have := sqrt3_lo; unfold q; linarith
theorem q_hi : q < (-0.0963763171771 : ℝ) := by
  have := sqrt2_lo; have := sqrt3_hi; unfold q; linarith

theorem p_eq : p ^ 2 = 1 - 2 * p := by
  have : Real.sqrt 2 ^ 2 = 2 := Real.sq_sqrt (by norm_num)
  unfold p; linear_combination this

theorem pq_eq : (1 + 2 * p + q) ^ 2 = 3 := by
  have : Real.sqrt 3 ^ 2 = 3 := Real.sq_sqrt (by norm_num)
  unfold p q; linear_combination this

/-- the 2D estimate, squared -/
theorem sq2 {a b : ℝ} (hb : 0 ≤ b) (hab : b ≤ a) :
    a ^ 2 + b ^ 2 ≤ (a + p * b) ^ 2 ∧ (a + p * b) ^ 2 ≤ (1 + p ^ 2) * (a ^ 2 + b ^ 2) := by
  have hp := p_lo
  have e := p_eq
  constructor
  · have : (a + p * b) ^ 2 - (a ^ 2 + b ^ 2) = 2 * p * (b * (a - b)) := by linear_combination b ^ 2 * e
    nlinarith [mul_nonneg hb (sub_nonneg.2 hab)]
  · nlinarith [sq_nonneg (p * a - b)]

/-- the 3D estimate for `a = 1`, lower bound -/
theorem lower1 {b c : ℝ} (hb : 0 ≤ b) (hb1 : b ≤ 1) (hc : 0 ≤ c) (hc1 : c ≤ 1) :
    1 + b ^ 2 + c ^ 2 ≤ (1 + p * (b + c) + q * (b * c)) ^ 2 := by
  have hp := p_lo; have hp' := p_hi; have hq := q_lo; have hq' := q_hi
  have e := p_eq
  have main : 0 ≤ ((p + q * c) ^ 2 - 1) * b ^ 2 + (2 * (1 + p * c) * (p + q * c)) * b
      + ((1 + p * c) ^ 2 - 1 - c ^ 2) := by
    apply concave_quad _ hb hb1
    · have : (1 + p * c) ^ 2 - 1 - c ^ 2 = 2 * p * (c * (1 - c)) := by linear_combination c ^ 2 * e
      rw [this]
      exact mul_nonneg (by linarith) (mul_nonneg hc (by linarith))
    · have : (p + q * c) ^ 2 - 1 + 2 * (1 + p * c) * (p + q * c) + ((1 + p * c) ^ 2 - 1 - c ^ 2)
          = ((p + q) ^ 2 - 1) * c ^ 2 + (2 * (1 + p) * (p + q)) * c + ((1 + p) ^ 2 - 2) := by ring
      rw [this]
      apply concave_quad _ hc hc1
      · have : (1 + p) ^ 2 - 2 = 0 := by linear_combination e
        rw [this]
      · have : (p + q) ^ 2 - 1 + 2 * (1 + p) * (p + q) + ((1 + p) ^ 2 - 2) = 0 := by
          linear_combination pq_eq
        rw [this]
      · nlinarith
    · have h1 : 0 ≤ p + q * c := by nlinarith
      have h2 : p + q * c ≤ 1 := by nlinarith
      nlinarith
  nlinarith [main]

/-- the value for `b = c = t` -/
theorem diag {t : ℝ} (h0 : 0 ≤ t) (h1 : t ≤ 1) :
    (1 + 2 * p * t + q * t ^ 2) ^ 2 ≤ (1.14593472 : ℝ) ^ 2 * (1 + 2 * t ^ 2) := by
  have hp := p_lo; have hp' := p_hi; have hq := q_lo; have hq' := q_hi
  have hpos : 0 ≤ 1 + 2 * p * t + q * t ^ 2 := by nlinarith [sq_nonneg t]
  have hlin : 1 + 2 * p * t + q * t ^ 2 ≤
      (1.14593472 / 1.130753864843 : ℝ) * (1 + 2 * 0.3732320343 * t) := by
    have c0 : 0 ≤ (1.14593472 / 1.130753864843 : ℝ) - 1 + q * 0.3732320343 ^ 2 := by
      norm_num at hq ⊢; linarith
    have c1 : 0 ≤ (1.14593472 / 1.130753864843 : ℝ) * 0.3732320343 - p - q * 0.3732320343 := by
      norm_num at hq' hp' ⊢; linarith
    have c2 : 0 ≤ -q * (t - 0.3732320343) ^ 2 := mul_nonneg (by linarith) (sq_nonneg _)
    have c3 := mul_nonneg h0 c1
    linarith
  have hcs : (1 + 2 * 0.3732320343 * t) ^ 2 ≤ (1.130753864843 : ℝ) ^ 2 * (1 + 2 * t ^ 2) := by
    nlinarith [sq_nonneg (t - 0.3732320343), sq_nonneg t]
  calc (1 + 2 * p * t + q * t ^ 2) ^ 2
      ≤ ((1.14593472 / 1.130753864843 : ℝ) * (1 + 2 * 0.3732320343 * t)) ^ 2 :=
        pow_le_pow_left₀ hpos hlin 2
    _ = (1.14593472 / 1.130753864843 : ℝ) ^ 2 * (1 + 2 * 0.3732320343 * t) ^ 2 := by rw [mul_pow]
    _ ≤ (1.14593472 / 1.130753864843 : ℝ) ^ 2 * ((1.130753864843 : ℝ) ^ 2 * (1 + 2 * t ^ 2)) :=
        mul_le_mul_of_nonneg_left hcs (by positivity)
    _ = (1.14593472 : ℝ) ^ 2 * (1 + 2 * t ^ 2) := by ring

theorem upper_aux {K p q b c : ℝ} (hK : 1 + p ^ 2 ≤ K)
    (hd : ∀ t : ℝ, 0 ≤ t → t ≤ 1 → (1 + 2 * p * t + q * t ^ 2) ^ 2 ≤ K * (1 + 2 * t ^ 2))
    (hb : 0 ≤ b) (hb1 : b ≤ 1) (hc : 0 ≤ c) (hc1 : c ≤ 1) :
    (1 + p * (b + c) + q * (b * c)) ^ 2 ≤ K * (1 + b ^ 2 + c ^ 2) := by
  obtain ⟨s, hs⟩ : ∃ s, s = b + c := ⟨_, rfl⟩
  have hs0 : 0 ≤ s := by linarith
  have hs2 : s ≤ 2 := by linarith
  rw [← hs]
  have e2 : 1 + b ^ 2 + c ^ 2 = 1 + s ^ 2 - 2 * (b * c) := by rw [hs]; ring
  have hm : 0 ≤ b * c := mul_nonneg hb hc
  have hm4 : 4 * (b * c) ≤ s ^ 2 := by rw [hs]; nlinarith [sq_nonneg (b - c)]
  rw [e2]
  generalize b * c = m at *
  by_cases hz : s = 0
  · have : m = 0 := by rw [hz] at hm4; nlinarith
    rw [this, hz]; have := hd 0 le_rfl zero_le_one; norm_num at this ⊢; exact this
  have hsp : 0 < s ^ 2 := by positivity
  obtain ⟨τ, hτ⟩ : ∃ τ, τ = 4 * m / s ^ 2 := ⟨_, rfl⟩
  have hmτ : m = τ * (s ^ 2 / 4) := by rw [hτ]; field_simp
  have t0 : 0 ≤ τ := by rw [hτ]; exact div_nonneg (by linarith) hsp.le
  have t1 : τ ≤ 1 := by rw [hτ, div_le_one hsp]; exact hm4
  have main : 0 ≤ (-(q ^ 2 * s ^ 4 / 16)) * τ ^ 2
      + (-(K * s ^ 2 / 2) - (1 + p * s) * q * s ^ 2 / 2) * τ + (K * (1 + s ^ 2) - (1 + p * s) ^ 2) := by
    apply concave_quad _ t0 t1
    · nlinarith [sq_nonneg (s - p), mul_le_mul_of_nonneg_right hK (by positivity : 0 ≤ 1 + s ^ 2)]
    · have := hd (s / 2) (by linarith) (by linarith)
      have e : -(q ^ 2 * s ^ 4 / 16) + (-(K * s ^ 2 / 2) - (1 + p * s) * q * s ^ 2 / 2)
          + (K * (1 + s ^ 2) - (1 + p * s) ^ 2)
          = K * (1 + 2 * (s / 2) ^ 2) - (1 + 2 * p * (s / 2) + q * (s / 2) ^ 2) ^ 2 := by ring
      rw [e]; linarith
    · have : 0 ≤ q ^ 2 * s ^ 4 := by positivity
      linarith
  have e : K * (1 + s ^ 2 - 2 * m) - (1 + p * s + q * m) ^ 2 = (-(q ^ 2 * s ^ 4 / 16)) * τ ^ 2
      + (-(K * s ^ 2 / 2) - (1 + p * s) * q * s ^ 2 / 2) * τ + (K * (1 + s ^ 2) - (1 + p * s) ^ 2) := by
    rw [hmτ]; ring
  linarith

/-- the 3D estimate for `a = 1`, upper bound -/
theorem upper1 {b c : ℝ} (hb : 0 ≤ b) (hb1 : b ≤ 1) (hc : 0 ≤ c) (hc1 : c ≤ 1) :
    (1 + p * (b + c) + q * (b * c)) ^ 2 ≤ (1.14593472 : ℝ) ^ 2 * (1 + b ^ 2 + c ^ 2) := by
  refine upper_aux ?_ (fun t h0 h1 => diag h0 h1) hb hb1 hc hc1
  have := p_lo; have := p_hi
  rw [p_eq]; norm_num at *; linarith

/-- the 3D estimate, squared -/
theorem sq3 {a b c : ℝ} (ha : 0 < a) (hb : 0 ≤ b) (hba : b ≤ a) (hc : 0 ≤ c) (hca : c ≤ a) :
    0 ≤ a + p * (b + c) + q * b * c / a ∧
    a ^ 2 + b ^ 2 + c ^ 2 ≤ (a + p * (b + c) + q * b * c / a) ^ 2 ∧
    (a + p * (b + c) + q * b * c / a) ^ 2 ≤ (1.14593472 : ℝ) ^ 2 * (a ^ 2 + b ^ 2 + c ^ 2) := by
  have hb1 : b / a ≤ 1 := (div_le_one ha).2 hba
  have hc1 : c / a ≤ 1 := (div_le_one ha).2 hca
  have hb0 : 0 ≤ b / a := div_nonneg hb ha.le
  have hc0 : 0 ≤ c / a := div_nonneg hc ha.le
  have eS : a + p * (b + c) + q * b * c / a = a * (1 + p * (b / a + c / a) + q * (b / a * (c / a))) := by
    field_simp
  have eM : a ^ 2 + b ^ 2 + c ^ 2 = a ^ 2 * (1 + (b / a) ^ 2 + (c / a) ^ 2) := by field_simp
  have l := lower1 hb0 hb1 hc0 hc1
  have u := upper1 hb0 hb1 hc0 hc1
  have ha2 : 0 ≤ a ^ 2 := sq_nonneg a
  rw [eS, eM, mul_pow]
  refine ⟨?_, mul_le_mul_of_nonneg_left l ha2, ?_⟩
  · apply mul_nonneg ha.le
    have hp := p_lo; have hq := q_lo
    have : b / a * (c / a) ≤ 1 := mul_le_one₀ hb1 hc0 hc1
    have : 0 ≤ b / a * (c / a) := mul_nonneg hb0 hc0
    nlinarith
  · have := mul_le_mul_of_nonneg_left u ha2
    linarith

end WFMath.Sloppy
