/- Rotation by quaternions whose components are slightly off, and error propagation. -/
import Verif.Lemmas.QuatHistory
import Verif.Lemmas.Len

namespace WFMath
open Matrix Gauss Spec Quaternion

theorem len_act {h : ℍ[ℝ]} (hu : normSq h = 1) (v : Fin 3 → ℝ) : len (act h v) = len v := by
  rw [len, len, act_dot hu]

theorem act_sub {h : ℍ[ℝ]} (hu : normSq h = 1) (u v : Fin 3 → ℝ) : act h (u - v) = act h u - act h v := by
  have := act_add hu u (-v)
  rw [← sub_eq_add_neg] at this
  rw [this, show -v = (-1 : ℝ) • v by module, act_smul hu]; module

theorem len_cross_le (u v : Fin 3 → ℝ) : len (u ⨯₃ v) ≤ len u * len v := by
  refine Real.sqrt_le_iff.2 ⟨mul_nonneg (len_nonneg u) (len_nonneg v), ?_⟩
  rw [lagrange, mul_pow, len_sq, len_sq]
  nlinarith [sq_nonneg (u ⬝ᵥ v)]

/-- The computed rotation as a vector error. -/
theorem rotateQ_len {v : Vec 3} {q : Quat} (hu : ‖toH q‖ = 1) :
    len ((v.rotateQ q).elem - act (toH q) v.elem) ≤ 16 * epsilon * v.mag := by
  have he := epsilon_pos
  have hm := Vec.maxAbs_le_mag v
  have := len3_le (v := (v.rotateQ q).elem - act (toH q) v.elem) (b := 8 * epsilon * maxAbs v.elem)
    (mul_nonneg (by linarith) (maxAbs_nonneg _)) (fun i => rotateQ_err hu i)
  nlinarith

theorem len_vecOf_le (h : ℍ[ℝ]) : len (vecOf h) ≤ ‖h‖ := by
  refine Real.sqrt_le_iff.2 ⟨norm_nonneg _, ?_⟩
  rw [pow_two, ← normSq_eq_norm_mul_self, normSq_def', dot3]
  simp
  nlinarith [sq_nonneg h.re]

theorem abs_re_le (h : ℍ[ℝ]) : |h.re| ≤ ‖h‖ := by
  rw [← Real.sqrt_sq_eq_abs]
  refine Real.sqrt_le_iff.2 ⟨norm_nonneg _, ?_⟩
  rw [pow_two ‖h‖, ← normSq_eq_norm_mul_self, normSq_def']
  nlinarith [sq_nonneg h.imI, sq_nonneg h.imJ, sq_nonneg h.imK]

theorem vecOf_sub (a b : ℍ[ℝ]) : vecOf (a - b) = vecOf a - vecOf b := by
  apply ext3 <;> simp

/-- Rotation by a quaternion within `δ` of a unit quaternion. -/
theorem rotateQ_near {v : Vec 3} {q : Quat} {u : ℍ[ℝ]} {δ : ℝ} (hu : ‖u‖ = 1) (hδ : ‖toH q - u‖ ≤ δ) (hδ1 : δ ≤ 1 / 100) :
    len ((v.rotateQ q).elem - act u v.elem) ≤ (13 * δ + 16 * epsilon) * v.mag := by
  have he := epsilon_pos
  have hM : 0 ≤ v.mag := Vec.mag_nonneg v
  have hδ0 : 0 ≤ δ := le_trans (norm_nonneg _) hδ
  -- sizes
  have hqn : ‖toH q‖ ≤ 1 + δ := by
    have := norm_le_norm_add_norm_sub' (toH q) u
    linarith
  have hqw : |q.w| ≤ 1 + δ := by have := abs_re_le (toH q); rw [toH_re] at this; linarith
  have huw : |u.re| ≤ 1 := (abs_re_le u).trans hu.le
  have hdw : |q.w - u.re| ≤ δ := by
    have := abs_re_le (toH q - u)
    rw [re_sub, toH_re] at this; linarith
  have hqv : len q.vec.elem ≤ 1 + δ := by have := len_vecOf_le (toH q); rw [vecOf_toH] at this; linarith
  have huv : len (vecOf u) ≤ 1 := (len_vecOf_le u).trans hu.le
  have hdv : len (q.vec.elem - vecOf u) ≤ δ := by
    have := len_vecOf_le (toH q - u)
    rw [vecOf_sub, vecOf_toH] at this; linarith
  -- cut-offs
  have hcd : |q.vec.dot v - q.vec.elem ⬝ᵥ v.elem| ≤ 2 * epsilon * v.mag :=
    le_trans (Vec.dot_err _ _) (mul_le_mul_of_nonneg_left ((min_le_right _ _).trans (Vec.maxAbs_le_mag v)) (by linarith))
  have hcc : len ((cross3 q.vec v).elem - q.vec.elem ⨯₃ v.elem) ≤ 4 * epsilon * v.mag := by
    have := len3_le (v := (cross3 q.vec v).elem - q.vec.elem ⨯₃ v.elem) (b := 2 * epsilon * v.mag)
      (mul_nonneg (by linarith) hM) (fun i => le_trans (cross_err q.vec v i)
        (mul_le_mul_of_nonneg_left ((min_le_right _ _).trans (Vec.maxAbs_le_mag v)) (by linarith)))
    linarith
  -- decomposition
  have hdec : (v.rotateQ q).elem - act u v.elem =
      (2 * (q.w - u.re) * (q.w + u.re)) • v.elem
      + ((2 * (q.vec.dot v - q.vec.elem ⬝ᵥ v.elem)) • q.vec.elem
      + ((2 * ((q.vec.elem - vecOf u) ⬝ᵥ v.elem)) • q.vec.elem
      + ((2 * (vecOf u ⬝ᵥ v.elem)) • (q.vec.elem - vecOf u)
      + ((2 * q.w) • ((cross3 q.vec v).elem - q.vec.elem ⨯₃ v.elem)
      + ((2 * (q.w - u.re)) • (q.vec.elem ⨯₃ v.elem)
      + (2 * u.re) • ((q.vec.elem - vecOf u) ⨯₃ v.elem)))))) := by
    rw [rotateQ_elem, act_formula (normSq_eq_one.2 hu), sub_dotProduct, map_sub, LinearMap.sub_apply]
    module
  have hdv' : |(q.vec.elem - vecOf u) ⬝ᵥ v.elem| ≤ δ * v.mag :=
    (abs_dot_le_len _ _).trans (mul_le_mul_of_nonneg_right hdv hM)
  have huv' : |vecOf u ⬝ᵥ v.elem| ≤ v.mag :=
    (abs_dot_le_len _ _).trans (by have := mul_le_mul_of_nonneg_right huv hM; rwa [one_mul] at this)
  have hqc : len (q.vec.elem ⨯₃ v.elem) ≤ (1 + δ) * v.mag := (len_cross_le _ _).trans (mul_le_mul_of_nonneg_right hqv hM)
  have hdc : len ((q.vec.elem - vecOf u) ⨯₃ v.elem) ≤ δ * v.mag := (len_cross_le _ _).trans (mul_le_mul_of_nonneg_right hdv hM)
  have t1 : len ((2 * (q.w - u.re) * (q.w + u.re)) • v.elem) ≤ 2 * δ * (2 + δ) * v.mag := by
    rw [len_smul, ← mag_eq_len]
    refine mul_le_mul_of_nonneg_right ?_ hM
    rw [abs_mul, abs_mul, abs_two]
    have : |q.w + u.re| ≤ 2 + δ := (abs_add_le _ _).trans (by linarith)
    exact mul_le_mul (by linarith) this (abs_nonneg _) (by linarith)
  have t2 : len ((2 * (q.vec.dot v - q.vec.elem ⬝ᵥ v.elem)) • q.vec.elem) ≤ 2 * (2 * epsilon * v.mag) * (1 + δ) := by
    rw [len_smul, abs_mul, abs_two]
    exact mul_le_mul (by linarith) hqv (len_nonneg _) (by positivity)
  have t3 : len ((2 * ((q.vec.elem - vecOf u) ⬝ᵥ v.elem)) • q.vec.elem) ≤ 2 * (δ * v.mag) * (1 + δ) := by
    rw [len_smul, abs_mul, abs_two]
    exact mul_le_mul (by linarith) hqv (len_nonneg _) (by positivity)
  have t4 : len ((2 * (vecOf u ⬝ᵥ v.elem)) • (q.vec.elem - vecOf u)) ≤ 2 * v.mag * δ := by
    rw [len_smul, abs_mul, abs_two]
    exact mul_le_mul (by linarith) hdv (len_nonneg _) (by positivity)
  have t5 : len ((2 * q.w) • ((cross3 q.vec v).elem - q.vec.elem ⨯₃ v.elem)) ≤ 2 * (1 + δ) * (4 * epsilon * v.mag) := by
    rw [len_smul, abs_mul, abs_two]
    exact mul_le_mul (by linarith) hcc (len_nonneg _) (by positivity)
  have t6 : len ((2 * (q.w - u.re)) • (q.vec.elem ⨯₃ v.elem)) ≤ 2 * δ * ((1 + δ) * v.mag) := by
    rw [len_smul, abs_mul, abs_two]
    exact mul_le_mul (by linarith) hqc (len_nonneg _) (by positivity)
  have t7 : len ((2 * u.re) • ((q.vec.elem - vecOf u) ⨯₃ v.elem)) ≤ 2 * (δ * v.mag) := by
    rw [len_smul, abs_mul, abs_two]
    exact mul_le_mul (by linarith) hdc (len_nonneg _) (by positivity)
  rw [hdec]
  have s6 := (len_add_le _ _).trans (add_le_add t6 t7)
  have s5 := (len_add_le _ _).trans (add_le_add t5 s6)
  have s4 := (len_add_le _ _).trans (add_le_add t4 s5)
  have s3 := (len_add_le _ _).trans (add_le_add t3 s4)
  have s2 := (len_add_le _ _).trans (add_le_add t2 s3)
  refine ((len_add_le _ _).trans (add_le_add t1 s2)).trans ?_
  have hd2 : δ * δ ≤ δ / 100 := by nlinarith
  have h1 : δ * δ * v.mag ≤ δ / 100 * v.mag := mul_le_mul_of_nonneg_right hd2 hM
  have h2 : δ * (epsilon * v.mag) ≤ 1 / 100 * (epsilon * v.mag) := mul_le_mul_of_nonneg_right hδ1 (by positivity)
  have h3 : 0 ≤ epsilon * v.mag := by positivity
  have h4 : 0 ≤ δ * v.mag := by positivity
  nlinarith

theorem mag_rotateQ_le {v : Vec 3} {q : Quat} (hu : ‖toH q‖ = 1) : (v.rotateQ q).mag ≤ (1 + 16 * epsilon) * v.mag := by
  have h1 := rotateQ_len (v := v) hu
  have h2 := len_add_le ((v.rotateQ q).elem - act (toH q) v.elem) (act (toH q) v.elem)
  rw [sub_add_cancel, len_act (normSq_eq_one.2 hu), ← mag_eq_len, ← mag_eq_len] at h2
  linarith

/-- Rotating twice. -/
theorem rotateQ_twice {v : Vec 3} {p q : Quat} (hp : ‖toH p‖ = 1) (hq : ‖toH q‖ = 1) :
    len (((v.rotateQ p).rotateQ q).elem - act (toH q * toH p) v.elem) ≤ 33 * epsilon * v.mag := by
  have he := epsilon_pos
  have he2 := epsilon_lt
  have hp' := normSq_eq_one.2 hp
  have hq' := normSq_eq_one.2 hq
  have hM := Vec.mag_nonneg v
  have h1 := rotateQ_len (v := v.rotateQ p) hq
  have h2 := rotateQ_len (v := v) hp
  have h3 := mag_rotateQ_le (v := v) hp
  have h4 := len_triangle ((v.rotateQ p).rotateQ q).elem (act (toH q) (v.rotateQ p).elem) (act (toH q * toH p) v.elem)
  rw [act_mul hq' hp', ← act_sub hq', len_act hq'] at h4
  rw [act_mul hq' hp']
  have h5 : 16 * epsilon * (v.rotateQ p).mag ≤ 16 * epsilon * ((1 + 16 * epsilon) * v.mag) :=
    mul_le_mul_of_nonneg_left h3 (by linarith)
  have h6 : epsilon * (epsilon * v.mag) ≤ 1 / 10 ^ 14 * (epsilon * v.mag) :=
    mul_le_mul_of_nonneg_right he2.le (by positivity)
  have h7 : 0 ≤ epsilon * v.mag := by positivity
  norm_num at h6
  nlinarith

theorem prepare_near (p q : Quat) : ‖toH (p.prepare q) - toH p‖ ≤ 2 * |‖toH p‖ - 1| := by
  unfold Quat.prepare Quat.checkNormalization
  split
  · rw [toH_normalize]
    change ‖(2 / (‖toH p‖ ^ 2 + 1)) • toH p - toH p‖ ≤ _
    rw [show (2 / (‖toH p‖ ^ 2 + 1)) • toH p - toH p = (2 / (‖toH p‖ ^ 2 + 1) - 1) • toH p by rw [sub_smul, one_smul],
      norm_smul, Real.norm_eq_abs]
    have hn := norm_nonneg (toH p)
    generalize ‖toH p‖ = n at *
    have hd : 0 < n ^ 2 + 1 := by positivity
    rw [show 2 / (n ^ 2 + 1) - 1 = (1 - n) * ((1 + n) / (n ^ 2 + 1)) by field_simp; ring, abs_mul, abs_sub_comm 1 n,
      abs_of_nonneg (show 0 ≤ (1 + n) / (n ^ 2 + 1) by positivity)]
    have : (1 + n) / (n ^ 2 + 1) * n ≤ 2 := by
      rw [div_mul_eq_mul_div, div_le_iff₀ hd]; nlinarith [sq_nonneg (n - 1)]
    nlinarith [abs_nonneg (n - 1)]
  · change ‖toH p - toH p‖ ≤ _
    rw [sub_self, norm_zero]; positivity

/-! ### Sufficient conditions for exactness -/

theorem dotExact_of {u v : Vec 3} (h : u.elem ⬝ᵥ v.elem = 0 ∨ 2 * epsilon * min (maxAbs u.elem) (maxAbs v.elem) ≤ |u.elem ⬝ᵥ v.elem|) :
    DotExact u v := by
  unfold DotExact
  rcases h with h | h
  · rw [h]; exact Vec.dot_of_exact_zero h
  · by_cases hu : u.elem = 0
    · rw [Vec.dot_of_zero_left hu, hu, zero_dotProduct]
    by_cases hv : v.elem = 0
    · rw [Vec.dot_of_zero_right hv, hv, dotProduct_zero]
    rcases Vec.dot_cases u v with h' | ⟨-, h'⟩
    · exact h'
    · have := scaleEpsilonArr_le epsilon_pos.le hu hv
      linarith

theorem crossExact_of {u v : Vec 3} (h : ∀ i, (u.elem ⨯₃ v.elem) i = 0 ∨
    2 * epsilon * min (maxAbs u.elem) (maxAbs v.elem) ≤ |(u.elem ⨯₃ v.elem) i|) : CrossExact u v := by
  unfold CrossExact
  funext i
  have key : ∀ a : ℝ, a = (u.elem ⨯₃ v.elem) i →
      (if |a| < scaleEpsilonArr u.elem v.elem epsilon then 0 else a) = (u.elem ⨯₃ v.elem) i := by
    intro a ha
    rcases h i with h' | h'
    · rw [ha, h']; simp
    · by_cases hu : u.elem = 0
      · rw [ha, hu]; simp
      by_cases hv : v.elem = 0
      · rw [ha, hv]; simp
      rw [if_neg, ha]
      have := scaleEpsilonArr_le epsilon_pos.le hu hv
      rw [ha]; linarith
  fin_cases i
  · exact key _ (by simp [cross0]; ring)
  · exact key _ (by simp [cross1]; ring)
  · exact key _ (by simp [cross2']; ring)

theorem act_fromTo {a b : Vec 3} (hd : DotExact a b) (hc : CrossExact a b)
    (hm : ¬ Real.sqrt (a.sqrMag * b.sqrMag) < epsilon) (hp : ¬ a.dot b / Real.sqrt (a.sqrMag * b.sqrMag) + 1 < epsilon)
    (valid : Bool) (k : Nat) : act (toH (fromToQuat a b valid k)) a.elem = (a.mag / b.mag) • b.elem := by
  have hn := norm_fromTo hd hc hm hp valid k
  rw [act_formula (normSq_eq_one.2 hn), vecOf_toH, toH_re]
  have hmp : Real.sqrt (a.sqrMag * b.sqrMag) = a.mag * b.mag := by
    rw [Vec.mag, Vec.mag, Real.sqrt_mul (Vec.sqrMag_nonneg a)]
  have hm0 : 0 < a.mag * b.mag := hmp ▸ lt_of_lt_of_le epsilon_pos (not_lt.1 hm)
  have ha : a.mag ≠ 0 := fun h => by rw [h, zero_mul] at hm0; exact lt_irrefl _ hm0
  have hb : b.mag ≠ 0 := fun h => by rw [h, mul_zero] at hm0; exact lt_irrefl _ hm0
  rw [hmp] at hp
  simp only [fromToQuat, hmp, Vec.divBy_elem]
  rw [show (cross3 a b).elem = a.elem ⨯₃ b.elem from hc]
  have hp0 := lt_of_lt_of_le epsilon_pos (not_lt.1 hp)
  have hw2 : Real.sqrt ((a.dot b / (a.mag * b.mag) + 1) / 2) ^ 2 = (a.dot b / (a.mag * b.mag) + 1) / 2 := Real.sq_sqrt (by linarith)
  have hw0 : 0 < Real.sqrt ((a.dot b / (a.mag * b.mag) + 1) / 2) := Real.sqrt_pos.2 (by linarith)
  generalize Real.sqrt ((a.dot b / (a.mag * b.mag) + 1) / 2) = w at *
  have hz : (a.elem ⨯₃ b.elem) ⬝ᵥ a.elem = 0 := by simp only [dot3, cross0, cross1, cross2']; ring
  have ht : (a.elem ⨯₃ b.elem) ⨯₃ a.elem = (a.elem ⬝ᵥ a.elem) • b.elem - (a.elem ⬝ᵥ b.elem) • a.elem := by
    apply ext3 <;> simp [dot3, cross0, cross1, cross2'] <;> ring
  rw [smul_dotProduct, hz, smul_zero, mul_zero, zero_smul, add_zero, map_smul, LinearMap.smul_apply, ht, hw2,
    show a.elem ⬝ᵥ b.elem = a.dot b from hd.symm, ← Vec.sqrMag_eq, ← Vec.mag_sq]
  have hw := hw0.ne'
  funext i
  simp only [Pi.add_apply, Pi.sub_apply, Pi.smul_apply, smul_eq_mul]
  field_simp
  ring

end WFMath
