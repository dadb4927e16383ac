/- Property theorems C146: quaternions made from numbers over the whole range of doubles. -/
import Verif.Lemmas.IeeeNorm

namespace WFMath
open Spec Matrix Quaternion
open scoped Quaternion
open WFMath.Spec.Rounding (u)

namespace Ie
variable {g : Nearest}

theorem normSq_parts (h : ℍ[ℝ]) : ‖h‖ ^ 2 = h.re ^ 2 + h.imI ^ 2 + h.imJ ^ 2 + h.imK ^ 2 := by
  rw [sq, ← Quaternion.normSq_eq_norm_mul_self, Quaternion.normSq_def']

theorem part_le (h : ℍ[ℝ]) : |h.re| ≤ ‖h‖ ∧ |h.imI| ≤ ‖h‖ ∧ |h.imJ| ≤ ‖h‖ ∧ |h.imK| ≤ ‖h‖ := by
  have e := normSq_parts h
  refine ⟨?_, ?_, ?_, ?_⟩ <;> refine abs_le_of_sq_le_sq ?_ (norm_nonneg _) <;> rw [e] <;> nlinarith [sq_nonneg h.re, sq_nonneg h.imI, sq_nonneg h.imJ, sq_nonneg h.imK]

theorem near_of_parts {h p : ℍ[ℝ]} (h0 : 0 < ‖h‖) (e1 : |p.re - h.re / ‖h‖| ≤ 13 / 2 * u 53 * (|h.re| / ‖h‖) + 2 ^ (-1075 : ℤ))
    (e2 : |p.imI - h.imI / ‖h‖| ≤ 13 / 2 * u 53 * (|h.imI| / ‖h‖) + 2 ^ (-1075 : ℤ)) (e3 : |p.imJ - h.imJ / ‖h‖| ≤ 13 / 2 * u 53 * (|h.imJ| / ‖h‖) + 2 ^ (-1075 : ℤ))
    (e4 : |p.imK - h.imK / ‖h‖| ≤ 13 / 2 * u 53 * (|h.imK| / ‖h‖) + 2 ^ (-1075 : ℤ)) : ‖p - ‖h‖⁻¹ • h‖ ≤ 2 ^ (-50 : ℤ) := by
  have hu0 : 0 < u 53 := Rounding.u_pos
  have e50 : (2 : ℝ) ^ (-50 : ℤ) = 8 * u 53 := by rw [Fl.u53]; norm_num
  have c0 : (0 : ℝ) < 2 ^ (-1075 : ℤ) := by positivity
  have c1 : (2 : ℝ) ^ (-1075 : ℤ) ≤ u 53 * (1 / 1000) := by
    refine small_const.2.trans (mul_le_mul_of_nonneg_left ?_ hu0.le)
    have : (2 : ℝ) ^ (-900 : ℤ) ≤ 1 := zpow_le_one_of_nonpos₀ one_le_two (by norm_num)
    generalize (2 : ℝ) ^ (-900 : ℤ) = ζ at *
    linarith
  generalize (2 : ℝ) ^ (-1075 : ℤ) = η at *
  have key : ∀ d a : ℝ, |d| ≤ 13 / 2 * u 53 * (|a| / ‖h‖) + η → d ^ 2 ≤ u 53 ^ 2 * (43 * (a / ‖h‖) ^ 2 + 1 / 10) := fun d a hd => by
    have p0 : 0 ≤ |a| / ‖h‖ := by positivity
    have h1 : |d| ≤ u 53 * (13 / 2 * (|a| / ‖h‖) + 1 / 1000) := by linarith
    have h2 := mul_self_le_mul_self (abs_nonneg d) h1
    rw [abs_mul_abs_self] at h2
    have e : (a / ‖h‖) ^ 2 = (|a| / ‖h‖) ^ 2 := by rw [div_pow, div_pow, sq_abs]
    rw [e, sq d]
    refine h2.trans ?_
    generalize |a| / ‖h‖ = q at *
    have : (13 / 2 * q + 1 / 1000) ^ 2 ≤ 43 * q ^ 2 + 1 / 10 := by nlinarith [sq_nonneg (q - 1 / 10)]
    calc _ = u 53 ^ 2 * (13 / 2 * q + 1 / 1000) ^ 2 := by ring
      _ ≤ _ := mul_le_mul_of_nonneg_left this (sq_nonneg _)
  have s := normSq_parts (p - ‖h‖⁻¹ • h)
  have r1 : (p - ‖h‖⁻¹ • h).re = p.re - h.re / ‖h‖ := by simp [div_eq_inv_mul]
  have r2 : (p - ‖h‖⁻¹ • h).imI = p.imI - h.imI / ‖h‖ := by simp [div_eq_inv_mul]
  have r3 : (p - ‖h‖⁻¹ • h).imJ = p.imJ - h.imJ / ‖h‖ := by simp [div_eq_inv_mul]
  have r4 : (p - ‖h‖⁻¹ • h).imK = p.imK - h.imK / ‖h‖ := by simp [div_eq_inv_mul]
  rw [r1, r2, r3, r4] at s
  have t : (h.re / ‖h‖) ^ 2 + (h.imI / ‖h‖) ^ 2 + (h.imJ / ‖h‖) ^ 2 + (h.imK / ‖h‖) ^ 2 = 1 := by
    rw [div_pow, div_pow, div_pow, div_pow, ← add_div, ← add_div, ← add_div, ← normSq_parts, div_self (by positivity)]
  rw [e50]
  refine abs_le_of_sq_le_sq' ?_ (by linarith) |>.2
  rw [s]
  have k1 := key _ _ e1
  have k2 := key _ _ e2
  have k3 := key _ _ e3
  have k4 := key _ _ e4
  have k5 : u 53 ^ 2 * (43 * ((h.re / ‖h‖) ^ 2 + (h.imI / ‖h‖) ^ 2 + (h.imJ / ‖h‖) ^ 2 + (h.imK / ‖h‖) ^ 2) + 4 / 10) ≤ (8 * u 53) ^ 2 := by
    rw [t]; nlinarith [sq_nonneg (u 53)]
  linarith

theorem range_sq {h : ℍ[ℝ]} (h0 : 2 ^ (-450 : ℤ) ≤ ‖h‖) (h1 : ‖h‖ ≤ 2 ^ (500 : ℤ)) : (2 : ℝ) ^ (-900 : ℤ) ≤ ‖h‖ ^ 2 ∧ ‖h‖ ^ 2 ≤ 2 ^ (1000 : ℤ) := by
  constructor
  · rw [show (-900 : ℤ) = -450 + -450 by norm_num, zpow_add₀ two_ne_zero, sq]
    exact mul_le_mul h0 h0 (by positivity) (norm_nonneg _)
  · rw [show (1000 : ℤ) = 500 + 500 by norm_num, zpow_add₀ two_ne_zero, sq]
    exact mul_le_mul h1 h1 (norm_nonneg _) (by positivity)

/-- The squares of the components, added in the order of the constructor. -/
theorem sum_con (h : ℍ[ℝ]) (h1 : ‖h‖ ≤ 2 ^ (500 : ℤ)) (h2 : ‖h‖ ^ 2 ≤ 2 ^ (1000 : ℤ)) :
    Sq (Dbl.add g (Dbl.add g (Dbl.add g (Dbl.mul g (.num h.re) (.num h.re)) (Dbl.mul g (.num h.imI) (.num h.imI))) (Dbl.mul g (.num h.imJ) (.num h.imJ)))
      (Dbl.mul g (.num h.imK) (.num h.imK))) (‖h‖ ^ 2) 6 100 := by
  obtain ⟨p1, p2, p3, p4⟩ := part_le h
  have e := normSq_parts h
  have hT : (2 : ℝ) ^ (1000 : ℤ) ≤ 2 ^ (1010 : ℤ) := zpow_le_zpow_right₀ one_le_two (by norm_num)
  rw [e] at h2 ⊢
  have q1 := sq_nonneg h.re
  have q2 := sq_nonneg h.imI
  have q3 := sq_nonneg h.imJ
  have q4 := sq_nonneg h.imK
  have b : ∀ x : ℝ, x ≤ h.re ^ 2 + h.imI ^ 2 + h.imJ ^ 2 + h.imK ^ 2 → x ≤ 2 ^ (1010 : ℤ) := fun x hx => hx.trans (h2.trans hT)
  have s1 := (Sq.square (g := g) h.re (p1.trans h1)).add (g := g) (Sq.square (g := g) h.imI (p2.trans h1)) (by norm_num) (by norm_num) (by norm_num) (by norm_num) (by norm_num)
    (b _ (by linarith)) (b _ (by linarith))
  have s2 := s1.add (g := g) ((Sq.square (g := g) h.imJ (p3.trans h1)).weaken (b' := 1) (a' := 1 + 101 / 100) (by norm_num) le_rfl) (by norm_num) (by norm_num) (by norm_num) (by norm_num)
    (by norm_num) (b _ (by linarith)) (b _ (by linarith))
  have s3 := s2.add (g := g) ((Sq.square (g := g) h.imK (p4.trans h1)).weaken (b' := 1) (a' := 1 + 101 / 100 + 101 / 100) (by norm_num) le_rfl) (by norm_num) (by norm_num) (by norm_num)
    (by norm_num) (by norm_num) (b _ (by linarith)) (b _ (by linarith))
  exact s3.weaken (by norm_num) (by norm_num)

/-- In the order of `fromAtlas`. -/
theorem sum_atlas (h : ℍ[ℝ]) (h1 : ‖h‖ ≤ 2 ^ (500 : ℤ)) (h2 : ‖h‖ ^ 2 ≤ 2 ^ (1000 : ℤ)) :
    Sq (Dbl.add g (Dbl.mul g (.num h.re) (.num h.re)) (sqrMag g ![.num h.imI, .num h.imJ, .num h.imK])) (‖h‖ ^ 2) 6 100 := by
  obtain ⟨p1, p2, p3, p4⟩ := part_le h
  have e := normSq_parts h
  have hT : (2 : ℝ) ^ (1000 : ℤ) ≤ 2 ^ (1010 : ℤ) := zpow_le_zpow_right₀ one_le_two (by norm_num)
  rw [e] at h2 ⊢
  have q1 := sq_nonneg h.re
  have q2 := sq_nonneg h.imI
  have q3 := sq_nonneg h.imJ
  have q4 := sq_nonneg h.imK
  have b : ∀ x : ℝ, x ≤ h.re ^ 2 + h.imI ^ 2 + h.imJ ^ 2 + h.imK ^ 2 → x ≤ 2 ^ (1010 : ℤ) := fun x hx => hx.trans (h2.trans hT)
  have s1 := Sq.zero.add (g := g) (Sq.square (g := g) h.imI (p2.trans h1)) (by norm_num) (by norm_num) (by norm_num) (by norm_num) (by norm_num)
    (b _ (by linarith)) (b _ (by linarith))
  have s2 := s1.add (g := g) ((Sq.square (g := g) h.imJ (p3.trans h1)).weaken (b' := 1) (a' := 1 + 101 / 100) (by norm_num) le_rfl) (by norm_num) (by norm_num) (by norm_num) (by norm_num)
    (by norm_num) (b _ (by linarith)) (b _ (by linarith))
  have s3 := s2.add (g := g) ((Sq.square (g := g) h.imK (p4.trans h1)).weaken (b' := 1) (a' := 1 + 101 / 100 + 101 / 100) (by norm_num) le_rfl) (by norm_num) (by norm_num) (by norm_num)
    (by norm_num) (by norm_num) (b _ (by linarith)) (b _ (by linarith))
  have s4 := ((Sq.square (g := g) h.re (p1.trans h1)).weaken (b' := 1) (a' := 1 + 101 / 100 + 101 / 100 + 101 / 100) (by norm_num) le_rfl).add (g := g) s3 (by norm_num) (by norm_num)
    (by norm_num) (by norm_num) (by norm_num) (b _ (by linarith)) (b _ (by linarith))
  have s5 := s4.weaken (a' := 6) (b' := 100) (by norm_num) (by norm_num)
  have e2 : h.re ^ 2 + (0 + h.imI ^ 2 + h.imJ ^ 2 + h.imK ^ 2) = h.re ^ 2 + h.imI ^ 2 + h.imJ ^ 2 + h.imK ^ 2 := by ring
  rw [e2] at s5
  exact s5

end Ie

/-- C146, the constructor from four numbers: when the length of `h` is between `2^-450` and `2^500`, the quaternion made from its components consists of numbers and is the unit
quaternion in its direction up to `2^-50`, even if some squares underflow.
Missing: other lengths, see `C146_large` and `C146_small`. -/
theorem C146_construct_partial (g : Nearest) (h : ℍ[ℝ]) (h0 : 2 ^ (-450 : ℤ) ≤ ‖h‖) (h1 : ‖h‖ ≤ 2 ^ (500 : ℤ)) :
    ∃ p : ℍ[ℝ], Ie.qOfComponents g (.num h.re) (.num h.imI) (.num h.imJ) (.num h.imK) = ⟨.num p.re, ![.num p.imI, .num p.imJ, .num p.imK], true⟩ ∧
      ‖p - ‖h‖⁻¹ • h‖ ≤ 2 ^ (-50 : ℤ) := by
  obtain ⟨b1, b2⟩ := Ie.range_sq h0 h1
  obtain ⟨N, n1, -, n3⟩ := (Ie.sum_con (g := g) h h1 b2).root (g := g) b1 (b2.trans (zpow_le_zpow_right₀ one_le_two (by norm_num)))
  have hp : 0 < ‖h‖ := lt_of_lt_of_le (by positivity) h0
  rw [Real.sqrt_sq hp.le] at n3
  obtain ⟨p1, p2, p3, p4⟩ := Ie.part_le h
  obtain ⟨c1, d1, -, e1⟩ := Ie.unit_comp (g := g) hp n3 p1
  obtain ⟨c2, d2, -, e2⟩ := Ie.unit_comp (g := g) hp n3 p2
  obtain ⟨c3, d3, -, e3⟩ := Ie.unit_comp (g := g) hp n3 p3
  obtain ⟨c4, d4, -, e4⟩ := Ie.unit_comp (g := g) hp n3 p4
  refine ⟨⟨c1, c2, c3, c4⟩, ?_, Ie.near_of_parts hp e1 e2 e3 e4⟩
  unfold Ie.qOfComponents
  simp only [n1, d1, d2, d3, d4]

/-- C146, four numbers one of which is `2^512` or more: all components come out 0, and the quaternion is marked valid. -/
theorem C146_large (g : Nearest) (a : Fin 4 → ℝ) (k : Fin 4) (hk : 2 ^ (512 : ℤ) ≤ |a k|) :
    Ie.qOfComponents g (.num (a 0)) (.num (a 1)) (.num (a 2)) (.num (a 3)) = ⟨.num 0, ![.num 0, .num 0, .num 0], true⟩ := by
  have sq : ∀ x : ℝ, Ie.NonnegD (Dbl.mul g (.num x) (.num x)) := fun x => Ie.nonneg_round (mul_self_nonneg x)
  have big : ∀ x : ℝ, 2 ^ (512 : ℤ) ≤ |x| → Dbl.mul g (.num x) (.num x) = .inf false := fun x hx => by
    show Dbl.round g (x * x) = _
    rw [Ie.round_inf (by
      rw [abs_mul, show (1024 : ℤ) = 512 + 512 by norm_num, zpow_add₀ two_ne_zero]
      exact mul_le_mul hx hx (by positivity) (abs_nonneg _)), decide_eq_false (not_lt.2 (mul_self_nonneg x))]
  have nn : ∀ D D' : Dbl, Ie.NonnegD D → Ie.NonnegD D' → Ie.NonnegD (Dbl.add g D D') := fun _ _ => Ie.nonneg_add
  have hs : Dbl.add g (Dbl.add g (Dbl.add g (Dbl.mul g (.num (a 0)) (.num (a 0))) (Dbl.mul g (.num (a 1)) (.num (a 1)))) (Dbl.mul g (.num (a 2)) (.num (a 2))))
      (Dbl.mul g (.num (a 3)) (.num (a 3))) = .inf false := by
    fin_cases k
    · have := big _ hk
      simp only [Fin.zero_eta] at this
      rw [this, Ie.inf_add (sq _), Ie.inf_add (sq _), Ie.inf_add (sq _)]
    · have := big _ hk
      simp only [Fin.mk_one] at this
      rw [this, Ie.add_inf (sq _), Ie.inf_add (sq _), Ie.inf_add (sq _)]
    · have := big _ hk
      simp only [Fin.reduceFinMk] at this
      rw [this, Ie.add_inf (nn _ _ (sq _) (sq _)), Ie.inf_add (sq _)]
    · have := big _ hk
      simp only [Fin.reduceFinMk] at this
      rw [this, Ie.add_inf (nn _ _ (nn _ _ (sq _) (sq _)) (sq _))]
  unfold Ie.qOfComponents
  rw [hs]
  rfl

/-- C146, four numbers below `2^-538`: every component comes out infinite or, where it was 0, not a number, and the quaternion is marked valid. -/
theorem C146_small (g : Nearest) (a : Fin 4 → ℝ) (ha : ∀ i, |a i| < 2 ^ (-538 : ℤ)) (c : ℝ → Dbl) (hc : ∀ x, c x = if x = 0 then .nan else .inf (decide (x < 0))) :
    Ie.qOfComponents g (.num (a 0)) (.num (a 1)) (.num (a 2)) (.num (a 3)) = ⟨c (a 0), ![c (a 1), c (a 2), c (a 3)], true⟩ := by
  have z : ∀ i, Dbl.mul g (.num (a i)) (.num (a i)) = .num 0 := fun i => by
    show Dbl.round g (a i * a i) = _
    have h1 : |a i * a i| < 2 ^ (-1075 : ℤ) := by
      rw [abs_mul]
      refine lt_of_lt_of_le (mul_self_lt_mul_self (abs_nonneg _) (ha i)) ?_
      rw [← zpow_add₀ two_ne_zero]
      exact zpow_le_zpow_right₀ one_le_two (by norm_num)
    unfold Dbl.round
    rw [g.tiny h1, if_pos (by rw [abs_zero]; positivity)]
  have a0 : Dbl.add g (.num 0) (.num 0) = .num 0 := by
    show Dbl.round g (0 + 0) = _
    rw [add_zero]; exact Ie.round_dbl IsDbl.zero (by rw [abs_zero]; positivity)
  unfold Ie.qOfComponents
  simp only [z, a0, Ie.sqrt_zero, Dbl.div, if_true, hc]

/-- C146, `fromAtlas`: a list with an infinity or a NaN, and a list shorter than the cut-off, give an invalid quaternion; a list of numbers of length between the cut-off and
`2^500` gives a valid one that is the unit quaternion in its direction up to `2^-50`.
Missing: greater lengths, see `C146_false`. -/
theorem C146_atlas_partial (g : Nearest) (q : Ie.DQuat) :
    (∀ (v : Fin 3 → Dbl) (w : Dbl), ((∃ i, ∀ x, v i ≠ .num x) ∨ ∀ x, w ≠ .num x) → (Ie.qFromAtlas g q v w).valid = false) ∧
    (∀ h : ℍ[ℝ], ‖h‖ ≤ epsilon * (1 - 2 ^ (-50 : ℤ)) → (Ie.qFromAtlas g q ![.num h.imI, .num h.imJ, .num h.imK] (.num h.re)).valid = false) ∧
    ∀ h : ℍ[ℝ], epsilon * (1 + 2 ^ (-50 : ℤ)) ≤ ‖h‖ → ‖h‖ ≤ 2 ^ (500 : ℤ) → ∃ p : ℍ[ℝ],
      Ie.qFromAtlas g q ![.num h.imI, .num h.imJ, .num h.imK] (.num h.re) = ⟨.num p.re, ![.num p.imI, .num p.imJ, .num p.imK], true⟩ ∧ ‖p - ‖h‖⁻¹ • h‖ ≤ 2 ^ (-50 : ℤ) := by
  have hu0 : 0 < u 53 := Rounding.u_pos
  have hus : u 53 ≤ 1 / 1000000 := by rw [Fl.u53]; norm_num
  have e50 : (2 : ℝ) ^ (-50 : ℤ) = 8 * u 53 := by rw [Fl.u53]; norm_num
  have he := epsilon_pos
  have he2 := epsilon_lt
  norm_num at he2
  have fin : ∀ x y z : ℝ, ((List.finRange 3).all fun i => Ie.isFinite ((![.num x, .num y, .num z] : Fin 3 → Dbl) i)) = true := fun x y z => by
    rw [List.all_eq_true]; intro i _; fin_cases i <;> rfl
  refine ⟨fun v w hvw => ?_, fun h hh => ?_, fun h h0 h1 => ?_⟩
  · have nf : ∀ D : Dbl, (∀ x, D ≠ .num x) → Ie.isFinite D = false := fun D hD => by cases D <;> first | rfl | exact absurd rfl (hD _)
    unfold Ie.qFromAtlas
    rcases hvw with ⟨i, hi⟩ | hw
    · rw [if_pos]
      rw [← Bool.not_eq_true, List.all_eq_true]
      intro hc
      have := hc i (List.mem_finRange i)
      rw [nf _ hi] at this
      cases this
    · split_ifs with hc
      · rfl
      · rfl
      all_goals exact absurd (nf _ hw) ‹_›
  · have h5 : ‖h‖ ≤ 1 := by nlinarith
    have t5 : (1 : ℝ) ≤ 2 ^ (500 : ℤ) := one_le_zpow₀ one_le_two (by norm_num)
    have t10 : (1 : ℝ) ≤ 2 ^ (1000 : ℤ) := one_le_zpow₀ one_le_two (by norm_num)
    obtain ⟨s, s1, s2, s3, s4, s5⟩ := Ie.sum_atlas (g := g) h (h5.trans t5) (le_trans (by nlinarith [norm_nonneg h]) t10)
    have hs : Real.sqrt s ≤ epsilon := by
      refine Real.sqrt_le_iff.2 ⟨he.le, ?_⟩
      have k1 := (abs_le.1 s5).2
      have k2 : ‖h‖ ^ 2 ≤ (epsilon * (1 - 8 * u 53)) ^ 2 := by rw [e50] at hh; exact pow_le_pow_left₀ (norm_nonneg _) hh 2
      have k3 : (100 : ℝ) * 2 ^ (-1075 : ℤ) ≤ u 53 * epsilon ^ 2 := by
        have := Ie.small_const.2
        have h3 : (2 : ℝ) ^ (-900 : ℤ) ≤ 2 ^ (-100 : ℤ) := zpow_le_zpow_right₀ one_le_two (by norm_num)
        have h4 : (2 : ℝ) ^ (-100 : ℤ) ≤ epsilon ^ 2 := by unfold epsilon; norm_num
        have h6 := mul_le_mul_of_nonneg_left (h3.trans h4) hu0.le
        generalize (2 : ℝ) ^ (-1075 : ℤ) = η at *
        generalize (2 : ℝ) ^ (-900 : ℤ) = ζ at *
        nlinarith [mul_nonneg hu0.le (sq_nonneg epsilon)]
      generalize (2 : ℝ) ^ (-1075 : ℤ) = η at *
      have k4 : (epsilon * (1 - 8 * u 53)) ^ 2 * (1 + 6 * u 53) + u 53 * epsilon ^ 2 ≤ epsilon ^ 2 := by
        have : (1 - 8 * u 53) ^ 2 * (1 + 6 * u 53) + u 53 ≤ 1 := by nlinarith [sq_nonneg (u 53), mul_nonneg hu0.le (sq_nonneg (u 53)), mul_le_mul_of_nonneg_left hus hu0.le, mul_le_mul_of_nonneg_left hus (sq_nonneg (u 53))]
        calc _ = epsilon ^ 2 * ((1 - 8 * u 53) ^ 2 * (1 + 6 * u 53) + u 53) := by ring
          _ ≤ epsilon ^ 2 * 1 := mul_le_mul_of_nonneg_left this (sq_nonneg _)
          _ = _ := mul_one _
      have k5 := mul_le_mul_of_nonneg_right k2 (by linarith : 0 ≤ 1 + 6 * u 53)
      linarith
    have hn : Dbl.le (Dbl.sqrt g (.num s)) (.num epsilon) = true := by
      show Dbl.le (if s < 0 then Dbl.nan else Dbl.round g (Real.sqrt s)) _ = true
      rw [if_neg (not_lt.2 s3), Ie.round_of_le (by rw [abs_of_nonneg (Real.sqrt_nonneg _)]; exact hs.trans (le_trans (by linarith : epsilon ≤ 1) (one_le_zpow₀ one_le_two (by norm_num))))]
      exact decide_eq_true (g.le_dbl Ie.eps_dbl hs)
    unfold Ie.qFromAtlas
    rw [fin, if_neg (by simp), if_neg (by simp [Ie.isFinite])]
    simp only [s1, hn, if_true]
  · have lo : (2 : ℝ) ^ (-450 : ℤ) ≤ ‖h‖ := by
      refine le_trans (zpow_le_zpow_right₀ one_le_two (by norm_num : (-450 : ℤ) ≤ -50)) (le_trans ?_ h0)
      unfold epsilon; norm_num
    obtain ⟨b1, b2⟩ := Ie.range_sq lo h1
    obtain ⟨N, n1, n2, n3⟩ := (Ie.sum_atlas (g := g) h h1 b2).root (g := g) b1 (b2.trans (zpow_le_zpow_right₀ one_le_two (by norm_num)))
    have hp : 0 < ‖h‖ := lt_of_lt_of_le (by positivity) lo
    rw [Real.sqrt_sq hp.le] at n3
    obtain ⟨p1, p2, p3, p4⟩ := Ie.part_le h
    obtain ⟨c1, d1, -, e1⟩ := Ie.unit_comp (g := g) hp n3 p1
    obtain ⟨c2, d2, -, e2⟩ := Ie.unit_comp (g := g) hp n3 p2
    obtain ⟨c3, d3, -, e3⟩ := Ie.unit_comp (g := g) hp n3 p3
    obtain ⟨c4, d4, -, e4⟩ := Ie.unit_comp (g := g) hp n3 p4
    have hN : Dbl.le (.num N) (.num epsilon) = false := by
      refine decide_eq_false (not_le.2 ?_)
      have k := (abs_le.1 n3).1
      rw [e50] at h0
      have k2 : (1 - 5 * u 53) * (epsilon * (1 + 8 * u 53)) ≤ (1 - 5 * u 53) * ‖h‖ := mul_le_mul_of_nonneg_left h0 (by linarith)
      have k3 : epsilon < (1 - 5 * u 53) * (epsilon * (1 + 8 * u 53)) := by
        have : 1 < (1 - 5 * u 53) * (1 + 8 * u 53) := by nlinarith [mul_le_mul_of_nonneg_left hus hu0.le]
        calc epsilon = epsilon * 1 := (mul_one _).symm
          _ < epsilon * ((1 - 5 * u 53) * (1 + 8 * u 53)) := mul_lt_mul_of_pos_left this he
          _ = _ := by ring
      linarith
    refine ⟨⟨c1, c2, c3, c4⟩, ?_, Ie.near_of_parts hp e1 e2 e3 e4⟩
    unfold Ie.qFromAtlas
    rw [fin, if_neg (by simp), if_neg (by simp [Ie.isFinite])]
    simp only [n1, hN, d1]
    rw [if_neg (by simp)]
    congr 1
    funext i; fin_cases i
    exacts [d2, d3, d4]

/-- The finite numbers `2^600`, 0, 0, 0 read from Atlas give a quaternion that is marked valid and has all components 0. -/
theorem C146_false (g : Nearest) (q : Ie.DQuat) :
    Ie.qFromAtlas g q ![.num (2 ^ (600 : ℤ)), .num 0, .num 0] (.num 0) = ⟨.num 0, fun _ => .num 0, true⟩ := by
  have fin : ((List.finRange 3).all fun i => Ie.isFinite ((![.num (2 ^ (600 : ℤ)), .num 0, .num 0] : Fin 3 → Dbl) i)) = true := by
    rw [List.all_eq_true]; intro i _; fin_cases i <;> rfl
  have hs : Ie.sqrMag g ![.num (2 ^ (600 : ℤ)), .num 0, .num 0] = .inf false := by
    have e : (![.num (2 ^ (600 : ℤ)), .num 0, .num 0] : Fin 3 → Dbl) = fun i => .num ((![2 ^ (600 : ℤ), 0, 0] : Fin 3 → ℝ) i) := by funext i; fin_cases i <;> rfl
    rw [e]
    refine Ie.sqrMag_large _ (k := 0) ?_
    show (2 : ℝ) ^ (512 : ℤ) ≤ |2 ^ (600 : ℤ)|
    rw [abs_of_pos (by positivity)]
    exact zpow_le_zpow_right₀ one_le_two (by norm_num)
  have z : Dbl.add g (Dbl.mul g (.num 0) (.num 0)) (.inf false) = .inf false := Ie.add_inf (Ie.nonneg_round (mul_self_nonneg 0))
  unfold Ie.qFromAtlas
  rw [fin, if_neg (by simp), if_neg (by simp [Ie.isFinite])]
  simp only [hs, z]
  rw [if_neg (by simp [Dbl.sqrt, Dbl.le])]
  congr 1
  funext i; fin_cases i <;> rfl

namespace Ie
variable {g : Nearest}

theorem sum_vec (a : Fin 3 → ℝ) {L : ℝ} (hL : L = Real.sqrt (∑ i, a i ^ 2)) (h1 : L ≤ 2 ^ (500 : ℤ)) : Sq (sqrMag g fun i => .num (a i)) (L ^ 2) 6 100 ∧ ∀ i, |a i| ≤ L := by
  have e : L ^ 2 = 0 + a 0 ^ 2 + a 1 ^ 2 + a 2 ^ 2 := by rw [hL, Real.sq_sqrt (Finset.sum_nonneg fun i _ => sq_nonneg _), Fin.sum_univ_three]; ring
  have L0 : 0 ≤ L := by rw [hL]; exact Real.sqrt_nonneg _
  have q0 := sq_nonneg (a 0)
  have q1 := sq_nonneg (a 1)
  have q2 := sq_nonneg (a 2)
  have hp : ∀ i, |a i| ≤ L := fun i => by
    refine abs_le_of_sq_le_sq ?_ L0
    rw [e]
    fin_cases i <;> simp only [Fin.zero_eta, Fin.mk_one, Fin.reduceFinMk] <;> linarith
  have h2 : L ^ 2 ≤ 2 ^ (1010 : ℤ) := by
    refine le_trans ?_ (zpow_le_zpow_right₀ one_le_two (by norm_num : (1000 : ℤ) ≤ 1010))
    rw [show (1000 : ℤ) = 500 + 500 by norm_num, zpow_add₀ two_ne_zero, sq]
    exact mul_le_mul h1 h1 L0 (by positivity)
  rw [e] at h2 ⊢
  have b : ∀ x : ℝ, x ≤ 0 + a 0 ^ 2 + a 1 ^ 2 + a 2 ^ 2 → x ≤ 2 ^ (1010 : ℤ) := fun x hx => hx.trans h2
  have s1 := Sq.zero.add (g := g) (Sq.square (g := g) (a 0) ((hp 0).trans h1)) (by norm_num) (by norm_num) (by norm_num) (by norm_num) (by norm_num)
    (b _ (by linarith)) (b _ (by linarith))
  have s2 := s1.add (g := g) ((Sq.square (g := g) (a 1) ((hp 1).trans h1)).weaken (b' := 1) (a' := 1 + 101 / 100) (by norm_num) le_rfl) (by norm_num) (by norm_num) (by norm_num) (by norm_num)
    (by norm_num) (b _ (by linarith)) (b _ (by linarith))
  have s3 := s2.add (g := g) ((Sq.square (g := g) (a 2) ((hp 2).trans h1)).weaken (b' := 1) (a' := 1 + 101 / 100 + 101 / 100) (by norm_num) le_rfl) (by norm_num) (by norm_num) (by norm_num)
    (by norm_num) (by norm_num) (b _ (by linarith)) (b _ (by linarith))
  exact ⟨s3.weaken (by norm_num) (by norm_num), hp⟩

end Ie

/-- C146, turns about an axis: an axis shorter than the cut-off gives an invalid quaternion. An axis of length between the cut-off and `2^500` gives a valid one, whose real part is
`cos` of half the angle and whose other components are next to `sin` of half the angle times the unit vector along the axis; `c` and `s` are the values of `std::cos` and `std::sin`.
Missing: longer axes, see `C146_axis_large`. -/
theorem C146_axis_partial (g : Nearest) (q : Ie.DQuat) (a : Fin 3 → ℝ) (c s : ℝ) (hs : |s| ≤ 1) (L : ℝ) (hL : L = Real.sqrt (∑ i, a i ^ 2)) :
    (L ≤ epsilon * (1 - 2 ^ (-50 : ℤ)) → (Ie.qRotationAxis g q (fun i => .num (a i)) (.num c) (.num s)).valid = false) ∧
    (epsilon * (1 + 2 ^ (-50 : ℤ)) ≤ L → L ≤ 2 ^ (500 : ℤ) → ∃ t : Fin 3 → ℝ,
      Ie.qRotationAxis g q (fun i => .num (a i)) (.num c) (.num s) = ⟨.num c, fun i => .num (t i), true⟩ ∧
      ∀ i, |t i - s * (a i / L)| ≤ 2 ^ (-50 : ℤ) * |s * (a i / L)| + 2 ^ (-570 : ℤ)) := by
  have hu0 : 0 < u 53 := Rounding.u_pos
  have hus : u 53 ≤ 1 / 1000000 := by rw [Fl.u53]; norm_num
  have e50 : (2 : ℝ) ^ (-50 : ℤ) = 8 * u 53 := by rw [Fl.u53]; norm_num
  have he := epsilon_pos
  have he2 := epsilon_lt
  norm_num at he2
  have L0 : 0 ≤ L := by rw [hL]; exact Real.sqrt_nonneg _
  refine ⟨fun hh => ?_, fun h0 h1 => ?_⟩
  · have h5 : L ≤ 1 := by nlinarith
    obtain ⟨⟨t, s1, s2, s3, s4, s5⟩, -⟩ := Ie.sum_vec (g := g) a hL (h5.trans (one_le_zpow₀ one_le_two (by norm_num)))
    have hs : Real.sqrt t ≤ epsilon * (1 - 4 * u 53) := by
      refine Real.sqrt_le_iff.2 ⟨by nlinarith, ?_⟩
      have k1 := (abs_le.1 s5).2
      have k2 : L ^ 2 ≤ (epsilon * (1 - 8 * u 53)) ^ 2 := by rw [e50] at hh; exact pow_le_pow_left₀ L0 hh 2
      have k3 : (100 : ℝ) * 2 ^ (-1075 : ℤ) ≤ u 53 * epsilon ^ 2 := by
        have := Ie.small_const.2
        have h3 : (2 : ℝ) ^ (-900 : ℤ) ≤ 2 ^ (-100 : ℤ) := zpow_le_zpow_right₀ one_le_two (by norm_num)
        have h4 : (2 : ℝ) ^ (-100 : ℤ) ≤ epsilon ^ 2 := by unfold epsilon; norm_num
        have h6 := mul_le_mul_of_nonneg_left (h3.trans h4) hu0.le
        generalize (2 : ℝ) ^ (-1075 : ℤ) = η at *
        generalize (2 : ℝ) ^ (-900 : ℤ) = ζ at *
        nlinarith [mul_nonneg hu0.le (sq_nonneg epsilon)]
      generalize (2 : ℝ) ^ (-1075 : ℤ) = η at *
      have k4 : (epsilon * (1 - 8 * u 53)) ^ 2 * (1 + 6 * u 53) + u 53 * epsilon ^ 2 ≤ (epsilon * (1 - 4 * u 53)) ^ 2 := by
        have : (1 - 8 * u 53) ^ 2 * (1 + 6 * u 53) + u 53 ≤ (1 - 4 * u 53) ^ 2 := by nlinarith [sq_nonneg (u 53), mul_nonneg hu0.le (sq_nonneg (u 53)), mul_le_mul_of_nonneg_left hus hu0.le, mul_le_mul_of_nonneg_left hus (sq_nonneg (u 53))]
        calc _ = epsilon ^ 2 * ((1 - 8 * u 53) ^ 2 * (1 + 6 * u 53) + u 53) := by ring
          _ ≤ epsilon ^ 2 * (1 - 4 * u 53) ^ 2 := mul_le_mul_of_nonneg_left this (sq_nonneg _)
          _ = _ := by ring
      have k5 := mul_le_mul_of_nonneg_right k2 (by linarith : 0 ≤ 1 + 6 * u 53)
      linarith
    have hn : Dbl.lt (Ie.mag g fun i => .num (a i)) (.num epsilon) = true := by
      unfold Ie.mag
      rw [s1]
      show Dbl.lt (if t < 0 then Dbl.nan else Dbl.round g (Real.sqrt t)) _ = true
      have hc : Real.sqrt t ≤ 1 := hs.trans (by nlinarith)
      rw [if_neg (not_lt.2 s3), Ie.round_of_le (by rw [abs_of_nonneg (Real.sqrt_nonneg _)]; exact hc.trans (one_le_zpow₀ one_le_two (by norm_num)))]
      refine decide_eq_true ?_
      have k := (abs_le.1 (Ie.rnd_any g (Real.sqrt t))).2
      rw [abs_of_nonneg (Real.sqrt_nonneg _)] at k
      have k3 : (2 : ℝ) ^ (-1075 : ℤ) ≤ u 53 * epsilon := by
        have := Ie.small_const.2
        have h3 : (2 : ℝ) ^ (-900 : ℤ) ≤ 2 ^ (-100 : ℤ) := zpow_le_zpow_right₀ one_le_two (by norm_num)
        have h4 : (2 : ℝ) ^ (-100 : ℤ) ≤ epsilon := by unfold epsilon; norm_num
        have h6 := mul_le_mul_of_nonneg_left (h3.trans h4) hu0.le
        generalize (2 : ℝ) ^ (-1075 : ℤ) = η at *
        generalize (2 : ℝ) ^ (-900 : ℤ) = ζ at *
        nlinarith [mul_nonneg hu0.le he.le]
      generalize (2 : ℝ) ^ (-1075 : ℤ) = η at *
      have k6 := mul_le_mul_of_nonneg_left hs hu0.le
      have k7 := mul_pos hu0 he
      have k8 := mul_pos hu0 k7
      linarith
    unfold Ie.qRotationAxis
    rw [hn, if_pos rfl]
  · have lo : (2 : ℝ) ^ (-50 : ℤ) ≤ L := le_trans (by unfold epsilon; norm_num) h0
    have hp : 0 < L := lt_of_lt_of_le (by positivity) lo
    obtain ⟨S, ha⟩ := Ie.sum_vec (g := g) a hL h1
    have b1 : (2 : ℝ) ^ (-900 : ℤ) ≤ L ^ 2 := by
      refine le_trans (zpow_le_zpow_right₀ one_le_two (by norm_num : (-900 : ℤ) ≤ -50 + -50)) ?_
      rw [zpow_add₀ two_ne_zero, sq]
      exact mul_le_mul lo lo (by positivity) L0
    have b2 : L ^ 2 ≤ 2 ^ (1010 : ℤ) := by
      refine le_trans ?_ (zpow_le_zpow_right₀ one_le_two (by norm_num : (1000 : ℤ) ≤ 1010))
      rw [show (1000 : ℤ) = 500 + 500 by norm_num, zpow_add₀ two_ne_zero, sq]
      exact mul_le_mul h1 h1 L0 (by positivity)
    obtain ⟨N, n1, n2, n3⟩ := S.root (g := g) b1 b2
    rw [Real.sqrt_sq L0] at n3
    have hN : Dbl.lt (.num N) (.num epsilon) = false := by
      refine decide_eq_false (not_lt.2 ?_)
      have k := (abs_le.1 n3).1
      rw [e50] at h0
      have k2 : (1 - 5 * u 53) * (epsilon * (1 + 8 * u 53)) ≤ (1 - 5 * u 53) * L := mul_le_mul_of_nonneg_left h0 (by linarith)
      have k3 : epsilon < (1 - 5 * u 53) * (epsilon * (1 + 8 * u 53)) := by
        have : 1 < (1 - 5 * u 53) * (1 + 8 * u 53) := by nlinarith [mul_le_mul_of_nonneg_left hus hu0.le]
        calc epsilon = epsilon * 1 := (mul_one _).symm
          _ < epsilon * ((1 - 5 * u 53) * (1 + 8 * u 53)) := mul_lt_mul_of_pos_left this he
          _ = _ := by ring
      linarith
    obtain ⟨d, d1, -, d3⟩ := Ie.div_comp (g := g) (v := s) hp n3 (by
      rw [div_le_iff₀ hp]
      refine hs.trans (le_trans ?_ (mul_le_mul_of_nonneg_left lo (by positivity)))
      norm_num)
    have hη : 2 ^ (500 : ℤ) * (2 : ℝ) ^ (-1075 : ℤ) ≤ 1 / 4 * 2 ^ (-570 : ℤ) ∧ (2 : ℝ) ^ (-1075 : ℤ) ≤ 1 / 4 * 2 ^ (-570 : ℤ) ∧ (2 : ℝ) ^ (-570 : ℤ) ≤ 1 ∧ (0 : ℝ) < 2 ^ (-1075 : ℤ) := by
      refine ⟨?_, ?_, zpow_le_one_of_nonpos₀ one_le_two (by norm_num), by positivity⟩
      · rw [← zpow_add₀ two_ne_zero, show (1 / 4 : ℝ) = 2 ^ (-2 : ℤ) by norm_num, ← zpow_add₀ two_ne_zero]
        exact zpow_le_zpow_right₀ one_le_two (by norm_num)
      · rw [show (1 / 4 : ℝ) = 2 ^ (-2 : ℤ) by norm_num, ← zpow_add₀ two_ne_zero]
        exact zpow_le_zpow_right₀ one_le_two (by norm_num)
    obtain ⟨z1, z2, z3, z4⟩ := hη
    have main : ∀ i, |a i * d - s * (a i / L)| ≤ 13 / 2 * u 53 * |s * (a i / L)| + 1 / 4 * 2 ^ (-570 : ℤ) ∧ |s * (a i / L)| ≤ 1 := fun i => by
      have e : a i * d - s * (a i / L) = a i * (d - s / L) := by ring
      have e2 : |s * (a i / L)| = |a i| * (|s| / L) := by rw [abs_mul, abs_div, abs_of_pos hp]; ring
      constructor
      · rw [e, abs_mul, e2]
        have k := mul_le_mul_of_nonneg_left d3 (abs_nonneg (a i))
        have k2 := mul_le_mul_of_nonneg_right ((ha i).trans h1) z4.le
        generalize (2 : ℝ) ^ (-1075 : ℤ) = η at *
        generalize (2 : ℝ) ^ (-570 : ℤ) = ζ at *
        generalize (2 : ℝ) ^ (500 : ℤ) = M at *
        linarith
      · rw [abs_mul, abs_div, abs_of_pos hp]
        exact mul_le_one₀ hs (by positivity) ((div_le_one hp).2 (ha i))
    have rd : ∀ i, Dbl.mul g (.num (a i)) (.num d) = .num (g (a i * d)) := fun i => by
      refine Ie.round_of_le (le_trans ?_ (zpow_le_zpow_right₀ one_le_two (by norm_num : (2 : ℤ) ≤ 1023)))
      obtain ⟨m1, m2⟩ := main i
      have k := abs_sub_abs_le_abs_sub (a i * d) (s * (a i / L))
      have k2 := mul_le_mul_of_nonneg_right hus (abs_nonneg (s * (a i / L)))
      clear z1 z2
      generalize (2 : ℝ) ^ (-570 : ℤ) = ζ at *
      rw [show (2 : ℝ) ^ (2 : ℤ) = 4 by norm_num]
      clear h1 b1 b2 d3 z4 lo h0
      linarith
    refine ⟨fun i => g (a i * d), ?_, fun i => ?_⟩
    · unfold Ie.qRotationAxis Ie.mag
      rw [n1, hN, if_neg (by simp), d1]
      unfold Ie.vscale
      simp only [rd]
    · obtain ⟨m1, m2⟩ := main i
      have k := abs_sub_abs_le_abs_sub (a i * d) (s * (a i / L))
      have k1 := Ie.rnd_any g (a i * d)
      have k2 := abs_sub_le (g (a i * d)) (a i * d) (s * (a i / L))
      have k3 := mul_le_mul_of_nonneg_left (k.trans m1) hu0.le
      have k4 := mul_nonneg hu0.le (abs_nonneg (s * (a i / L)))
      have k5 := mul_le_mul_of_nonneg_right hus k4
      have z0 : (0 : ℝ) < 2 ^ (-570 : ℤ) := by positivity
      have k6 := mul_le_mul_of_nonneg_right hus z0.le
      rw [e50]
      clear z1 h1 d3 b1 b2
      generalize (2 : ℝ) ^ (-1075 : ℤ) = η at *
      generalize (2 : ℝ) ^ (-570 : ℤ) = ζ at *
      generalize |s * (a i / L)| = P at *
      linarith

/-- C146, an axis with a component of `2^512` or more: the vector part comes out 0 and the quaternion is marked valid, whatever the angle. -/
theorem C146_axis_large (g : Nearest) (q : Ie.DQuat) (a : Fin 3 → ℝ) (k : Fin 3) (hk : 2 ^ (512 : ℤ) ≤ |a k|) (c s : ℝ) :
    Ie.qRotationAxis g q (fun i => .num (a i)) (.num c) (.num s) = ⟨.num c, fun _ => .num 0, true⟩ := by
  have z : ∀ x : ℝ, Dbl.mul g (.num x) (.num 0) = .num 0 := fun x => by
    show Dbl.round g (x * 0) = _
    rw [mul_zero]; exact Ie.round_dbl IsDbl.zero (by rw [abs_zero]; positivity)
  unfold Ie.qRotationAxis Ie.mag
  rw [Ie.sqrMag_large a hk, if_neg (by simp [Dbl.sqrt, Dbl.lt])]
  unfold Ie.vscale
  have e : Dbl.div g (.num s) (Dbl.sqrt g (.inf false)) = .num 0 := rfl
  simp only [e, z]

end WFMath
