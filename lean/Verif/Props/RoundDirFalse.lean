/- Property theorems C139, continued: where rotations given by directions fail in floating point arithmetic. -/
import Verif.Props.RoundDirPlane

namespace WFMath
open Spec Matrix Gauss
open WFMath.Spec.Rounding (u u_pos)

namespace Fl

theorem sumTwo (r : Rounding 53) (f : Fin 2 → ℝ) : sum r f = r (r (f 0) + f 1) := by
  unfold sum; rw [show List.finRange 2 = [0, 1] from rfl]; simp only [List.foldl, zero_add]
theorem sumThree (r : Rounding 53) (f : Fin 3 → ℝ) : sum r f = r (r (r (f 0) + f 1) + f 2) := by
  unfold sum; rw [show List.finRange 3 = [0, 1, 2] from rfl]; simp only [List.foldl, zero_add]

/-- The vector `(649, 2^-14)` and its multiple by `2^20`. -/
noncomputable def slant : Vec 2 := ⟨![649, 1 / 16384], true⟩
noncomputable def slantBig : Vec 2 := ⟨![680525824, 64], true⟩

theorem slant_sqrMag (r : Rounding 53) : sqrMag r slant = 113065282502657 / 268435456 := by
  have e1 : r (649 * 649) = 421201 := by rw [show (649 * 649 : ℝ) = 421201 by norm_num]; exact r.of_fl ⟨421201, 0, by norm_num, by norm_num⟩
  have e2 : r (421201 : ℝ) = 421201 := r.of_fl ⟨421201, 0, by norm_num, by norm_num⟩
  have e3 : r (1 / 16384 * (1 / 16384)) = 1 / 268435456 := by
    rw [show (1 / 16384 * (1 / 16384) : ℝ) = 1 / 268435456 by norm_num]; exact r.of_fl ⟨1, -28, by norm_num, by norm_num⟩
  rw [sqrMag, sumTwo]
  simp only [slant, cons_val_zero, cons_val_one]
  rw [e1, e2, e3, show (421201 + 1 / 268435456 : ℝ) = 113065282502657 / 268435456 by norm_num]
  exact r.of_fl ⟨113065282502657, -28, by norm_num, by norm_num⟩

theorem slant_dot (r : Rounding 53) : dot r slant slantBig = 113065282502657 / 256 := by
  have e1 : r (649 * 680525824) = 441661259776 := by
    rw [show (649 * 680525824 : ℝ) = 441661259776 by norm_num]; exact r.of_fl ⟨441661259776, 0, by norm_num, by norm_num⟩
  have e2 : r (441661259776 : ℝ) = 441661259776 := r.of_fl ⟨441661259776, 0, by norm_num, by norm_num⟩
  have e3 : r (1 / 16384 * 64) = 1 / 256 := by
    rw [show (1 / 16384 * 64 : ℝ) = 1 / 256 by norm_num]; exact r.of_fl ⟨1, -8, by norm_num, by norm_num⟩
  have e4 : sum r (fun i => r (slant.elem i * slantBig.elem i)) = 113065282502657 / 256 := by
    rw [sumTwo]
    simp only [slant, slantBig, cons_val_zero, cons_val_one]
    rw [e1, e2, e3, show (441661259776 + 1 / 256 : ℝ) = 113065282502657 / 256 by norm_num]
    exact r.of_fl ⟨113065282502657, -8, by norm_num, by norm_num⟩
  have h0 : slant.elem ≠ 0 := fun h => by have := congrFun h 0; simp [slant] at this
  have h1 : slantBig.elem ≠ 0 := fun h => by have := congrFun h 0; simp [slantBig] at this
  have hm : maxAbs slant.elem ≤ 649 := maxAbs_le (by norm_num) fun i => by fin_cases i <;> norm_num [slant, abs_le]
  have hd := scaleEpsilonArr_le epsilon_pos.le h0 h1
  have he := epsilon_lt
  have he0 := epsilon_pos
  have hd2 : scaleEpsilonArr slant.elem slantBig.elem epsilon ≤ 649 := by
    refine hd.trans ?_
    have := (min_le_left (maxAbs slant.elem) (maxAbs slantBig.elem)).trans hm
    norm_num at he
    nlinarith
  rw [dot]
  simp only [e4]
  rw [if_pos]
  rw [ge_iff_le, abs_of_pos (by norm_num)]
  linarith [show (649 : ℝ) ≤ 113065282502657 / 256 by norm_num]

theorem slant_vperp (r : Rounding 53) : vperp r slant slantBig = ⟨![-(1 / 8388608), 0], true⟩ := by
  have e1 : r (649 * (113065282502657 / 256)) = 4586210521514025 / 16 := by
    rw [r.eq_of_near Fl.pos53 (x := 649 * (113065282502657 / 256)) (e := 48) (k := 4586210521514025) (by norm_num) (by norm_num) (by norm_num [abs_lt])]; norm_num
  have e2 : r (4586210521514025 / 16 / (113065282502657 / 268435456)) = 5708664371412993 / 8388608 := by
    rw [r.eq_of_near Fl.pos53 (x := 4586210521514025 / 16 / (113065282502657 / 268435456)) (e := 29) (k := 5708664371412993) (by norm_num) (by norm_num) (by norm_num [abs_lt])]; norm_num
  have e3 : r (680525824 - 5708664371412993 / 8388608) = -(1 / 8388608) := by
    rw [show (680525824 - 5708664371412993 / 8388608 : ℝ) = -(1 / 8388608) by norm_num]; exact r.of_fl ⟨-1, -23, by norm_num, by norm_num⟩
  have e4 : r (1 / 16384 * (113065282502657 / 256)) = 113065282502657 / 4194304 := by
    rw [show (1 / 16384 * (113065282502657 / 256) : ℝ) = 113065282502657 / 4194304 by norm_num]; exact r.of_fl ⟨113065282502657, -22, by norm_num, by norm_num⟩
  have e5 : r (113065282502657 / 4194304 / (113065282502657 / 268435456)) = 64 := by
    rw [show (113065282502657 / 4194304 / (113065282502657 / 268435456) : ℝ) = 64 by norm_num]; exact r.of_fl ⟨64, 0, by norm_num, by norm_num⟩
  rw [vperp, slant_sqrMag, slant_dot, sub, divBy, scale]
  simp only [Vec.mk.injEq]
  refine ⟨?_, rfl⟩
  funext i
  fin_cases i
  · simp only [Fin.zero_eta, slant, slantBig, cons_val_zero]; rw [e1, e2, e3]
  · simp only [Fin.mk_one, slant, slantBig, cons_val_one, cons_val_zero]; rw [e4, e5, sub_self, r.zero]

end Fl

/-- C139, violated: `rotation(v1, v2, theta)` does not notice that two vectors are parallel, not even when one is the other times `2^20`: instead of reporting it, it returns a
matrix that is marked valid and is no rotation; it makes the first coordinate axis longer. -/
theorem C139_false : ∃ v1 v2 : Vec 2, v2.elem = (2 ^ 20 : ℝ) • v1.elem ∧ ∀ (r : Rounding 53) (T : Trig),
    ∃ m, Fl.rotationPlane r T v1 v2 2 = .ok m ∧ m.valid = true ∧ 5 / 4 ≤ len (![1, 0] ᵥ* m.elem) := by
  refine ⟨Fl.slant, Fl.slantBig, ?_, fun r T => ?_⟩
  · funext i; fin_cases i <;> norm_num [Fl.slant, Fl.slantBig]
  have hs := Fl.slant_sqrMag r
  have hv := Fl.slant_vperp r
  have t1 : r (-(1 / 8388608) * -(1 / 8388608)) = 1 / 70368744177664 := by
    rw [show (-(1 / 8388608) * -(1 / 8388608) : ℝ) = 1 / 70368744177664 by norm_num]; exact r.of_fl ⟨1, -46, by norm_num, by norm_num⟩
  have t2 : r (1 / 70368744177664 : ℝ) = 1 / 70368744177664 := r.of_fl ⟨1, -46, by norm_num, by norm_num⟩
  have hvp : Fl.sqrMag r (⟨![-(1 / 8388608), 0], true⟩ : Vec 2) = 1 / 70368744177664 := by
    rw [Fl.sqrMag, Fl.sumTwo]
    simp only [cons_val_zero, cons_val_one, mul_zero]
    rw [r.zero, t1, t2, add_zero, t2]
  have hcond : ¬ r (1 / 70368744177664 / (113065282502657 / 268435456)) < r (r ((2 : ℕ) * epsilon) * epsilon) := by
    rw [not_lt]
    refine r.mono ?_
    have he0 := epsilon_pos
    have h1 : r ((2 : ℕ) * epsilon) ≤ 128 * u 53 := by
      refine r.le_fl (by rw [Fl.u53, show (128 : ℝ) * 2 ^ (-53 : ℤ) = 2 ^ (-46 : ℤ) by norm_num]; exact IsFl.zpow Fl.pos53 _) ?_
      rw [Fl.eps_u]; push_cast; linarith [u_pos (p := 53)]
    refine (mul_le_mul_of_nonneg_right h1 he0.le).trans ?_
    rw [Fl.eps_u, Fl.u53]; norm_num
  set vp : Vec 2 := ⟨![-(1 / 8388608), 0], true⟩ with hvpd
  refine ⟨⟨Matrix.of fun i j => r ((if i = j then 1 else 0) +
          r (r (r (T.cos 2 - 1) * r (r (r (Fl.slant.elem i * Fl.slant.elem j) / Fl.sqrMag r Fl.slant) + r (r (vp.elem i * vp.elem j) / Fl.sqrMag r vp)))
            - r (r (T.sin 2 * r (r (vp.elem i * Fl.slant.elem j) - r (Fl.slant.elem i * vp.elem j))) / r (Real.sqrt (r (Fl.sqrMag r Fl.slant * Fl.sqrMag r vp)))))),
        false, true, 1⟩, ?_, rfl, ?_⟩
  · rw [Fl.rotationPlane, if_neg (not_not.2 (by rw [hs]; norm_num))]
    simp only
    rw [hv, if_neg (by rw [hvp, hs]; exact hcond)]
  · refine le_trans ?_ (abs_le_len _ 0)
    have e00 : (![1, 0] ᵥ* (Matrix.of fun i j => r ((if i = j then 1 else 0) +
          r (r (r (T.cos 2 - 1) * r (r (r (Fl.slant.elem i * Fl.slant.elem j) / Fl.sqrMag r Fl.slant) + r (r (vp.elem i * vp.elem j) / Fl.sqrMag r vp)))
            - r (r (T.sin 2 * r (r (vp.elem i * Fl.slant.elem j) - r (Fl.slant.elem i * vp.elem j))) / r (Real.sqrt (r (Fl.sqrMag r Fl.slant * Fl.sqrMag r vp)))))))) 0
        = r (1 + r (r (r (T.cos 2 - 1) * r (r (r (649 * 649) / (113065282502657 / 268435456)) + 1)))) := by
      have h1 : r (r (vp.elem 0 * vp.elem 0) / Fl.sqrMag r vp) = 1 := by
        rw [hvp]; simp only [hvpd, cons_val_zero]; rw [t1, div_self (by norm_num)]; exact r.of_fl ⟨1, 0, by norm_num, by norm_num⟩
      have h2 : r (vp.elem 0 * Fl.slant.elem 0) - r (Fl.slant.elem 0 * vp.elem 0) = 0 := by rw [mul_comm, sub_self]
      simp only [vecMul, dotProduct, Fin.sum_univ_two, cons_val_zero, cons_val_one, one_mul, zero_mul, add_zero, Matrix.of_apply, if_true, h1, h2, r.zero, mul_zero, zero_div, sub_zero, hs]
      rfl
    rw [e00]
    have fl1 : IsFl 53 (-(5 / 4 : ℝ)) := ⟨-5, -2, by norm_num, by norm_num⟩
    have fl2 : IsFl 53 (-(9 / 4 : ℝ)) := ⟨-9, -2, by norm_num, by norm_num⟩
    have fl3 : IsFl 53 (1023 / 1024 : ℝ) := ⟨1023, -10, by norm_num, by norm_num⟩
    have fl4 : IsFl 53 (2047 / 1024 : ℝ) := ⟨2047, -10, by norm_num, by norm_num⟩
    have hc : T.cos 2 - 1 ≤ -(5 / 4) := by
      have h1 := T.cos_err 2
      have h2 : Real.cos 2 = 2 * Real.cos 1 ^ 2 - 1 := by rw [← Real.cos_two_mul]; norm_num
      have h3 := Real.cos_one_le
      have h4 := Real.cos_one_pos
      have h5 := (_root_.abs_le.1 h1).2
      norm_num at h5
      nlinarith
    have hc' := r.le_fl fl1 hc
    have hp : 1023 / 1024 ≤ r (r (649 * 649) / (113065282502657 / 268435456)) := by
      have e1 : r (649 * 649) = 421201 := by rw [show (649 * 649 : ℝ) = 421201 by norm_num]; exact r.of_fl ⟨421201, 0, by norm_num, by norm_num⟩
      rw [e1]
      exact r.fl_le fl3 (by norm_num)
    have hp' : 2047 / 1024 ≤ r (r (r (649 * 649) / (113065282502657 / 268435456)) + 1) := r.fl_le fl4 (by linarith)
    have h1 : r (r (T.cos 2 - 1) * r (r (r (649 * 649) / (113065282502657 / 268435456)) + 1)) ≤ -(9 / 4) := r.le_fl fl2 (by nlinarith)
    have h2 := r.le_fl fl2 h1
    have h3 := r.le_fl fl1 (show 1 + r (r (r (T.cos 2 - 1) * r (r (r (649 * 649) / (113065282502657 / 268435456)) + 1))) ≤ -(5 / 4) by linarith)
    rw [abs_of_nonpos (by linarith)]
    linarith

/-- C139, violated: in two dimensions `rotation(from, to)` may take the square root of a negative number when the vectors are exactly opposite, so that the elements of the result,
which is marked valid, are not numbers. -/
theorem C139_nan_false : ∃ (v1 v2 : Vec 2) (c : ℝ), 0 < c ∧ v1.elem ≠ 0 ∧ v2.elem = -c • v1.elem ∧ ∀ r : Rounding 53, Fl.rotationFromTo r v1 v2 = none := by
  refine ⟨⟨![134217729 / 134217728, 0], true⟩, ⟨![-(134217731 / 134217728), 0], true⟩, 134217731 / 134217729, by norm_num, ?_, ?_, fun r => ?_⟩
  · intro h; have := congrFun h 0; norm_num at this
  · funext i; fin_cases i <;> norm_num
  have z : r 0 = 0 := r.zero
  have a1 : r (134217729 / 134217728 * (134217729 / 134217728)) = 67108865 / 67108864 := by
    rw [r.eq_of_near Fl.pos53 (x := 134217729 / 134217728 * (134217729 / 134217728)) (e := 0) (k := 4503599694479360) (by norm_num) (by norm_num) (by norm_num [abs_lt])]; norm_num
  have a2 : r (67108865 / 67108864 : ℝ) = 67108865 / 67108864 := r.of_fl ⟨67108865, -26, by norm_num, by norm_num⟩
  have b1 : r (-(134217731 / 134217728) * -(134217731 / 134217728)) = 2251799914348545 / 2251799813685248 := by
    rw [neg_mul_neg, r.eq_of_near Fl.pos53 (x := 134217731 / 134217728 * (134217731 / 134217728)) (e := 0) (k := 4503599828697090) (by norm_num) (by norm_num) (by norm_num [abs_lt])]; norm_num
  have b2 : r (2251799914348545 / 2251799813685248 : ℝ) = 2251799914348545 / 2251799813685248 := r.of_fl ⟨2251799914348545, -51, by norm_num, by norm_num⟩
  have hs1 : Fl.sqrMag r (⟨![134217729 / 134217728, 0], true⟩ : Vec 2) = 67108865 / 67108864 := by
    rw [Fl.sqrMag, Fl.sumTwo]; simp only [cons_val_zero, cons_val_one, mul_zero]; rw [z, a1, a2, add_zero, a2]
  have hs2 : Fl.sqrMag r (⟨![-(134217731 / 134217728), 0], true⟩ : Vec 2) = 2251799914348545 / 2251799813685248 := by
    rw [Fl.sqrMag, Fl.sumTwo]; simp only [cons_val_zero, cons_val_one, mul_zero]; rw [z, b1, b2, add_zero, b2]
  have hp : r (67108865 / 67108864 * (2251799914348545 / 2251799813685248)) = 4503599895805957 / 4503599627370496 := by
    rw [r.eq_of_near Fl.pos53 (x := 67108865 / 67108864 * (2251799914348545 / 2251799813685248)) (e := 0) (k := 4503599895805957) (by norm_num) (by norm_num) (by norm_num [abs_lt])]; norm_num
  have hq : r (Real.sqrt (4503599895805957 / 4503599627370496)) = 33554433 / 33554432 := by
    have l1 : (33554433 / 33554432 : ℝ) ≤ Real.sqrt (4503599895805957 / 4503599627370496) := Real.le_sqrt_of_sq_le (by norm_num)
    have l2 : Real.sqrt (4503599895805957 / 4503599627370496) < 33554433 / 33554432 + 1 / 9007199254740992 := (Real.sqrt_lt' (by norm_num)).2 (by norm_num)
    generalize Real.sqrt (4503599895805957 / 4503599627370496) = q at l1 l2 ⊢
    rw [r.eq_of_near Fl.pos53 (x := q) (e := 0) (k := 4503599761588224)
      (le_trans (by norm_num) l1) (by norm_num) (by rw [abs_lt]; norm_num; constructor <;> linarith)]
    norm_num
  have d1 : r (134217729 / 134217728 * -(134217731 / 134217728)) = -(4503599761588225 / 4503599627370496) := by
    rw [mul_neg, r.odd, r.eq_of_near Fl.pos53 (x := 134217729 / 134217728 * (134217731 / 134217728)) (e := 0) (k := 4503599761588225) (by norm_num) (by norm_num) (by norm_num [abs_lt])]; norm_num
  have d2 : r (-(4503599761588225 / 4503599627370496) : ℝ) = -(4503599761588225 / 4503599627370496) := r.of_fl ⟨-4503599761588225, -52, by norm_num, by norm_num⟩
  have hd : Fl.dot r (⟨![134217729 / 134217728, 0], true⟩ : Vec 2) ⟨![-(134217731 / 134217728), 0], true⟩ = -(4503599761588225 / 4503599627370496) := by
    have e4 : Fl.sum r (fun i => r ((![134217729 / 134217728, 0] : Fin 2 → ℝ) i * (![-(134217731 / 134217728), 0] : Fin 2 → ℝ) i)) = -(4503599761588225 / 4503599627370496) := by
      rw [Fl.sumTwo]; simp only [cons_val_zero, cons_val_one, mul_zero]; rw [z, d1, d2, add_zero, d2]
    have hm : maxAbs (![134217729 / 134217728, 0] : Fin 2 → ℝ) ≤ 2 := maxAbs_le (by norm_num) fun i => by fin_cases i <;> norm_num [_root_.abs_le]
    have h0 : (![134217729 / 134217728, 0] : Fin 2 → ℝ) ≠ 0 := fun h => by have := congrFun h 0; norm_num at this
    have h1 : (![-(134217731 / 134217728), 0] : Fin 2 → ℝ) ≠ 0 := fun h => by have := congrFun h 0; norm_num at this
    have hle := (scaleEpsilonArr_le epsilon_pos.le h0 h1).trans (mul_le_mul_of_nonneg_left (min_le_left _ _) (by have := epsilon_pos; positivity))
    have he := epsilon_lt
    have he0 := epsilon_pos
    norm_num at he
    rw [Fl.dot]
    simp only [e4]
    rw [if_pos]
    rw [ge_iff_le, abs_neg, abs_of_pos (by norm_num)]
    refine hle.trans ?_
    have := mul_le_mul_of_nonneg_left hm he0.le
    norm_num
    linarith
  have hdiv : r (-(4503599761588225 / 4503599627370496) / (33554433 / 33554432)) = -(4503599627370497 / 4503599627370496) := by
    rw [neg_div, r.odd, r.eq_of_near Fl.pos53 (x := 4503599761588225 / 4503599627370496 / (33554433 / 33554432)) (e := 0) (k := 4503599627370497) (by norm_num) (by norm_num) (by norm_num [abs_lt])]; norm_num
  have hc : r (-(4503599627370497 / 4503599627370496) + 1) = -(1 / 4503599627370496) := by
    rw [show (-(4503599627370497 / 4503599627370496) + 1 : ℝ) = -(1 / 4503599627370496) by norm_num]; exact r.of_fl ⟨-1, -52, by norm_num, by norm_num⟩
  have hc2 : r (2 * -(1 / 4503599627370496)) = -(1 / 2251799813685248) := by
    rw [show (2 * -(1 / 4503599627370496) : ℝ) = -(1 / 2251799813685248) by norm_num]; exact r.of_fl ⟨-1, -51, by norm_num, by norm_num⟩
  have he0 := epsilon_pos
  rw [Fl.rotationFromTo, hs1, hs2, if_neg (by norm_num), if_neg (by norm_num)]
  simp only [hd, hp, hq, hdiv, hc]
  rw [if_pos (by norm_num; linarith), dif_pos trivial, hc2, if_pos (by norm_num)]

/-- C139, violated: the quaternion that turns a direction into a nearly opposite one is too long by half a percent, although it is marked valid and opposite directions are
reported. -/
theorem C139_quat_false : ∃ v1 v2 : Vec 3, ∀ (r : Rounding 53) (q : Quat), ∃ q', Fl.qRotationFromTo r q v1 v2 = .ok q' ∧ q'.valid = true ∧
    101 / 100 < q'.w ^ 2 + q'.vec.elem ⬝ᵥ q'.vec.elem := by
  refine ⟨⟨![1, 0, 0], true⟩, ⟨![-1, 1019 / 8589934592, 0], true⟩, fun r q => ?_⟩
  have z : r 0 = 0 := r.zero
  have o : r 1 = 1 := r.of_fl ⟨1, 0, by norm_num, by norm_num⟩
  have hδ : IsFl 53 (1019 / 8589934592 : ℝ) := ⟨1019, -33, by norm_num, by norm_num⟩
  have dd : r (1019 / 8589934592 * (1019 / 8589934592)) = 1038361 / 73786976294838206464 := by
    rw [show (1019 / 8589934592 * (1019 / 8589934592) : ℝ) = 1038361 / 73786976294838206464 by norm_num]; exact r.of_fl ⟨1038361, -66, by norm_num, by norm_num⟩
  have s1 : r (1 + 1038361 / 73786976294838206464) = 4503599627370559 / 4503599627370496 := by
    rw [r.eq_of_near Fl.pos53 (x := 1 + 1038361 / 73786976294838206464) (e := 0) (k := 4503599627370559) (by norm_num) (by norm_num) (by norm_num [abs_lt])]; norm_num
  have s2 : r (4503599627370559 / 4503599627370496 : ℝ) = 4503599627370559 / 4503599627370496 := r.of_fl ⟨4503599627370559, -52, by norm_num, by norm_num⟩
  have hs1 : Fl.sqrMag r (⟨![1, 0, 0], true⟩ : Vec 3) = 1 := by
    rw [Fl.sqrMag, Fl.sumThree]; simp [z, o]
  have hs2 : Fl.sqrMag r (⟨![-1, 1019 / 8589934592, 0], true⟩ : Vec 3) = 4503599627370559 / 4503599627370496 := by
    rw [Fl.sqrMag, Fl.sumThree]
    show r (r (r (r (-1 * -1)) + r (1019 / 8589934592 * (1019 / 8589934592))) + r (0 * 0)) = _
    rw [neg_mul_neg, one_mul, o, o, dd, s1, mul_zero, z, add_zero, s2]
  have hm : r (Real.sqrt (4503599627370559 / 4503599627370496)) = 4503599627370527 / 4503599627370496 := by
    have l1 : (4503599627370527 / 4503599627370496 : ℝ) ≤ Real.sqrt (4503599627370559 / 4503599627370496) := Real.le_sqrt_of_sq_le (by norm_num)
    have l2 : Real.sqrt (4503599627370559 / 4503599627370496) < 4503599627370527 / 4503599627370496 + 1 / 9007199254740992 := (Real.sqrt_lt' (by norm_num)).2 (by norm_num)
    generalize Real.sqrt (4503599627370559 / 4503599627370496) = x at l1 l2 ⊢
    rw [r.eq_of_near Fl.pos53 (x := x) (e := 0) (k := 4503599627370527)
      (le_trans (by norm_num) l1) (by norm_num) (by rw [abs_lt]; norm_num; constructor <;> linarith)]
    norm_num
  have he0 := epsilon_pos
  have he := epsilon_lt
  norm_num at he
  have h0 : (![1, 0, 0] : Fin 3 → ℝ) ≠ 0 := fun h => by have := congrFun h 0; norm_num at this
  have h1 : (![-1, 1019 / 8589934592, 0] : Fin 3 → ℝ) ≠ 0 := fun h => by have := congrFun h 0; norm_num at this
  have hmax : maxAbs (![1, 0, 0] : Fin 3 → ℝ) ≤ 1 := maxAbs_le (by norm_num) fun i => by fin_cases i <;> norm_num
  have hle : scaleEpsilonArr (![1, 0, 0] : Fin 3 → ℝ) ![-1, 1019 / 8589934592, 0] epsilon ≤ 2 * epsilon := by
    refine (scaleEpsilonArr_le he0.le h0 h1).trans ?_
    have := (min_le_left (maxAbs (![1, 0, 0] : Fin 3 → ℝ)) (maxAbs (![-1, 1019 / 8589934592, 0] : Fin 3 → ℝ))).trans hmax
    nlinarith
  have hpos := scaleEpsilonArr_pos (x := (![1, 0, 0] : Fin 3 → ℝ)) (y := ![-1, 1019 / 8589934592, 0]) he0
  have e2 : 2 * epsilon ≤ 1 / 1000000000000 := by rw [Fl.eps_u, Fl.u53]; norm_num
  have hd : Fl.dot r (⟨![1, 0, 0], true⟩ : Vec 3) ⟨![-1, 1019 / 8589934592, 0], true⟩ = -1 := by
    have e4 : Fl.sum r (fun i => r ((![1, 0, 0] : Fin 3 → ℝ) i * (![-1, 1019 / 8589934592, 0] : Fin 3 → ℝ) i)) = -1 := by
      rw [Fl.sumThree]
      show r (r (r (r (1 * -1)) + r (0 * (1019 / 8589934592))) + r (0 * 0)) = _
      rw [one_mul, r.odd, o, r.odd, o, zero_mul, z, add_zero, r.odd, o, mul_zero, z, add_zero, r.odd, o]
    rw [Fl.dot]
    simp only [e4]
    rw [if_pos]
    rw [ge_iff_le, abs_neg, abs_one]
    linarith
  have hdiv : r (-1 / (4503599627370527 / 4503599627370496)) = -(4503599627370465 / 4503599627370496) := by
    rw [neg_div, r.odd, r.eq_of_near Fl.pos53 (x := 1 / (4503599627370527 / 4503599627370496)) (e := -1) (k := 9007199254740930) (by norm_num) (by norm_num) (by norm_num [abs_lt])]; norm_num
  have hc : r (-(4503599627370465 / 4503599627370496) + 1) = 31 / 4503599627370496 := by
    rw [show (-(4503599627370465 / 4503599627370496) + 1 : ℝ) = 31 / 4503599627370496 by norm_num]; exact r.of_fl ⟨31, -52, by norm_num, by norm_num⟩
  have hc2 : r (31 / 4503599627370496 / 2) = 31 / 9007199254740992 := by
    rw [show (31 / 4503599627370496 / 2 : ℝ) = 31 / 9007199254740992 by norm_num]; exact r.of_fl ⟨31, -53, by norm_num, by norm_num⟩
  have hx : Fl.cross3 r (⟨![1, 0, 0], true⟩ : Vec 3) ⟨![-1, 1019 / 8589934592, 0], true⟩ = ⟨![0, 0, 1019 / 8589934592], true⟩ := by
    have c0 : r (r (0 * 0) - r (1019 / 8589934592 * 0)) = 0 := by simp [z]
    have c1 : r (r (0 * -1) - r (0 * 1)) = 0 := by simp [z]
    have c2 : r (r (1 * (1019 / 8589934592)) - r (-1 * 0)) = 1019 / 8589934592 := by rw [one_mul, mul_zero, z, sub_zero, r.of_fl hδ, r.of_fl hδ]
    rw [Fl.cross3]
    show (⟨![if |r (r (0 * 0) - r (1019 / 8589934592 * 0))| < _ then 0 else r (r (0 * 0) - r (1019 / 8589934592 * 0)),
      if |r (r (0 * -1) - r (0 * 1))| < _ then 0 else r (r (0 * -1) - r (0 * 1)),
      if |r (r (1 * (1019 / 8589934592)) - r (-1 * 0))| < scaleEpsilonArr (![1, 0, 0] : Fin 3 → ℝ) ![-1, 1019 / 8589934592, 0] epsilon then 0
        else r (r (1 * (1019 / 8589934592)) - r (-1 * 0))], true⟩ : Vec 3) = _
    rw [c0, c1, c2, ite_self, if_neg]
    rw [not_lt, abs_of_pos (by norm_num)]
    linarith [show (1 / 1000000000000 : ℝ) ≤ 1019 / 8589934592 by norm_num]
  obtain ⟨w, hw⟩ : ∃ w, w = r (Real.sqrt (31 / 9007199254740992)) := ⟨_, rfl⟩
  refine ⟨⟨w, Fl.divBy r ⟨![0, 0, 1019 / 8589934592], true⟩ (r (r (2 * (4503599627370527 / 4503599627370496)) * w)), true, 1⟩, ?_, rfl, ?_⟩
  · rw [Fl.qRotationFromTo]
    simp only [hs1, hs2, one_mul, s2, hm, hd, hdiv, hc, hc2, hx]
    rw [if_neg (by rw [not_lt]; linarith [show (1 : ℝ) ≤ 4503599627370527 / 4503599627370496 by norm_num]),
      if_neg (by rw [not_lt, Fl.eps_u, Fl.u53]; norm_num), ← hw]
    rfl
  · have w1 : w ≤ 63 / 1073741824 := by
      rw [hw]
      refine r.le_fl ⟨63, -30, by norm_num, by norm_num⟩ (Real.sqrt_le_iff.2 ⟨by norm_num, by norm_num⟩)
    have w0 : 0 < w := by
      have : (1 / 134217728 : ℝ) ≤ w := by
        rw [hw]
        exact r.fl_le ⟨1, -27, by norm_num, by norm_num⟩ (Real.le_sqrt_of_sq_le (by norm_num))
      linarith
    have m2 : r (2 * (4503599627370527 / 4503599627370496)) = 4503599627370527 / 2251799813685248 := by
      rw [show (2 * (4503599627370527 / 4503599627370496) : ℝ) = 4503599627370527 / 2251799813685248 by norm_num]; exact r.of_fl ⟨4503599627370527, -51, by norm_num, by norm_num⟩
    have d1 : r (4503599627370527 / 2251799813685248 * w) ≤ 1009 / 8589934592 := r.le_fl ⟨1009, -33, by norm_num, by norm_num⟩ (by norm_num at w1 ⊢; linarith)
    have d0 : 1 / 8589934592 ≤ r (4503599627370527 / 2251799813685248 * w) := r.fl_le ⟨1, -33, by norm_num, by norm_num⟩ (by
      have : (1 / 134217728 : ℝ) ≤ w := by
        rw [hw]
        exact r.fl_le ⟨1, -27, by norm_num, by norm_num⟩ (Real.le_sqrt_of_sq_le (by norm_num))
      linarith)
    have v1 : 129 / 128 ≤ r (1019 / 8589934592 / r (4503599627370527 / 2251799813685248 * w)) := by
      refine r.fl_le ⟨129, -7, by norm_num, by norm_num⟩ ?_
      rw [le_div_iff₀ (by linarith)]
      linarith
    simp only [Fl.divBy, m2, dotProduct, Fin.sum_univ_three]
    show 101 / 100 < w ^ 2 + (_ + _ + r (1019 / 8589934592 / r (4503599627370527 / 2251799813685248 * w)) * r (1019 / 8589934592 / r (4503599627370527 / 2251799813685248 * w)))
    have p0 := mul_self_nonneg (r ((![0, 0, 1019 / 8589934592] : Fin 3 → ℝ) 0 / r (4503599627370527 / 2251799813685248 * w)))
    have p1 := mul_self_nonneg (r ((![0, 0, 1019 / 8589934592] : Fin 3 → ℝ) 1 / r (4503599627370527 / 2251799813685248 * w)))
    nlinarith

end WFMath
