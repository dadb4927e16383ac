/- Property theorems C139, continued: opposite directions are reported. -/
import Verif.Props.RoundDirMat

namespace WFMath
open Spec Matrix Gauss
open WFMath.Spec.Rounding (u u_pos)
variable {n : Nat}

namespace Fl

theorem sum_neg' (r : Rounding 53) (f : Fin n → ℝ) : sum r (fun i => -f i) = -sum r f := by
  unfold sum
  have : ∀ (l : List (Fin n)) (s : ℝ), l.foldl (fun s i => r (s + -f i)) (-s) = -l.foldl (fun s i => r (s + f i)) s := by
    intro l
    induction l with
    | nil => intro s; rfl
    | cons x l ih => intro s; rw [List.foldl, List.foldl, ← neg_add, r.odd]; exact ih _
  have h := this (List.finRange n) 0
  rwa [neg_zero] at h

/-- The inner product of a vector and a multiple in the opposite direction. -/
theorem dot_opp (r : Rounding 53) (hn : n ≤ 3) (a b : Vec n) {k : ℝ} (hk : 0 < k) (hb : b.elem = -(k • a.elem)) (ha : a.elem ≠ 0) (h : 1 ≤ len a.elem ∨ 1 ≤ len b.elem) :
    Close 53 (1 + n) (dot r a b) (-(len a.elem * len b.elem)) := by
  have la := len_pos.2 ha
  have hlb : len b.elem = k * len a.elem := by rw [hb, len_neg, len_smul, abs_of_pos hk]
  have hN : len a.elem * len b.elem = ∑ i, k * (a.elem i * a.elem i) := by
    rw [hlb, ← Finset.mul_sum, show ∑ i, a.elem i * a.elem i = a.elem ⬝ᵥ a.elem from rfl, ← len_sq]; ring
  have hs : sum r (fun i => r (a.elem i * b.elem i)) = -sum r (fun i => r (k * (a.elem i * a.elem i))) := by
    rw [← sum_neg']
    congr 1
    funext i
    rw [← r.odd, hb]
    congr 1
    simp only [Pi.neg_apply, Pi.smul_apply, smul_eq_mul]; ring
  have hc : Close 53 (1 + n) (sum r (fun i => r (a.elem i * b.elem i))) (-(len a.elem * len b.elem)) := by
    rw [hs, hN]
    exact (sum_close r (fun i => Close.round_self pos53 r _) fun i => mul_nonneg hk.le (mul_self_nonneg _)).neg
  have hb0 : b.elem ≠ 0 := len_pos.1 (by rw [hlb]; positivity)
  rw [dot]
  rw [if_pos]
  · exact hc
  · have lb := len_pos.2 hb0
    have he := epsilon_pos
    have he2 := epsilon_lt
    norm_num at he2
    have h3 : min (maxAbs a.elem) (maxAbs b.elem) ≤ len a.elem * len b.elem := by
      rcases h with h | h
      · refine (min_le_right _ _).trans ((Vec.maxAbs_le_mag b).trans ?_)
        rw [mag_eq_len]; nlinarith
      · refine (min_le_left _ _).trans ((Vec.maxAbs_le_mag a).trans ?_)
        rw [mag_eq_len]; nlinarith
    have h4 := scaleEpsilonArr_le he.le ha hb0
    have h5 := Close_u hc (by norm_num; omega)
    have hu : 2 * ((1 + n : Nat) : ℝ) * u 53 ≤ 1 / 2 := by
      have hn' : (n : ℝ) ≤ 3 := by exact_mod_cast hn
      rw [u53]; push_cast; norm_num; linarith
    have hNp : 0 < len a.elem * len b.elem := by positivity
    rw [abs_neg, abs_of_pos hNp] at h5
    have h6 := mul_le_mul_of_nonneg_right hu hNp.le
    have h7 := (_root_.abs_le.1 h5).2
    have h8 := neg_abs_le (sum r (fun i => r (a.elem i * b.elem i)))
    have h9 := mul_le_mul_of_nonneg_left h3 (by linarith : 0 ≤ 2 * epsilon)
    rw [ge_iff_le]
    nlinarith

theorem ctp1_opp (r : Rounding 53) (hn : n ≤ 3) (a b : Vec n) {k : ℝ} (hk : 0 < k) (hb : b.elem = -(k • a.elem)) (ha : a.elem ≠ 0) (h : 1 ≤ len a.elem ∨ 1 ≤ len b.elem) :
    r (r (dot r a b / r (Real.sqrt (r (sqrMag r a * sqrMag r b)))) + 1) < epsilon := by
  have hu0 : 0 < u 53 := u_pos
  have hlb : len b.elem = k * len a.elem := by rw [hb, len_neg, len_smul, abs_of_pos hk]
  have la := len_pos.2 ha
  have hN : 0 < len a.elem * len b.elem := by rw [hlb]; positivity
  have hm : Close 53 10 (r (Real.sqrt (r (sqrMag r a * sqrMag r b)))) (len a.elem * len b.elem) := by
    rw [show len a.elem * len b.elem = Real.sqrt (a.sqrMag * b.sqrMag) by rw [Real.sqrt_mul (Vec.sqrMag_nonneg a)]; rfl]
    exact (((((sqrMag_close r a).mul pos53 (sqrMag_close r b)).round pos53 r).sqrt pos53).round pos53 r).mono pos53 (by omega)
  have hq := Close_u ((((dot_opp r hn a b hk hb ha h).mono pos53 (show 1 + n ≤ 4 by omega)).div pos53 hm).round pos53 r) (by norm_num)
  rw [neg_div, div_self hN.ne', abs_neg, abs_one] at hq
  norm_num at hq
  have h1 := (_root_.abs_le.1 hq).2
  have h2 : r (r (dot r a b / r (Real.sqrt (r (sqrMag r a * sqrMag r b)))) + 1) ≤ 32 * u 53 := by
    refine r.le_fl (by rw [u53, show (32 : ℝ) * 2 ^ (-53 : ℤ) = 2 ^ (-48 : ℤ) by norm_num]; exact IsFl.zpow pos53 _) ?_
    linarith
  rw [eps_u]
  linarith

end Fl

/-- C139: opposite directions, one vector being a negative multiple of the other, are always reported in space, by quaternions and by matrices, rather than an arbitrary rotation
being chosen (vectors whose product of lengths is below the library's epsilon give an invalid quaternion instead). -/
theorem C139_opposite (r : Rounding 53) (q : Quat) (a b : Vec 3) (k : ℝ) (hk : 0 < k) (hb : b.elem = -(k • a.elem)) (ha : a.elem ≠ 0) (h : 1 ≤ len a.elem ∨ 1 ≤ len b.elem) :
    Fl.rotationFromTo r a b = some (.error .colinear) ∧ (2 * epsilon ≤ len a.elem * len b.elem → Fl.qRotationFromTo r q a b = .error .colinear) := by
  have hc := Fl.ctp1_opp r le_rfl a b hk hb ha h
  have hlb : len b.elem = k * len a.elem := by rw [hb, len_neg, len_smul, abs_of_pos hk]
  have la := len_pos.2 ha
  have hb0 : b.elem ≠ 0 := len_pos.1 (by rw [hlb]; positivity)
  have hsa : 0 < Fl.sqrMag r a := (Fl.sqrMag_close r a).pos Fl.pos53 (Vec.sqrMag_pos.2 ha)
  have hsb : 0 < Fl.sqrMag r b := (Fl.sqrMag_close r b).pos Fl.pos53 (Vec.sqrMag_pos.2 hb0)
  constructor
  · rw [Fl.rotationFromTo, if_neg (not_not.2 hsa), if_neg (not_not.2 hsb)]
    simp only
    rw [if_pos hc, dif_neg (by norm_num)]
  · intro hN
    have hm : Close 53 10 (r (Real.sqrt (r (Fl.sqrMag r a * Fl.sqrMag r b)))) (len a.elem * len b.elem) := by
      rw [show len a.elem * len b.elem = Real.sqrt (a.sqrMag * b.sqrMag) by rw [Real.sqrt_mul (Vec.sqrMag_nonneg a)]; rfl]
      exact (((((Fl.sqrMag_close r a).mul Fl.pos53 (Fl.sqrMag_close r b)).round Fl.pos53 r).sqrt Fl.pos53).round Fl.pos53 r).mono Fl.pos53 (by omega)
    have hN0 : 0 < len a.elem * len b.elem := by have := epsilon_pos; linarith
    have h1 := Fl.Close_u hm (by norm_num)
    rw [abs_of_pos hN0] at h1
    have h2 := (_root_.abs_le.1 h1).1
    have hu : u 53 ≤ 1 / 1000000 := by rw [Fl.u53]; norm_num
    norm_num at h2
    rw [Fl.qRotationFromTo]
    simp only
    rw [if_neg (by rw [not_lt]; nlinarith), if_pos hc]

/-- A vector and its opposite, three times as long. -/
example (r : Rounding 53) : Fl.rotationFromTo r (⟨![1, 1, 1], true⟩ : Vec 3) ⟨![-3, -3, -3], true⟩ = some (.error .colinear) ∧
    Fl.qRotationFromTo r Quat.default ⟨![1, 1, 1], true⟩ ⟨![-3, -3, -3], true⟩ = .error .colinear := by
  have l1 : 1 ≤ len (![1, 1, 1] : Fin 3 → ℝ) := by
    refine Real.le_sqrt_of_sq_le ?_; simp [dotProduct, Fin.sum_univ_three]
  have l2 : 1 ≤ len (![-3, -3, -3] : Fin 3 → ℝ) := by
    refine Real.le_sqrt_of_sq_le ?_; simp [dotProduct, Fin.sum_univ_three]; norm_num
  have he := epsilon_lt
  norm_num at he
  obtain ⟨h1, h2⟩ := C139_opposite r Quat.default (⟨![1, 1, 1], true⟩ : Vec 3) ⟨![-3, -3, -3], true⟩ 3 (by norm_num) (by funext i; fin_cases i <;> simp)
    (len_pos.1 (by linarith)) (Or.inl l1)
  exact ⟨h1, h2 (by nlinarith)⟩

end WFMath
