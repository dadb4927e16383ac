/- Property theorems C139, continued: the quaternion that turns one direction into another. -/
import Verif.Props.RoundDirFalse
import Verif.Props.RoundBuild

namespace WFMath
open Spec Matrix Gauss Quaternion
open WFMath.Spec.Rounding (u u_pos)

namespace Fl

/-- The cosine, plus one, as computed. -/
theorem ctp1_near (r : Rounding 53) {d' d m' N : ℝ} (hN : 0 < N) (hd : |d' - d| ≤ 128 * u 53 * N) (hdN : |d| ≤ N) (hm : Close 53 10 m' N) :
    |r (r (d' / m') + 1) - (d / N + 1)| ≤ 155 * u 53 := by
  have hu0 : 0 < u 53 := u_pos
  have hu : u 53 ≤ 1 / 1000000 := by rw [u53]; norm_num
  have ht := Close_u ((Close.refl pos53 0 N).div pos53 hm) (by norm_num)
  rw [div_self hN.ne', abs_one] at ht
  norm_num at ht
  have hm' := hm.pos pos53 hN
  have hz : |d / N| ≤ 1 := by rw [abs_div, abs_of_pos hN, div_le_one hN]; exact hdN
  have hd' : |d' / N - d / N| ≤ 128 * u 53 := by rw [← sub_div, abs_div, abs_of_pos hN, div_le_iff₀ hN]; exact hd
  have hA := abs_of_near hd' hz
  have h1 := mul_near hd' ht hA (by rw [abs_one])
  rw [div_mul_div_cancel₀ hN.ne', mul_one] at h1
  have h2 : |d' / m' - d / N| ≤ 149 * u 53 := h1.trans (by nlinarith)
  have hB := abs_of_near h2 hz
  have h3 := rnd_err r h2 hB
  have h4 : |r (d' / m') - d / N| ≤ 151 * u 53 := h3.trans (by nlinarith)
  have h5 : |r (d' / m') + 1 - (d / N + 1)| ≤ 151 * u 53 := by rw [add_sub_add_right_eq_sub]; exact h4
  have hC : |d / N + 1| ≤ 2 := (abs_add_le _ _).trans (by rw [abs_one]; linarith)
  exact (rnd_err r h5 (abs_of_near h5 hC)).trans (by nlinarith)

/-- The square root of a number known up to `155 u`. -/
theorem half_near (r : Rounding 53) {c' W : ℝ} (hW : 0 < W) (hW1 : W ≤ 1) (hc : |c' - 2 * W ^ 2| ≤ 155 * u 53) (hc0 : 0 ≤ c') :
    |r (Real.sqrt (r (c' / 2))) - W| ≤ 81 * (u 53 / W) := by
  have hu0 : 0 < u 53 := u_pos
  have hu : u 53 ≤ 1 / 1000000 := by rw [u53]; norm_num
  have huW : u 53 ≤ u 53 / W := by rw [le_div_iff₀ hW]; nlinarith
  have h1 : |c' / 2 - W ^ 2| ≤ 155 / 2 * u 53 := by
    rw [show c' / 2 - W ^ 2 = (c' - 2 * W ^ 2) / 2 by ring, abs_div, abs_two]; linarith
  have hW2 : |W ^ 2| ≤ 1 := by rw [abs_of_nonneg (by positivity)]; nlinarith
  have h2 : |r (c' / 2) - W ^ 2| ≤ 79 * u 53 := (rnd_err r h1 (abs_of_near h1 hW2)).trans (by nlinarith)
  have hy0 : 0 ≤ r (c' / 2) := r.fl_le IsFl.zero (by linarith)
  generalize r (c' / 2) = y at *
  have hs0 := Real.sqrt_nonneg y
  have hs2 := Real.mul_self_sqrt hy0
  have h3 : |Real.sqrt y - W| ≤ 79 * (u 53 / W) := by
    rw [← mul_div_assoc, le_div_iff₀ hW]
    have e : |Real.sqrt y - W| * (Real.sqrt y + W) = |y - W ^ 2| := by
      conv_lhs => rw [← abs_of_pos (show 0 < Real.sqrt y + W by linarith), ← abs_mul]
      congr 1; linarith
    have := mul_le_mul_of_nonneg_left (show W ≤ Real.sqrt y + W by linarith) (abs_nonneg (Real.sqrt y - W))
    linarith
  have hs1 : Real.sqrt y ≤ 3 / 2 := by
    refine Real.sqrt_le_iff.2 ⟨by norm_num, ?_⟩
    have := (_root_.abs_le.1 h2).2
    rw [abs_of_nonneg (by positivity)] at hW2
    linarith
  refine (rnd_err r h3 (B := 3 / 2) (by rw [abs_of_nonneg hs0]; exact hs1)).trans ?_
  linarith

/-- A component of the axis as computed. -/
theorem halfaxis_near (r : Rounding 53) {x' x m' N w' W : ℝ} (hN : 0 < N) (hW : 0 < W) (hW1 : W ≤ 1) (hη : u 53 / W ^ 2 ≤ 1 / 1000000)
    (hx : |x' - x| ≤ 128 * u 53 * N) (hm : Close 53 10 m' N) (hw : |w' - W| ≤ 81 * (u 53 / W)) (hV : |x / (2 * N * W)| ≤ 1) :
    |r (x' / r (r (2 * m') * w')) - x / (2 * N * W)| ≤ 175 * (u 53 / W ^ 2) := by
  have hu0 : 0 < u 53 := u_pos
  have hu : u 53 ≤ 1 / 1000000 := by rw [u53]; norm_num
  have hWW : W ^ 2 ≤ W := by nlinarith
  have huW : u 53 ≤ u 53 / W ^ 2 := by rw [le_div_iff₀ (by positivity)]; exact mul_le_of_le_one_right hu0.le (hWW.trans hW1)
  have hu1W : u 53 / W ≤ u 53 / W ^ 2 := by
    rw [div_le_div_iff₀ hW (by positivity)]; exact mul_le_mul_of_nonneg_left hWW hu0.le
  have hg : |w' / W - 1| ≤ 81 * (u 53 / W ^ 2) := by
    rw [← div_self hW.ne', ← sub_div, abs_div, abs_of_pos hW, div_le_iff₀ hW]
    refine hw.trans (le_of_eq ?_)
    field_simp
  have hp := Close_u ((((Close.refl pos53 0 2).mul pos53 hm).round pos53 r).div pos53 (Close.refl pos53 0 (2 * N))) (by norm_num)
  rw [div_self (by positivity), abs_one] at hp
  norm_num at hp
  generalize u 53 / W ^ 2 = η at *
  set D := 2 * N * W with hD
  have hD0 : 0 < D := by positivity
  have hρ : |r (2 * m') * w' / D - 1| ≤ 104 * η := by
    have h1 := mul_near hp hg (abs_of_near hp (by rw [abs_one])) (by rw [abs_one])
    rw [one_mul, show r (2 * m') / (2 * N) * (w' / W) = r (2 * m') * w' / D by rw [hD, div_mul_div_comm]] at h1
    refine h1.trans ?_
    nlinarith
  have hρ' : |r (r (2 * m') * w') / D - 1| ≤ 106 * η := by
    have h1 : |r (2 * m') * w' - D| ≤ 104 * η * D := by
      rw [← div_le_iff₀ hD0, ← abs_of_pos hD0, ← abs_div, abs_of_pos hD0, sub_div, div_self hD0.ne']; exact hρ
    have h2 := rnd_err r h1 (abs_of_near h1 (by rw [abs_of_pos hD0]))
    rw [← div_self hD0.ne', ← sub_div, abs_div, abs_of_pos hD0, div_le_iff₀ hD0]
    refine h2.trans ?_
    nlinarith [mul_pos hu0 hD0, mul_le_mul_of_nonneg_right huW hD0.le, mul_nonneg (mul_nonneg (hu0.le.trans huW) hu0.le) hD0.le]
  set ρ := r (r (2 * m') * w') / D with hρd
  have hρ2 := _root_.abs_le.1 hρ'
  have hρ0 : 0 < ρ := by linarith
  have hinv : |ρ⁻¹ - 1| ≤ 107 * η := by
    rw [show ρ⁻¹ - 1 = (1 - ρ) / ρ by field_simp, abs_div, abs_of_pos hρ0, abs_sub_comm, div_le_iff₀ hρ0]
    have := hu0.le.trans huW
    nlinarith
  have hy : |x' / D - x / D| ≤ 64 * η := by
    rw [← sub_div, abs_div, abs_of_pos hD0, div_le_iff₀ hD0]
    refine hx.trans ?_
    rw [hD]
    have h1 : u 53 ≤ η * W := by
      rw [div_le_iff₀ hW] at hu1W; exact hu1W
    nlinarith
  have h3 := mul_near hinv hy (abs_of_near hinv (by rw [abs_one])) hV
  have e3 : ρ⁻¹ * (x' / D) = x' / r (r (2 * m') * w') := by
    rw [hρd]; field_simp
  rw [e3, one_mul] at h3
  have hη0 := hu0.le.trans huW
  have h4 : |x' / r (r (2 * m') * w') - x / D| ≤ 172 * η := h3.trans (by nlinarith)
  exact (rnd_err r h4 (abs_of_near h4 hV)).trans (by nlinarith)

end Fl

/-- The rotation that takes the direction of `a` to the direction of `b` in their plane, as a quaternion with exact arithmetic. -/
theorem exact_fromTo (a b : Vec 3) (W : ℝ) (ha : 0 < len a.elem) (hb : 0 < len b.elem) (hW : 0 < W) (h : (a.elem ⬝ᵥ b.elem) / (len a.elem * len b.elem) + 1 = 2 * W ^ 2) (v : Bool) (k : Nat) :
    ‖toH ⟨W, ⟨(2 * (len a.elem * len b.elem) * W)⁻¹ • (a.elem ⨯₃ b.elem), v⟩, v, k⟩‖ = 1 ∧
    act (toH ⟨W, ⟨(2 * (len a.elem * len b.elem) * W)⁻¹ • (a.elem ⨯₃ b.elem), v⟩, v, k⟩) a.elem = (len a.elem / len b.elem) • b.elem := by
  have hd : a.elem ⬝ᵥ b.elem = len a.elem * len b.elem * (2 * W ^ 2 - 1) := by rw [← h]; field_simp; ring
  have hn : ‖toH ⟨W, ⟨(2 * (len a.elem * len b.elem) * W)⁻¹ • (a.elem ⨯₃ b.elem), v⟩, v, k⟩‖ = 1 := by
    apply norm_of_sqrMag
    rw [Vec.sqrMag_eq]
    simp only
    rw [smul_dotProduct, dotProduct_smul, lagrange, ← len_sq, ← len_sq, hd]
    simp only [smul_eq_mul]
    field_simp
    ring
  refine ⟨hn, ?_⟩
  rw [act_formula (normSq_eq_one.2 hn), vecOf_toH, toH_re]
  have hz : (a.elem ⨯₃ b.elem) ⬝ᵥ a.elem = 0 := by simp only [dot3, cross0, cross1, cross2']; ring
  have ht : (a.elem ⨯₃ b.elem) ⨯₃ a.elem = (a.elem ⬝ᵥ a.elem) • b.elem - (a.elem ⬝ᵥ b.elem) • a.elem := by
    apply ext3 <;> simp [dot3, cross0, cross1, cross2'] <;> ring
  simp only
  rw [smul_dotProduct, hz, smul_zero, mul_zero, zero_smul, add_zero, map_smul, LinearMap.smul_apply, ht, hd, ← len_sq]
  funext i
  simp only [Pi.add_apply, Pi.sub_apply, Pi.smul_apply, smul_eq_mul]
  field_simp
  ring

/-- C139, in part: the quaternion of `rotation(from, to)` in doubles, for directions that are not nearly opposite (the cosine of the angle between them plus one, `c`, is at least
`2^-30`) and vectors one of which has length at least 1: it is, up to `2^-42 / c`, the unit quaternion of a rotation that takes the direction of `from` to the direction of `to`. -/
theorem C139_quat_partial (r : Rounding 53) (q : Quat) (a b : Vec 3) (c : ℝ) (hc : c = 1 + (a.elem ⬝ᵥ b.elem) / (len a.elem * len b.elem)) (hc0 : 2 ^ (-30 : ℤ) ≤ c)
    (h1 : 1 ≤ len a.elem ∨ 1 ≤ len b.elem) (hN : 2 * epsilon ≤ len a.elem * len b.elem) :
    ∃ q' Q, Fl.qRotationFromTo r q a b = .ok q' ∧ ‖Q‖ = 1 ∧ act Q a.elem = (len a.elem / len b.elem) • b.elem ∧ ‖toH q' - Q‖ ≤ 2 ^ (-42 : ℤ) / c ∧
      q'.valid = (a.valid && b.valid) ∧ q'.age = 1 := by
  have hu0 : 0 < u 53 := u_pos
  have hu : u 53 ≤ 1 / 1000000 := by rw [Fl.u53]; norm_num
  have he0 := epsilon_pos
  have la := len_nonneg a.elem
  have lb := len_nonneg b.elem
  set N := len a.elem * len b.elem with hNd
  have hN0 : 0 < N := by linarith
  have la0 : 0 < len a.elem := lt_of_le_of_ne la fun h => by rw [hNd, ← h, zero_mul] at hN0; exact lt_irrefl _ hN0
  have lb0 : 0 < len b.elem := lt_of_le_of_ne lb fun h => by rw [hNd, ← h, mul_zero] at hN0; exact lt_irrefl _ hN0
  have hdN : |a.elem ⬝ᵥ b.elem| ≤ N := abs_dot_le_len _ _
  have hcp : 0 < c := lt_of_lt_of_le (by positivity) hc0
  have hc2 : c ≤ 2 := by
    have : a.elem ⬝ᵥ b.elem / N ≤ 1 := by rw [div_le_one hN0]; exact (le_abs_self _).trans hdN
    linarith
  obtain ⟨W, hWd⟩ : ∃ W, W = Real.sqrt (c / 2) := ⟨_, rfl⟩
  have hW2 : W ^ 2 = c / 2 := by rw [hWd, Real.sq_sqrt (by linarith)]
  have hW : 0 < W := by rw [hWd]; exact Real.sqrt_pos.2 (by linarith)
  have hW1 : W ≤ 1 := by nlinarith
  obtain ⟨hn, hact⟩ := exact_fromTo a b W la0 lb0 hW (by rw [hW2]; linarith) (a.valid && b.valid) 1
  have hη : u 53 / W ^ 2 ≤ 1 / 1000000 := by
    rw [hW2, div_le_iff₀ (by linarith), Fl.u53]; norm_num at hc0 ⊢; linarith
  -- the parts as computed
  have hm : Close 53 10 (r (Real.sqrt (r (Fl.sqrMag r a * Fl.sqrMag r b)))) N := by
    rw [hNd, show len a.elem * len b.elem = Real.sqrt (a.sqrMag * b.sqrMag) by rw [Real.sqrt_mul (Vec.sqrMag_nonneg a)]; rfl]
    exact (((((Fl.sqrMag_close r a).mul Fl.pos53 (Fl.sqrMag_close r b)).round Fl.pos53 r).sqrt Fl.pos53).round Fl.pos53 r).mono Fl.pos53 (by norm_num)
  have hd := Fl.dot_near r le_rfl a b h1
  have hmin : min (len a.elem) (len b.elem) ≤ N := by
    rcases h1 with h | h
    · exact (min_le_right _ _).trans (by rw [hNd]; nlinarith)
    · exact (min_le_left _ _).trans (by rw [hNd]; nlinarith)
  have hx : ∀ i, |(Fl.cross3 r a b).elem i - (a.elem ⨯₃ b.elem) i| ≤ 128 * u 53 * N := fun i => by
    refine (Fl.cross_off r a b le_rfl le_rfl i).trans ?_
    have e52 : (2 : ℝ) ^ (-52 : ℤ) = 2 * u 53 := by rw [Fl.u53]; norm_num
    rw [e52, Fl.eps_u, ← hNd]
    nlinarith
  generalize hm' : r (Real.sqrt (r (Fl.sqrMag r a * Fl.sqrMag r b))) = m' at *
  have hcn := Fl.ctp1_near r hN0 hd hdN hm
  rw [add_comm (_ / N), ← hc] at hcn
  generalize hc' : r (r (Fl.dot r a b / m') + 1) = c' at *
  have hc'0 : 0 ≤ c' ∧ ¬ c' < epsilon := by
    have := (_root_.abs_le.1 hcn).1
    have h3 : 256 * u 53 ≤ c := le_trans (by rw [Fl.u53]; norm_num) hc0
    rw [not_lt, Fl.eps_u]
    constructor <;> linarith
  have hw := Fl.half_near r hW hW1 (c' := c') (by rw [hW2, mul_div_cancel₀ _ two_ne_zero]; exact hcn) hc'0.1
  have hmε : ¬ m' < epsilon := by
    have := Fl.Close_u hm (by norm_num)
    rw [abs_of_pos hN0] at this
    have := (_root_.abs_le.1 this).1
    norm_num at this
    rw [not_lt]
    nlinarith
  have hV : ∀ i, |(a.elem ⨯₃ b.elem) i / (2 * N * W)| ≤ 1 := fun i => by
    have h4 := Fl.len_vec_le (⟨W, ⟨(2 * N * W)⁻¹ • (a.elem ⨯₃ b.elem), a.valid && b.valid⟩, a.valid && b.valid, 1⟩ : Quat)
    rw [hn] at h4
    have h5 := (abs_le_len _ i).trans h4
    simpa [div_eq_inv_mul] using h5
  have hax := fun i => Fl.halfaxis_near r hN0 hW hW1 hη (hx i) hm hw (hV i)
  refine ⟨⟨r (Real.sqrt (r (c' / 2))), Fl.divBy r (Fl.cross3 r a b) (r (r (2 * m') * r (Real.sqrt (r (c' / 2))))), a.valid && b.valid, 1⟩, _, ?_, hn, hact, ?_, rfl, rfl⟩
  · rw [Fl.qRotationFromTo]
    simp only [hm', hc']
    rw [if_neg hmε, if_neg hc'0.2]
  · refine (Fl.norm_toH_sub_le _ _).trans ?_
    simp only
    have h6 : len ((Fl.divBy r (Fl.cross3 r a b) (r (r (2 * m') * r (Real.sqrt (r (c' / 2)))))).elem - (2 * N * W)⁻¹ • (a.elem ⨯₃ b.elem)) ≤ 3 * (175 * (u 53 / W ^ 2)) := by
      refine Real.sqrt_le_iff.2 ⟨by positivity, ?_⟩
      have hi : ∀ i, ((Fl.divBy r (Fl.cross3 r a b) (r (r (2 * m') * r (Real.sqrt (r (c' / 2)))))).elem - (2 * N * W)⁻¹ • (a.elem ⨯₃ b.elem)) i ^ 2 ≤ (175 * (u 53 / W ^ 2)) ^ 2 := fun i => by
        have h := hax i
        rw [div_eq_inv_mul ((a.elem ⨯₃ b.elem) i)] at h
        exact sq_le_sq' (_root_.abs_le.1 h).1 (_root_.abs_le.1 h).2
      rw [dot3]
      have i0 := hi 0
      have i1 := hi 1
      have i2 := hi 2
      nlinarith [sq_nonneg (175 * (u 53 / W ^ 2))]
    have h7 : u 53 / W ≤ u 53 / W ^ 2 := by rw [div_le_div_iff₀ hW (by positivity)]; exact mul_le_mul_of_nonneg_left (by nlinarith) hu0.le
    have h8 : (2 : ℝ) ^ (-42 : ℤ) / c = 1024 * (u 53 / W ^ 2) := by rw [hW2, Fl.u53]; field_simp; norm_num
    rw [h8]
    have h9 : 0 ≤ u 53 / W ^ 2 := by positivity
    linarith

/-- A quarter turn between vectors of different lengths. -/
example (r : Rounding 53) : ∃ q' Q, Fl.qRotationFromTo r Quat.default ⟨![2, 0, 0], true⟩ ⟨![0, 1, 0], true⟩ = .ok q' ∧ ‖Q‖ = 1 ∧ act Q ![2, 0, 0] = ![0, 2, 0] ∧
    ‖toH q' - Q‖ ≤ 2 ^ (-42 : ℤ) ∧ q'.valid = true := by
  have l1 : len (![2, 0, 0] : Fin 3 → ℝ) = 2 := by
    unfold len; rw [Real.sqrt_eq_iff_mul_self_eq] <;> simp [dotProduct, Fin.sum_univ_three]
  have l2 : len (![0, 1, 0] : Fin 3 → ℝ) = 1 := by simp [len, dotProduct, Fin.sum_univ_three]
  have he := epsilon_lt
  norm_num at he
  obtain ⟨q', Q, h1, h2, h3, h4, h5, -⟩ := C139_quat_partial r Quat.default ⟨![2, 0, 0], true⟩ ⟨![0, 1, 0], true⟩ 1 (by simp [dotProduct, Fin.sum_univ_three]) (by norm_num)
    (Or.inr (by rw [l2])) (by rw [l1, l2]; linarith)
  refine ⟨q', Q, h1, h2, ?_, by simpa using h4, h5⟩
  rw [l1, l2] at h3
  rw [h3]; funext i; fin_cases i <;> simp

end WFMath
