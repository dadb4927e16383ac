/- Adding a corner to a polygon in space, with rounding. -/
import Verif.Model.RoundedPoly3
import Verif.Lemmas.RoundDir
import Verif.Lemmas.PolyExpand

namespace WFMath.Fl
open Spec Matrix Rounding
variable {n : Nat}

/-- `Dot` is the exact product up to rounding, or 0. -/
theorem dot_or3 (r : Rounding 53) (hn : n ≤ 3) (a b : Vec n) :
    |dot r a b - a.elem ⬝ᵥ b.elem| ≤ 8 * u 53 * (len a.elem * len b.elem) ∨
    (dot r a b = 0 ∧ |a.elem ⬝ᵥ b.elem| ≤ 8 * u 53 * (len a.elem * len b.elem) + 2 * epsilon * min (len a.elem) (len b.elem)) := by
  have hu0 : 0 < u 53 := u_pos
  have e52 : (2 : ℝ) ^ (-52 : ℤ) = 2 * u 53 := by rw [u53]; norm_num
  have hn' : (n : ℝ) ≤ 3 := by exact_mod_cast hn
  have hs := sum_abs_le_len a.elem b.elem
  have h0 := Finset.sum_nonneg (s := Finset.univ) fun i (_ : i ∈ Finset.univ) => abs_nonneg (a.elem i * b.elem i)
  have hL : (n + 1) * 2 ^ (-52 : ℤ) * ∑ i, |a.elem i * b.elem i| ≤ 8 * u 53 * (len a.elem * len b.elem) := by
    rw [e52]
    exact mul_le_mul (by nlinarith) hs h0 (by positivity)
  rcases C118_dot r a b (by norm_num; omega) with h1 | ⟨h1, h2⟩
  · exact .inl (h1.trans hL)
  · refine .inr ⟨h1, h2.trans (add_le_add hL (mul_le_mul_of_nonneg_left (min_le_min ?_ ?_) (by have := epsilon_pos; linarith)))⟩
    · rw [← mag_eq_len]; exact Vec.maxAbs_le_mag a
    · rw [← mag_eq_len]; exact Vec.maxAbs_le_mag b

theorem len_smul' (c : ℝ) (v : Fin n → ℝ) : len (c • v) = |c| * len v := by
  unfold len
  rw [smul_dotProduct, dotProduct_smul, smul_eq_mul, smul_eq_mul, ← mul_assoc, Real.sqrt_mul (mul_self_nonneg c), Real.sqrt_mul_self_eq_abs]

/-- Nearly a unit vector. -/
def NearUnit (a : Fin n → ℝ) : Prop := |a ⬝ᵥ a - 1| ≤ 26 * u 53

theorem NearUnit.len {a : Fin n → ℝ} (h : NearUnit a) : len a ≤ 1 + 13 * u 53 := by
  have hu0 : 0 < u 53 := u_pos
  unfold NearUnit at h
  rw [← len_sq] at h
  have := (abs_le.1 h).2
  have h0 := len_nonneg a
  nlinarith [sq_nonneg (u 53)]

/-- What one step of the loop does: the part along `a` is taken off `s`. -/
theorem step_spec (r : Rounding 53) (hn : n ≤ 3) (s a : Vec n) (ha : NearUnit a.elem) :
    |dot r s a| ≤ (1 + 30 * u 53) * len s.elem ∧
    len ((sub r s (scale r a (dot r s a))).elem - (s.elem - dot r s a • a.elem)) ≤ 4 * u 53 * len s.elem ∧
    |dot r s a * ((sub r s (scale r a (dot r s a))).elem ⬝ᵥ a.elem)| ≤ 40 * u 53 * len s.elem ^ 2 ∧
    |(sub r s (scale r a (dot r s a))).elem ⬝ᵥ a.elem| ≤ 140 * u 53 * len s.elem ∧
    len (sub r s (scale r a (dot r s a))).elem ≤ (1 + 50 * u 53) * len s.elem ∧
    (dot r s a = 0 ∨ |(sub r s (scale r a (dot r s a))).elem ⬝ᵥ a.elem| ≤ 40 * u 53 * len s.elem) := by
  have hu0 : 0 < u 53 := u_pos
  have hu : u 53 ≤ 1 / 1000000 := by rw [u53]; norm_num
  have hL := len_nonneg s.elem
  have hla := ha.len
  have hla0 := len_nonneg a.elem
  have hd := dot_or3 r hn s a
  have hsa := abs_dot_le_len s.elem a.elem
  have huL := mul_nonneg hu0.le hL
  have hsa2 : len s.elem * len a.elem ≤ (1 + 13 * u 53) * len s.elem := by nlinarith
  have h8 : 8 * u 53 * (len s.elem * len a.elem) ≤ 81 / 10 * u 53 * len s.elem := by
    have := mul_le_mul_of_nonneg_left hsa2 (show 0 ≤ 8 * u 53 by linarith)
    nlinarith [mul_nonneg hu0.le hL]
  generalize hc : dot r s a = c at *
  -- the size of the coefficient
  have g1 : |c| ≤ (1 + 30 * u 53) * len s.elem := by
    rcases hd with h | ⟨h, -⟩
    · have := abs_of_near h hsa
      linarith
    · rw [h, abs_zero]; positivity
  -- the rounding errors of the subtraction
  have g2 : len ((sub r s (scale r a c)).elem - (s.elem - c • a.elem)) ≤ 4 * u 53 * len s.elem := by
    have k1 := len_round r (c • a.elem)
    have k2 := len_round r (s.elem - (scale r a c).elem)
    have e1 : (fun i => r ((c • a.elem) i)) = (scale r a c).elem := by
      funext i; show r (c * a.elem i) = r (a.elem i * c); rw [mul_comm]
    have e2 : (fun i => r ((s.elem - (scale r a c).elem) i)) = (sub r s (scale r a c)).elem := rfl
    rw [e1] at k1
    rw [e2] at k2
    rw [len_smul'] at k1
    have e53 : (2 : ℝ) ^ (-53 : ℤ) = u 53 := u53.symm
    rw [e53] at k1 k2
    have k3 : |c| * len a.elem ≤ (1 + 50 * u 53) * len s.elem := by
      have := mul_le_mul g1 hla hla0 (by positivity)
      nlinarith [mul_nonneg hu0.le hL, mul_nonneg (mul_nonneg hu0.le hu0.le) hL]
    have k4 := len_triangle (scale r a c).elem (c • a.elem) 0
    rw [sub_zero, sub_zero, len_smul'] at k4
    have k5 : len (s.elem - (scale r a c).elem) ≤ len s.elem + len (scale r a c).elem := by
      have := len_triangle s.elem 0 (scale r a c).elem
      rwa [sub_zero, zero_sub, len_neg] at this
    have k6 := len_triangle (sub r s (scale r a c)).elem (s.elem - (scale r a c).elem) (s.elem - c • a.elem)
    have k7 : len (s.elem - (scale r a c).elem - (s.elem - c • a.elem)) = len ((scale r a c).elem - c • a.elem) := by
      rw [show s.elem - (scale r a c).elem - (s.elem - c • a.elem) = -((scale r a c).elem - c • a.elem) by abel, len_neg]
    rw [k7] at k6
    nlinarith [mul_nonneg hu0.le hL, mul_nonneg (mul_nonneg hu0.le hu0.le) hL]
  generalize ht : (sub r s (scale r a c)).elem = t at *
  obtain ⟨e, he⟩ : ∃ e, e = t - (s.elem - c • a.elem) := ⟨_, rfl⟩
  rw [← he] at g2
  have hte : t = s.elem - c • a.elem + e := by rw [he]; abel
  have hea : |e ⬝ᵥ a.elem| ≤ 5 * u 53 * len s.elem := by
    refine (abs_dot_le_len _ _).trans ?_
    have := mul_le_mul g2 hla hla0 (by positivity)
    nlinarith [mul_nonneg hu0.le hL, mul_nonneg (mul_nonneg hu0.le hu0.le) hL]
  have hta : t ⬝ᵥ a.elem = (s.elem ⬝ᵥ a.elem - c) + c * (1 - a.elem ⬝ᵥ a.elem) + e ⬝ᵥ a.elem := by
    rw [hte, add_dotProduct, sub_dotProduct, smul_dotProduct, smul_eq_mul]; ring
  have hca : |c * (1 - a.elem ⬝ᵥ a.elem)| ≤ 261 / 10 * u 53 * len s.elem := by
    rw [abs_mul, abs_sub_comm (1 : ℝ)]
    have := mul_le_mul g1 ha (abs_nonneg _) (by positivity)
    nlinarith [mul_nonneg hu0.le hL, mul_nonneg (mul_nonneg hu0.le hu0.le) hL]
  have g6 : |t ⬝ᵥ a.elem| ≤ 396 / 10 * u 53 * len s.elem ∨ (c = 0 ∧ |s.elem ⬝ᵥ a.elem| ≤ 1281 / 10 * u 53 * len s.elem) := by
    rcases hd with h | ⟨h, h'⟩
    · left
      rw [hta]
      rw [abs_sub_comm] at h
      refine (abs_add_le _ _).trans ?_
      have := abs_add_le (s.elem ⬝ᵥ a.elem - c) (c * (1 - a.elem ⬝ᵥ a.elem))
      linarith
    · refine .inr ⟨h, ?_⟩
      have := mul_le_mul_of_nonneg_left (min_le_left (len s.elem) (len a.elem)) (show 0 ≤ 2 * epsilon by have := epsilon_pos; linarith)
      rw [eps_u] at this h'
      linarith
  have g3 : |c * (t ⬝ᵥ a.elem)| ≤ 40 * u 53 * len s.elem ^ 2 := by
    rcases g6 with h | ⟨h, -⟩
    · rw [abs_mul]
      have := mul_le_mul g1 h (abs_nonneg _) (by positivity)
      nlinarith [mul_nonneg huL hL, mul_nonneg (mul_nonneg huL huL) hu0.le]
    · rw [h, zero_mul, abs_zero]; positivity
  refine ⟨g1, he ▸ g2, g3, ?_, ?_, ?_⟩
  · rcases g6 with h | ⟨h, h'⟩
    · linarith
    · rw [hta, h, zero_mul, sub_zero, add_zero]
      refine (abs_add_le _ _).trans ?_
      linarith
  · have key : len t ^ 2 = t ⬝ᵥ s.elem - c * (t ⬝ᵥ a.elem) + t ⬝ᵥ e := by
      rw [len_sq]
      conv_lhs => rhs; rw [hte]
      rw [dotProduct_add, dotProduct_sub, dotProduct_smul, smul_eq_mul]
    have k1 := (abs_le.1 (abs_dot_le_len t s.elem)).2
    have k2 := (abs_le.1 (abs_dot_le_len t e)).2
    have k3 := mul_le_mul_of_nonneg_left g2 (len_nonneg t)
    have k4 := (abs_le.1 g3).1
    by_contra hc'
    push Not at hc'
    have k5 : len s.elem ≤ len t := by nlinarith
    have k6 := mul_lt_mul_of_pos_left hc' (show 0 < len t by
      rcases (len_nonneg t).eq_or_lt with h | h
      · rw [← h] at hc'; nlinarith
      · exact h)
    have k7 := mul_le_mul_of_nonneg_left k5 huL
    nlinarith
  · rcases g6 with h | ⟨h, -⟩
    · exact .inr (by linarith)
    · exact .inl h

/-- The new axis along `t`: nearly a unit vector, and `t` again when it is multiplied by the computed length. -/
theorem axis_spec (r : Rounding 53) (hn : n ≤ 3) (t : Vec n) (ht : t.elem ≠ 0) :
    NearUnit (divBy r t (mag r t)).elem ∧ len (mag r t • (divBy r t (mag r t)).elem - t.elem) ≤ u 53 * len t.elem ∧
    0 < mag r t ∧ mag r t ≤ 2 * len t.elem ∧ len ((divBy r t (mag r t)).elem - (len t.elem)⁻¹ • t.elem) ≤ 12 * u 53 := by
  have hu0 : 0 < u 53 := u_pos
  have hu : u 53 ≤ 1 / 1000000 := by rw [u53]; norm_num
  have hl := len_pos.2 ht
  have hc : Close 53 5 (mag r t) (len t.elem) := by
    rw [← mag_eq_len]; exact (mag_close r t).mono pos53 (by omega)
  have hp : 0 < mag r t := hc.pos pos53 hl
  have a1 : ∀ i, Close 53 6 ((divBy r t (mag r t)).elem i) (((len t.elem)⁻¹ • t.elem) i) := fun i => by
    have := (((Close.refl pos53 0 (t.elem i)).div pos53 hc).round pos53 r)
    show Close 53 6 (r (t.elem i / mag r t)) ((len t.elem)⁻¹ * t.elem i)
    rwa [← div_eq_inv_mul]
  have e1 : len ((len t.elem)⁻¹ • t.elem) = 1 := by
    rw [len_smul', abs_of_pos (inv_pos.2 hl), inv_mul_cancel₀ hl.ne']
  have a2 : len ((divBy r t (mag r t)).elem - (len t.elem)⁻¹ • t.elem) ≤ 12 * u 53 := by
    have := len_mono (c := 12 * u 53) (a := (divBy r t (mag r t)).elem - (len t.elem)⁻¹ • t.elem) (b := (len t.elem)⁻¹ • t.elem) (by positivity)
      fun i => by have := Close_u (a1 i) (by norm_num); rwa [show (2 : ℝ) * (6 : ℕ) = 12 by norm_num] at this
    rwa [e1, mul_one] at this
  refine ⟨?_, ?_, hp, ?_, a2⟩
  · have h1 := len_triangle (divBy r t (mag r t)).elem ((len t.elem)⁻¹ • t.elem) 0
    have h2 := len_triangle ((len t.elem)⁻¹ • t.elem) (divBy r t (mag r t)).elem 0
    rw [sub_zero, sub_zero, e1] at h1 h2
    rw [len_sub_comm] at h2
    unfold NearUnit
    rw [← len_sq]
    generalize len (divBy r t (mag r t)).elem = y at *
    rw [_root_.abs_le]
    constructor <;> nlinarith
  · have k := len_round r ((mag r t)⁻¹ • t.elem)
    have e53 : (2 : ℝ) ^ (-53 : ℤ) = u 53 := u53.symm
    have e2 : (fun i => r (((mag r t)⁻¹ • t.elem) i)) = (divBy r t (mag r t)).elem := by
      funext i; show r ((mag r t)⁻¹ * t.elem i) = r (t.elem i / mag r t); rw [← div_eq_inv_mul]
    rw [e2, e53, len_smul', abs_of_pos (inv_pos.2 hp)] at k
    have e3 : mag r t • (divBy r t (mag r t)).elem - t.elem = mag r t • ((divBy r t (mag r t)).elem - (mag r t)⁻¹ • t.elem) := by
      rw [smul_sub, smul_smul, mul_inv_cancel₀ hp.ne', one_smul]
    rw [e3, len_smul', abs_of_pos hp]
    have := mul_le_mul_of_nonneg_left k hp.le
    refine this.trans (le_of_eq ?_)
    field_simp
  · have := Close_u hc (by norm_num)
    rw [abs_of_pos hl] at this
    have := (_root_.abs_le.1 this).2
    push_cast at this
    nlinarith

/-- What holds of the plane of every polygon built by adding corners with tolerances of at least `eps`. -/
structure OrientOk3 (o : Orient n) : Prop where
  first : o.ax0.valid = true → o.origin.valid = true
  second : o.ax1.valid = true → o.ax0.valid = true
  unit0 : o.ax0.valid = true → NearUnit o.ax0.elem
  unit1 : o.ax1.valid = true → NearUnit o.ax1.elem

theorem orientOk3_empty : OrientOk3 (Orient.empty : Orient n) := by
  constructor <;> intro h <;> simp [Orient.empty, Vec.default] at h

/-- How far the axes are from being perpendicular. -/
noncomputable def skew (o : Orient n) : ℝ := if o.ax1.valid = true then |o.ax0.elem ⬝ᵥ o.ax1.elem| else 0

theorem skew_nonneg (o : Orient n) : 0 ≤ skew o := by unfold skew; split_ifs <;> simp

/-- The error allowed when a corner is put into the plane. -/
def Near3 (eps δ R S : ℝ) : Prop := R ≤ 3 * epsilon + (Real.sqrt ((1 + 2 ^ (-40 : ℤ)) * eps + 2 * δ + 2 ^ (-46 : ℤ)) + 2 ^ (-49 : ℤ)) * S

theorem Near3.mono {eps δ δ' R S : ℝ} (hS : 0 ≤ S) (h : Near3 eps δ R S) (hd : δ ≤ δ') : Near3 eps δ' R S := by
  unfold Near3 at *
  have := Real.sqrt_le_sqrt (show (1 + 2 ^ (-40 : ℤ)) * eps + 2 * δ + 2 ^ (-46 : ℤ) ≤ (1 + 2 ^ (-40 : ℤ)) * eps + 2 * δ' + 2 ^ (-46 : ℤ) by linarith)
  nlinarith

/-- From the residue `t` that was found to be small to the distance of the corner. `s` is the computed difference, `S` the exact one. -/
theorem near3_of {eps δ t L R S : ℝ} (he : 0 ≤ eps) (hδ : 0 ≤ δ) (hS : 0 ≤ S) (hL : L ≤ (1 + u 53) * S) (hL0 : 0 ≤ L)
    (h : t ^ 2 ≤ ((1 + 20 * u 53) * eps + 3 / 2 * δ + 120 * u 53) * L ^ 2 + 3 * epsilon * t) (hR : R ≤ t + 10 * u 53 * L + u 53 * S) : Near3 eps δ R S := by
  have hu0 : 0 < u 53 := u_pos
  have hu : u 53 = 2 ^ (-53 : ℤ) := u53
  have hp := epsilon_pos
  unfold Near3
  have e46 : (2 : ℝ) ^ (-46 : ℤ) = 128 * u 53 := by rw [hu]; norm_num
  have e49 : (2 : ℝ) ^ (-49 : ℤ) = 16 * u 53 := by rw [hu]; norm_num
  have e40 : (2 : ℝ) ^ (-40 : ℤ) = 8192 * u 53 := by rw [hu]; norm_num
  have hu6 : u 53 ≤ 1 / 1000000 := by rw [hu]; norm_num
  rw [e46, e49, e40]
  have hk := Real.sq_sqrt (show 0 ≤ (1 + 8192 * u 53) * eps + 2 * δ + 128 * u 53 by positivity)
  have hK0 := Real.sqrt_nonneg ((1 + 8192 * u 53) * eps + 2 * δ + 128 * u 53)
  generalize Real.sqrt ((1 + 8192 * u 53) * eps + 2 * δ + 128 * u 53) = K at *
  -- the squares
  have hL2 : L ^ 2 ≤ (1 + 3 * u 53) * S ^ 2 := by
    have : L ^ 2 ≤ ((1 + u 53) * S) ^ 2 := pow_le_pow_left₀ hL0 hL 2
    nlinarith [mul_nonneg (mul_nonneg hu0.le hu0.le) (sq_nonneg S), mul_nonneg hu0.le (sq_nonneg S)]
  have hc : ((1 + 20 * u 53) * eps + 3 / 2 * δ + 120 * u 53) * L ^ 2 ≤ K ^ 2 * S ^ 2 := by
    rw [hk]
    have h1 := mul_le_mul_of_nonneg_left hL2 (show 0 ≤ (1 + 20 * u 53) * eps + 3 / 2 * δ + 120 * u 53 by positivity)
    refine h1.trans ?_
    rw [← mul_assoc]
    refine mul_le_mul_of_nonneg_right ?_ (sq_nonneg S)
    nlinarith [mul_nonneg hu0.le he, mul_nonneg hu0.le hδ, mul_nonneg (mul_nonneg hu0.le hu0.le) he]
  have ht' : t ≤ 3 * epsilon + K * S := by
    by_contra hcon
    push Not at hcon
    have hKs : 0 ≤ K * S := mul_nonneg hK0 hS
    nlinarith
  have := mul_le_mul_of_nonneg_left hL (show 0 ≤ 10 * u 53 by linarith)
  nlinarith [mul_nonneg hu0.le hS]

/-- The computed bound on the residue. -/
theorem bound_spec (r : Rounding 53) (hn : n ≤ 3) (s : Vec n) {eps : ℝ} (he : 0 ≤ eps) :
    r (sqrMag r s * eps) ≤ (1 + 11 * u 53) * eps * len s.elem ^ 2 ∧ (1 - 11 * u 53) * eps * len s.elem ^ 2 ≤ r (sqrMag r s * eps) ∧
    0 ≤ r (sqrMag r s * eps) := by
  have hu0 : 0 < u 53 := u_pos
  have hc : Close 53 5 (r (sqrMag r s * eps)) (s.sqrMag * eps) := by
    have := (((sqrMag_close r s).mul pos53 (Close.refl pos53 0 eps)).round pos53 r)
    exact this.mono pos53 (by omega)
  have hq : s.sqrMag = len s.elem ^ 2 := by rw [len_sq]; rfl
  rw [hq] at hc
  have h0 : 0 ≤ len s.elem ^ 2 * eps := by positivity
  have := Close_u hc (by norm_num)
  rw [abs_of_nonneg h0, _root_.abs_le] at this
  push_cast at this
  refine ⟨by nlinarith, by nlinarith, ?_⟩
  have : 10 * u 53 ≤ 1 := by rw [u53]; norm_num
  nlinarith

/-- The computed difference. -/
theorem start_spec (r : Rounding 53) (p q : Pt n) :
    len ((ptSub r p q).elem - (p.elem - q.elem)) ≤ u 53 * len (p.elem - q.elem) ∧ len (ptSub r p q).elem ≤ (1 + u 53) * len (p.elem - q.elem) := by
  have h := len_round r (p.elem - q.elem)
  have e : (fun i => r ((p.elem - q.elem) i)) = (ptSub r p q).elem := rfl
  rw [e, ← u53] at h
  refine ⟨h, ?_⟩
  have := len_triangle (ptSub r p q).elem (p.elem - q.elem) 0
  rw [sub_zero, sub_zero] at this
  linarith

/-- A residue `t` that passes the test against `s`: the exact inner product is small. -/
theorem test_spec (r : Rounding 53) (hn : n ≤ 3) (t s : Vec n) {eps : ℝ} (he : 0 ≤ eps) (h : dot r t s ≤ r (sqrMag r s * eps)) :
    t.elem ⬝ᵥ s.elem ≤ (1 + 11 * u 53) * eps * len s.elem ^ 2 + 8 * u 53 * (len t.elem * len s.elem) + 2 * epsilon * len t.elem := by
  have hp := epsilon_pos
  have hb := (bound_spec r hn s he).1
  have hu0 : 0 < u 53 := u_pos
  have h2 : 0 ≤ 2 * epsilon * len t.elem := by have := len_nonneg t.elem; positivity
  rcases dot_or3 r hn t s with h1 | ⟨-, h1⟩
  · have := (_root_.abs_le.1 h1).1
    linarith
  · have h3 := (_root_.abs_le.1 h1).2
    have h4 := mul_le_mul_of_nonneg_left (min_le_left (len t.elem) (len s.elem)) (show 0 ≤ 2 * epsilon by linarith)
    have h5 : 0 ≤ (1 + 11 * u 53) * eps * len s.elem ^ 2 := by positivity
    linarith

/-- The residue after one axis. -/
theorem one_axis {t s a e : Fin n → ℝ} {c : ℝ} (ht : t = s - c • a + e) : len t ^ 2 = t ⬝ᵥ s - c * (t ⬝ᵥ a) + t ⬝ᵥ e := by
  rw [len_sq]
  conv_lhs => rhs; rw [ht]
  rw [dotProduct_add, dotProduct_sub, dotProduct_smul, smul_eq_mul]

/-- A factor close to 1 that is absorbed into the constant. -/
theorem absorb {L k k' : ℝ} (hk : 0 ≤ k) (h : k * (1 + 110 / 1000000) ≤ k') : (1 + 110 * u 53) * L * (k * u 53 * L) ≤ k' * u 53 * L ^ 2 := by
  have hu0 : 0 < u 53 := u_pos
  have hu : u 53 ≤ 1 / 1000000 := by rw [u53]; norm_num
  have h1 : (1 + 110 * u 53) * k ≤ k' := by nlinarith
  calc (1 + 110 * u 53) * L * (k * u 53 * L) = (1 + 110 * u 53) * k * (u 53 * L ^ 2) := by ring
    _ ≤ k' * (u 53 * L ^ 2) := mul_le_mul_of_nonneg_right h1 (by positivity)
    _ = _ := by ring

/-- The residue after two axes. -/
theorem two_axes {s t1 t2 a0 a1 e f : Fin n → ℝ} {c0 c1 δ : ℝ} (ht1 : t1 = s - c0 • a0 + e) (ht2 : t2 = t1 - c1 • a1 + f) (ha : NearUnit a0)
    (hδ : |a0 ⬝ᵥ a1| ≤ δ) (y1 : |c0| ≤ (1 + 30 * u 53) * len s) (y2 : len e ≤ 4 * u 53 * len s) (y3 : |c0 * (t1 ⬝ᵥ a0)| ≤ 40 * u 53 * len s ^ 2)
    (T1 : len t1 ≤ (1 + 50 * u 53) * len s) (w1 : |c1| ≤ (1 + 30 * u 53) * len t1) (w2 : len f ≤ 4 * u 53 * len t1)
    (w3 : |c1 * (t2 ⬝ᵥ a1)| ≤ 40 * u 53 * len t1 ^ 2) (w5 : len t2 ≤ (1 + 50 * u 53) * len t1) :
    |c1| ≤ 2 * len s ∧ len f ≤ 5 * u 53 * len s ∧ len t2 ≤ (1 + 110 * u 53) * len s ∧
    len t2 ^ 2 ≤ t2 ⬝ᵥ s + (3 / 2 * δ + 100 * u 53) * len s ^ 2 := by
  have hu0 : 0 < u 53 := u_pos
  have hu : u 53 ≤ 1 / 1000000 := by rw [u53]; norm_num
  have hL0 := len_nonneg s
  have hT0 := len_nonneg t1
  have huL := mul_nonneg hu0.le hL0
  have T2 : len t2 ≤ (1 + 110 * u 53) * len s := by
    have := mul_le_mul_of_nonneg_left T1 (show 0 ≤ 1 + 50 * u 53 by linarith)
    nlinarith [mul_nonneg hu0.le huL]
  have C1 : |c1| ≤ (1 + 110 * u 53) * len s := by
    have := mul_le_mul_of_nonneg_left T1 (show 0 ≤ 1 + 30 * u 53 by linarith)
    nlinarith [mul_nonneg hu0.le huL]
  have F1 : len f ≤ 5 * u 53 * len s := by
    have := mul_le_mul_of_nonneg_left T1 (show 0 ≤ 4 * u 53 by linarith)
    nlinarith [mul_nonneg hu0.le huL]
  have Q0 := mul_nonneg hu0.le (sq_nonneg (len s))
  have Q1 : u 53 * (u 53 * len s ^ 2) ≤ 1 / 1000000 * (u 53 * len s ^ 2) := mul_le_mul_of_nonneg_right hu Q0
  have Q2 := mul_nonneg hu0.le Q0
  have T1sq : len t1 ^ 2 ≤ (1 + 110 * u 53) * len s ^ 2 := by
    have := pow_le_pow_left₀ hT0 T1 2
    nlinarith
  refine ⟨by nlinarith, F1, T2, ?_⟩
  have key : len t2 ^ 2 = t2 ⬝ᵥ s - c0 * (t1 ⬝ᵥ a0) + c0 * c1 * (a0 ⬝ᵥ a1) - c0 * (f ⬝ᵥ a0) - c1 * (t2 ⬝ᵥ a1) + t2 ⬝ᵥ e + t2 ⬝ᵥ f := by
    have a1' := one_axis ht2
    have a2 : t2 ⬝ᵥ t1 = t2 ⬝ᵥ s - c0 * (t2 ⬝ᵥ a0) + t2 ⬝ᵥ e := by
      conv_lhs => rhs; rw [ht1]
      rw [dotProduct_add, dotProduct_sub, dotProduct_smul, smul_eq_mul]
    have a3 : t2 ⬝ᵥ a0 = t1 ⬝ᵥ a0 - c1 * (a0 ⬝ᵥ a1) + f ⬝ᵥ a0 := by
      rw [ht2, add_dotProduct, sub_dotProduct, smul_dotProduct, smul_eq_mul, dotProduct_comm a1]
    rw [a1', a2, a3]; ring
  have hla := ha.len
  have hla0 := len_nonneg a0
  have B1 := (_root_.abs_le.1 y3).1
  have δ0 := (abs_nonneg _).trans hδ
  have B2 : c0 * c1 * (a0 ⬝ᵥ a1) ≤ 3 / 2 * δ * len s ^ 2 := by
    refine (le_abs_self _).trans ?_
    rw [abs_mul, abs_mul]
    have h5 := mul_le_mul y1 C1 (abs_nonneg _) (by positivity)
    have h6 : (1 + 30 * u 53) * len s * ((1 + 110 * u 53) * len s) ≤ 3 / 2 * len s ^ 2 := by
      nlinarith [sq_nonneg (len s), mul_le_mul_of_nonneg_right hu (sq_nonneg (len s))]
    have h7 := mul_le_mul (h5.trans h6) hδ (abs_nonneg _) (by positivity)
    linarith
  have B3 : |c0 * (f ⬝ᵥ a0)| ≤ 6 * u 53 * len s ^ 2 := by
    rw [abs_mul]
    have h6 : |f ⬝ᵥ a0| ≤ 51 / 10 * u 53 * len s := by
      refine (abs_dot_le_len _ _).trans ((mul_le_mul F1 hla hla0 (by positivity)).trans ?_)
      nlinarith [mul_nonneg hu0.le huL]
    have h7 : (1 + 30 * u 53) * len s ≤ (1 + 110 * u 53) * len s := by nlinarith
    exact (mul_le_mul (y1.trans h7) h6 (abs_nonneg _) (by positivity)).trans (absorb (by norm_num) (by norm_num))
  have B4 := (_root_.abs_le.1 w3).1
  have B4' := mul_le_mul_of_nonneg_left T1sq (show 0 ≤ 40 * u 53 by linarith)
  have B5 : t2 ⬝ᵥ e ≤ 5 * u 53 * len s ^ 2 := by
    exact (dot_le_len _ _).trans ((mul_le_mul T2 y2 (len_nonneg _) (by positivity)).trans (absorb (by norm_num) (by norm_num)))
  have B6 : t2 ⬝ᵥ f ≤ 6 * u 53 * len s ^ 2 := by
    exact (dot_le_len _ _).trans ((mul_le_mul T2 F1 (len_nonneg _) (by positivity)).trans (absorb (by norm_num) (by norm_num)))
  have B7 := (_root_.abs_le.1 B3).1
  have B9 : 40 * u 53 * ((1 + 110 * u 53) * len s ^ 2) ≤ 41 * u 53 * len s ^ 2 := by
    have := absorb (L := len s) (k := 40) (k' := 41) (by norm_num) (by norm_num)
    linarith
  rw [key]
  linarith

set_option maxHeartbeats 600000 in
/-- What `expand` does. -/
theorem expand_spec3 (r : Rounding 53) (hn : n ≤ 3) {o o' : Orient n} {pd : Pt n} {p : Pt 2} {eps : ℝ} (he : 0 ≤ eps) (hok : OrientOk3 o)
    (h : expand r o pd eps = (true, o', p)) :
    OrientOk3 o' ∧ o'.origin.valid = true ∧ (o.origin.valid = true → o'.origin = o.origin) ∧
    (o.origin.valid = false → o'.origin.elem = pd.elem) ∧
    (o.ax0.valid = true → o'.ax0 = o.ax0) ∧ (o.ax1.valid = true → o'.ax1 = o.ax1) ∧ p.valid = true ∧
    (o'.ax0.valid = true ∨ p.elem 0 = 0) ∧ (o'.ax1.valid = true ∨ p.elem 1 = 0) ∧
    |p.elem 0| ≤ 3 * len (pd.elem - o'.origin.elem) ∧ |p.elem 1| ≤ 3 * len (pd.elem - o'.origin.elem) ∧
    Near3 eps (skew o') (len (o'.at (p.elem 0) (p.elem 1) - pd.elem)) (len (pd.elem - o'.origin.elem)) := by
  have hp := epsilon_pos
  have hu0 : 0 < u 53 := u_pos
  have hu : u 53 ≤ 1 / 1000000 := by rw [u53]; norm_num
  unfold expand at h
  by_cases h0 : o.origin.valid = false
  · rw [if_pos h0] at h
    obtain ⟨-, rfl, rfl⟩ := Prod.mk.injEq .. ▸ (by simpa [Prod.ext_iff] using h : true = true ∧ _ = o' ∧ _ = p)
    have a0 : o.ax0.valid = false := by
      by_contra hc; rw [Bool.not_eq_false] at hc; have := hok.first hc; simp [h0] at this
    have a1 : o.ax1.valid = false := by
      by_contra hc; rw [Bool.not_eq_false] at hc; have := hok.second hc; simp [a0] at this
    have z : len (pd.elem - pd.elem) = 0 := by rw [sub_self, len_zero]
    refine ⟨?_, rfl, fun hc => by simp [h0] at hc, fun _ => rfl, fun _ => rfl, fun _ => rfl, rfl, Or.inr rfl, Or.inr rfl, ?_, ?_, ?_⟩
    · constructor <;> intro hc <;> simp [a0, a1] at hc
    · show |(0 : ℝ)| ≤ 3 * len (pd.elem - pd.elem); rw [z]; simp
    · show |(0 : ℝ)| ≤ 3 * len (pd.elem - pd.elem); rw [z]; simp
    · unfold Orient.at; simp only [Matrix.cons_val_zero, Matrix.cons_val_one, zero_smul, add_zero]
      rw [sub_self, len_zero]; unfold Near3; rw [mul_zero]; linarith
  rw [if_neg h0] at h
  rw [Bool.not_eq_false] at h0
  obtain ⟨hst1, hst2⟩ := start_spec r pd o.origin
  generalize ptSub r pd o.origin = s at *
  have hS0 := len_nonneg (pd.elem - o.origin.elem)
  have hL0 := len_nonneg s.elem
  generalize hSdef : len (pd.elem - o.origin.elem) = S at *
  simp only at h
  by_cases h1 : dot r s s ≤ r (sqrMag r s * eps)
  · simp only [if_pos h1, Prod.mk.injEq, true_and] at h
    obtain ⟨rfl, rfl⟩ := h
    refine ⟨hok, h0, fun _ => rfl, fun hc => by simp [h0] at hc, fun _ => rfl, fun _ => rfl, rfl, Or.inr rfl, Or.inr rfl, ?_, ?_, ?_⟩
    · show |(0 : ℝ)| ≤ _; rw [abs_zero, hSdef]; positivity
    · show |(0 : ℝ)| ≤ _; rw [abs_zero, hSdef]; positivity
    have : o.at ((⟨![0, 0], true⟩ : Pt 2).elem 0) ((⟨![0, 0], true⟩ : Pt 2).elem 1) - pd.elem = -(pd.elem - o.origin.elem) := by
      unfold Orient.at; simp
    rw [this, len_neg, hSdef]
    have ht := test_spec r hn s s he h1
    rw [← len_sq] at ht
    have hSs := len_triangle (pd.elem - o.origin.elem) s.elem 0
    rw [sub_zero, sub_zero, len_sub_comm (pd.elem - o.origin.elem) s.elem, hSdef] at hSs
    refine near3_of he (skew_nonneg o) hS0 hst2 hL0 (t := len s.elem) ?_ (by nlinarith)
    have := skew_nonneg o
    nlinarith [sq_nonneg (len s.elem), mul_nonneg this (sq_nonneg (len s.elem)), mul_nonneg hu0.le (sq_nonneg (len s.elem)),
      mul_nonneg (mul_nonneg hu0.le he) (sq_nonneg (len s.elem)), mul_nonneg hp.le hL0]
  simp only [if_neg h1] at h
  have hbd := bound_spec r hn s he
  have hs0 : s.elem ≠ 0 := by
    intro hc
    apply h1
    have : dot r s s = 0 := by
      rcases dot_or3 r hn s s with h | ⟨h, -⟩
      · rw [hc, len_zero] at h; simpa [hc] using h
      · exact h
    rw [this]; exact hbd.2.2
  by_cases h2 : o.ax0.valid = false
  · simp only [if_pos h2, Prod.mk.injEq, true_and] at h
    obtain ⟨rfl, rfl⟩ := h
    have a1 : o.ax1.valid = false := by
      by_contra hc; rw [Bool.not_eq_false] at hc; have := hok.second hc; simp [h2] at this
    obtain ⟨x1, x2, x3, x4, x5⟩ := axis_spec r hn s hs0
    refine ⟨?_, h0, fun _ => rfl, fun hc => by simp [h0] at hc, fun hc => by simp [h2] at hc, fun _ => rfl, rfl, Or.inl rfl, Or.inr rfl, ?_, ?_, ?_⟩
    · exact ⟨fun _ => h0, fun hc => by simp [a1] at hc, fun _ => x1, fun hc => by simp [a1] at hc⟩
    · show |mag r s| ≤ 3 * len (pd.elem - o.origin.elem)
      rw [abs_of_pos x3, hSdef]; nlinarith
    · show |(0 : ℝ)| ≤ 3 * len (pd.elem - o.origin.elem)
      rw [abs_zero, hSdef]; positivity
    · have e1 : Orient.at { o with ax0 := ⟨(divBy r s (mag r s)).elem, true⟩ } ((⟨![mag r s, 0], true⟩ : Pt 2).elem 0)
          ((⟨![mag r s, 0], true⟩ : Pt 2).elem 1) - pd.elem =
          (mag r s • (divBy r s (mag r s)).elem - s.elem) - ((pd.elem - o.origin.elem) - s.elem) := by
        unfold Orient.at; simp; abel
      rw [e1]
      show Near3 eps _ _ (len (pd.elem - o.origin.elem))
      rw [hSdef]
      have k := len_triangle (mag r s • (divBy r s (mag r s)).elem - s.elem) 0 ((pd.elem - o.origin.elem) - s.elem)
      rw [sub_zero, zero_sub, len_neg, len_sub_comm (pd.elem - o.origin.elem)] at k
      refine near3_of he (skew_nonneg _) hS0 hst2 hL0 (t := 0) ?_ (by nlinarith [mul_nonneg hu0.le hL0])
      have := skew_nonneg { o with ax0 := ⟨(divBy r s (mag r s)).elem, true⟩ }
      rw [mul_zero, add_zero, zero_pow two_ne_zero]
      positivity
  simp only [if_neg h2] at h
  rw [Bool.not_eq_false] at h2
  obtain ⟨y1, y2, y3, y4, y5, y6⟩ := step_spec r hn s o.ax0 (hok.unit0 h2)
  generalize hc0 : dot r s o.ax0 = c0 at *
  generalize hsh1 : sub r s (scale r o.ax0 c0) = t1 at *
  obtain ⟨e, hee⟩ : ∃ e, e = t1.elem - (s.elem - c0 • o.ax0.elem) := ⟨_, rfl⟩
  rw [← hee] at y2
  have ht1 : t1.elem = s.elem - c0 • o.ax0.elem + e := by rw [hee]; abel
  have hT0 := len_nonneg t1.elem
  have q1 := one_axis ht1
  have q2 : |t1.elem ⬝ᵥ e| ≤ len t1.elem * (4 * u 53 * len s.elem) := (abs_dot_le_len _ _).trans (mul_le_mul_of_nonneg_left y2 hT0)
  have huL := mul_nonneg hu0.le hL0
  have c0S : |c0| ≤ 3 * S := by nlinarith
  by_cases h3 : dot r t1 s ≤ r (sqrMag r s * eps)
  · simp only [if_pos h3, Prod.mk.injEq, true_and] at h
    obtain ⟨rfl, rfl⟩ := h
    refine ⟨hok, h0, fun _ => rfl, fun hc => by simp [h0] at hc, fun _ => rfl, fun _ => rfl, rfl, Or.inl h2, Or.inr rfl, ?_, ?_, ?_⟩
    · rw [hSdef]; exact c0S
    · show |(0 : ℝ)| ≤ _; rw [abs_zero, hSdef]; positivity
    have e1 : o.at ((⟨![c0, 0], true⟩ : Pt 2).elem 0) ((⟨![c0, 0], true⟩ : Pt 2).elem 1) - pd.elem =
        -(t1.elem - e) - ((pd.elem - o.origin.elem) - s.elem) := by
      unfold Orient.at; rw [ht1]; simp; abel
    have k1 := len_triangle (-(t1.elem - e)) 0 ((pd.elem - o.origin.elem) - s.elem)
    have k2 := len_triangle t1.elem 0 e
    rw [sub_zero, zero_sub, len_neg, len_neg, len_sub_comm (pd.elem - o.origin.elem)] at k1
    rw [sub_zero, zero_sub, len_neg] at k2
    rw [e1, hSdef]
    have ht := test_spec r hn t1 s he h3
    have hsk := skew_nonneg o
    refine near3_of he hsk hS0 hst2 hL0 (t := len t1.elem) ?_ (by nlinarith)
    have z1 := (_root_.abs_le.1 y3).1
    have z2 := (_root_.abs_le.1 q2).2
    have z3 := mul_le_mul_of_nonneg_right y5 huL
    nlinarith [mul_nonneg hsk (sq_nonneg (len s.elem)), mul_nonneg hu0.le (sq_nonneg (len s.elem)),
      mul_nonneg (mul_nonneg hu0.le he) (sq_nonneg (len s.elem)), mul_nonneg hp.le hT0, mul_nonneg huL huL]
  simp only [if_neg h3] at h
  have hs1 : t1.elem ≠ 0 := by
    intro hc
    apply h3
    have : dot r t1 s = 0 := by
      rcases dot_or3 r hn t1 s with h | ⟨h, -⟩
      · rw [hc, len_zero, zero_mul, mul_zero] at h; simpa [hc] using h
      · exact h
    rw [this]; exact hbd.2.2
  by_cases h4 : o.ax1.valid = false
  · simp only [if_pos h4, Prod.mk.injEq, true_and] at h
    obtain ⟨rfl, rfl⟩ := h
    obtain ⟨x1, x2, x3, x4, x5⟩ := axis_spec r hn t1 hs1
    refine ⟨?_, h0, fun _ => rfl, fun hc => by simp [h0] at hc, fun _ => rfl, fun hc => by simp [h4] at hc, rfl, Or.inl h2, Or.inl rfl, ?_, ?_, ?_⟩
    · exact ⟨hok.first, fun _ => h2, hok.unit0, fun _ => x1⟩
    · show |c0| ≤ 3 * len (pd.elem - o.origin.elem); rw [hSdef]; exact c0S
    · show |mag r t1| ≤ 3 * len (pd.elem - o.origin.elem)
      rw [abs_of_pos x3, hSdef]; nlinarith
    · have e1 : Orient.at { o with ax1 := ⟨(divBy r t1 (mag r t1)).elem, true⟩ } ((⟨![c0, mag r t1], true⟩ : Pt 2).elem 0)
          ((⟨![c0, mag r t1], true⟩ : Pt 2).elem 1) - pd.elem =
          (mag r t1 • (divBy r t1 (mag r t1)).elem - t1.elem) + e - ((pd.elem - o.origin.elem) - s.elem) := by
        unfold Orient.at; rw [ht1]; simp; abel
      rw [e1]
      show Near3 eps _ _ (len (pd.elem - o.origin.elem))
      rw [hSdef]
      have k1 := len_triangle (mag r t1 • (divBy r t1 (mag r t1)).elem - t1.elem + e) 0 ((pd.elem - o.origin.elem) - s.elem)
      have k2 := len_add_le (mag r t1 • (divBy r t1 (mag r t1)).elem - t1.elem) e
      rw [sub_zero, zero_sub, len_neg, len_sub_comm (pd.elem - o.origin.elem)] at k1
      have z3 := mul_le_mul_of_nonneg_left y5 hu0.le
      refine near3_of he (skew_nonneg _) hS0 hst2 hL0 (t := 0) ?_ (by nlinarith [mul_nonneg hu0.le huL])
      have := skew_nonneg { o with ax1 := ⟨(divBy r t1 (mag r t1)).elem, true⟩ }
      rw [mul_zero, add_zero, zero_pow two_ne_zero]
      positivity
  simp only [if_neg h4] at h
  rw [Bool.not_eq_false] at h4
  obtain ⟨w1, w2, w3, w4, w5, w6⟩ := step_spec r hn t1 o.ax1 (hok.unit1 h4)
  generalize hc1 : dot r t1 o.ax1 = c1 at *
  generalize hsh2 : sub r t1 (scale r o.ax1 c1) = t2 at *
  obtain ⟨f, hff⟩ : ∃ f, f = t2.elem - (t1.elem - c1 • o.ax1.elem) := ⟨_, rfl⟩
  rw [← hff] at w2
  have ht2 : t2.elem = t1.elem - c1 • o.ax1.elem + f := by rw [hff]; abel
  by_cases h5 : dot r t2 s ≤ r (sqrMag r s * eps)
  · simp only [if_pos h5, Prod.mk.injEq, true_and] at h
    obtain ⟨rfl, rfl⟩ := h
    have hV0 := len_nonneg t2.elem
    have hskd : |o.ax0.elem ⬝ᵥ o.ax1.elem| = skew o := by unfold skew; rw [if_pos h4]
    obtain ⟨C1, F1, T2, key⟩ := two_axes ht1 ht2 (hok.unit0 h2) hskd.le y1 y2 y3 y5 w1 w2 w3 w5
    refine ⟨hok, h0, fun _ => rfl, fun hc => by simp [h0] at hc, fun _ => rfl, fun _ => rfl, rfl, Or.inl h2, Or.inl h4, ?_, ?_, ?_⟩
    · rw [hSdef]; exact c0S
    · show |c1| ≤ _; rw [hSdef]; nlinarith
    have e1 : o.at ((⟨![c0, c1], true⟩ : Pt 2).elem 0) ((⟨![c0, c1], true⟩ : Pt 2).elem 1) - pd.elem =
        -(t2.elem - (e + f)) - ((pd.elem - o.origin.elem) - s.elem) := by
      unfold Orient.at; rw [ht2, ht1]; simp; abel
    have k1 := len_triangle (-(t2.elem - (e + f))) 0 ((pd.elem - o.origin.elem) - s.elem)
    have k2 := len_triangle t2.elem 0 (e + f)
    have k3 := len_add_le e f
    rw [sub_zero, zero_sub, len_neg, len_neg, len_sub_comm (pd.elem - o.origin.elem)] at k1
    rw [sub_zero, zero_sub, len_neg] at k2
    rw [e1, hSdef]
    have ht := test_spec r hn t2 s he h5
    have hsk := skew_nonneg o
    refine near3_of he hsk hS0 hst2 hL0 (t := len t2.elem) ?_ (by nlinarith)
    have B8 : 8 * u 53 * (len t2.elem * len s.elem) ≤ 9 * u 53 * len s.elem ^ 2 := by
      have := mul_le_mul_of_nonneg_right T2 hL0
      nlinarith [mul_nonneg (mul_nonneg hu0.le hu0.le) (sq_nonneg (len s.elem)), mul_nonneg hu0.le (sq_nonneg (len s.elem))]
    have B10 := mul_nonneg (mul_nonneg hu0.le he) (sq_nonneg (len s.elem))
    have B11 := mul_nonneg hp.le hV0
    have B12 := mul_nonneg hu0.le (sq_nonneg (len s.elem))
    linarith
  · simp only [if_neg h5, Prod.mk.injEq] at h
    simp at h

/-- A failed `expand` changes nothing. -/
theorem expand_fail3 (r : Rounding 53) {o o' : Orient n} {pd : Pt n} {p : Pt 2} {eps : ℝ} (h : expand r o pd eps = (false, o', p)) : o' = o := by
  unfold expand at h
  simp only at h
  split_ifs at h <;> simp only [Prod.mk.injEq] at h <;> simp at h
  exact h.1.symm

set_option maxHeartbeats 600000 in
/-- When the second axis is made, it is perpendicular to the first up to an error that grows as the new point comes near the line. -/
theorem expand_skew (r : Rounding 53) (hn : n ≤ 3) {o o' : Orient n} {pd : Pt n} {p : Pt 2} {eps : ℝ} (he : 0 ≤ eps) (hok : OrientOk3 o)
    (h : expand r o pd eps = (true, o', p)) (hv : o.ax1.valid = false) (hv' : o'.ax1.valid = true) :
    (∃ x : ℝ, skew o' * len (pd.elem - (o.origin.elem + x • o.ax0.elem)) ≤ 170 * u 53 * len (pd.elem - o.origin.elem)) ∧
    (epsilon ≤ eps → skew o' ≤ 2 ^ (-22 : ℤ)) := by
  have hp := epsilon_pos
  have hu0 : 0 < u 53 := u_pos
  have hu : u 53 ≤ 1 / 1000000 := by rw [u53]; norm_num
  unfold expand at h
  by_cases h0 : o.origin.valid = false
  · rw [if_pos h0] at h
    obtain ⟨-, rfl, rfl⟩ := Prod.mk.injEq .. ▸ (by simpa [Prod.ext_iff] using h : true = true ∧ _ = o' ∧ _ = p)
    simp [hv] at hv'
  rw [if_neg h0] at h
  obtain ⟨hst1, hst2⟩ := start_spec r pd o.origin
  generalize ptSub r pd o.origin = s at *
  have hS0 := len_nonneg (pd.elem - o.origin.elem)
  have hL0 := len_nonneg s.elem
  simp only at h
  by_cases h1 : dot r s s ≤ r (sqrMag r s * eps)
  · simp only [if_pos h1, Prod.mk.injEq, true_and] at h
    rw [← h.1, hv] at hv'; simp at hv'
  simp only [if_neg h1] at h
  by_cases h2 : o.ax0.valid = false
  · simp only [if_pos h2, Prod.mk.injEq, true_and] at h
    rw [← h.1] at hv'
    simp [hv] at hv'
  simp only [if_neg h2] at h
  rw [Bool.not_eq_false] at h2
  obtain ⟨y1, y2, y3, y4, y5, y6⟩ := step_spec r hn s o.ax0 (hok.unit0 h2)
  generalize hc0 : dot r s o.ax0 = c0 at *
  generalize hsh1 : sub r s (scale r o.ax0 c0) = t1 at *
  obtain ⟨e, hee⟩ : ∃ e, e = t1.elem - (s.elem - c0 • o.ax0.elem) := ⟨_, rfl⟩
  rw [← hee] at y2
  have ht1 : t1.elem = s.elem - c0 • o.ax0.elem + e := by rw [hee]; abel
  have hT0 := len_nonneg t1.elem
  have huL := mul_nonneg hu0.le hL0
  by_cases h3 : dot r t1 s ≤ r (sqrMag r s * eps)
  · simp only [if_pos h3, Prod.mk.injEq, true_and] at h
    rw [← h.1, hv] at hv'; simp at hv'
  simp only [if_neg h3, if_pos hv, Prod.mk.injEq, true_and] at h
  have hbd := bound_spec r hn s he
  have hs1 : t1.elem ≠ 0 := by
    intro hc
    apply h3
    have : dot r t1 s = 0 := by
      rcases dot_or3 r hn t1 s with h | ⟨h, -⟩
      · rw [hc, len_zero, zero_mul, mul_zero] at h; simpa [hc] using h
      · exact h
    rw [this]; exact hbd.2.2
  obtain ⟨x1, x2, x3, x4, x5⟩ := axis_spec r hn t1 hs1
  have hl := len_pos.2 hs1
  have hsk : skew o' = |o.ax0.elem ⬝ᵥ (divBy r t1 (mag r t1)).elem| := by rw [← h.1]; rfl
  generalize (divBy r t1 (mag r t1)).elem = a1 at *
  have hla := (hok.unit0 h2).len
  have hla0 := len_nonneg o.ax0.elem
  -- the inner product of the axes
  obtain ⟨g, hg⟩ : ∃ g, g = a1 - (len t1.elem)⁻¹ • t1.elem := ⟨_, rfl⟩
  rw [← hg] at x5
  have hax : o.ax0.elem ⬝ᵥ a1 = (len t1.elem)⁻¹ * (t1.elem ⬝ᵥ o.ax0.elem) + o.ax0.elem ⬝ᵥ g := by
    rw [show a1 = (len t1.elem)⁻¹ • t1.elem + g by rw [hg]; abel, dotProduct_add, dotProduct_smul, smul_eq_mul, dotProduct_comm t1.elem]
  have hg2 : |o.ax0.elem ⬝ᵥ g| ≤ 13 * u 53 := by
    refine (abs_dot_le_len _ _).trans ((mul_le_mul hla x5 (len_nonneg _) (by positivity)).trans ?_)
    nlinarith
  have key : ∀ B, |t1.elem ⬝ᵥ o.ax0.elem| ≤ B → skew o' * len t1.elem ≤ B + 13 * u 53 * len t1.elem := by
    intro B hB
    rw [hsk, hax]
    have h6 := abs_add_le ((len t1.elem)⁻¹ * (t1.elem ⬝ᵥ o.ax0.elem)) (o.ax0.elem ⬝ᵥ g)
    have h7 := mul_le_mul_of_nonneg_right h6 hT0
    have h8 : |(len t1.elem)⁻¹ * (t1.elem ⬝ᵥ o.ax0.elem)| * len t1.elem = |t1.elem ⬝ᵥ o.ax0.elem| := by
      rw [abs_mul, abs_of_pos (inv_pos.2 hl)]; field_simp
    rw [add_mul, h8] at h7
    nlinarith
  have sk0 := skew_nonneg o'
  have sk1 : skew o' ≤ 11 / 10 := by
    rw [hsk]
    refine (abs_dot_le_len _ _).trans ((mul_le_mul hla x1.len (len_nonneg _) (by positivity)).trans ?_)
    nlinarith
  refine ⟨⟨c0, ?_⟩, fun hee' => ?_⟩
  · have e1 : pd.elem - (o.origin.elem + c0 • o.ax0.elem) = (pd.elem - o.origin.elem - s.elem) + (t1.elem - e) := by rw [ht1]; abel
    have k1 := len_add_le (pd.elem - o.origin.elem - s.elem) (t1.elem - e)
    have k2 := len_triangle t1.elem 0 e
    rw [sub_zero, zero_sub, len_neg] at k2
    rw [len_sub_comm _ s.elem] at k1
    rw [e1]
    have k3 := key _ y4
    have k4 : len (pd.elem - o.origin.elem - s.elem + (t1.elem - e)) ≤ len t1.elem + (5 * u 53 * len s.elem + u 53 * len (pd.elem - o.origin.elem)) := by linarith
    have k5 := mul_le_mul_of_nonneg_left k4 sk0
    have k6 : skew o' * (5 * u 53 * len s.elem + u 53 * len (pd.elem - o.origin.elem)) ≤ 11 / 10 * (5 * u 53 * len s.elem + u 53 * len (pd.elem - o.origin.elem)) :=
      mul_le_mul_of_nonneg_right sk1 (by positivity)
    have k7 := mul_le_mul_of_nonneg_left y5 hu0.le
    have k8 := mul_le_mul_of_nonneg_left hst2 hu0.le
    have huS := mul_nonneg hu0.le hS0
    have k9 := mul_le_mul_of_nonneg_right hu huL
    have k10 := mul_le_mul_of_nonneg_right hu huS
    clear y1 y2 y3 y4 y5 y6 x1 x2 x3 x4 x5 k1 k2 k4 hg2 hla hst1 hst2 hbd
    rw [mul_add (skew o')] at k5
    have k11 : u 53 * ((1 + 50 * u 53) * len s.elem) = u 53 * len s.elem + 50 * (u 53 * (u 53 * len s.elem)) := by ring
    have k12 : u 53 * ((1 + u 53) * len (pd.elem - o.origin.elem)) = u 53 * len (pd.elem - o.origin.elem) + u 53 * (u 53 * len (pd.elem - o.origin.elem)) := by ring
    rw [k11] at k7
    rw [k12] at k8
    linarith
  · have e22 : (2 : ℝ) ^ (-22 : ℤ) = 2147483648 * u 53 := by rw [u53]; norm_num
    rw [e22]
    by_contra hcon
    push Not at hcon
    have q1 := one_axis ht1
    have q2 : |t1.elem ⬝ᵥ e| ≤ len t1.elem * (4 * u 53 * len s.elem) := (abs_dot_le_len _ _).trans (mul_le_mul_of_nonneg_left y2 hT0)
    have L0 : 0 < len s.elem := by
      rcases hL0.eq_or_lt with h | h
      · rw [← h] at y5; linarith
      · exact h
    have D : (1 - 11 * u 53) * eps * len s.elem ^ 2 - 8 * u 53 * (len t1.elem * len s.elem) ≤ t1.elem ⬝ᵥ s.elem := by
      push Not at h3
      rcases dot_or3 r hn t1 s with h | ⟨h, -⟩
      · have := (_root_.abs_le.1 h).2
        linarith
      · rw [h] at h3; linarith
    rw [eps_u] at hee'
    have E : 59 * u 53 * len s.elem ^ 2 ≤ (1 - 11 * u 53) * eps * len s.elem ^ 2 := by
      refine mul_le_mul_of_nonneg_right ?_ (sq_nonneg _)
      nlinarith
    rcases y6 with h | h
    · rw [h, zero_smul, sub_zero] at ht1
      have k1 := len_triangle s.elem t1.elem 0
      rw [sub_zero, sub_zero, show s.elem - t1.elem = -e by rw [ht1]; abel, len_neg] at k1
      have k3 := key _ y4
      have k4 := mul_lt_mul_of_pos_right hcon hl
      nlinarith
    · have k3 := key _ h
      have k4 := mul_lt_mul_of_pos_right hcon hl
      have k5 : 2147483635 * len t1.elem ≤ 40 * len s.elem := by
        by_contra hk; push Not at hk
        have := mul_lt_mul_of_pos_left hk hu0
        linarith
      have z1 := (_root_.abs_le.1 y3).2
      have z2 := (_root_.abs_le.1 q2).1
      have k6 : len t1.elem ≤ 40 / 2147483635 * len s.elem := by linarith
      have k7 : len t1.elem ^ 2 ≤ (40 / 2147483635 * len s.elem) ^ 2 := pow_le_pow_left₀ hT0 k6 2
      have k8 : (40 / 2147483635 : ℝ) ^ 2 ≤ 4 * u 53 := by rw [u53]; norm_num
      have k9 := mul_le_mul_of_nonneg_right k8 (sq_nonneg (len s.elem))
      have k10 := mul_le_mul_of_nonneg_right k6 huL
      have k11 : 0 < u 53 * len s.elem ^ 2 := by positivity
      nlinarith

/-- One step of `convert`. -/
theorem put_spec (r : Rounding 53) (o : Pt n) (a : Vec n) (ha : NearUnit a.elem) (x : ℝ) :
    len ((addVec r o (scale r a x)).elem - (o.elem + x • a.elem)) ≤ u 53 * len o.elem + 3 * u 53 * |x| := by
  have hu0 : 0 < u 53 := u_pos
  have hu : u 53 ≤ 1 / 1000000 := by rw [u53]; norm_num
  have hx := abs_nonneg x
  have h1 := len_round r (x • a.elem)
  have e1 : (fun i => r ((x • a.elem) i)) = (scale r a x).elem := by
    funext i; show r (x * a.elem i) = r (a.elem i * x); rw [mul_comm]
  rw [e1, ← u53, len_smul'] at h1
  have h2 := len_round r (o.elem + (scale r a x).elem)
  have e2 : (fun i => r ((o.elem + (scale r a x).elem) i)) = (addVec r o (scale r a x)).elem := rfl
  rw [e2, ← u53] at h2
  have hla := mul_le_mul_of_nonneg_left ha.len hx
  have h3 := len_add_le o.elem (scale r a x).elem
  have h4 := len_triangle (scale r a x).elem (x • a.elem) 0
  rw [sub_zero, sub_zero, len_smul'] at h4
  have h5 := len_triangle (addVec r o (scale r a x)).elem (o.elem + (scale r a x).elem) (o.elem + x • a.elem)
  rw [show o.elem + (scale r a x).elem - (o.elem + x • a.elem) = (scale r a x).elem - x • a.elem by abel] at h5
  have h6 := mul_le_mul_of_nonneg_left h3 hu0.le
  have h7 := mul_le_mul_of_nonneg_left hla hu0.le
  have h8 : u 53 * len (scale r a x).elem ≤ u 53 * ((1 + u 53) * (|x| * (1 + 13 * u 53))) := by
    refine mul_le_mul_of_nonneg_left ?_ hu0.le
    nlinarith
  have hux := mul_nonneg hu0.le hx
  have h9 : (1 + u 53) * (1 + 13 * u 53) ≤ 1.1 := by nlinarith
  have h10 := mul_le_mul_of_nonneg_right h9 hux
  nlinarith

/-- Reading a corner: the computed point is near the exact one. -/
theorem convert_spec (r : Rounding 53) {o : Orient n} (hok : OrientOk3 o) {p : Pt 2} (h0 : o.origin.valid = true)
    (hx : o.ax0.valid = true ∨ p.elem 0 = 0) (hy : o.ax1.valid = true ∨ p.elem 1 = 0) :
    ∃ c, convert r o p = some c ∧ c.valid = p.valid ∧
      len (c.elem - o.at (p.elem 0) (p.elem 1)) ≤ 3 * u 53 * len o.origin.elem + 5 * u 53 * |p.elem 0| + 3 * u 53 * |p.elem 1| := by
  have hu0 : 0 < u 53 := u_pos
  have hu : u 53 ≤ 1 / 1000000 := by rw [u53]; norm_num
  unfold convert
  rw [if_neg (by simp [h0]), if_neg (by rintro ⟨h, h'⟩; rcases hx with h2 | h2 <;> simp_all), if_neg (by rintro ⟨h, h'⟩; rcases hy with h2 | h2 <;> simp_all)]
  refine ⟨_, rfl, rfl, ?_⟩
  have hO := len_nonneg o.origin.elem
  have hX := abs_nonneg (p.elem 0)
  have hY := abs_nonneg (p.elem 1)
  obtain ⟨out0, ho0⟩ : ∃ q, q = (if o.ax0.valid then addVec r o.origin (scale r o.ax0 (p.elem 0)) else o.origin) := ⟨_, rfl⟩
  have k1 : len (out0.elem - (o.origin.elem + p.elem 0 • o.ax0.elem)) ≤ u 53 * len o.origin.elem + 3 * u 53 * |p.elem 0| := by
    rw [ho0]
    by_cases h : o.ax0.valid = true
    · rw [if_pos h]; exact put_spec r _ _ (hok.unit0 h) _
    · rw [if_neg h, hx.resolve_left h, zero_smul, add_zero, sub_self, len_zero]; positivity
  have k2 : len out0.elem ≤ (1 + u 53) * len o.origin.elem + 1.1 * |p.elem 0| := by
    have t1 := len_triangle out0.elem (o.origin.elem + p.elem 0 • o.ax0.elem) 0
    have t2 := len_add_le o.origin.elem (p.elem 0 • o.ax0.elem)
    rw [sub_zero, sub_zero] at t1
    have t3 : len (p.elem 0 • o.ax0.elem) ≤ (1 + 13 * u 53) * |p.elem 0| := by
      by_cases h : o.ax0.valid = true
      · rw [len_smul', mul_comm]; exact mul_le_mul_of_nonneg_right (hok.unit0 h).len hX
      · rw [hx.resolve_left h, zero_smul, len_zero]; simp
    nlinarith
  rw [← ho0]
  have k3 : len ((if o.ax1.valid then addVec r out0 (scale r o.ax1 (p.elem 1)) else out0).elem - (out0.elem + p.elem 1 • o.ax1.elem)) ≤
      u 53 * len out0.elem + 3 * u 53 * |p.elem 1| := by
    have := len_nonneg out0.elem
    by_cases h : o.ax1.valid = true
    · rw [if_pos h]; exact put_spec r _ _ (hok.unit1 h) _
    · rw [if_neg h, hy.resolve_left h, zero_smul, add_zero, sub_self, len_zero]; positivity
  simp only
  generalize (if o.ax1.valid then addVec r out0 (scale r o.ax1 (p.elem 1)) else out0).elem = c at *
  have k4 := len_triangle c (out0.elem + p.elem 1 • o.ax1.elem) (o.at (p.elem 0) (p.elem 1))
  rw [show out0.elem + p.elem 1 • o.ax1.elem - o.at (p.elem 0) (p.elem 1) = out0.elem - (o.origin.elem + p.elem 0 • o.ax0.elem) by
    unfold Orient.at; abel] at k4
  have k5 := mul_le_mul_of_nonneg_left k2 hu0.le
  have k6 := mul_nonneg hu0.le hO
  have k7 := mul_nonneg hu0.le hX
  nlinarith

end WFMath.Fl
