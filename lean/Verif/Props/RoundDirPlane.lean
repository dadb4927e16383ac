/- Property theorems C139, continued: rotations in the plane of two vectors. -/
import Verif.Props.RoundDir

namespace WFMath
open Spec Matrix Gauss
open WFMath.Spec.Rounding (u u_pos)
variable {n : Nat}

namespace Fl

/-- Vectors that are clearly not parallel pass the test for parallel vectors. -/
theorem not_colinear (r : Rounding 53) (hn : n ≤ 3) (a x : Vec n) (ha : 0 < len a.elem) (h : 2 ^ (-31 : ℤ) * len a.elem ≤ len x.elem) :
    ¬ r (sqrMag r x / sqrMag r a) < r (r (n * epsilon) * epsilon) := by
  rw [not_lt]
  refine r.mono ?_
  have hn' : (n : ℝ) ≤ 3 := by exact_mod_cast hn
  have he := epsilon_pos
  have h1 : r (n * epsilon) ≤ 256 * u 53 := by
    refine r.le_fl (by rw [u53, show (256 : ℝ) * 2 ^ (-53 : ℤ) = 2 ^ (-45 : ℤ) by norm_num]; exact IsFl.zpow pos53 _) ?_
    rw [eps_u]; nlinarith [u_pos (p := 53)]
  have h2 : r (n * epsilon) * epsilon ≤ 2 ^ (-80 : ℤ) := by
    refine (mul_le_mul_of_nonneg_right h1 he.le).trans ?_
    rw [eps_u, u53]; norm_num
  refine h2.trans ?_
  have hs := ((sqrMag_close r x).div pos53 (sqrMag_close r a))
  have hx : x.sqrMag = len x.elem ^ 2 := by rw [len_sq]; exact Vec.sqrMag_eq x
  have ha' : a.sqrMag = len a.elem ^ 2 := by rw [len_sq]; exact Vec.sqrMag_eq a
  have hq : (2 : ℝ) ^ (-62 : ℤ) ≤ x.sqrMag / a.sqrMag := by
    rw [hx, ha', le_div_iff₀ (by positivity)]
    have := mul_self_le_mul_self (by positivity) h
    norm_num at this ⊢
    nlinarith
  have h3 := Close_u hs (by norm_num; omega)
  have hu : 2 * ((1 + n + (1 + n) : Nat) : ℝ) * u 53 ≤ 1 / 2 := by
    rw [u53]; push_cast; norm_num; linarith
  have h4 : 0 ≤ x.sqrMag / a.sqrMag := le_trans (by positivity) hq
  rw [abs_of_nonneg h4] at h3
  have h5 := (_root_.abs_le.1 h3).1
  have h6 := mul_le_mul_of_nonneg_right hu h4
  norm_num at hq ⊢
  linarith

end Fl

/-- C139, in part: `rotation(v1, v2, theta)` in doubles, for vectors that are not nearly parallel. With `P` the part of `v2` perpendicular to `v1`, it succeeds and is the rotation
that turns `v1` by `theta` towards `P` and fixes everything perpendicular to both, up to `2^-39 |v2| / |P|` of every length. For parallel vectors, and `v1` not long compared with
`v2`, what is computed may be no rotation at all: `C139_false`. -/
theorem C139_plane_partial (r : Rounding 53) (T : Trig) (hn : n ≤ 3) (v1 v2 : Vec n) (θ : ℝ) (P : Fin n → ℝ)
    (hP : P = v2.elem - ((v1.elem ⬝ᵥ v2.elem) / (v1.elem ⬝ᵥ v1.elem)) • v1.elem) (h1 : 1 ≤ len v1.elem) (hP1 : 2 ^ (-30 : ℤ) * len v1.elem ≤ len P)
    (hP2 : 2 ^ (-30 : ℤ) * len v2.elem ≤ len P) :
    ∃ m R, Fl.rotationPlane r T v1 v2 θ = .ok m ∧ R * Rᵀ = 1 ∧ R.det = 1 ∧
      v1.elem ᵥ* R = Real.cos θ • v1.elem + (Real.sin θ * len v1.elem / len P) • P ∧
      P ᵥ* R = Real.cos θ • P - (Real.sin θ * len P / len v1.elem) • v1.elem ∧
      (∀ x : Fin n → ℝ, x ⬝ᵥ v1.elem = 0 → x ⬝ᵥ v2.elem = 0 → x ᵥ* R = x) ∧
      Stands m.elem R (2 ^ (-39 : ℤ) * (len v2.elem / len P)) ∧ m.flip = false ∧ m.valid = true ∧ m.age = 1 := by
  have hu0 : 0 < u 53 := u_pos
  have hu : u 53 ≤ 1 / 1000000 := by rw [Fl.u53]; norm_num
  have l1 : 0 < len v1.elem := by linarith
  have lP : 0 < len P := lt_of_lt_of_le (by positivity) hP1
  have n1 : v1.elem ≠ 0 := len_pos.1 l1
  have nP : P ≠ 0 := len_pos.1 lP
  have hPa : P = Fl.across v1.elem v2.elem := hP
  have l2 : len P ≤ len v2.elem := by rw [hPa]; exact Fl.across_le _ _ n1
  -- the exact directions
  set p : Vec n := ⟨P, true⟩ with hp
  have ho : v1.elem ⬝ᵥ P = 0 := by
    have : v1.elem ⬝ᵥ v1.elem ≠ 0 := by rw [← len_sq]; positivity
    rw [hP, dotProduct_sub, dotProduct_smul, smul_eq_mul, div_mul_cancel₀ _ this, sub_self]
  have orth : Orthonormal2 (RotMat.unit v1) (RotMat.unit p) :=
    ⟨RotMat.unit_self n1, RotMat.unit_self (v := p) nP, by rw [RotMat.unit_dot, show p.elem = P from rfl, ho, zero_div]⟩
  have hun : ∀ {v : Vec n}, v.elem ≠ 0 → v.elem = v.mag • RotMat.unit v := by
    intro v hv
    unfold RotMat.unit
    rw [smul_smul, mul_inv_cancel₀ (Vec.mag_pos.2 hv).ne', one_smul]
  -- the computed part perpendicular to v1
  generalize hvp : Fl.vperp r v1 v2 = vp
  have near : len (vp.elem - P) ≤ 150 * u 53 * len v2.elem := by rw [← hvp, hPa]; exact Fl.vperp_near r hn v1 v2 h1
  have small : 150 * u 53 * len v2.elem ≤ 2 ^ (-15 : ℤ) * len P := by
    have := mul_le_mul_of_nonneg_left hP2 (by positivity : (0 : ℝ) ≤ 2 ^ (15 : ℤ) / 200)
    rw [Fl.u53]; norm_num at this ⊢; nlinarith [len_nonneg v2.elem]
  have lvp : len P / 2 ≤ len vp.elem := by
    have := len_triangle P vp.elem 0
    rw [sub_zero, sub_zero, len_sub_comm P] at this
    norm_num at small
    linarith
  have nvp : vp.elem ≠ 0 := len_pos.1 (by linarith)
  set η := 300 * u 53 * (len v2.elem / len P) with hη
  have hη0 : 0 ≤ η := by have := len_nonneg v2.elem; positivity
  have hη1 : η ≤ 1 / 100 := by
    rw [hη, mul_div_assoc', div_le_iff₀ lP]; norm_num at small; linarith
  have hratio : 1 ≤ len v2.elem / len P := by rw [le_div_iff₀ lP]; linarith
  have dirs : ∀ i, |RotMat.unit vp i - RotMat.unit p i| ≤ η := fun i => by
    have h := (abs_le_len (RotMat.unit vp - RotMat.unit p) i).trans (Fl.unit_near vp p nvp nP)
    refine h.trans ?_
    rw [show p.elem = P from rfl, hη, mul_div_assoc', div_le_div_iff_of_pos_right lP]
    linarith
  have hs1 : 0 < Fl.sqrMag r v1 := (Fl.sqrMag_close r v1).pos Fl.pos53 (Vec.sqrMag_pos.2 n1)
  have hpar := Fl.not_colinear r hn v1 vp l1 (by norm_num at hP1 ⊢; linarith)
  generalize hmp : r (Real.sqrt (r (Fl.sqrMag r v1 * Fl.sqrMag r vp))) = N'
  have hN' : Close 53 10 N' (v1.mag * vp.mag) := by
    rw [← hmp, show v1.mag * vp.mag = Real.sqrt (v1.sqrMag * vp.sqrMag) by rw [Real.sqrt_mul (Vec.sqrMag_nonneg v1)]; rfl]
    exact ((((((Fl.sqrMag_close r v1).mul Fl.pos53 (Fl.sqrMag_close r vp)).round Fl.pos53 r).sqrt Fl.pos53).round Fl.pos53 r).mono Fl.pos53 (by omega))
  obtain ⟨A, hA⟩ : ∃ A : Matrix (Fin n) (Fin n) ℝ, A = Matrix.of fun i j => r ((if i = j then 1 else 0) +
          r (r (r (T.cos θ - 1) * r (r (r (v1.elem i * v1.elem j) / Fl.sqrMag r v1) + r (r (vp.elem i * vp.elem j) / Fl.sqrMag r vp)))
            - r (r (T.sin θ * r (r (vp.elem i * v1.elem j) - r (v1.elem i * vp.elem j))) / N'))) := ⟨_, rfl⟩
  refine ⟨⟨A, false, true, 1⟩, planeMat (RotMat.unit v1) (RotMat.unit p) (Real.cos θ) (Real.sin θ), ?_, planeMat_orth orth (Real.cos_sq_add_sin_sq θ), planeMat_det orth θ, ?_, ?_, ?_, ?_, rfl, rfl, rfl⟩
  · rw [Fl.rotationPlane, if_neg (not_not.2 hs1)]
    simp only
    rw [hvp, if_neg hpar, hmp, hA]
  · conv_lhs => rw [hun n1]
    conv_rhs => rw [hun n1, show P = p.mag • RotMat.unit p from hun (v := p) nP]
    rw [smul_vecMul, vecMul_planeMat, orth.uu, orth.uw, smul_smul, smul_smul]
    have e1 : len (v1.mag • RotMat.unit v1) = v1.mag := by rw [← hun n1]; rfl
    have e2 : len (p.mag • RotMat.unit p) = p.mag := by rw [← hun (v := p) nP]; rfl
    rw [e1, e2, div_mul_cancel₀ _ (Vec.mag_pos.2 (show p.elem ≠ 0 from nP)).ne']
    module
  · conv_lhs => rw [show P = p.mag • RotMat.unit p from hun (v := p) nP]
    conv_rhs => rw [hun n1, show P = p.mag • RotMat.unit p from hun (v := p) nP]
    rw [smul_vecMul, vecMul_planeMat, orth.ww, orth.wu, smul_smul, smul_smul]
    have e1 : len (v1.mag • RotMat.unit v1) = v1.mag := by rw [← hun n1]; rfl
    have e2 : len (p.mag • RotMat.unit p) = p.mag := by rw [← hun (v := p) nP]; rfl
    rw [e1, e2, div_mul_cancel₀ _ (Vec.mag_pos.2 n1).ne']
    module
  · intro x hx1 hx2
    have e1 : x ⬝ᵥ RotMat.unit v1 = 0 := by unfold RotMat.unit; rw [dotProduct_smul, hx1, smul_zero]
    have e2 : x ⬝ᵥ RotMat.unit p = 0 := by
      unfold RotMat.unit; rw [dotProduct_smul, show p.elem = P from rfl, hP, dotProduct_sub, dotProduct_smul, hx1, hx2]; simp
    rw [vecMul_planeMat, e1, e2]; module
  · have e52 : (2 : ℝ) ^ (-52 : ℤ) = 2 * u 53 := by rw [Fl.u53]; norm_num
    have hc := T.cos_err θ
    have hs := T.sin_err θ
    rw [e52] at hc hs
    have hn' : (n : ℝ) ≤ 3 := by exact_mod_cast hn
    have big : n + 3 ≤ 2 ^ 52 := by norm_num; omega
    have proj : ∀ (v : Vec n) (i j : Fin n), |r (r (v.elem i * v.elem j) / Fl.sqrMag r v) - RotMat.unit v i * RotMat.unit v j| ≤ 12 * u 53 := fun v i j => by
      refine (Fl.Close_u (Fl.proj_close r v i j) big).trans ?_
      have h4 : 2 * ((n + 3 : Nat) : ℝ) * u 53 ≤ 12 * u 53 := by push_cast; nlinarith
      calc _ ≤ 12 * u 53 * 1 := mul_le_mul h4 (Fl.unit_prod_le v v i j) (abs_nonneg _) (by positivity)
        _ = _ := by ring
    have N0 : 0 < v1.mag * vp.mag := mul_pos (Vec.mag_pos.2 n1) (Vec.mag_pos.2 nvp)
    have key := Fl.stands_of_entries (n := n) (A := A)
      (B := planeMat (RotMat.unit v1) (RotMat.unit p) (Real.cos θ) (Real.sin θ)) (η := 180 * u 53 + 9 * η) (by positivity) fun i j => by
        rw [planeMat_apply, hA, Matrix.of_apply, add_sub_assoc]
        refine Fl.plane_entry r hη0 hη1 (proj v1 i j) (Fl.unit_prod_le v1 v1 i j) ?_ (Fl.unit_prod_le p p i j) hc (Real.abs_cos_le_one θ) ?_ ?_ (by split_ifs <;> simp)
        · refine (abs_sub_le _ (RotMat.unit vp i * RotMat.unit vp j) _).trans (add_le_add (proj vp i j) ?_)
          have := Fl.mul_near (dirs i) (dirs j) (Fl.unit_le vp i) (Fl.unit_le p j)
          linarith
        · have b1 : |vp.elem i * v1.elem j| ≤ v1.mag * vp.mag := by
            rw [abs_mul, mul_comm]; exact mul_le_mul (abs_le_len _ _) (abs_le_len _ _) (abs_nonneg _) (len_nonneg _)
          have b2 : |v1.elem i * vp.elem j| ≤ v1.mag * vp.mag := by
            rw [abs_mul]; exact mul_le_mul (abs_le_len _ _) (abs_le_len _ _) (abs_nonneg _) (len_nonneg _)
          have h5 := Fl.plane_skew r N0 b1 b2 hs (Real.abs_sin_le_one θ) hN'
          have e1 : vp.elem i * v1.elem j / (v1.mag * vp.mag) = RotMat.unit vp i * RotMat.unit v1 j := by rw [RotMat.unit_mul, mul_comm v1.mag]
          have e2 : v1.elem i * vp.elem j / (v1.mag * vp.mag) = RotMat.unit v1 i * RotMat.unit vp j := by rw [RotMat.unit_mul]
          rw [e1, e2] at h5
          refine (abs_sub_le _ _ _).trans (add_le_add h5 ?_)
          rw [← mul_sub, abs_mul, show RotMat.unit vp i * RotMat.unit v1 j - RotMat.unit v1 i * RotMat.unit vp j - (RotMat.unit p i * RotMat.unit v1 j - RotMat.unit v1 i * RotMat.unit p j)
            = (RotMat.unit vp i - RotMat.unit p i) * RotMat.unit v1 j - RotMat.unit v1 i * (RotMat.unit vp j - RotMat.unit p j) by ring]
          have b3 : |(RotMat.unit vp i - RotMat.unit p i) * RotMat.unit v1 j - RotMat.unit v1 i * (RotMat.unit vp j - RotMat.unit p j)| ≤ 2 * η := by
            refine (abs_sub _ _).trans ?_
            rw [abs_mul, abs_mul]
            have c1 := mul_le_mul (dirs i) (Fl.unit_le v1 j) (abs_nonneg _) hη0
            have c2 := mul_le_mul (Fl.unit_le v1 i) (dirs j) (abs_nonneg _) zero_le_one
            linarith
          exact mul_le_of_le_one_left (abs_nonneg _) (Real.abs_sin_le_one θ) |>.trans b3
        · rw [abs_mul]
          have b4 : |RotMat.unit p i * RotMat.unit v1 j - RotMat.unit v1 i * RotMat.unit p j| ≤ 2 :=
            (abs_sub _ _).trans (by linarith [Fl.unit_prod_le p v1 i j, Fl.unit_prod_le v1 p i j])
          exact (mul_le_of_le_one_left (abs_nonneg _) (Real.abs_sin_le_one θ)).trans b4
    intro x
    refine (key x).trans (mul_le_mul_of_nonneg_right ?_ (len_nonneg x))
    have e40 : (2 : ℝ) ^ (-39 : ℤ) = 16384 * u 53 := by rw [Fl.u53]; norm_num
    have h6 : 180 * u 53 + 9 * η ≤ 2700 * u 53 * (len v2.elem / len P) + 180 * u 53 * (len v2.elem / len P) := by
      rw [hη]; nlinarith
    rw [e40]
    have h7 : 0 ≤ 180 * u 53 + 9 * η := by positivity
    have h8 := mul_le_mul_of_nonneg_right hn' h7
    have h9 : 0 ≤ u 53 * (len v2.elem / len P) := by positivity
    linarith

/-- Two vectors at 45 degrees. -/
example (r : Rounding 53) (T : Trig) : ∃ m R, Fl.rotationPlane r T (⟨![2, 0, 0], true⟩ : Vec 3) ⟨![1, 1, 0], true⟩ 1 = .ok m ∧ R * Rᵀ = 1 ∧ Stands m.elem R (2 ^ (-38 : ℤ)) := by
  have e : (![0, 1, 0] : Fin 3 → ℝ) = ![1, 1, 0] - (((![2, 0, 0] : Fin 3 → ℝ) ⬝ᵥ ![1, 1, 0]) / ((![2, 0, 0] : Fin 3 → ℝ) ⬝ᵥ ![2, 0, 0])) • ![2, 0, 0] := by
    funext i; fin_cases i <;> simp [dotProduct, Fin.sum_univ_three]
  have l0 : len (![0, 1, 0] : Fin 3 → ℝ) = 1 := by simp [len, dotProduct, Fin.sum_univ_three]
  have l1 : len (![2, 0, 0] : Fin 3 → ℝ) = 2 := by
    unfold len; rw [Real.sqrt_eq_iff_mul_self_eq] <;> simp [dotProduct, Fin.sum_univ_three]
  have l2 : len (![1, 1, 0] : Fin 3 → ℝ) ≤ 2 := by
    refine Real.sqrt_le_iff.2 ⟨by norm_num, ?_⟩; simp [dotProduct, Fin.sum_univ_three]; norm_num
  obtain ⟨m, R, h1, h2, -, -, -, -, h3, -⟩ := C139_plane_partial r T le_rfl ⟨![2, 0, 0], true⟩ ⟨![1, 1, 0], true⟩ 1 ![0, 1, 0] e (by rw [l1]; norm_num)
    (by rw [l0, l1]; norm_num) (by rw [l0]; norm_num; linarith)
  refine ⟨m, R, h1, h2, fun v => (h3 v).trans (mul_le_mul_of_nonneg_right ?_ (len_nonneg v))⟩
  rw [l0, div_one]
  norm_num; linarith

end WFMath
