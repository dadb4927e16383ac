/- Lemmas for C139: the computed products of the components of unit vectors, the computed part of one vector perpendicular to another. -/
import Verif.Model.RoundedDir
import Verif.Props.RoundMatrix
import Verif.Lemmas.RoundSetVals

namespace WFMath
open Spec Matrix Gauss
open WFMath.Spec.Rounding (u u_pos)
variable {n : Nat}

namespace Fl

theorem stands_of_entries {A B : Matrix (Fin n) (Fin n) ℝ} {η : ℝ} (h0 : 0 ≤ η) (h : ∀ i j, |A i j - B i j| ≤ η) : Stands A B (n * η) := fun v => by
  rw [← sub_mulVec]
  have h1 : ∀ i, len ((A - B) i) ≤ √n * η := fun i => len_comp_le h0 fun j => h i j
  have h2 : ∀ i, |((A - B) *ᵥ v) i| ≤ √n * η * len v := fun i =>
    (abs_dot_le_len _ _).trans (mul_le_mul_of_nonneg_right (h1 i) (len_nonneg _))
  refine (len_comp_le (by have := len_nonneg v; positivity) h2).trans (le_of_eq ?_)
  have : √(n : ℝ) * √(n : ℝ) = n := Real.mul_self_sqrt (Nat.cast_nonneg n)
  calc √(n : ℝ) * (√n * η * len v) = (√n * √n) * η * len v := by ring
    _ = _ := by rw [this]

theorem unit_le (v : Vec n) (i : Fin n) : |RotMat.unit v i| ≤ 1 := by
  by_cases hv : v.elem = 0
  · simp [RotMat.unit, hv]
  · have h := abs_le_len (RotMat.unit v) i
    have e : len (RotMat.unit v) = 1 := by unfold len; rw [RotMat.unit_self hv, Real.sqrt_one]
    rwa [e] at h

theorem unit_prod_le (v w : Vec n) (i j : Fin n) : |RotMat.unit v i * RotMat.unit w j| ≤ 1 := by
  rw [abs_mul]
  exact mul_le_one₀ (unit_le v i) (abs_nonneg _) (unit_le w j)

/-- An error bound for `Close` in units of `u`. -/
theorem Close_u {k : Nat} {x' x : ℝ} (h : Close 53 k x' x) (hk : k ≤ 2 ^ 52) : |x' - x| ≤ 2 * k * u 53 * |x| := by
  have := Close_err' h hk
  have e : (2 : ℝ) ^ (-52 : ℤ) = 2 * u 53 := by rw [u53]; norm_num
  rw [e] at this
  linarith

/-- The projection on the direction of a vector, component by component. -/
theorem proj_close (r : Rounding 53) (v : Vec n) (i j : Fin n) : Close 53 (n + 3) (r (r (v.elem i * v.elem j) / sqrMag r v)) (RotMat.unit v i * RotMat.unit v j) := by
  rw [RotMat.unit_mul_self]
  have := (((Close.round_self pos53 r (v.elem i * v.elem j)).div pos53 (sqrMag_close r v)).round pos53 r)
  rwa [show 1 + (1 + n) + 1 = n + 3 by ring] at this

theorem mirror_close (r : Rounding 53) (v : Vec n) (c : ℝ) (i j : Fin n) :
    Close 53 (n + 4) (r (r (r (c * v.elem i) * v.elem j) / sqrMag r v)) (c * (RotMat.unit v i * RotMat.unit v j)) := by
  rw [RotMat.unit_mul_self]
  have h1 := (((Close.round_self pos53 r (c * v.elem i)).mul pos53 (Close.refl pos53 0 (v.elem j))).round pos53 r)
  have := ((h1.div pos53 (sqrMag_close r v)).round pos53 r)
  rwa [show 1 + 0 + 1 + (1 + n) + 1 = n + 4 by ring, show c * v.elem i * v.elem j / v.sqrMag = c * (v.elem i * v.elem j / v.sqrMag) by ring] at this

/-- One rounding of a number up to `B`. -/
theorem rnd_err (r : Rounding 53) {x y e B : ℝ} (h : |x - y| ≤ e) (hB : |x| ≤ B) : |r x - y| ≤ e + u 53 * B := by
  have h1 := r.err pos53 x
  have h2 := abs_sub_le (r x) x y
  have h3 := mul_le_mul_of_nonneg_left hB (u_pos (p := 53)).le
  linarith

theorem mul_near {a' a b' b α β A B : ℝ} (ha : |a' - a| ≤ α) (hb : |b' - b| ≤ β) (hA : |a'| ≤ A) (hB : |b| ≤ B) : |a' * b' - a * b| ≤ A * β + α * B := by
  rw [show a' * b' - a * b = a' * (b' - b) + (a' - a) * b by ring]
  refine (abs_add_le _ _).trans ?_
  rw [abs_mul, abs_mul]
  exact add_le_add (mul_le_mul hA hb (abs_nonneg _) ((abs_nonneg _).trans hA)) (mul_le_mul ha hB (abs_nonneg _) ((abs_nonneg _).trans ha))

theorem abs_of_near {x y e B : ℝ} (h : |x - y| ≤ e) (hB : |y| ≤ B) : |x| ≤ B + e := by
  have := abs_sub_abs_le_abs_sub x y
  linarith

/-- One element of the matrix of a rotation in a plane, from its parts. -/
theorem plane_entry (r : Rounding 53) {α A β B c' c τ D δ η : ℝ} (h0 : 0 ≤ η) (hη : η ≤ 1 / 100) (hα : |α - A| ≤ 12 * u 53) (hA : |A| ≤ 1) (hβ : |β - B| ≤ 12 * u 53 + 2 * η) (hB : |B| ≤ 1)
    (hc : |c' - c| ≤ 2 * u 53) (hC : |c| ≤ 1) (hτ : |τ - D| ≤ 57 * u 53 + 2 * η) (hD : |D| ≤ 2) (hδ : |δ| ≤ 1) :
    |r (δ + r (r (r (c' - 1) * r (α + β)) - τ)) - (δ + ((c - 1) * (A + B) - D))| ≤ 180 * u 53 + 9 * η := by
  have hu0 : 0 < u 53 := u_pos
  have hu : u 53 ≤ 1 / 1000000 := by rw [u53]; norm_num
  have g1 : |α + β - (A + B)| ≤ 24 * u 53 + 2 * η := by
    rw [show α + β - (A + B) = (α - A) + (β - B) by ring]; exact (abs_add_le _ _).trans (by linarith)
  have G : |A + B| ≤ 2 := (abs_add_le _ _).trans (by linarith)
  have g2 := rnd_err r g1 (B := 3) ((abs_of_near g1 G).trans (by linarith))
  have c1 : |c' - 1 - (c - 1)| ≤ 2 * u 53 := by rw [sub_sub_sub_cancel_right]; exact hc
  have C1 : |c - 1| ≤ 2 := (abs_sub _ _).trans (by rw [abs_one]; linarith)
  have c2 := rnd_err r c1 (B := 3) ((abs_of_near c1 C1).trans (by linarith))
  have p1 := mul_near c2 g2 (A := 21 / 10) ((abs_of_near c2 C1).trans (by linarith)) G
  have P1 : |(c - 1) * (A + B)| ≤ 4 := by rw [abs_mul]; nlinarith [abs_nonneg (c - 1), abs_nonneg (A + B)]
  have p2 := rnd_err r p1 (B := 5) ((abs_of_near p1 P1).trans (by linarith))
  have q1 : |r (r (c' - 1) * r (α + β)) - τ - ((c - 1) * (A + B) - D)| ≤ 140 * u 53 + 8 * η := by
    rw [show r (r (c' - 1) * r (α + β)) - τ - ((c - 1) * (A + B) - D) = (r (r (c' - 1) * r (α + β)) - (c - 1) * (A + B)) - (τ - D) by ring]
    exact (abs_sub _ _).trans (by linarith)
  have Q1 : |(c - 1) * (A + B) - D| ≤ 6 := (abs_sub _ _).trans (by linarith)
  have q2 := rnd_err r q1 (B := 7) ((abs_of_near q1 Q1).trans (by linarith))
  have s1 : |δ + r (r (r (c' - 1) * r (α + β)) - τ) - (δ + ((c - 1) * (A + B) - D))| ≤ 147 * u 53 + 8 * η := by
    rw [add_sub_add_left_eq_sub]; linarith
  have S1 : |δ + ((c - 1) * (A + B) - D)| ≤ 7 := (abs_add_le _ _).trans (by linarith)
  have s2 := rnd_err r s1 (B := 8) ((abs_of_near s1 S1).trans (by linarith))
  linarith

/-- The antisymmetric part. -/
theorem plane_skew (r : Rounding 53) {a b c d s' s N N' : ℝ} (hN : 0 < N) (hab : |a * b| ≤ N) (hcd : |c * d| ≤ N) (hs : |s' - s| ≤ 2 * u 53) (hS : |s| ≤ 1) (hN' : Close 53 10 N' N) :
    |r (r (s' * r (r (a * b) - r (c * d))) / N') - s * (a * b / N - c * d / N)| ≤ 57 * u 53 := by
  have hu0 : 0 < u 53 := u_pos
  have hu : u 53 ≤ 1 / 1000000 := by rw [u53]; norm_num
  have x1 := rnd_err r (x := a * b) (y := a * b) (e := 0) (by simp) hab
  have y1 := rnd_err r (x := c * d) (y := c * d) (e := 0) (by simp) hcd
  have z1 : |r (a * b) - r (c * d) - (a * b - c * d)| ≤ 2 * u 53 * N := by
    rw [show r (a * b) - r (c * d) - (a * b - c * d) = (r (a * b) - a * b) - (r (c * d) - c * d) by ring]
    exact (abs_sub _ _).trans (by linarith)
  have Z : |a * b - c * d| ≤ 2 * N := (abs_sub _ _).trans (by linarith)
  have z2 := rnd_err r z1 (B := 21 / 10 * N) ((abs_of_near z1 Z).trans (by nlinarith))
  have S' : |s'| ≤ 101 / 100 := (abs_of_near hs hS).trans (by linarith)
  have w1 := mul_near hs z2 S' Z
  have W : |s * (a * b - c * d)| ≤ 2 * N := by rw [abs_mul]; nlinarith [abs_nonneg s, abs_nonneg (a * b - c * d)]
  have w2 := rnd_err r w1 (B := 21 / 10 * N) ((abs_of_near w1 W).trans (by nlinarith))
  generalize r (s' * r (r (a * b) - r (c * d))) = ζ at w2 ⊢
  have w3 : |ζ - s * (a * b - c * d)| ≤ 12 * u 53 * N := by nlinarith
  have q1 : |ζ / N - s * (a * b / N - c * d / N)| ≤ 12 * u 53 := by
    rw [show ζ / N - s * (a * b / N - c * d / N) = (ζ - s * (a * b - c * d)) / N by field_simp, abs_div, abs_of_pos hN, div_le_iff₀ hN]
    exact w3
  have Q : |s * (a * b / N - c * d / N)| ≤ 2 := by
    rw [show s * (a * b / N - c * d / N) = s * (a * b - c * d) / N by field_simp, abs_div, abs_of_pos hN, div_le_iff₀ hN]
    exact W
  have Q' := abs_of_near q1 Q
  have t1 := Close_u ((Close.refl pos53 0 ζ).div pos53 hN') (by norm_num)
  have t2 : |ζ / N' - ζ / N| ≤ 41 * u 53 := t1.trans (by push_cast; nlinarith [abs_nonneg (ζ / N)])
  have t3 : |ζ / N' - s * (a * b / N - c * d / N)| ≤ 53 * u 53 := (abs_sub_le _ (ζ / N) _).trans (by linarith)
  have t4 := rnd_err r t3 (B := 21 / 10) ((abs_of_near t3 Q).trans (by linarith))
  linarith

/-- The direction of a vector that is off. -/
theorem unit_near (x y : Vec n) (hx : x.elem ≠ 0) (hy : y.elem ≠ 0) : len (RotMat.unit x - RotMat.unit y) ≤ 2 * len (x.elem - y.elem) / len y.elem := by
  have hly := len_pos.2 hy
  have hlx := len_pos.2 hx
  rw [le_div_iff₀ hly]
  have e1 : RotMat.unit x - RotMat.unit y = (len x.elem)⁻¹ • x.elem - (len y.elem)⁻¹ • y.elem := rfl
  have e2 : (len y.elem) • (RotMat.unit x - RotMat.unit y) = (x.elem - y.elem) + ((len y.elem - len x.elem) * (len x.elem)⁻¹) • x.elem := by
    rw [e1, smul_sub, smul_smul, smul_smul, mul_inv_cancel₀ hly.ne', one_smul, sub_mul, mul_inv_cancel₀ hlx.ne']
    module
  have h1 : len (RotMat.unit x - RotMat.unit y) * len y.elem = len ((x.elem - y.elem) + ((len y.elem - len x.elem) * (len x.elem)⁻¹) • x.elem) := by
    rw [← e2, len_smul, abs_of_pos hly, mul_comm]
  rw [h1]
  refine (len_add_le _ _).trans ?_
  rw [len_smul, abs_mul, abs_inv, abs_of_pos hlx, mul_assoc, inv_mul_cancel₀ hlx.ne', mul_one]
  have h2 : |len y.elem - len x.elem| ≤ len (x.elem - y.elem) := by
    have a1 := len_triangle x.elem y.elem 0
    have a2 := len_triangle y.elem x.elem 0
    rw [sub_zero, sub_zero] at a1 a2
    rw [len_sub_comm y.elem] at a2
    rw [_root_.abs_le]; constructor <;> linarith
  linarith

theorem sum_abs_le_len (a b : Fin n → ℝ) : ∑ i, |a i * b i| ≤ len a * len b := by
  have e : ∑ i, |a i * b i| = (fun i => |a i|) ⬝ᵥ fun i => |b i| := by
    unfold dotProduct; exact Finset.sum_congr rfl fun i _ => abs_mul _ _
  have h4 : ∀ x : Fin n → ℝ, len (fun i => |x i|) = len x := fun x => by
    unfold len dotProduct; congr 1; exact Finset.sum_congr rfl fun i _ => abs_mul_abs_self _
  rw [e, ← h4 a, ← h4 b]
  exact dot_le_len _ _

/-- `Dot` with its cut-off, when one of the vectors is not short. -/
theorem dot_near (r : Rounding 53) (hn : n ≤ 3) (a b : Vec n) (h : 1 ≤ len a.elem ∨ 1 ≤ len b.elem) :
    |dot r a b - a.elem ⬝ᵥ b.elem| ≤ 128 * u 53 * (len a.elem * len b.elem) := by
  have hu0 : 0 < u 53 := u_pos
  have e52 : (2 : ℝ) ^ (-52 : ℤ) = 2 * u 53 := by rw [u53]; norm_num
  have hn' : (n : ℝ) ≤ 3 := by exact_mod_cast hn
  have hs := sum_abs_le_len a.elem b.elem
  have h0 := Finset.sum_nonneg (s := Finset.univ) fun i (_ : i ∈ Finset.univ) => abs_nonneg (a.elem i * b.elem i)
  have hL : (n + 1) * 2 ^ (-52 : ℤ) * ∑ i, |a.elem i * b.elem i| ≤ 8 * u 53 * (len a.elem * len b.elem) := by
    rw [e52]
    exact mul_le_mul (by nlinarith) hs h0 (by positivity)
  have la := len_nonneg a.elem
  have lb := len_nonneg b.elem
  rcases C118_dot r a b (by norm_num; omega) with h1 | ⟨h1, h2⟩
  · nlinarith [mul_nonneg la lb]
  · rw [h1, zero_sub, abs_neg]
    refine h2.trans ?_
    have h3 : min (maxAbs a.elem) (maxAbs b.elem) ≤ len a.elem * len b.elem := by
      rcases h with h | h
      · refine (min_le_right _ _).trans ((Vec.maxAbs_le_mag b).trans ?_)
        rw [mag_eq_len]; nlinarith
      · refine (min_le_left _ _).trans ((Vec.maxAbs_le_mag a).trans ?_)
        rw [mag_eq_len]; nlinarith
    rw [eps_u]
    nlinarith [mul_le_mul_of_nonneg_left h3 (by positivity : 0 ≤ 2 * (60 * u 53))]

/-- The exact part of `b` perpendicular to `a`. -/
noncomputable def across (a b : Fin n → ℝ) : Fin n → ℝ := b - ((a ⬝ᵥ b) / (a ⬝ᵥ a)) • a

theorem across_le (a b : Fin n → ℝ) (ha : a ≠ 0) : len (across a b) ≤ len b := by
  have haa : 0 < a ⬝ᵥ a := by rw [← len_sq]; have := len_pos.2 ha; positivity
  have h : len (across a b) ^ 2 ≤ len b ^ 2 := by
    rw [len_sq, len_sq]
    unfold across
    rw [sub_dotProduct, dotProduct_sub, dotProduct_sub, dotProduct_smul, smul_dotProduct, smul_dotProduct, dotProduct_smul]
    simp only [smul_eq_mul]
    rw [dotProduct_comm b a]
    have : 0 ≤ (a ⬝ᵥ b) / (a ⬝ᵥ a) * (a ⬝ᵥ b) := by rw [div_mul_eq_mul_div]; exact div_nonneg (mul_self_nonneg _) haa.le
    rw [div_mul_cancel₀ _ haa.ne']
    linarith
  exact abs_le_of_sq_le_sq' h (len_nonneg _) |>.2

theorem vperp_near (r : Rounding 53) (hn : n ≤ 3) (a b : Vec n) (h : 1 ≤ len a.elem) : len ((vperp r a b).elem - across a.elem b.elem) ≤ 150 * u 53 * len b.elem := by
  have hu0 : 0 < u 53 := u_pos
  have hu : u 53 ≤ 1 / 1000000 := by rw [u53]; norm_num
  have ha : a.elem ≠ 0 := len_pos.1 (by linarith)
  have lb := len_nonneg b.elem
  have la : 0 < len a.elem := by linarith
  have hd := dot_near r hn a b (.inl h)
  have hD := abs_of_near hd (abs_dot_le_len _ _)
  have haa : a.sqrMag = len a.elem ^ 2 := by rw [len_sq]; exact Vec.sqrMag_eq a
  generalize hd' : dot r a b = d at hd hD
  -- the computed projection
  have q1 : ∀ i, |r (r (a.elem i * d) / sqrMag r a) - a.elem i * d / a.sqrMag| ≤ 12 * u 53 * |a.elem i * d / a.sqrMag| := fun i => by
    refine (Close_u (((Close.round_self pos53 r (a.elem i * d)).div pos53 (sqrMag_close r a)).round pos53 r) (by norm_num; omega)).trans ?_
    refine mul_le_mul_of_nonneg_right ?_ (abs_nonneg _)
    have hn' : (n : ℝ) ≤ 3 := by exact_mod_cast hn
    push_cast; nlinarith
  have lenq : len (fun i => a.elem i * d / a.sqrMag) = |d| / len a.elem := by
    rw [show (fun i => a.elem i * d / a.sqrMag) = (d / a.sqrMag) • a.elem from funext fun i => by simp; ring, len_smul, abs_div, haa, abs_of_pos (by positivity : 0 < len a.elem ^ 2)]
    field_simp
  have q2 := len_mono (by positivity) (a := fun i => r (r (a.elem i * d) / sqrMag r a) - a.elem i * d / a.sqrMag) q1
  have hD2 : |d| / len a.elem ≤ 101 / 100 * len b.elem := by
    rw [div_le_iff₀ la]; nlinarith [mul_nonneg la.le lb]
  have q3 : len ((fun i => r (r (a.elem i * d) / sqrMag r a)) - ((a.elem ⬝ᵥ b.elem) / (a.elem ⬝ᵥ a.elem)) • a.elem) ≤ 141 * u 53 * len b.elem := by
    have e : (fun i => r (r (a.elem i * d) / sqrMag r a)) - ((a.elem ⬝ᵥ b.elem) / (a.elem ⬝ᵥ a.elem)) • a.elem
        = (fun i => r (r (a.elem i * d) / sqrMag r a) - a.elem i * d / a.sqrMag) + ((d - a.elem ⬝ᵥ b.elem) / (a.elem ⬝ᵥ a.elem)) • a.elem := by
      funext i
      simp only [Pi.sub_apply, Pi.smul_apply, Pi.add_apply, smul_eq_mul, Vec.sqrMag_eq]
      ring
    rw [e]
    refine (len_add_le _ _).trans ?_
    rw [len_smul, abs_div, ← len_sq, abs_of_pos (by positivity : 0 < len a.elem ^ 2)]
    have : |d - a.elem ⬝ᵥ b.elem| / len a.elem ^ 2 * len a.elem ≤ 128 * u 53 * len b.elem := by
      rw [div_mul_eq_mul_div, div_le_iff₀ (by positivity)]
      nlinarith
    rw [lenq] at q2
    nlinarith
  have e2 : (vperp r a b).elem = fun i => r ((b.elem - fun i => r (r (a.elem i * d) / sqrMag r a)) i) := by
    rw [← hd']; rfl
  rw [e2]
  have q4 := len_round r (b.elem - fun i => r (r (a.elem i * d) / sqrMag r a))
  have e53 : (2 : ℝ) ^ (-53 : ℤ) = u 53 := u53.symm
  rw [e53] at q4
  have q5 : len ((b.elem - fun i => r (r (a.elem i * d) / sqrMag r a)) - across a.elem b.elem) ≤ 141 * u 53 * len b.elem := by
    unfold across
    rw [sub_sub_sub_cancel_left, len_sub_comm]
    exact q3
  have q6 : len (b.elem - fun i => r (r (a.elem i * d) / sqrMag r a)) ≤ 2 * len b.elem := by
    have h1 := len_triangle (b.elem - fun i => r (r (a.elem i * d) / sqrMag r a)) (across a.elem b.elem) 0
    rw [sub_zero, sub_zero] at h1
    have h2 := across_le a.elem b.elem ha
    nlinarith
  refine (len_triangle _ (b.elem - fun i => r (r (a.elem i * d) / sqrMag r a)) _).trans ?_
  nlinarith

end Fl
end WFMath
