/- Property theorems C139, continued: the matrix that turns one direction into another. -/
import Verif.Props.RoundDirQuat

namespace WFMath
open Spec Matrix Gauss
open WFMath.Spec.Rounding (u u_pos)
variable {n : Nat}

namespace Fl

/-- The mixed term of an element, as computed. -/
theorem mixed_near (r : Rounding 53) {x y d' d N S : ℝ} (hN : 0 < N) (hx : |x| ≤ N) (hy : |y| ≤ N) (hd : |d' - d| ≤ 128 * u 53 * N) (hdN : |d| ≤ N) (hS : Close 53 9 S (N ^ 2)) :
    |r (r (r (r x + r y) * d') / S) - (x + y) * d / N ^ 2| ≤ 310 * u 53 := by
  have hu0 : 0 < u 53 := u_pos
  have hu : u 53 ≤ 1 / 1000000 := by rw [u53]; norm_num
  have x1 := rnd_err r (x := x) (y := x) (e := 0) (by simp) hx
  have y1 := rnd_err r (x := y) (y := y) (e := 0) (by simp) hy
  have z1 : |r x + r y - (x + y)| ≤ 2 * u 53 * N := by
    rw [show r x + r y - (x + y) = (r x - x) + (r y - y) by ring]
    exact (abs_add_le _ _).trans (by linarith)
  have Z : |x + y| ≤ 2 * N := (abs_add_le _ _).trans (by linarith)
  have z2 := rnd_err r z1 (B := 21 / 10 * N) ((abs_of_near z1 Z).trans (by nlinarith))
  have Z' := (abs_of_near z2 Z).trans (show _ ≤ 2001 / 1000 * N by nlinarith)
  have w1 := mul_near z2 hd Z' hdN
  have hNN : 0 < N ^ 2 := by positivity
  have w2 : |r (r x + r y) * d' - (x + y) * d| ≤ 261 * u 53 * N ^ 2 := w1.trans (by nlinarith [mul_pos hu0 hNN])
  have W : |(x + y) * d| ≤ 2 * N ^ 2 := by rw [abs_mul]; nlinarith [abs_nonneg (x + y), abs_nonneg d]
  have w3 := rnd_err r w2 (B := 21 / 10 * N ^ 2) ((abs_of_near w2 W).trans (by nlinarith))
  generalize r (r (r x + r y) * d') = ζ at w3 ⊢
  have w4 : |ζ - (x + y) * d| ≤ 264 * u 53 * N ^ 2 := w3.trans (by nlinarith)
  have q1 : |ζ / N ^ 2 - (x + y) * d / N ^ 2| ≤ 264 * u 53 := by
    rw [← sub_div, abs_div, abs_of_pos hNN, div_le_iff₀ hNN]; exact w4
  have Q : |(x + y) * d / N ^ 2| ≤ 2 := by rw [abs_div, abs_of_pos hNN, div_le_iff₀ hNN]; exact W
  have Q' := abs_of_near q1 Q
  have t1 := Close_u ((Close.refl pos53 0 ζ).div pos53 hS) (by norm_num)
  have t2 : |ζ / S - ζ / N ^ 2| ≤ 38 * u 53 := t1.trans (by push_cast; nlinarith [abs_nonneg (ζ / N ^ 2)])
  have t3 : |ζ / S - (x + y) * d / N ^ 2| ≤ 302 * u 53 := (abs_sub_le _ (ζ / N ^ 2) _).trans (by linarith)
  have t4 := rnd_err r t3 (B := 21 / 10) ((abs_of_near t3 Q).trans (by linarith))
  linarith

/-- The symmetric part of an element, as computed. -/
theorem combined_near (r : Rounding 53) {α A β B τ' τ c' c : ℝ} (hα : |α - A| ≤ 12 * u 53) (hA : |A| ≤ 1) (hβ : |β - B| ≤ 12 * u 53) (hB : |B| ≤ 1) (hτ : |τ' - τ| ≤ 310 * u 53)
    (hT : |τ| ≤ 2) (hc0 : 0 < c) (hc2 : c ≤ 2) (hη : u 53 / c ≤ 1 / 1000000) (hc : |c' - c| ≤ 155 * u 53) (hE : |(A + B - τ) / c| ≤ 2) :
    |r (r (r (α + β) - τ') / c') - (A + B - τ) / c| ≤ 665 * (u 53 / c) := by
  have hu0 : 0 < u 53 := u_pos
  have hu : u 53 ≤ 1 / 1000000 := by rw [u53]; norm_num
  have g1 : |α + β - (A + B)| ≤ 24 * u 53 := by
    rw [show α + β - (A + B) = (α - A) + (β - B) by ring]; exact (abs_add_le _ _).trans (by linarith)
  have G : |A + B| ≤ 2 := (abs_add_le _ _).trans (by linarith)
  have g2 := rnd_err r g1 (B := 21 / 10) ((abs_of_near g1 G).trans (by linarith))
  have e1 : |r (α + β) - τ' - (A + B - τ)| ≤ 337 * u 53 := by
    rw [show r (α + β) - τ' - (A + B - τ) = (r (α + β) - (A + B)) - (τ' - τ) by ring]
    exact (abs_sub _ _).trans (by linarith)
  have E : |A + B - τ| ≤ 4 := (abs_sub _ _).trans (by linarith)
  have e2 := rnd_err r e1 (B := 41 / 10) ((abs_of_near e1 E).trans (by linarith))
  generalize r (r (α + β) - τ') = e at e2 ⊢
  set η := u 53 / c with hηd
  have huc : u 53 = η * c := by rw [hηd]; field_simp
  have hη0 : 0 < η := by positivity
  have hc' := _root_.abs_le.1 hc
  rw [huc] at hc'
  have hc'0 : 999 / 1000 * c ≤ c' := by nlinarith [hc'.1]
  have hc'p : 0 < c' := by nlinarith
  have h1 : |e / c' - (A + B - τ) / c| ≤ 655 * η := by
    rw [show e / c' - (A + B - τ) / c = (e - (A + B - τ) - (A + B - τ) / c * (c' - c)) / c' by field_simp; ring, abs_div, abs_of_pos hc'p, div_le_iff₀ hc'p]
    refine (abs_sub _ _).trans ?_
    rw [abs_mul]
    have h2 := mul_le_mul hE hc (abs_nonneg _) (by norm_num)
    have h3 : |e - (A + B - τ)| ≤ 342 * u 53 := by linarith
    have h4 : 652 * u 53 ≤ 655 * η * c' := by rw [huc]; nlinarith
    linarith
  have h5 := rnd_err r h1 (B := 21 / 10) ((abs_of_near h1 hE).trans (by linarith))
  refine h5.trans ?_
  have : u 53 ≤ 2 * η := by rw [huc]; nlinarith
  linarith

end Fl

/-- C139, in part: the matrix of `rotation(from, to)` in doubles, for directions that are not nearly opposite (the cosine of the angle between them plus one, `c`, is at least
`2^-30`) and vectors one of which has length at least 1: it is, up to `2^-41 / c` of every length, a rotation that takes the direction of `from` to the direction of `to` and fixes
everything perpendicular to both. -/
theorem C139_fromTo_partial (r : Rounding 53) (hn : n ≤ 3) (a b : Vec n) (c : ℝ) (hc : c = 1 + (a.elem ⬝ᵥ b.elem) / (len a.elem * len b.elem)) (hc0 : 2 ^ (-30 : ℤ) ≤ c)
    (ha : a.elem ≠ 0) (hb : b.elem ≠ 0) (h1 : 1 ≤ len a.elem ∨ 1 ≤ len b.elem) :
    ∃ m R, Fl.rotationFromTo r a b = some (.ok m) ∧ R * Rᵀ = 1 ∧ R.det = 1 ∧ a.elem ᵥ* R = (len a.elem / len b.elem) • b.elem ∧
      (∀ x : Fin n → ℝ, x ⬝ᵥ a.elem = 0 → x ⬝ᵥ b.elem = 0 → x ᵥ* R = x) ∧ Stands m.elem R (2 ^ (-41 : ℤ) / c) ∧
      m.flip = false ∧ m.valid = true ∧ m.age = 1 := by
  have hu0 : 0 < u 53 := u_pos
  have hu : u 53 ≤ 1 / 1000000 := by rw [Fl.u53]; norm_num
  have hn' : (n : ℝ) ≤ 3 := by exact_mod_cast hn
  have la := len_pos.2 ha
  have lb := len_pos.2 hb
  set N := len a.elem * len b.elem with hNd
  have hN0 : 0 < N := by positivity
  have hdN : |a.elem ⬝ᵥ b.elem| ≤ N := abs_dot_le_len _ _
  have hcp : 0 < c := lt_of_lt_of_le (by positivity) hc0
  have hc2 : c ≤ 2 := by
    have : a.elem ⬝ᵥ b.elem / N ≤ 1 := by rw [div_le_one hN0]; exact (le_abs_self _).trans hdN
    linarith
  have hη : u 53 / c ≤ 1 / 1000000 := by
    rw [div_le_iff₀ hcp, Fl.u53]; norm_num at hc0 ⊢; linarith
  have huη : u 53 ≤ 2 * (u 53 / c) := by rw [← mul_div_assoc, le_div_iff₀ hcp]; nlinarith
  -- the exact matrix
  have hcos : RotMat.unit a ⬝ᵥ RotMat.unit b = a.elem ⬝ᵥ b.elem / N := RotMat.unit_dot a b
  have hcos1 : RotMat.unit a ⬝ᵥ RotMat.unit b + 1 = c := by rw [hcos, hc, add_comm]
  obtain ⟨o1, o2, o3, o4⟩ := RotMat.fromTo_matrix (RotMat.unit_self ha) (RotMat.unit_self hb) (by rw [hcos1]; exact hcp.ne')
  set R : Matrix (Fin n) (Fin n) ℝ := 1 - (RotMat.unit a ⬝ᵥ RotMat.unit b + 1)⁻¹ • (vecMulVec (RotMat.unit a) (RotMat.unit a) + vecMulVec (RotMat.unit b) (RotMat.unit b)
    - (RotMat.unit a ⬝ᵥ RotMat.unit b) • (vecMulVec (RotMat.unit a) (RotMat.unit b) + vecMulVec (RotMat.unit b) (RotMat.unit a)))
      - (vecMulVec (RotMat.unit b) (RotMat.unit a) - vecMulVec (RotMat.unit a) (RotMat.unit b)) with hR
  set comb : Fin n → Fin n → ℝ := fun i j => (RotMat.unit a i * RotMat.unit a j + RotMat.unit b i * RotMat.unit b j
    - (a.elem i * b.elem j + b.elem i * a.elem j) * (a.elem ⬝ᵥ b.elem) / N ^ 2) / c with hcomb
  set diff : Fin n → Fin n → ℝ := fun i j => b.elem i * a.elem j / N - a.elem i * b.elem j / N with hdiff
  have ent : ∀ i j, R i j = (if i = j then 1 else 0) - comb i j - diff i j := fun i j => by
    have e1 : RotMat.unit a i * RotMat.unit b j = a.elem i * b.elem j / N := RotMat.unit_mul a b i j
    have e2 : RotMat.unit b i * RotMat.unit a j = b.elem i * a.elem j / N := by rw [RotMat.unit_mul, hNd, mul_comm (len a.elem)]; rfl
    rw [hR, Matrix.sub_apply, Matrix.sub_apply, Matrix.smul_apply, Matrix.sub_apply, Matrix.add_apply, Matrix.smul_apply, Matrix.add_apply, Matrix.sub_apply, Matrix.one_apply]
    simp only [vecMulVec_apply, smul_eq_mul]
    rw [e1, e2, hcos1, hcos, hcomb, hdiff]
    simp only
    congr 2
    rw [inv_mul_eq_div]
    congr 2
    field_simp
  have csymm : ∀ i j, comb i j = comb j i := fun i j => by simp only [hcomb]; ring
  have dsymm : ∀ i j, diff i j = -diff j i := fun i j => by simp only [hdiff]; ring
  have hent1 : ∀ i j, |R i j| ≤ 1 := fun i j => by
    have h := congrFun (congrFun o1 i) i
    rw [Matrix.mul_apply, Matrix.one_apply_eq] at h
    have hle := Finset.single_le_sum (f := fun k => R i k * Rᵀ k i) (fun k _ => mul_self_nonneg (R i k)) (Finset.mem_univ j)
    rw [h] at hle
    exact abs_le_one_iff_mul_self_le_one.2 hle
  have hcb : ∀ i j, |comb i j| ≤ 2 := fun i j => by
    have p := hent1 i j
    have q := hent1 j i
    rw [ent] at p q
    rw [csymm j i, dsymm j i, show (if j = i then (1 : ℝ) else 0) = if i = j then 1 else 0 by simp only [eq_comm]] at q
    have p' := _root_.abs_le.1 p
    have q' := _root_.abs_le.1 q
    rw [_root_.abs_le]
    split_ifs at p' q' <;> constructor <;> linarith
  have hab : ∀ i j, |a.elem i * b.elem j| ≤ N := fun i j => by
    rw [abs_mul]; exact mul_le_mul (abs_le_len _ _) (abs_le_len _ _) (abs_nonneg _) (len_nonneg _)
  have hba : ∀ i j, |b.elem i * a.elem j| ≤ N := fun i j => by rw [mul_comm]; exact hab j i
  have hdb : ∀ i j, |diff i j| ≤ 2 := fun i j => by
    have p : |b.elem i * a.elem j / N| ≤ 1 := by rw [abs_div, abs_of_pos hN0, div_le_one hN0]; exact hba i j
    have q : |a.elem i * b.elem j / N| ≤ 1 := by rw [abs_div, abs_of_pos hN0, div_le_one hN0]; exact hab i j
    exact (abs_sub _ _).trans (by linarith)
  -- the parts as computed
  have hS0 := ((Fl.sqrMag_close r a).mul Fl.pos53 (Fl.sqrMag_close r b)).round Fl.pos53 r
  have hS : Close 53 9 (r (Fl.sqrMag r a * Fl.sqrMag r b)) (N ^ 2) := by
    rw [show N ^ 2 = a.sqrMag * b.sqrMag by rw [hNd, mul_pow, len_sq, len_sq, ← Vec.sqrMag_eq, ← Vec.sqrMag_eq]]
    exact hS0.mono Fl.pos53 (by omega)
  have hm : Close 53 10 (r (Real.sqrt (r (Fl.sqrMag r a * Fl.sqrMag r b)))) N := by
    rw [hNd, show len a.elem * len b.elem = Real.sqrt (a.sqrMag * b.sqrMag) by rw [Real.sqrt_mul (Vec.sqrMag_nonneg a)]; rfl]
    exact ((hS0.sqrt Fl.pos53).round Fl.pos53 r).mono Fl.pos53 (by omega)
  have hd := Fl.dot_near r hn a b h1
  rw [← hNd] at hd
  have hsa : 0 < Fl.sqrMag r a := (Fl.sqrMag_close r a).pos Fl.pos53 (Vec.sqrMag_pos.2 ha)
  have hsb : 0 < Fl.sqrMag r b := (Fl.sqrMag_close r b).pos Fl.pos53 (Vec.sqrMag_pos.2 hb)
  generalize hS' : r (Fl.sqrMag r a * Fl.sqrMag r b) = S at *
  generalize hm' : r (Real.sqrt S) = m' at *
  have hcn := Fl.ctp1_near r hN0 hd hdN hm
  rw [add_comm (_ / N), ← hc] at hcn
  generalize hd' : Fl.dot r a b = d' at *
  generalize hc' : r (r (d' / m') + 1) = c' at *
  have hc'0 : ¬ c' < epsilon := by
    have := (_root_.abs_le.1 hcn).1
    have h3 : 256 * u 53 ≤ c := le_trans (by rw [Fl.u53]; norm_num) hc0
    rw [not_lt, Fl.eps_u]
    linarith
  have big : n + 3 ≤ 2 ^ 52 := by norm_num; omega
  have proj : ∀ (v : Vec n) (i j : Fin n), |r (r (v.elem i * v.elem j) / Fl.sqrMag r v) - RotMat.unit v i * RotMat.unit v j| ≤ 12 * u 53 := fun v i j => by
    refine (Fl.Close_u (Fl.proj_close r v i j) big).trans ?_
    have h4 : 2 * ((n + 3 : Nat) : ℝ) * u 53 ≤ 12 * u 53 := by push_cast; nlinarith
    calc _ ≤ 12 * u 53 * 1 := mul_le_mul h4 (Fl.unit_prod_le v v i j) (abs_nonneg _) (by positivity)
      _ = _ := by ring
  obtain ⟨K, hK⟩ : ∃ K : Fin n → Fin n → ℝ, K = fun i j =>
        r (r (r (r (r (a.elem i * a.elem j) / Fl.sqrMag r a) + r (r (b.elem i * b.elem j) / Fl.sqrMag r b))
          - r (r (r (r (a.elem i * b.elem j) + r (b.elem i * a.elem j)) * d') / S)) / c') := ⟨_, rfl⟩
  obtain ⟨D, hD⟩ : ∃ D : Fin n → Fin n → ℝ, D = fun i j => r (r (r (b.elem i * a.elem j) - r (a.elem i * b.elem j)) / m') := ⟨_, rfl⟩
  have hKn : ∀ i j, |K i j - comb i j| ≤ 665 * (u 53 / c) := fun i j => by
    rw [hK]
    refine Fl.combined_near r (proj a i j) (Fl.unit_prod_le a a i j) (proj b i j) (Fl.unit_prod_le b b i j)
      (Fl.mixed_near r hN0 (hab i j) (hba i j) hd hdN hS) ?_ hcp hc2 hη hcn (hcb i j)
    rw [abs_div, abs_of_pos (by positivity : 0 < N ^ 2), div_le_iff₀ (by positivity), abs_mul]
    have := (abs_add_le (a.elem i * b.elem j) (b.elem i * a.elem j)).trans (add_le_add (hab i j) (hba i j))
    nlinarith [abs_nonneg (a.elem i * b.elem j + b.elem i * a.elem j), abs_nonneg (a.elem ⬝ᵥ b.elem)]
  have hDn : ∀ i j, |D i j - diff i j| ≤ 57 * u 53 := fun i j => by
    have := Fl.plane_skew r hN0 (hba i j) (hab i j) (s' := 1) (s := 1) (by rw [sub_self, abs_zero]; positivity) (by rw [abs_one]) hm
    rw [one_mul, one_mul, r.of_fl (r.isFl _)] at this
    rw [hD]; exact this
  obtain ⟨A, hA⟩ : ∃ A : Matrix (Fin n) (Fin n) ℝ, A = Matrix.of fun i j =>
      if i = j then r (1 - K i i) else if i < j then r (-D i j - K i j) else r (D j i - K j i) := ⟨_, rfl⟩
  refine ⟨⟨A, false, true, 1⟩, R, ?_, o1, o2, ?_, ?_, ?_, rfl, rfl, rfl⟩
  · rw [Fl.rotationFromTo, if_neg (not_not.2 hsa), if_neg (not_not.2 hsb)]
    simp only [hS', hm', hd', hc']
    rw [if_neg hc'0, hA, hK, hD]
  · have hun : a.elem = a.mag • RotMat.unit a := by
      unfold RotMat.unit
      rw [smul_smul, mul_inv_cancel₀ (Vec.mag_pos.2 ha).ne', one_smul]
    conv_lhs => rw [hun]
    rw [smul_vecMul, o3]
    unfold RotMat.unit
    rw [smul_smul, div_eq_mul_inv]; rfl
  · intro x hx1 hx2
    refine o4 x ?_ ?_
    · unfold RotMat.unit; rw [dotProduct_smul, hx1, smul_zero]
    · unfold RotMat.unit; rw [dotProduct_smul, hx2, smul_zero]
  · have key := Fl.stands_of_entries (n := n) (A := A) (B := R) (η := 790 * (u 53 / c)) (by positivity) fun i j => by
      have hη0 : 0 < u 53 / c := by positivity
      rw [hA, Matrix.of_apply]
      by_cases hij : i = j
      · subst hij
        rw [if_pos rfl, ent, if_pos rfl]
        have d0 : diff i i = 0 := by have := dsymm i i; linarith
        rw [d0, sub_zero]
        have e1 : |1 - K i i - (1 - comb i i)| ≤ 665 * (u 53 / c) := by
          rw [show 1 - K i i - (1 - comb i i) = -(K i i - comb i i) by ring, abs_neg]; exact hKn i i
        have E : |1 - comb i i| ≤ 3 := (abs_sub _ _).trans (by rw [abs_one]; linarith [hcb i i])
        have := Fl.rnd_err r e1 (B := 4) ((Fl.abs_of_near e1 E).trans (by linarith))
        linarith
      · have both : ∀ k l, |r (-D k l - K k l) - (-diff k l - comb k l)| ≤ 790 * (u 53 / c) ∧ |r (D k l - K k l) - (diff k l - comb k l)| ≤ 790 * (u 53 / c) := fun k l => by
          have e1 : |-D k l - K k l - (-diff k l - comb k l)| ≤ 57 * u 53 + 665 * (u 53 / c) := by
            rw [show -D k l - K k l - (-diff k l - comb k l) = -(D k l - diff k l) - (K k l - comb k l) by ring]
            exact (abs_sub _ _).trans (by rw [abs_neg]; exact add_le_add (hDn k l) (hKn k l))
          have e2 : |D k l - K k l - (diff k l - comb k l)| ≤ 57 * u 53 + 665 * (u 53 / c) := by
            rw [show D k l - K k l - (diff k l - comb k l) = (D k l - diff k l) - (K k l - comb k l) by ring]
            exact (abs_sub _ _).trans (add_le_add (hDn k l) (hKn k l))
          have E1 : |-diff k l - comb k l| ≤ 4 := (abs_sub _ _).trans (by rw [abs_neg]; linarith [hcb k l, hdb k l])
          have E2 : |diff k l - comb k l| ≤ 4 := (abs_sub _ _).trans (by linarith [hcb k l, hdb k l])
          have f1 := Fl.rnd_err r e1 (B := 5) ((Fl.abs_of_near e1 E1).trans (by linarith))
          have f2 := Fl.rnd_err r e2 (B := 5) ((Fl.abs_of_near e2 E2).trans (by linarith))
          constructor <;> linarith
        rw [if_neg hij, ent, if_neg hij]
        split_ifs with hlt
        · rw [show 0 - comb i j - diff i j = -diff i j - comb i j by ring]; exact (both i j).1
        · rw [show 0 - comb i j - diff i j = diff j i - comb j i by rw [csymm i j, dsymm i j]; ring]; exact (both j i).2
    intro x
    refine (key x).trans (mul_le_mul_of_nonneg_right ?_ (len_nonneg x))
    have e41 : (2 : ℝ) ^ (-41 : ℤ) / c = 4096 * (u 53 / c) := by rw [Fl.u53]; field_simp; norm_num
    rw [e41]
    have h7 : 0 ≤ 790 * (u 53 / c) := by positivity
    have h8 := mul_le_mul_of_nonneg_right hn' h7
    linarith

/-- A turn in space. -/
example (r : Rounding 53) : ∃ m R, Fl.rotationFromTo r (⟨![2, 0, 0], true⟩ : Vec 3) ⟨![0, 1, 0], true⟩ = some (.ok m) ∧ R * Rᵀ = 1 ∧ ![2, 0, 0] ᵥ* R = ![0, 2, 0] ∧
    Stands m.elem R (2 ^ (-41 : ℤ)) := by
  have l1 : len (![2, 0, 0] : Fin 3 → ℝ) = 2 := by
    unfold len; rw [Real.sqrt_eq_iff_mul_self_eq] <;> simp [dotProduct, Fin.sum_univ_three]
  have l2 : len (![0, 1, 0] : Fin 3 → ℝ) = 1 := by simp [len, dotProduct, Fin.sum_univ_three]
  obtain ⟨m, R, h1, h2, -, h3, -, h4, -⟩ := C139_fromTo_partial r le_rfl (⟨![2, 0, 0], true⟩ : Vec 3) ⟨![0, 1, 0], true⟩ 1 (by simp [dotProduct, Fin.sum_univ_three]) (by norm_num)
    (len_pos.1 (by rw [l1]; norm_num)) (len_pos.1 (by rw [l2]; norm_num)) (Or.inr (by rw [l2]))
  refine ⟨m, R, h1, h2, ?_, by simpa using h4⟩
  rw [l1, l2] at h3
  rw [h3]; funext i; fin_cases i <;> simp

end WFMath
