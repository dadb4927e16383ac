/- Property theorems C116-C118: vectors and points in floating point arithmetic. -/
import Verif.Props.RoundRandom
import Verif.Props.Ball
import Mathlib.LinearAlgebra.CrossProduct

namespace WFMath
open Spec Matrix
variable {n : Nat}

/-! ### C116: lengths and distances -/

/-- C116, lengths: computed in doubles, `sqrMag`, `mag` and every component of `normalize` have a relative error of at most a few units of `2^-52`, whatever the
components; there is no cancellation. `mag` is 0 for the zero vector alone. -/
theorem C116_length (r : Rounding 53) (v : Vec n) (hn : n ≤ 2 ^ 50) :
    |Fl.sqrMag r v - ∑ i, v.elem i ^ 2| ≤ (n + 1) * 2 ^ (-52 : ℤ) * ∑ i, v.elem i ^ 2 ∧
    |Fl.mag r v - Real.sqrt (∑ i, v.elem i ^ 2)| ≤ (n + 2) * 2 ^ (-52 : ℤ) * Real.sqrt (∑ i, v.elem i ^ 2) ∧
    0 ≤ Fl.mag r v ∧ (Fl.mag r v = 0 ↔ v.elem = 0) := by
  have e : ∑ i, v.elem i ^ 2 = v.sqrMag := by rw [Vec.sqrMag]; exact Finset.sum_congr rfl fun i _ => sq _
  rw [e, show Real.sqrt v.sqrMag = v.mag from rfl]
  have h1 := Fl.sqrMag_close r v
  have h2 := Fl.mag_close r v
  refine ⟨?_, ?_, h2.nonneg Fl.pos53 v.mag_nonneg, ?_⟩
  · have := Fl.Close_err' h1 (by omega)
    rw [abs_of_nonneg v.sqrMag_nonneg] at this
    push_cast at this
    rwa [add_comm (1 : ℝ)] at this
  · have := Fl.Close_err' h2 (by omega)
    rw [abs_of_nonneg v.mag_nonneg] at this
    push_cast at this
    rwa [show (1 : ℝ) + n + 1 = n + 2 by ring] at this
  · rw [h2.eq_zero Fl.pos53]
    constructor
    · intro h; by_contra hc; exact (Vec.mag_pos.2 hc).ne' h
    · intro h; by_contra hc; exact (Vec.mag_pos.1 (lt_of_le_of_ne v.mag_nonneg (Ne.symm hc))) h

/-- C116, `normalize`: every component of the result has a small relative error, so the result points in the right direction and has the right length. -/
theorem C116_normalize (r : Rounding 53) (v : Vec n) (norm : ℝ) (hn : n ≤ 2 ^ 50) (hv : v.elem ≠ 0) :
    (∀ i, |(Fl.normalize r v norm).elem i - v.elem i * (norm / v.mag)| ≤ (n + 4) * 2 ^ (-52 : ℤ) * |v.elem i * (norm / v.mag)|) ∧
    |(Fl.normalize r v norm).mag - abs norm| ≤ (n + 4) * 2 ^ (-52 : ℤ) * |norm| := by
  have hm := Vec.mag_pos.2 hv
  have hc : ∀ i, Close 53 (n + 4) ((Fl.normalize r v norm).elem i) (v.elem i * (norm / v.mag)) := by
    intro i
    have h1 := ((Close.refl Fl.pos53 0 norm).div Fl.pos53 (Fl.mag_close r v)).round Fl.pos53 r
    have h2 := ((Close.refl Fl.pos53 0 (v.elem i)).mul Fl.pos53 h1).round Fl.pos53 r
    refine h2.mono Fl.pos53 ?_
    omega
  refine ⟨fun i => ?_, ?_⟩
  · have := Fl.Close_err' (hc i) (by omega)
    push_cast at this
    exact this
  · have hsum : Close 53 (n + 4) ((Fl.normalize r v norm).mag) |norm| := by
      have e : |norm| = Real.sqrt (∑ i, (v.elem i * (norm / v.mag)) * (v.elem i * (norm / v.mag))) := by
        have : ∑ i, (v.elem i * (norm / v.mag)) * (v.elem i * (norm / v.mag)) = norm ^ 2 := by
          have e1 : ∑ i, (v.elem i * (norm / v.mag)) * (v.elem i * (norm / v.mag)) = (norm / v.mag) ^ 2 * v.sqrMag := by
            rw [Vec.sqrMag, Finset.mul_sum]
            exact Finset.sum_congr rfl fun i _ => by ring
          rw [e1, ← Vec.mag_sq]
          field_simp
        rw [this, Real.sqrt_sq_eq_abs]
      rw [e]
      exact (Close.sum Fl.pos53 Finset.univ (fun i => (hc i).mul Fl.pos53 (hc i)) fun i => mul_self_nonneg _).sqrt_two Fl.pos53
    have := Fl.Close_err' hsum (by omega)
    rw [abs_abs] at this
    push_cast at this
    exact this

theorem Fl.sqDist_close (r : Rounding 53) (p q : Pt n) :
    Close 53 (3 + n) (Fl.sum r fun i => r (r (p.elem i - q.elem i) * r (p.elem i - q.elem i))) (eucl p.elem q.elem ^ 2) := by
  have e : eucl p.elem q.elem ^ 2 = ∑ i, (p.elem i - q.elem i) * (p.elem i - q.elem i) := by
    rw [eucl_sq]; exact Finset.sum_congr rfl fun i _ => sq _
  rw [e]; exact Fl.sqDistSum_close r p.elem q.elem

/-- The computed squared distance is a close one, or 0 in place of one below the cut-off. -/
theorem Fl.sqDist_cases (r : Rounding 53) (p q : Pt n) : Close 53 (3 + n) (Fl.sqDist r p q) (eucl p.elem q.elem ^ 2) ∨
    (Fl.sqDist r p q = 0 ∧ ∃ s, s < scaleEpsilonArr p.elem q.elem epsilon ∧ Close 53 (3 + n) s (eucl p.elem q.elem ^ 2)) := by
  have hc := Fl.sqDist_close r p q
  have h0 := hc.nonneg Fl.pos53 (sq_nonneg _)
  unfold Fl.sqDist
  simp only
  rw [abs_of_nonneg h0]
  split_ifs with h
  · exact .inl hc
  · exact .inr ⟨rfl, _, not_le.1 h, hc⟩

/-- C116, distances: computed in doubles, `SquaredDistance` and `Distance` have a small relative error, except where the cut-off sets them to 0, and the cut-off
does so only below (a hair above) the bound of exact arithmetic. The computed distance is symmetric, and 0 between equal points. -/
theorem C116_distance (r : Rounding 53) (p q : Pt n) (hn : n ≤ 2 ^ 50) :
    ((|Fl.sqDist r p q - eucl p.elem q.elem ^ 2| ≤ (n + 3) * 2 ^ (-52 : ℤ) * eucl p.elem q.elem ^ 2 ∧
        |Fl.dist r p q - eucl p.elem q.elem| ≤ (n + 4) * 2 ^ (-52 : ℤ) * eucl p.elem q.elem) ∨
      (Fl.sqDist r p q = 0 ∧ Fl.dist r p q = 0 ∧
        eucl p.elem q.elem ^ 2 ≤ (1 + (n + 3) * 2 ^ (-52 : ℤ)) * scaleEpsilonArr p.elem q.elem epsilon)) ∧
    0 ≤ Fl.sqDist r p q ∧ (p.elem = q.elem → Fl.sqDist r p q = 0) ∧ Fl.sqDist r p q = Fl.sqDist r q p ∧ Fl.dist r p q = Fl.dist r q p := by
  have h0 : 0 ≤ eucl p.elem q.elem ^ 2 := sq_nonneg _
  have hsymm : Fl.sqDist r p q = Fl.sqDist r q p := by
    have : ∀ i, r (p.elem i - q.elem i) * r (p.elem i - q.elem i) = r (q.elem i - p.elem i) * r (q.elem i - p.elem i) := fun i => by
      rw [show p.elem i - q.elem i = -(q.elem i - p.elem i) by ring, r.odd]; ring
    unfold Fl.sqDist
    simp only [this, scaleEpsilonArr_symm p.elem]
  refine ⟨?_, ?_, fun h => ?_, hsymm, by unfold Fl.dist; rw [hsymm]⟩
  · rcases Fl.sqDist_cases r p q with h | ⟨h, s, hs, hc⟩
    · left
      constructor
      · have := Fl.Close_err' h (by omega)
        rw [abs_of_nonneg h0] at this
        push_cast at this
        rwa [add_comm (3 : ℝ)] at this
      · have h2 := (h.sqrt Fl.pos53).round Fl.pos53 r
        rw [Real.sqrt_sq (eucl_nonneg _ _)] at h2
        have := Fl.Close_err' h2 (by omega)
        rw [abs_of_nonneg (eucl_nonneg _ _)] at this
        push_cast at this
        rwa [show (3 : ℝ) + n + 1 = n + 4 by ring] at this
    · right
      refine ⟨h, by unfold Fl.dist; rw [h, Real.sqrt_zero, r.zero], ?_⟩
      have h3 := Fl.Close_err' (hc.symm Fl.pos53) (by omega)
      have hs0 := hc.nonneg Fl.pos53 h0
      rw [abs_of_nonneg hs0] at h3
      push_cast at h3
      have h4 := (le_abs_self _).trans h3
      have h5 : (0 : ℝ) ≤ 1 + (n + 3) * 2 ^ (-52 : ℤ) := by positivity
      have h6 := mul_le_mul_of_nonneg_left hs.le h5
      nlinarith
  · rcases Fl.sqDist_cases r p q with h | ⟨h, -⟩
    · exact h.nonneg Fl.pos53 h0
    · rw [h]
  · rcases Fl.sqDist_cases r p q with h' | ⟨h', -⟩
    · rw [h'.eq_zero Fl.pos53, eucl_sq, h]; simp
    · exact h'

/-- C116, moving a point by a difference: `p + (q - p)` computed in doubles is `q` up to the roundings, and exactly `q` in a coordinate whose difference is not
larger than the coordinates themselves. -/
theorem C116_move (r : Rounding 53) (p q : Pt n) (i : Fin n) :
    |(Fl.addVec r p (Fl.ptSub r q p)).elem i - q.elem i| ≤ 2 ^ (-53 : ℤ) * |q.elem i| + 2 ^ (-52 : ℤ) * |q.elem i - p.elem i| ∧
    (IsFl 53 (p.elem i) → IsFl 53 (q.elem i) → |q.elem i - p.elem i| ≤ |p.elem i| → |q.elem i - p.elem i| ≤ |q.elem i| →
      (Fl.addVec r p (Fl.ptSub r q p)).elem i = q.elem i) := by
  show |r (p.elem i + r (q.elem i - p.elem i)) - q.elem i| ≤ _ ∧ (_ → _ → _ → _ → r (p.elem i + r (q.elem i - p.elem i)) = q.elem i)
  generalize p.elem i = x
  generalize q.elem i = y
  constructor
  · have h1 := r.err Fl.pos53 (y - x)
    have h2 := r.err Fl.pos53 (x + r (y - x))
    rw [Fl.u53] at h1 h2
    have h3 : |x + r (y - x)| ≤ |y| + |r (y - x) - (y - x)| := by
      rw [show x + r (y - x) = y + (r (y - x) - (y - x)) by ring]; exact abs_add_le _ _
    have h4 := abs_sub_le (r (x + r (y - x))) (x + r (y - x)) y
    rw [show x + r (y - x) - y = r (y - x) - (y - x) by ring] at h4
    have h5 := abs_nonneg (y - x)
    norm_num at h1 h2 ⊢
    nlinarith
  · intro hx hy h1 h2
    rw [r.of_fl (hy.sub hx h2 h1), show x + (y - x) = y by ring, r.of_fl hy]

/-! ### C117: identities that survive rounding -/

/-- C117, vectors: addition is commutative, subtraction is odd, `v - v` is 0, adding the zero vector changes nothing, scaling by a power of two is exact and is undone
by dividing by it, all to the last bit. -/
theorem C117_vector (r : Rounding 53) (u v : Vec n) (hv : ∀ i, IsFl 53 (v.elem i)) (k : ℤ) :
    Fl.add r u v = Fl.add r v u ∧ Fl.sub r u v = -Fl.sub r v u ∧ (Fl.sub r v v).elem = 0 ∧ (Fl.add r v Vec.zero).elem = v.elem ∧
    Fl.scale r v (2 ^ k) = v.scale (2 ^ k) ∧ Fl.divBy r (Fl.scale r v (2 ^ k)) (2 ^ k) = v ∧ (Fl.scale r v (-1)).elem = (-v).elem := by
  have hs : ∀ i, r (v.elem i * 2 ^ k) = v.elem i * 2 ^ k := fun i => r.of_fl ((hv i).mul_zpow k)
  have h2 : (2 : ℝ) ^ k ≠ 0 := by positivity
  refine ⟨?_, ?_, ?_, ?_, ?_, ?_, ?_⟩
  · simp only [Fl.add, Bool.and_comm, add_comm]
  · apply Vec.ext
    · funext i
      show r (u.elem i - v.elem i) = -r (v.elem i - u.elem i)
      rw [← r.odd]; congr 1; ring
    · show (u.valid && v.valid) = (v.valid && u.valid)
      exact Bool.and_comm _ _
  · funext i; show r (v.elem i - v.elem i) = 0; rw [sub_self, r.zero]
  · funext i; show r (v.elem i + 0) = v.elem i; rw [add_zero, r.of_fl (hv i)]
  · apply Vec.ext
    · funext i; exact hs i
    · rfl
  · apply Vec.ext
    · funext i
      show r (r (v.elem i * 2 ^ k) / 2 ^ k) = v.elem i
      rw [hs, mul_div_assoc, div_self h2, mul_one, r.of_fl (hv i)]
    · rfl
  · funext i
    show r (v.elem i * -1) = -v.elem i
    rw [mul_neg_one, r.of_fl (hv i).neg]

/-- C117, products: `Dot` computed in doubles is symmetric and the cross product in three dimensions antisymmetric, to the last bit; the cross product of a vector
and any multiple of it is exactly 0, in two and in three dimensions. -/
theorem C117_products (r : Rounding 53) (u v : Vec n) (a b : Vec 3) (c d : Vec 2) :
    Fl.dot r u v = Fl.dot r v u ∧ Fl.cross3 r a b = -Fl.cross3 r b a ∧
    (∀ k : ℝ, a.elem = k • b.elem → (Fl.cross3 r a b).elem = 0) ∧ (∀ k : ℝ, c.elem = k • d.elem → Fl.cross2 r c d = 0) := by
  refine ⟨?_, ?_, fun k h => ?_, fun k h => ?_⟩
  · unfold Fl.dot
    simp only [scaleEpsilonArr_symm u.elem, mul_comm (u.elem _)]
  · have hcut : ∀ x δ : ℝ, (if |(-x)| < δ then (0 : ℝ) else -x) = -(if |x| < δ then 0 else x) := by
      intro x δ; rw [abs_neg]; split_ifs <;> simp
    apply Vec.ext
    · funext i
      show (Fl.cross3 r a b).elem i = -(Fl.cross3 r b a).elem i
      unfold Fl.cross3
      simp only [scaleEpsilonArr_symm a.elem]
      have e0 : r (r (a.elem 1 * b.elem 2) - r (b.elem 1 * a.elem 2)) = -r (r (b.elem 1 * a.elem 2) - r (a.elem 1 * b.elem 2)) := by
        rw [← r.odd]; congr 1; ring
      have e1 : r (r (a.elem 2 * b.elem 0) - r (b.elem 2 * a.elem 0)) = -r (r (b.elem 2 * a.elem 0) - r (a.elem 2 * b.elem 0)) := by
        rw [← r.odd]; congr 1; ring
      have e2 : r (r (a.elem 0 * b.elem 1) - r (b.elem 0 * a.elem 1)) = -r (r (b.elem 0 * a.elem 1) - r (a.elem 0 * b.elem 1)) := by
        rw [← r.odd]; congr 1; ring
      rw [e0, e1, e2, hcut, hcut, hcut]
      fin_cases i <;> rfl
    · exact Bool.and_comm _ _
  · have hz : ∀ x y : ℝ, r (r (k * x * y) - r (x * (k * y))) = 0 := by
      intro x y; rw [show k * x * y = x * (k * y) by ring, sub_self, r.zero]
    funext i
    unfold Fl.cross3
    simp only [h, Pi.smul_apply, smul_eq_mul, hz]
    fin_cases i <;> simp
  · have hz : ∀ x y : ℝ, r (r (k * x * y) - r (x * (k * y))) = 0 := by
      intro x y; rw [show k * x * y = x * (k * y) by ring, sub_self, r.zero]
    unfold Fl.cross2
    simp only [h, Pi.smul_apply, smul_eq_mul, hz, ite_self]

/-! ### C118: inner and cross products -/

theorem Fl.dotSum_err (r : Rounding 53) (u v : Vec n) (hn : n ≤ 2 ^ 50) :
    |Fl.sum r (fun i => r (u.elem i * v.elem i)) - ∑ i, u.elem i * v.elem i| ≤ (n + 1) * 2 ^ (-52 : ℤ) * ∑ i, |u.elem i * v.elem i| := by
  have h := Fl.sum_err r (k := 1) (f := fun i => r (u.elem i * v.elem i)) (g := fun i => u.elem i * v.elem i)
    (fun i => Close.round_self Fl.pos53 r _)
  have h2 := Fl.gam_le (k := 1 + n) (by omega)
  have h3 : 0 ≤ ∑ i, |u.elem i * v.elem i| := Finset.sum_nonneg fun _ _ => abs_nonneg _
  refine h.trans (mul_le_mul_of_nonneg_right ?_ h3)
  push_cast at h2
  rwa [add_comm (1 : ℝ)] at h2

/-- C118, `Dot`: the computed value is the exact inner product up to a rounding error of `(n + 1) 2^-52` times the sum of the absolute products, or 0 where the exact
value is below that error plus the cut-off. -/
theorem C118_dot (r : Rounding 53) (u v : Vec n) (hn : n ≤ 2 ^ 50) :
    |Fl.dot r u v - u.elem ⬝ᵥ v.elem| ≤ (n + 1) * 2 ^ (-52 : ℤ) * ∑ i, |u.elem i * v.elem i| ∨
    (Fl.dot r u v = 0 ∧ |u.elem ⬝ᵥ v.elem| ≤
      (n + 1) * 2 ^ (-52 : ℤ) * ∑ i, |u.elem i * v.elem i| + 2 * epsilon * min (maxAbs u.elem) (maxAbs v.elem)) := by
  have h := Fl.dotSum_err r u v hn
  have e : u.elem ⬝ᵥ v.elem = ∑ i, u.elem i * v.elem i := rfl
  rw [e]
  unfold Fl.dot
  simp only
  split_ifs with hc
  · exact .inl h
  · by_cases hu : u.elem = 0
    · left; simp [hu]
    by_cases hv : v.elem = 0
    · left; simp [hv]
    right
    refine ⟨rfl, ?_⟩
    have h1 := scaleEpsilonArr_le epsilon_pos.le hu hv
    have h2 := abs_sub_abs_le_abs_sub (∑ i, u.elem i * v.elem i) (Fl.sum r fun i => r (u.elem i * v.elem i))
    rw [abs_sub_comm] at h2
    push Not at hc
    linarith

theorem Fl.sum_abs_le (u v : Vec n) : ∑ i, |u.elem i * v.elem i| ≤ n * (maxAbs u.elem * maxAbs v.elem) := by
  have : ∀ i ∈ Finset.univ, |u.elem i * v.elem i| ≤ maxAbs u.elem * maxAbs v.elem := fun i _ => by
    rw [abs_mul]
    exact mul_le_mul (le_maxAbs _ i) (le_maxAbs _ i) (abs_nonneg _) (maxAbs_nonneg _)
  have := Finset.sum_le_card_nsmul _ _ _ this
  simpa using this

/-- C118, perpendicular vectors: for vectors of doubles in up to three dimensions whose components are at most 2 in size, an inner product that is 0 is computed as
exactly 0: the cut-off covers the roundings. -/
theorem C118_perpendicular (r : Rounding 53) (u v : Vec n) (hn : n ≤ 3) (hu : ∀ i, |u.elem i| ≤ 2) (hv : ∀ i, |v.elem i| ≤ 2)
    (h : u.elem ⬝ᵥ v.elem = 0) : Fl.dot r u v = 0 := by
  by_cases hu0 : u.elem = 0
  · rcases C118_dot r u v (by omega) with h1 | ⟨h1, -⟩
    · rw [h] at h1
      simpa [hu0] using h1
    · exact h1
  by_cases hv0 : v.elem = 0
  · rcases C118_dot r u v (by omega) with h1 | ⟨h1, -⟩
    · rw [h] at h1
      simpa [hv0] using h1
    · exact h1
  have h1 := Fl.dotSum_err r u v (by omega)
  rw [show ∑ i, u.elem i * v.elem i = 0 from h, sub_zero] at h1
  have h2 := Fl.sum_abs_le u v
  have h3 := le_scaleEpsilonArr (x := u.elem) (y := v.elem) epsilon_pos.le
  have hU := maxAbs_le (by norm_num) hu
  have hV := maxAbs_le (by norm_num) hv
  have hU0 : 0 < maxAbs u.elem := lt_of_le_of_ne (maxAbs_nonneg _) (Ne.symm (maxAbs_eq_zero.not.2 hu0))
  have hV0 : 0 < maxAbs v.elem := lt_of_le_of_ne (maxAbs_nonneg _) (Ne.symm (maxAbs_eq_zero.not.2 hv0))
  have hm : maxAbs u.elem * maxAbs v.elem ≤ 2 * min (maxAbs u.elem) (maxAbs v.elem) := by
    rcases min_cases (maxAbs u.elem) (maxAbs v.elem) with ⟨e, _⟩ | ⟨e, _⟩ <;> rw [e] <;> nlinarith
  have hm0 : 0 < min (maxAbs u.elem) (maxAbs v.elem) := lt_min hU0 hV0
  have hn' : (n : ℝ) ≤ 3 := by exact_mod_cast hn
  have hn0 : (0 : ℝ) ≤ n := Nat.cast_nonneg _
  unfold Fl.dot
  simp only
  rw [if_neg]
  rw [ge_iff_le, not_le]
  refine h1.trans_lt (lt_of_lt_of_le ?_ h3)
  generalize min (maxAbs u.elem) (maxAbs v.elem) = m at *
  have h4 : ∑ i, |u.elem i * v.elem i| ≤ 6 * m := by nlinarith
  have h5 : 0 ≤ ∑ i, |u.elem i * v.elem i| := Finset.sum_nonneg fun _ _ => abs_nonneg _
  have h6 : (n + 1 : ℝ) * ∑ i, |u.elem i * v.elem i| ≤ 24 * m := by nlinarith
  have h7 : (0 : ℝ) < 2 ^ (-52 : ℤ) := by positivity
  unfold epsilon
  have h8 := mul_le_mul_of_nonneg_right h6 h7.le
  have h9 := mul_pos hm0 h7
  nlinarith

theorem Fl.sum_three (r : Rounding 53) (f : Fin 3 → ℝ) : Fl.sum r f = r (r (r (0 + f 0) + f 1) + f 2) := rfl

/-- C118: without a bound on the components this is false of the code. The cut-off of `Dot` grows with the smaller vector only, the rounding error with the product
of both: there are perpendicular vectors of doubles whose computed inner product is -1, however ties are rounded. -/
theorem C118_perpendicular_false : ∃ u v : Vec 3, (∀ i, IsFl 53 (u.elem i)) ∧ (∀ i, IsFl 53 (v.elem i)) ∧ u.elem ⬝ᵥ v.elem = 0 ∧
    ∀ r : Rounding 53, Fl.dot r u v = -1 := by
  refine ⟨⟨![134217729, 18014398777917440, 1], true⟩, ⟨![134217729, -1, -1], true⟩, ?_, ?_, ?_, fun r => ?_⟩
  · intro i; fin_cases i
    · exact ⟨134217729, 0, by norm_num, by norm_num⟩
    · exact ⟨67108865, 28, by norm_num, by norm_num⟩
    · exact ⟨1, 0, by norm_num, by norm_num⟩
  · intro i; fin_cases i
    · exact ⟨134217729, 0, by norm_num, by norm_num⟩
    · exact ⟨-1, 0, by norm_num, by norm_num⟩
    · exact ⟨-1, 0, by norm_num, by norm_num⟩
  · simp [dotProduct, Fin.sum_univ_three]; norm_num
  · have hfl : IsFl 53 18014398777917440 := ⟨67108865, 28, by norm_num, by norm_num⟩
    have h1 : r (134217729 * 134217729) = 18014398777917440 := by
      have := r.eq_of_near Fl.pos53 (x := 134217729 * 134217729) (e := 54) (k := 4503599694479360) (by norm_num) (by norm_num) (by norm_num [abs_lt])
      rw [this]; norm_num
    have hsum : Fl.sum r (fun i : Fin 3 => r ((![134217729, 18014398777917440, 1] : Fin 3 → ℝ) i * (![134217729, -1, -1] : Fin 3 → ℝ) i)) = -1 := by
      rw [Fl.sum_three]
      simp only [cons_val_zero, cons_val_one, cons_val]
      rw [h1, zero_add, r.of_fl hfl, mul_neg_one, r.of_fl hfl.neg, add_neg_cancel, r.zero, mul_neg_one, r.of_fl (IsFl.one Fl.pos53).neg,
        zero_add, r.of_fl (IsFl.one Fl.pos53).neg]
    unfold Fl.dot
    simp only [hsum]
    rw [if_pos]
    have he := epsilon_lt
    norm_num at he
    have hm : maxAbs (![134217729, -1, -1] : Fin 3 → ℝ) ≤ 134217729 := maxAbs_le (by norm_num) fun i => by fin_cases i <;> simp
    have h2 := scaleEpsilonArr_le (x := ![134217729, 18014398777917440, 1]) (y := (![134217729, -1, -1] : Fin 3 → ℝ)) epsilon_pos.le
      (fun h => by have := congrFun h 0; norm_num at this) (fun h => by have := congrFun h 0; norm_num at this)
    have h3 := min_le_right (maxAbs (![134217729, 18014398777917440, 1] : Fin 3 → ℝ)) (maxAbs (![134217729, -1, -1] : Fin 3 → ℝ))
    have he0 := epsilon_pos
    rw [abs_neg, abs_one]
    nlinarith

theorem Fl.diff_err (r : Rounding 53) (x y z w : ℝ) :
    |r (r (x * y) - r (z * w)) - (x * y - z * w)| ≤ 2 ^ (-51 : ℤ) * (|x * y| + |z * w|) := by
  have h1 := r.err Fl.pos53 (x * y)
  have h2 := r.err Fl.pos53 (z * w)
  have h3 := r.err Fl.pos53 (r (x * y) - r (z * w))
  rw [Fl.u53] at h1 h2 h3
  generalize x * y = a at *
  generalize z * w = b at *
  have h4 : |(r a - r b) - (a - b)| ≤ |r a - a| + |r b - b| := by
    rw [show (r a - r b) - (a - b) = (r a - a) - (r b - b) by ring]; exact abs_sub _ _
  have h5 : |r a - r b| ≤ |(r a - r b) - (a - b)| + (|a| + |b|) := by
    have := abs_sub_abs_le_abs_sub (r a - r b) (a - b)
    have := abs_sub a b
    linarith
  have h6 := abs_sub_le (r (r a - r b)) (r a - r b) (a - b)
  have := abs_nonneg a
  have := abs_nonneg b
  norm_num at h1 h2 h3 ⊢
  linarith

/-- C118, cross product in three dimensions: every computed component is the exact one up to a rounding error, or 0 where the exact one is below that error plus the
cut-off. -/
theorem C118_cross (r : Rounding 53) (a b : Vec 3) (i : Fin 3) :
    |(Fl.cross3 r a b).elem i - (a.elem ⨯₃ b.elem) i| ≤ 2 ^ (-50 : ℤ) * (maxAbs a.elem * maxAbs b.elem) ∨
    ((Fl.cross3 r a b).elem i = 0 ∧ |(a.elem ⨯₃ b.elem) i| ≤
      2 ^ (-50 : ℤ) * (maxAbs a.elem * maxAbs b.elem) + 2 * epsilon * min (maxAbs a.elem) (maxAbs b.elem)) := by
  by_cases ha : a.elem = 0
  · left
    have := (C117_products r a b a b Vec.zero Vec.zero).2.2.1 0 (by rw [ha, zero_smul])
    rw [this, ha]; simpa using mul_nonneg (maxAbs_nonneg _) (maxAbs_nonneg _)
  by_cases hb : b.elem = 0
  · left
    have h1 := (C117_products r a b b a Vec.zero Vec.zero).2.2.1 0 (by rw [hb, zero_smul])
    have h2 := (C117_products r a b a b Vec.zero Vec.zero).2.1
    rw [h2, Vec.neg_elem, h1, hb]; simpa using mul_nonneg (maxAbs_nonneg _) (maxAbs_nonneg _)
  have hd := scaleEpsilonArr_le epsilon_pos.le ha hb
  have hprod : ∀ j k, |a.elem j * b.elem k| ≤ maxAbs a.elem * maxAbs b.elem := fun j k => by
    rw [abs_mul]; exact mul_le_mul (le_maxAbs _ j) (le_maxAbs _ k) (abs_nonneg _) (maxAbs_nonneg _)
  have key : ∀ j k : Fin 3, |r (r (a.elem j * b.elem k) - r (b.elem j * a.elem k)) - (a.elem j * b.elem k - a.elem k * b.elem j)| ≤
      2 ^ (-50 : ℤ) * (maxAbs a.elem * maxAbs b.elem) := by
    intro j k
    have h1 := Fl.diff_err r (a.elem j) (b.elem k) (b.elem j) (a.elem k)
    have h2 := hprod j k
    have h3 := hprod k j
    rw [mul_comm (b.elem j)] at h1 ⊢
    refine h1.trans ?_
    rw [show (2 : ℝ) ^ (-50 : ℤ) = 2 ^ (-51 : ℤ) * 2 by norm_num, mul_assoc]
    exact mul_le_mul_of_nonneg_left (by linarith) (by positivity)
  have fin : ∀ x y : ℝ, |x - y| ≤ 2 ^ (-50 : ℤ) * (maxAbs a.elem * maxAbs b.elem) →
      |(if |x| < scaleEpsilonArr a.elem b.elem epsilon then 0 else x) - y| ≤ 2 ^ (-50 : ℤ) * (maxAbs a.elem * maxAbs b.elem) ∨
      ((if |x| < scaleEpsilonArr a.elem b.elem epsilon then 0 else x) = 0 ∧ |y| ≤
        2 ^ (-50 : ℤ) * (maxAbs a.elem * maxAbs b.elem) + 2 * epsilon * min (maxAbs a.elem) (maxAbs b.elem)) := by
    intro x y h
    split_ifs with hc
    · right
      refine ⟨rfl, ?_⟩
      have := abs_sub_abs_le_abs_sub y x
      rw [abs_sub_comm] at this
      linarith
    · exact .inl h
  unfold Fl.cross3
  rw [cross_apply]
  fin_cases i
  · exact fin _ _ (key 1 2)
  · exact fin _ _ (key 2 0)
  · exact fin _ _ (key 0 1)

/-- The vectors (3/5, 4/5) and (-4/5, 3/5), rounded to doubles, are perpendicular and satisfy the hypotheses of `C118_perpendicular`. -/
example (r : Rounding 53) : Fl.dot r (⟨![r (3 / 5), r (4 / 5)], true⟩ : Vec 2) ⟨![-r (4 / 5), r (3 / 5)], true⟩ = 0 := by
  have h1 : |r (3 / 5)| ≤ 1 := r.abs_le_fl (IsFl.one Fl.pos53) (by norm_num [abs_le])
  have h2 : |r (4 / 5)| ≤ 1 := r.abs_le_fl (IsFl.one Fl.pos53) (by norm_num [abs_le])
  refine C118_perpendicular r _ _ (by norm_num) ?_ ?_ ?_
  · intro i; fin_cases i <;> simp <;> linarith
  · intro i; fin_cases i <;> simp <;> linarith
  · simp [dotProduct, Fin.sum_univ_two]; ring

end WFMath
