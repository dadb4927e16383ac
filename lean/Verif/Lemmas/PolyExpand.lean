/- Lemmas on adding a corner to a polygon in space. -/
import Verif.Lemmas.Polygon
import Verif.Lemmas.Len

namespace WFMath
open Matrix
variable {n : Nat}

/-- What holds of the plane of every polygon built by adding corners: axes come in order, they are unit vectors, and
perpendicular up to the products that are flushed to 0. -/
structure OrientOk (o : Orient n) : Prop where
  first : o.ax0.valid = true → o.origin.valid = true
  second : o.ax1.valid = true → o.ax0.valid = true
  unit0 : o.ax0.valid = true → o.ax0.elem ⬝ᵥ o.ax0.elem = 1
  unit1 : o.ax1.valid = true → o.ax1.elem ⬝ᵥ o.ax1.elem = 1
  perp : o.ax1.valid = true → |o.ax0.elem ⬝ᵥ o.ax1.elem| ≤ 2 * epsilon

theorem orientOk_empty : OrientOk (Orient.empty : Orient n) := by
  constructor <;> intro h <;> simp [Orient.empty, Vec.default] at h

/-- `Dot` is the exact product, or 0. -/
theorem dot_or (u v : Vec n) : u.dot v = u.elem ⬝ᵥ v.elem ∨ (u.dot v = 0 ∧ |u.elem ⬝ᵥ v.elem| ≤ 2 * epsilon * min (len u.elem) (len v.elem)) := by
  rcases Vec.dot_cases u v with h | h
  · exact Or.inl h
  · right
    refine ⟨h.1, ?_⟩
    have := Vec.dot_err u v
    rw [h.1, zero_sub, abs_neg] at this
    refine le_trans this (mul_le_mul_of_nonneg_left (min_le_min (Vec.maxAbs_le_mag u) (Vec.maxAbs_le_mag v)) ?_)
    have := epsilon_pos; linarith

theorem scale_elem (v : Vec n) (c : ℝ) : (v.scale c).elem = c • v.elem := by
  funext i; show v.elem i * c = c * v.elem i; rw [mul_comm]

theorem divBy_elem (v : Vec n) (c : ℝ) : (v.divBy c).elem = c⁻¹ • v.elem := by
  funext i; show v.elem i / c = c⁻¹ * v.elem i; rw [div_eq_inv_mul]

theorem sub_elem' (u v : Vec n) : (u - v).elem = u.elem - v.elem := rfl

theorem unit_of_div {v : Fin n → ℝ} (h : v ≠ 0) : ((len v)⁻¹ • v) ⬝ᵥ ((len v)⁻¹ • v) = 1 := by
  have hl := len_pos.2 h
  rw [smul_dotProduct, dotProduct_smul, smul_eq_mul, smul_eq_mul, ← len_sq]
  field_simp

/-- The error allowed when a corner is put into the plane: `r` is the displacement, `s` the distance from the first
corner. -/
def CloseTo (eps r s : ℝ) : Prop := r ^ 2 ≤ (eps + 2 * epsilon) * s ^ 2 + 2 * epsilon * r

theorem CloseTo.le {eps r s : ℝ} (he : 0 ≤ eps) (hs : 0 ≤ s) (h : CloseTo eps r s) :
    r ≤ 2 * epsilon + Real.sqrt (eps + 2 * epsilon) * s := by
  have hp := epsilon_pos
  unfold CloseTo at h
  have hk := Real.sq_sqrt (show 0 ≤ eps + 2 * epsilon by linarith)
  generalize hK : Real.sqrt (eps + 2 * epsilon) = K at *
  have hK0 : 0 ≤ K := by rw [← hK]; exact Real.sqrt_nonneg _
  rw [← hk] at h
  by_contra hc
  push Not at hc
  have hKs : 0 ≤ K * s := mul_nonneg hK0 hs
  nlinarith

/-- What `expand` does. -/
theorem expand_spec {o o' : Orient n} {pd : Pt n} {p : Pt 2} {eps : ℝ} (he : 0 ≤ eps) (hok : OrientOk o)
    (h : o.expand pd eps = (true, o', p)) :
    OrientOk o' ∧ o'.origin.valid = true ∧ (o.origin.valid = true → o'.origin = o.origin) ∧
    (o.origin.valid = false → o'.origin.elem = pd.elem) ∧
    (o.ax0.valid = true → o'.ax0 = o.ax0) ∧ (o.ax1.valid = true → o'.ax1 = o.ax1) ∧ p.valid = true ∧
    (o'.ax0.valid = true ∨ p.elem 0 = 0) ∧ (o'.ax1.valid = true ∨ p.elem 1 = 0) ∧
    CloseTo eps (len (o'.at (p.elem 0) (p.elem 1) - pd.elem)) (len (pd.elem - o'.origin.elem)) := by
  have hp := epsilon_pos
  have hself : ∀ (v : Fin n → ℝ), CloseTo eps (len (v - v)) (len (v - v)) := by
    intro v; rw [sub_self, len_zero]; unfold CloseTo; norm_num
  have hzero : ∀ (x : ℝ) , CloseTo eps 0 x := by
    intro x; unfold CloseTo; nlinarith [sq_nonneg x]
  unfold Orient.expand at h
  by_cases h0 : o.origin.valid = false
  · rw [if_pos h0] at h
    obtain ⟨-, rfl, rfl⟩ := Prod.mk.injEq .. ▸ (by simpa [Prod.ext_iff] using h : true = true ∧ _ = o' ∧ _ = p)
    have a0 : o.ax0.valid = false := by
      by_contra hc; rw [Bool.not_eq_false] at hc; have := hok.first hc; simp [h0] at this
    have a1 : o.ax1.valid = false := by
      by_contra hc; rw [Bool.not_eq_false] at hc; have := hok.second hc; simp [a0] at this
    refine ⟨?_, rfl, fun hc => by simp [h0] at hc, fun _ => rfl, fun _ => rfl, fun _ => rfl, rfl, Or.inr rfl, Or.inr rfl, ?_⟩
    · constructor <;> intro hc <;> simp [a0, a1] at hc
    · unfold Orient.at; simp only [Matrix.cons_val_zero, Matrix.cons_val_one, zero_smul, add_zero]
      rw [sub_self, len_zero]; exact hzero _
  rw [if_neg h0] at h
  rw [Bool.not_eq_false] at h0
  set start := pd.sub o.origin with hst
  have hse : start.elem = pd.elem - o.origin.elem := by rw [hst, Pt.sub_elem]
  have hsq : start.sqrMag = len start.elem ^ 2 := by rw [len_sq]; rfl
  by_cases h1 : start.dot start ≤ start.sqrMag * eps
  · simp only [if_pos h1, Prod.mk.injEq, true_and] at h
    obtain ⟨rfl, rfl⟩ := h
    refine ⟨hok, h0, fun _ => rfl, fun hc => by simp [h0] at hc, fun _ => rfl, fun _ => rfl, rfl, Or.inr rfl, Or.inr rfl, ?_⟩
    have : o.at ((⟨![0, 0], true⟩ : Pt 2).elem 0) ((⟨![0, 0], true⟩ : Pt 2).elem 1) - pd.elem = -start.elem := by
      unfold Orient.at; rw [hse]; simp
    rw [this, len_neg, ← hse]
    have hl := len_nonneg start.elem
    unfold CloseTo
    rcases dot_or start start with hd | ⟨-, hd⟩
    · rw [hd, ← len_sq, hsq] at h1
      nlinarith [sq_nonneg (len start.elem)]
    · rw [← len_sq, abs_of_nonneg (sq_nonneg _), min_self] at hd
      nlinarith [sq_nonneg (len start.elem)]
  simp only [if_neg h1] at h
  have hs0 : start.elem ≠ 0 := by
    intro hc; rw [Vec.dot_of_zero_left hc, hsq, hc, len_zero] at h1; norm_num at h1
  by_cases h2 : o.ax0.valid = false
  · simp only [if_pos h2, Prod.mk.injEq, true_and] at h
    obtain ⟨rfl, rfl⟩ := h
    have a1 : o.ax1.valid = false := by
      by_contra hc; rw [Bool.not_eq_false] at hc; have := hok.second hc; simp [h2] at this
    refine ⟨?_, h0, fun _ => rfl, fun hc => by simp [h0] at hc, fun hc => by simp [h2] at hc, fun _ => rfl, rfl, Or.inl rfl, Or.inr rfl, ?_⟩
    · refine ⟨fun _ => h0, fun hc => by simp [a1] at hc, fun _ => ?_, fun hc => by simp [a1] at hc, fun hc => by simp [a1] at hc⟩
      show (start.divBy start.mag).elem ⬝ᵥ _ = 1
      rw [divBy_elem, mag_eq_len]; exact unit_of_div hs0
    · have : o.origin.elem + start.mag • (start.divBy start.mag).elem + (0 : ℝ) • o.ax1.elem - pd.elem = 0 := by
        rw [divBy_elem, smul_smul, mul_inv_cancel₀ (Vec.mag_pos.2 hs0).ne', one_smul, hse]; simp
      have h' : Orient.at { o with ax0 := ⟨(start.divBy start.mag).elem, true⟩ } ((⟨![start.mag, 0], true⟩ : Pt 2).elem 0)
          ((⟨![start.mag, 0], true⟩ : Pt 2).elem 1) - pd.elem = 0 := this
      rw [h', len_zero]; exact hzero _
  simp only [if_neg h2] at h
  rw [Bool.not_eq_false] at h2
  have hu0 := hok.unit0 h2
  have hl0 : len o.ax0.elem = 1 := by unfold len; rw [hu0, Real.sqrt_one]
  set c0 := start.dot o.ax0 with hc0
  set sh1 := start - o.ax0.scale c0 with hsh1
  have he1 : sh1.elem = start.elem - c0 • o.ax0.elem := by rw [hsh1, sub_elem', scale_elem]
  -- the first component is exact or 0
  have hmid : c0 * (sh1.elem ⬝ᵥ o.ax0.elem) = 0 := by
    rw [he1, sub_dotProduct, smul_dotProduct, hu0, smul_eq_mul, mul_one]
    rcases dot_or start o.ax0 with hd | ⟨hd, -⟩
    · rw [hc0, hd]; ring
    · rw [hc0, hd]; ring
  have hnorm1 : sh1.elem ⬝ᵥ sh1.elem = sh1.elem ⬝ᵥ start.elem := by
    conv_lhs => rhs; rw [he1]
    rw [dotProduct_sub, dotProduct_smul, smul_eq_mul, hmid, sub_zero]
  have hlen1 : len sh1.elem ≤ len start.elem := by
    have := (abs_le.1 (abs_dot_le_len sh1.elem start.elem)).2
    rw [← hnorm1, ← len_sq] at this
    by_contra hc; push Not at hc
    nlinarith [len_nonneg start.elem, len_nonneg sh1.elem]
  have hc0s : |c0| ≤ len start.elem := by
    have h3 := Vec.abs_dot_le start o.ax0
    have h4 := abs_dot_le_len start.elem o.ax0.elem
    rw [hl0, mul_one] at h4
    exact le_trans h3 h4
  by_cases h3 : sh1.dot start ≤ start.sqrMag * eps
  · simp only [if_pos h3, Prod.mk.injEq, true_and] at h
    obtain ⟨rfl, rfl⟩ := h
    refine ⟨hok, h0, fun _ => rfl, fun hc => by simp [h0] at hc, fun _ => rfl, fun _ => rfl, rfl, Or.inl h2, Or.inr rfl, ?_⟩
    have : o.at ((⟨![c0, 0], true⟩ : Pt 2).elem 0) ((⟨![c0, 0], true⟩ : Pt 2).elem 1) - pd.elem = -sh1.elem := by
      unfold Orient.at; rw [he1, hse]; simp; abel
    rw [this, len_neg, ← hse]
    have hl := len_nonneg sh1.elem
    unfold CloseTo
    rw [hsq] at h3
    rcases dot_or sh1 start with hd | ⟨-, hd⟩
    · rw [hd, ← hnorm1, ← len_sq] at h3
      nlinarith [sq_nonneg (len start.elem)]
    · rw [← hnorm1, ← len_sq, abs_of_nonneg (sq_nonneg _)] at hd
      have := min_le_left (len sh1.elem) (len start.elem)
      nlinarith [sq_nonneg (len start.elem)]
  simp only [if_neg h3] at h
  have hs1 : sh1.elem ≠ 0 := by
    intro hc; rw [Vec.dot_of_zero_left hc, hsq] at h3; exact h3 (by positivity)
  by_cases h4 : o.ax1.valid = false
  · simp only [if_pos h4, Prod.mk.injEq, true_and] at h
    obtain ⟨rfl, rfl⟩ := h
    refine ⟨?_, h0, fun _ => rfl, fun hc => by simp [h0] at hc, fun _ => rfl, fun hc => by simp [h4] at hc, rfl, Or.inl h2, Or.inl rfl, ?_⟩
    · refine ⟨hok.first, fun _ => h2, hok.unit0, fun _ => ?_, fun _ => ?_⟩
      · show (sh1.divBy sh1.mag).elem ⬝ᵥ _ = 1
        rw [divBy_elem, mag_eq_len]; exact unit_of_div hs1
      · show |o.ax0.elem ⬝ᵥ (sh1.divBy sh1.mag).elem| ≤ 2 * epsilon
        rw [divBy_elem, mag_eq_len, dotProduct_smul, smul_eq_mul, dotProduct_comm, abs_mul, abs_inv, abs_of_nonneg (len_nonneg _)]
        have hl := len_pos.2 hs1
        rcases eq_or_ne c0 0 with hc | hc
        · have e : sh1.elem = start.elem := by rw [he1, hc, zero_smul, sub_zero]
          rw [e] at hl ⊢
          rw [inv_mul_le_iff₀ hl]
          rcases dot_or start o.ax0 with hd | ⟨-, hd⟩
          · rw [← hd, ← hc0, hc, abs_zero]; positivity
          · have := min_le_left (len start.elem) (len o.ax0.elem)
            nlinarith
        · rw [(mul_eq_zero.1 hmid).resolve_left hc, abs_zero, mul_zero]; linarith
    · have : o.origin.elem + c0 • o.ax0.elem + sh1.mag • (sh1.divBy sh1.mag).elem - pd.elem = 0 := by
        rw [divBy_elem, smul_smul, mul_inv_cancel₀ (Vec.mag_pos.2 hs1).ne', one_smul, he1, hse]; simp
      have h' : Orient.at { o with ax1 := ⟨(sh1.divBy sh1.mag).elem, true⟩ } ((⟨![c0, sh1.mag], true⟩ : Pt 2).elem 0)
          ((⟨![c0, sh1.mag], true⟩ : Pt 2).elem 1) - pd.elem = 0 := this
      rw [h', len_zero]; exact hzero _
  simp only [if_neg h4] at h
  rw [Bool.not_eq_false] at h4
  have hu1 := hok.unit1 h4
  have hl1 : len o.ax1.elem = 1 := by unfold len; rw [hu1, Real.sqrt_one]
  set c1 := sh1.dot o.ax1 with hc1
  set sh2 := sh1 - o.ax1.scale c1 with hsh2
  have he2 : sh2.elem = sh1.elem - c1 • o.ax1.elem := by rw [hsh2, sub_elem', scale_elem]
  have hmid2 : c1 * (sh2.elem ⬝ᵥ o.ax1.elem) = 0 := by
    rw [he2, sub_dotProduct, smul_dotProduct, hu1, smul_eq_mul, mul_one]
    rcases dot_or sh1 o.ax1 with hd | ⟨hd, -⟩
    · rw [hc1, hd]; ring
    · rw [hc1, hd]; ring
  have hc1s : |c1| ≤ len start.elem := by
    have h3 := Vec.abs_dot_le sh1 o.ax1
    have h4 := abs_dot_le_len sh1.elem o.ax1.elem
    rw [hl1, mul_one] at h4
    exact le_trans h3 (le_trans h4 hlen1)
  have hnorm2 : sh2.elem ⬝ᵥ sh2.elem = sh2.elem ⬝ᵥ start.elem + c0 * c1 * (o.ax0.elem ⬝ᵥ o.ax1.elem) := by
    have es : start.elem = sh2.elem + c1 • o.ax1.elem + c0 • o.ax0.elem := by rw [he2, he1]; abel
    have e1 : sh2.elem ⬝ᵥ start.elem = sh2.elem ⬝ᵥ sh2.elem + c1 * (sh2.elem ⬝ᵥ o.ax1.elem) + c0 * (sh2.elem ⬝ᵥ o.ax0.elem) := by
      conv_lhs => rhs; rw [es]
      rw [dotProduct_add, dotProduct_add, dotProduct_smul, dotProduct_smul, smul_eq_mul, smul_eq_mul]
    have e2 : sh2.elem ⬝ᵥ o.ax0.elem = sh1.elem ⬝ᵥ o.ax0.elem - c1 * (o.ax0.elem ⬝ᵥ o.ax1.elem) := by
      rw [he2, sub_dotProduct, smul_dotProduct, smul_eq_mul, dotProduct_comm o.ax1.elem]
    rw [e1, hmid2, e2]
    linear_combination -hmid
  by_cases h5 : sh2.dot start ≤ start.sqrMag * eps
  · simp only [if_pos h5, Prod.mk.injEq, true_and] at h
    obtain ⟨rfl, rfl⟩ := h
    refine ⟨hok, h0, fun _ => rfl, fun hc => by simp [h0] at hc, fun _ => rfl, fun _ => rfl, rfl, Or.inl h2, Or.inl h4, ?_⟩
    have : o.at ((⟨![c0, c1], true⟩ : Pt 2).elem 0) ((⟨![c0, c1], true⟩ : Pt 2).elem 1) - pd.elem = -sh2.elem := by
      unfold Orient.at; rw [he2, he1, hse]; simp; abel
    rw [this, len_neg, ← hse]
    have hl := len_nonneg sh2.elem
    have hls := len_nonneg start.elem
    have hperp : c0 * c1 * (o.ax0.elem ⬝ᵥ o.ax1.elem) ≤ 2 * epsilon * len start.elem ^ 2 := by
      refine le_trans (le_abs_self _) ?_
      rw [abs_mul, abs_mul]
      have := mul_le_mul (mul_le_mul hc0s hc1s (abs_nonneg _) hls) (hok.perp h4) (abs_nonneg _) (by positivity)
      refine le_trans this (le_of_eq (by ring))
    unfold CloseTo
    rw [hsq] at h5
    rw [len_sq, hnorm2]
    rcases dot_or sh2 start with hd | ⟨-, hd⟩
    · rw [hd] at h5
      have : 0 ≤ 2 * epsilon * len sh2.elem := by positivity
      linarith [show len start.elem ^ 2 * eps = eps * len start.elem ^ 2 from mul_comm _ _]
    · have h6 := (abs_le.1 hd).2
      have h7 := mul_le_mul_of_nonneg_left (min_le_left (len sh2.elem) (len start.elem)) (show 0 ≤ 2 * epsilon by linarith)
      have h8 := mul_nonneg he (sq_nonneg (len start.elem))
      linarith
  · simp only [if_neg h5, Prod.mk.injEq] at h
    simp at h

/-- A failed `expand` changes nothing. -/
theorem expand_fail {o o' : Orient n} {pd : Pt n} {p : Pt 2} {eps : ℝ} (h : o.expand pd eps = (false, o', p)) : o' = o := by
  unfold Orient.expand at h
  simp only at h
  split_ifs at h <;> simp only [Prod.mk.injEq] at h <;> simp at h
  exact h.1.symm

/-- The plane does not move under the corners it already holds. -/
theorem at_mono {o o' : Orient n} (horg : o'.origin = o.origin) (h0 : o.ax0.valid = true → o'.ax0 = o.ax0)
    (h1 : o.ax1.valid = true → o'.ax1 = o.ax1) {x y : ℝ} (hx : o.ax0.valid = true ∨ x = 0) (hy : o.ax1.valid = true ∨ y = 0) :
    o'.at x y = o.at x y := by
  unfold Orient.at
  rw [horg]
  have e0 : x • o'.ax0.elem = x • o.ax0.elem := by
    rcases hx with h | h
    · rw [h0 h]
    · rw [h, zero_smul, zero_smul]
  have e1 : y • o'.ax1.elem = y • o.ax1.elem := by
    rcases hy with h | h
    · rw [h1 h]
    · rw [h, zero_smul, zero_smul]
  rw [e0, e1]

end WFMath
