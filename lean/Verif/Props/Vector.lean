/- Property theorems C16-C24, C26-C28 about vectors. -/
import Verif.Lemmas.Vector
import Verif.Spec.Vector

namespace WFMath
open Matrix Spec
variable {n : Nat}

/-! ### C16 validity -/

/-- C16: an expression is valid exactly when every vector in it is. -/
theorem C16_valid_conj (e : VExpr n) : e.eval.valid = true ↔ ∀ v ∈ e.leaves, v.valid = true := by
  induction e with
  | leaf v => simp [VExpr.eval, VExpr.leaves]
  | add a b iha ihb | sub a b iha ihb =>
    simp only [VExpr.eval, VExpr.leaves, Vec.add_valid, Vec.sub_valid, Bool.and_eq_true, iha, ihb,
      List.mem_append]
    exact ⟨fun h v hv => hv.elim (h.1 v) (h.2 v), fun h => ⟨fun v hv => h v (.inl hv), fun v hv => h v (.inr hv)⟩⟩
  | mirrorDir a b iha ihb =>
    simp only [VExpr.eval, VExpr.leaves, Vec.mirrorDir, Vec.sub_valid, Vec.divBy_valid, Vec.scale_valid,
      Bool.and_eq_true, iha, ihb, List.mem_append]
    exact ⟨fun h v hv => hv.elim (h.1 v) (h.2 v), fun h => ⟨fun v hv => h v (.inl hv), fun v hv => h v (.inr hv)⟩⟩
  | neg a ih | scale a d ih | divBy a d ih | normalize a d ih | mirrorAxis a d ih | mirrorAll a ih =>
    simpa [VExpr.eval, VExpr.leaves, Vec.normalize, Vec.mirrorAxis, Vec.mirrorAll] using ih

example : (VExpr.add (.leaf (Vec.zero : Vec 2)) (.leaf Vec.default)).eval.valid = false := rfl

/-! ### C17 vector space laws -/

/-- C17: the operators act on the components as the operations of the vector space `Fin n → ℝ`. -/
theorem C17_components (u v : Vec n) (d : ℝ) :
    (u + v).elem = u.elem + v.elem ∧ (u - v).elem = u.elem - v.elem ∧ (-v).elem = -v.elem ∧
    (v.scale d).elem = d • v.elem ∧ (v.divBy d).elem = d⁻¹ • v.elem := by simp

/-- C17: the vector space laws for the library's values, flags included. -/
theorem C17_laws (u v w : Vec n) (c d : ℝ) :
    u + v = v + u ∧ (u + v) + w = u + (v + w) ∧ v + Vec.zero = v ∧ v.scale 1 = v ∧
    (v.scale c).scale d = v.scale (c * d) ∧ (u + v).scale d = u.scale d + v.scale d ∧
    v.scale (c + d) = v.scale c + v.scale d ∧ u - v = u + -v ∧ -v = v.scale (-1) := by
  refine ⟨?_, ?_, ?_, ?_, ?_, ?_, ?_, ?_, ?_⟩
  rotate_left
  · ext1 <;> simp [add_assoc, Bool.and_assoc]
  all_goals ext1 <;>
    simp [add_comm, Bool.and_comm, add_assoc, Bool.and_assoc, smul_smul, mul_comm, add_smul, sub_eq_add_neg]

/-- C17: dividing and multiplying back restores the vector. -/
theorem C17_div_mul (v : Vec n) (s : ℝ) (hs : s ≠ 0) :
    (v.divBy s).scale s = v ∧ (v.scale s).divBy s = v := by
  constructor <;> ext1 <;> simp [hs]

example : ((⟨![1, 2], true⟩ : Vec 2).divBy 3).scale 3 = ⟨![1, 2], true⟩ :=
  (C17_div_mul _ 3 (by norm_num)).1

/-! ### C18 Dot -/

/-- C18: `Dot` is the exact inner product, or 0 while the exact one is below `2 eps` times the largest
component of the smaller vector. -/
theorem C18_dot (u v : Vec n) :
    u.dot v = u.elem ⬝ᵥ v.elem ∨
    (u.dot v = 0 ∧ |u.elem ⬝ᵥ v.elem| < 2 * epsilon * min (maxAbs u.elem) (maxAbs v.elem)) := by
  rcases Vec.dot_cases u v with h | ⟨h, h'⟩
  · exact .inl h
  · by_cases hu : u.elem = 0
    · left; rw [h, hu, zero_dotProduct]
    by_cases hv : v.elem = 0
    · left; rw [h, hv, dotProduct_zero]
    exact .inr ⟨h, lt_of_lt_of_le h' (scaleEpsilonArr_le epsilon_pos.le hu hv)⟩

/-- C18: an inner product of at least `2 eps` times the largest component of the smaller vector is
returned exactly. -/
theorem C18_exact (u v : Vec n)
    (h : 2 * epsilon * min (maxAbs u.elem) (maxAbs v.elem) ≤ |u.elem ⬝ᵥ v.elem|) :
    u.dot v = u.elem ⬝ᵥ v.elem := Vec.dot_exact h

/-- C18: an inner product below `eps` times the largest component of the smaller vector is returned as 0. -/
theorem C18_cut (u v : Vec n)
    (h : |u.elem ⬝ᵥ v.elem| < epsilon * min (maxAbs u.elem) (maxAbs v.elem)) : u.dot v = 0 := by
  rw [Vec.dot_def, if_neg]
  rw [ge_iff_le, not_le]
  exact lt_of_lt_of_le h (le_scaleEpsilonArr epsilon_pos.le)

/-- C18: symmetric. -/
theorem C18_symm (u v : Vec n) : u.dot v = v.dot u := Vec.dot_comm u v

/-- C18: zero if either vector is zero. -/
theorem C18_zero (u v : Vec n) (h : u.elem = 0 ∨ v.elem = 0) : u.dot v = 0 :=
  h.elim Vec.dot_of_zero_left Vec.dot_of_zero_right

/-- The largest component is what `maxAbs` computes. -/
theorem C18_maxAbs (x : Fin n → ℝ) (hn : 0 < n) :
    (∀ i, |x i| ≤ maxAbs x) ∧ ∃ i, maxAbs x = |x i| := by
  refine ⟨le_maxAbs x, ?_⟩
  rcases maxAbs_attained x with h | h
  · have := maxAbs_eq_zero.1 h
    exact ⟨⟨0, hn⟩, by rw [h, this]; simp⟩
  · exact h

private theorem maxAbs2 (a b : ℝ) (h : |b| ≤ |a|) : maxAbs ![a, b] = |a| := by
  apply le_antisymm
  · apply maxAbs_le (abs_nonneg _)
    intro i; fin_cases i <;> simp [h]
  · exact le_maxAbs ![a, b] 0

/-- The cut-off is real: a nonzero vector may have a zero inner product with itself. -/
theorem C18_tiny : ∃ v : Vec 2, v.valid = true ∧ v.elem ≠ 0 ∧ v.dot v = 0 := by
  have he := epsilon_pos
  refine ⟨⟨![epsilon / 2, 0], true⟩, rfl, ?_, ?_⟩
  · intro h
    have := congrFun h 0
    simp at this
    exact he.ne' this
  · apply C18_cut
    rw [min_self]
    simp only
    rw [maxAbs2 _ _ (by simp), abs_of_pos (half_pos he)]
    simp [dotProduct]
    nlinarith

example : (⟨![3, 4], true⟩ : Vec 2).dot ⟨![1, 0], true⟩ = 3 := by
  rw [C18_exact]
  · simp [dotProduct]
  · simp only [maxAbs2 1 0 (by simp)]
    have := epsilon_lt
    have hp := epsilon_pos
    have hm : min (maxAbs ![(3 : ℝ), 4]) 1 ≤ 1 := min_le_right _ _
    simp [dotProduct]
    nlinarith [le_min (maxAbs_nonneg ![(3 : ℝ), 4]) (zero_le_one (α := ℝ))]

/-! ### C20 normalize -/

/-- C20: `normalize(n)` gives length `|n|`. -/
theorem C20_length (v : Vec n) (norm : ℝ) (h : v.elem ≠ 0) : (v.normalize norm).mag = |norm| := by
  have := Vec.mag_pos.2 h
  rw [Vec.normalize, Vec.mag_scale, abs_div, abs_of_pos this, div_mul_cancel₀ _ this.ne']

/-- C20: for a positive length the direction is kept: the result is a positive multiple of `v`. -/
theorem C20_direction (v : Vec n) (norm : ℝ) (h : v.elem ≠ 0) (hn : 0 < norm) :
    ∃ c : ℝ, 0 < c ∧ (v.normalize norm).elem = c • v.elem ∧ (v.normalize norm).valid = v.valid := by
  refine ⟨norm / v.mag, div_pos hn (Vec.mag_pos.2 h), by simp [Vec.normalize], rfl⟩

example : ((⟨![3, 4], true⟩ : Vec 2).normalize 10).mag = 10 := by
  rw [C20_length]
  · norm_num
  · intro h; have := congrFun h 0; simp at this

/-! ### C21 cross product in 3D -/

/-- C21: every component is exact, or 0 while the exact one is below `2 eps` times the largest component
of the smaller vector. -/
theorem C21_components (u v : Vec 3) (i : Fin 3) :
    (cross3 u v).elem i = (u.elem ⨯₃ v.elem) i ∨
    ((cross3 u v).elem i = 0 ∧
      |(u.elem ⨯₃ v.elem) i| < 2 * epsilon * min (maxAbs u.elem) (maxAbs v.elem)) := by
  have key : ∀ a b : ℝ, a = b → ((u.elem = 0 ∨ v.elem = 0) → b = 0) →
      (if |a| < scaleEpsilonArr u.elem v.elem epsilon then 0 else a) = b ∨
      ((if |a| < scaleEpsilonArr u.elem v.elem epsilon then 0 else a) = 0 ∧
        |b| < 2 * epsilon * min (maxAbs u.elem) (maxAbs v.elem)) := by
    intro a b hab h0
    subst hab
    by_cases h : |a| < scaleEpsilonArr u.elem v.elem epsilon
    · rw [if_pos h]
      by_cases hu : u.elem = 0
      · left; rw [h0 (.inl hu)]
      by_cases hv : v.elem = 0
      · left; rw [h0 (.inr hv)]
      exact .inr ⟨rfl, lt_of_lt_of_le h (scaleEpsilonArr_le epsilon_pos.le hu hv)⟩
    · rw [if_neg h]; left; rfl
  have h0 : (u.elem = 0 ∨ v.elem = 0) → ∀ i, (u.elem ⨯₃ v.elem) i = 0 := by
    rintro (h | h) i <;> rw [h] <;> simp
  fin_cases i
  · exact key _ _ (by simp [cross_apply]; ring) (fun h => h0 h 0)
  · exact key _ _ (by simp [cross_apply]; ring) (fun h => h0 h 1)
  · exact key _ _ (by simp [cross_apply]; ring) (fun h => h0 h 2)

/-- C21: antisymmetric, with no exception for the cut-off. -/
theorem C21_antisymm (u v : Vec 3) : cross3 u v = -cross3 v u := by
  have key : ∀ a b d : ℝ, a = -b → (if |a| < d then 0 else a) = -(if |b| < d then 0 else b) := by
    intro a b d h; subst h; rw [abs_neg]; split <;> simp
  ext1
  · rw [Vec.neg_elem]
    unfold cross3
    rw [scaleEpsilonArr_symm v.elem u.elem]
    funext i
    fin_cases i <;> exact key _ _ _ (by ring)
  · simp [cross3, Bool.and_comm]

/-- C21: orthogonal to both arguments up to the cut-off. -/
theorem C21_orthogonal (u v : Vec 3) :
    |(cross3 u v).elem ⬝ᵥ u.elem| ≤ 2 * epsilon * min (maxAbs u.elem) (maxAbs v.elem) * ∑ i, |u.elem i| ∧
    |(cross3 u v).elem ⬝ᵥ v.elem| ≤ 2 * epsilon * min (maxAbs u.elem) (maxAbs v.elem) * ∑ i, |v.elem i| := by
  have hb : 0 ≤ 2 * epsilon * min (maxAbs u.elem) (maxAbs v.elem) :=
    mul_nonneg (by linarith [epsilon_pos]) (le_min (maxAbs_nonneg _) (maxAbs_nonneg _))
  have hd : ∀ i, |(cross3 u v).elem i - (u.elem ⨯₃ v.elem) i| ≤
      2 * epsilon * min (maxAbs u.elem) (maxAbs v.elem) := by
    intro i
    rcases C21_components u v i with h | ⟨h, h'⟩
    · rw [h, sub_self, abs_zero]; exact hb
    · rw [h, zero_sub, abs_neg]; exact h'.le
  have main : ∀ w : Fin 3 → ℝ, (u.elem ⨯₃ v.elem) ⬝ᵥ w = 0 → |(cross3 u v).elem ⬝ᵥ w| ≤
      2 * epsilon * min (maxAbs u.elem) (maxAbs v.elem) * ∑ i, |w i| := by
    intro w hw
    have : (cross3 u v).elem ⬝ᵥ w = ∑ i, ((cross3 u v).elem i - (u.elem ⨯₃ v.elem) i) * w i := by
      simp only [sub_mul, Finset.sum_sub_distrib]
      change _ = _ - (u.elem ⨯₃ v.elem) ⬝ᵥ w
      rw [hw, sub_zero]; rfl
    rw [this, Finset.mul_sum]
    refine le_trans (Finset.abs_sum_le_sum_abs _ _) (Finset.sum_le_sum fun i _ => ?_)
    rw [abs_mul]
    exact mul_le_mul_of_nonneg_right (hd i) (abs_nonneg _)
  refine ⟨main _ ?_, main _ ?_⟩
  · rw [dotProduct_comm]; exact dot_self_cross _ _
  · rw [dotProduct_comm]; exact dot_cross_self _ _

/-- C21: the squared length obeys Lagrange's identity up to the cut-off. -/
theorem C21_length (u v : Vec 3) :
    (cross3 u v).sqrMag ≤ u.sqrMag * v.sqrMag - (u.elem ⬝ᵥ v.elem) ^ 2 ∧
    u.sqrMag * v.sqrMag - (u.elem ⬝ᵥ v.elem) ^ 2 - 3 * (2 * epsilon * min (maxAbs u.elem) (maxAbs v.elem)) ^ 2
      ≤ (cross3 u v).sqrMag := by
  have e : u.sqrMag * v.sqrMag - (u.elem ⬝ᵥ v.elem) ^ 2 = ∑ i, (u.elem ⨯₃ v.elem) i ^ 2 := by
    simp [Vec.sqrMag, dotProduct, Fin.sum_univ_three, cross_apply]; ring
  have hs : (cross3 u v).sqrMag = ∑ i, (cross3 u v).elem i ^ 2 := by simp [Vec.sqrMag, sq]
  have b : ∀ i, (cross3 u v).elem i ^ 2 ≤ (u.elem ⨯₃ v.elem) i ^ 2 ∧
      (u.elem ⨯₃ v.elem) i ^ 2 - (2 * epsilon * min (maxAbs u.elem) (maxAbs v.elem)) ^ 2
        ≤ (cross3 u v).elem i ^ 2 := by
    intro i
    rcases C21_components u v i with h | ⟨h, h'⟩
    · rw [h]; exact ⟨le_rfl, by nlinarith [sq_nonneg (2 * epsilon * min (maxAbs u.elem) (maxAbs v.elem))]⟩
    · rw [h]
      refine ⟨by rw [zero_pow two_ne_zero]; exact sq_nonneg _, ?_⟩
      have := sq_le_sq' (by linarith [abs_nonneg ((u.elem ⨯₃ v.elem) i)]) h'.le
        (a := |(u.elem ⨯₃ v.elem) i|) (b := 2 * epsilon * min (maxAbs u.elem) (maxAbs v.elem))
      rw [sq_abs] at this
      linarith
  rw [e, hs]
  constructor
  · exact Finset.sum_le_sum fun i _ => (b i).1
  · simp only [Fin.sum_univ_three]
    have := (b 0).2; have := (b 1).2; have := (b 2).2
    linarith

example : (cross3 ⟨![1, 0, 0], true⟩ ⟨![0, 1, 0], true⟩).elem 2 = 1 := by
  have h := C21_components ⟨![1, 0, 0], true⟩ ⟨![0, 1, 0], true⟩ 2
  have e : ((![1, 0, 0] : Fin 3 → ℝ) ⨯₃ ![0, 1, 0]) 2 = 1 := by simp [cross_apply]
  have hm : maxAbs ![(1 : ℝ), 0, 0] ≤ 1 := maxAbs_le (by norm_num) (by intro i; fin_cases i <;> simp)
  have := epsilon_lt
  rw [e] at h
  rcases h with h | ⟨_, h⟩
  · exact h
  · exfalso
    rw [abs_one] at h
    have h1 : min (maxAbs ![(1 : ℝ), 0, 0]) (maxAbs ![(0 : ℝ), 1, 0]) ≤ 1 := le_trans (min_le_left _ _) hm
    have h0 := le_min (maxAbs_nonneg ![(1 : ℝ), 0, 0]) (maxAbs_nonneg ![(0 : ℝ), 1, 0])
    have := epsilon_pos
    simp only at h
    nlinarith

/-! ### C22 cross product in 2D -/

/-- C22 is false: `Cross` of two plane vectors is not antisymmetric, negative values are returned as 0. -/
theorem C22_false : ∃ u v : Vec 2, u.valid = true ∧ v.valid = true ∧
    cross2 u v = 1 ∧ cross2 v u = 0 := by
  have he := epsilon_lt
  have hm : scaleEpsilonArr ![(1 : ℝ), 0] ![0, 1] epsilon ≤ 1 := by
    have a : maxAbs ![(1 : ℝ), 0] = 1 := by rw [maxAbs2 _ _ (by simp)]; simp
    have := scaleEpsilonArr_le (x := ![(1 : ℝ), 0]) (y := ![0, 1]) epsilon_pos.le
      (by intro h; simpa using congrFun h 0) (by intro h; simpa using congrFun h 1)
    rw [a] at this
    have : min 1 (maxAbs ![(0 : ℝ), 1]) ≤ 1 := min_le_left _ _
    nlinarith [epsilon_pos]
  refine ⟨⟨![1, 0], true⟩, ⟨![0, 1], true⟩, rfl, rfl, ?_, ?_⟩
  · simp [cross2, hm]
  · unfold cross2
    have : 0 < scaleEpsilonArr ![(0 : ℝ), 1] ![1, 0] epsilon := scaleEpsilonArr_pos epsilon_pos
    simp
    linarith

/-- C22 (part): what does hold. A positive determinant of at least `2 eps` times the largest component
of the smaller vector is returned exactly, and the result is never negative; so a positive result means
that `v` lies counter-clockwise of `u`. Missing: clockwise pairs, for which 0 is returned. -/
theorem C22_partial (u v : Vec 2) :
    0 ≤ cross2 u v ∧ (0 < cross2 u v → cross2 u v = u.elem 0 * v.elem 1 - u.elem 1 * v.elem 0) ∧
    (2 * epsilon * min (maxAbs u.elem) (maxAbs v.elem) ≤ u.elem 0 * v.elem 1 - u.elem 1 * v.elem 0 →
      cross2 u v = u.elem 0 * v.elem 1 - u.elem 1 * v.elem 0) := by
  have hp : 0 < scaleEpsilonArr u.elem v.elem epsilon := scaleEpsilonArr_pos epsilon_pos
  unfold cross2
  simp only
  refine ⟨?_, ?_, ?_⟩
  · split
    · linarith
    · exact le_rfl
  · intro h
    split at h
    · rename_i h'; rw [if_pos h']; ring
    · exact absurd h (lt_irrefl _)
  · intro h
    by_cases hu : u.elem = 0
    · simp [hu]
    by_cases hv : v.elem = 0
    · simp [hv]
    rw [if_pos]
    · ring
    · have := scaleEpsilonArr_le epsilon_pos.le hu hv
      linarith

/-! ### C23 angle -/

/-- C23: in `[0, π]`. -/
theorem C23_range (u v : Vec n) : 0 ≤ Vec.angle u v ∧ Vec.angle u v ≤ Real.pi :=
  ⟨Real.arccos_nonneg _, Real.arccos_le_pi _⟩

/-- C23: symmetric. -/
theorem C23_symm (u v : Vec n) : Vec.angle u v = Vec.angle v u := by
  unfold Vec.angle; rw [Vec.dot_comm, mul_comm]

private theorem clampId {x : ℝ} (h1 : -1 ≤ x) (h2 : x ≤ 1) : floatClamp x (-1) 1 = x := by
  unfold floatClamp
  split
  · linarith
  · split <;> linarith

private theorem angle_arg (u v : Vec n) (hu : u.elem ≠ 0) (hv : v.elem ≠ 0) :
    -1 ≤ u.dot v / Real.sqrt (u.sqrMag * v.sqrMag) ∧ u.dot v / Real.sqrt (u.sqrMag * v.sqrMag) ≤ 1 := by
  have hp : 0 < u.mag * v.mag := mul_pos (Vec.mag_pos.2 hu) (Vec.mag_pos.2 hv)
  have e : Real.sqrt (u.sqrMag * v.sqrMag) = u.mag * v.mag := Real.sqrt_mul (Vec.sqrMag_nonneg u) _
  have := le_trans (Vec.abs_dot_le u v) (Vec.abs_dotProduct_le u v)
  rw [e, ← abs_le, abs_div, abs_of_pos hp, div_le_one hp]
  exact this

/-- C23: the cosine of the angle is `Dot(u,v) / (|u||v|)` for nonzero vectors. -/
theorem C23_cos (u v : Vec n) (hu : u.elem ≠ 0) (hv : v.elem ≠ 0) :
    Real.cos (Vec.angle u v) = u.dot v / (u.mag * v.mag) := by
  have e : Real.sqrt (u.sqrMag * v.sqrMag) = u.mag * v.mag := Real.sqrt_mul (Vec.sqrMag_nonneg u) _
  obtain ⟨h1, h2⟩ := angle_arg u v hu hv
  have e' : v.dot u / Real.sqrt (v.sqrMag * u.sqrMag) = u.dot v / Real.sqrt (u.sqrMag * v.sqrMag) := by
    rw [Vec.dot_comm, mul_comm]
  rw [Vec.angle, e', clampId h1 h2, Real.cos_arccos h1 h2, e]

/-- C23: hence it differs from the cosine of the geometric angle by at most `2 eps` over the length of
the longer vector. -/
theorem C23_cos_error (u v : Vec n) (hu : u.elem ≠ 0) (hv : v.elem ≠ 0) :
    |Real.cos (Vec.angle u v) - (u.elem ⬝ᵥ v.elem) / (u.mag * v.mag)| ≤ 2 * epsilon / max u.mag v.mag := by
  have pu := Vec.mag_pos.2 hu
  have pv := Vec.mag_pos.2 hv
  have hp : 0 < u.mag * v.mag := mul_pos pu pv
  have he := epsilon_pos
  rw [C23_cos u v hu hv, ← sub_div, abs_div, abs_of_pos hp, div_le_div_iff₀ hp (lt_max_of_lt_left pu)]
  have h := Vec.dot_err u v
  have hm : min (maxAbs u.elem) (maxAbs v.elem) ≤ min u.mag v.mag :=
    min_le_min (Vec.maxAbs_le_mag u) (Vec.maxAbs_le_mag v)
  have hmm : min u.mag v.mag * max u.mag v.mag = u.mag * v.mag := min_mul_max _ _
  have hx : 0 < max u.mag v.mag := lt_max_of_lt_left pu
  calc |u.dot v - u.elem ⬝ᵥ v.elem| * max u.mag v.mag
      ≤ (2 * epsilon * min u.mag v.mag) * max u.mag v.mag := by
        apply mul_le_mul_of_nonneg_right _ hx.le
        exact le_trans h (by nlinarith)
    _ = 2 * epsilon * (u.mag * v.mag) := by rw [← hmm]; ring

/-- C23 (part): 0 for equal directions and `π` for opposite ones, when some component of one of
the vectors is at least `2 eps`. Missing: very short vectors, see `C23_false`. -/
theorem C23_parallel_partial (v : Vec n) (c : ℝ) (hv : 2 * epsilon ≤ maxAbs v.elem) :
    (0 < c → Vec.angle v (v.scale c) = 0) ∧ (c < 0 → Vec.angle v (v.scale c) = Real.pi) := by
  have he := epsilon_pos
  have hv0 : v.elem ≠ 0 := fun h => by rw [maxAbs_eq_zero.2 h] at hv; linarith
  have pv := Vec.mag_pos.2 hv0
  have hm := maxAbs_nonneg v.elem
  have hms : maxAbs (v.scale c).elem = maxAbs v.elem * |c| := maxAbs_scale v.elem c
  have hsq : maxAbs v.elem ^ 2 ≤ v.sqrMag := by
    rw [← Vec.mag_sq]; have := Vec.maxAbs_le_mag v; nlinarith
  have hd : (v.scale c).dot v = c * v.sqrMag := by
    rw [Vec.dot_exact, Vec.scale_elem, smul_dotProduct, smul_eq_mul, Vec.sqrMag_eq]
    rw [Vec.scale_elem, smul_dotProduct, smul_eq_mul, ← Vec.sqrMag_eq, abs_mul,
      abs_of_nonneg (Vec.sqrMag_nonneg v)]
    have : maxAbs (c • v.elem) = maxAbs v.elem * |c| := by rw [← hms, Vec.scale_elem]
    rw [this]
    have h1 : min (maxAbs v.elem * |c|) (maxAbs v.elem) ≤ maxAbs v.elem * |c| := min_le_left _ _
    have hc0 := abs_nonneg c
    calc 2 * epsilon * min (maxAbs v.elem * |c|) (maxAbs v.elem)
        ≤ 2 * epsilon * (maxAbs v.elem * |c|) := by nlinarith
      _ ≤ maxAbs v.elem * (maxAbs v.elem * |c|) := mul_le_mul_of_nonneg_right hv (mul_nonneg hm hc0)
      _ ≤ |c| * v.sqrMag := by nlinarith
  have e : Real.sqrt ((v.scale c).sqrMag * v.sqrMag) = |c| * v.sqrMag := by
    rw [Vec.sqrMag_scale, show c ^ 2 * v.sqrMag * v.sqrMag = (c * v.sqrMag) ^ 2 by ring,
      Real.sqrt_sq_eq_abs, abs_mul, abs_of_nonneg (Vec.sqrMag_nonneg v)]
  have ps := Vec.sqrMag_pos.2 hv0
  constructor
  · intro hc
    rw [Vec.angle, hd, e, abs_of_pos hc, div_self (mul_pos hc ps).ne', clampId (by norm_num) le_rfl,
      Real.arccos_one]
  · intro hc
    rw [Vec.angle, hd, e, abs_of_neg hc,
      show c * v.sqrMag / (-c * v.sqrMag) = -1 by rw [neg_mul, div_neg, div_self (mul_neg_of_neg_of_pos hc ps).ne], clampId le_rfl (by norm_num),
      Real.arccos_neg_one]

/-- C23 is false for very short vectors: the angle of such a vector with itself is a right angle. -/
theorem C23_false : ∃ v : Vec 2, v.valid = true ∧ v.elem ≠ 0 ∧ Vec.angle v v = Real.pi / 2 := by
  obtain ⟨v, h1, h2, h3⟩ := C18_tiny
  refine ⟨v, h1, h2, ?_⟩
  rw [Vec.angle, h3, zero_div, clampId (by norm_num) (by norm_num), Real.arccos_zero]

example : Vec.angle (⟨![1, 0], true⟩ : Vec 2) ((⟨![1, 0], true⟩ : Vec 2).scale 2) = 0 := by
  have e := epsilon_lt
  refine (C23_parallel_partial _ 2 ?_).1 (by norm_num)
  simp only [maxAbs2 1 0 (by simp)]; norm_num; linarith

/-! ### C26 mirror -/

/-- C26: `mirror(i)` twice is the identity, keeps the length, negates component `i` only. -/
theorem C26_axis (v : Vec n) (i : Fin n) :
    (v.mirrorAxis i).mirrorAxis i = v ∧ (v.mirrorAxis i).sqrMag = v.sqrMag ∧
    (v.mirrorAxis i).elem i = -v.elem i ∧ ∀ j, j ≠ i → (v.mirrorAxis i).elem j = v.elem j := by
  refine ⟨?_, ?_, by simp [Vec.mirrorAxis], fun j h => by simp [Vec.mirrorAxis, h]⟩
  · ext1
    · funext j
      by_cases h : j = i
      · subst h; simp [Vec.mirrorAxis]
      · simp [Vec.mirrorAxis, h]
    · rfl
  · unfold Vec.sqrMag
    apply Finset.sum_congr rfl
    intro j _
    by_cases h : j = i
    · subst h; simp [Vec.mirrorAxis]
    · simp [Vec.mirrorAxis, h]

/-- C26: `mirror()` twice is the identity, keeps the length, negates every component. -/
theorem C26_all (v : Vec n) :
    v.mirrorAll.mirrorAll = v ∧ v.mirrorAll.sqrMag = v.sqrMag ∧ v.mirrorAll.elem = -v.elem := by
  refine ⟨?_, ?_, ?_⟩
  · ext1 <;> simp [Vec.mirrorAll]
  · simp [Vec.mirrorAll, Vec.sqrMag_scale]
  · simp [Vec.mirrorAll]

private theorem mirrorDir_elem (w v : Vec n) :
    (w.mirrorDir v).elem = w.elem - (2 * v.dot w / v.sqrMag) • v.elem := by
  unfold Vec.mirrorDir
  simp only [Vec.sub_elem, Vec.divBy_elem, Vec.scale_elem, smul_smul]
  congr 2; rw [div_eq_inv_mul]; ring

/-- C26: `mirror(v)` keeps the length, whether or not the inner product was cut off. -/
theorem C26_dir_length (w v : Vec n) (hv : v.elem ≠ 0) : (w.mirrorDir v).sqrMag = w.sqrMag := by
  have ps := (Vec.sqrMag_pos.2 hv).ne'
  have h := Vec.dot_mul_self_sub v w
  rw [Vec.sqrMag_eq, mirrorDir_elem, sub_dotProduct, dotProduct_sub, dotProduct_sub]
  simp only [smul_dotProduct, dotProduct_smul, smul_eq_mul, ← Vec.sqrMag_eq]
  rw [dotProduct_comm w.elem v.elem]
  field_simp
  linear_combination 4 * h

/-- C26: `mirror(v)` fixes every vector orthogonal to `v`. -/
theorem C26_dir_fixes (w v : Vec n) (h : v.elem ⬝ᵥ w.elem = 0) : (w.mirrorDir v).elem = w.elem := by
  rw [mirrorDir_elem, Vec.dot_of_exact_zero h]; simp

/-- C26: `mirror(v)` negates `v` (when some component of `v` is at least `2 eps`). -/
theorem C26_dir_negates (v : Vec n) (h : 2 * epsilon ≤ maxAbs v.elem) :
    (v.mirrorDir v).elem = -v.elem := by
  have hv0 : v.elem ≠ 0 := fun h0 => by
    rw [maxAbs_eq_zero.2 h0] at h; linarith [epsilon_pos]
  have ps := (Vec.sqrMag_pos.2 hv0).ne'
  rw [mirrorDir_elem, Vec.dot_self_exact h, mul_div_cancel_right₀ _ ps, two_smul]
  simp

/-- C26: `mirror(v)` twice is the identity when neither inner product is cut off. -/
theorem C26_dir_involution (w v : Vec n) (hv : v.elem ≠ 0)
    (h1 : v.dot w = v.elem ⬝ᵥ w.elem)
    (h2 : v.dot (w.mirrorDir v) = v.elem ⬝ᵥ (w.mirrorDir v).elem) :
    ((w.mirrorDir v).mirrorDir v).elem = w.elem := by
  have ps := (Vec.sqrMag_pos.2 hv).ne'
  rw [mirrorDir_elem, h2, mirrorDir_elem, h1, sub_sub, ← add_smul]
  simp only [dotProduct_sub, dotProduct_smul, smul_eq_mul, ← Vec.sqrMag_eq]
  rw [show 2 * (v.elem ⬝ᵥ w.elem) / v.sqrMag + 2 * (v.elem ⬝ᵥ w.elem - 2 * (v.elem ⬝ᵥ w.elem) / v.sqrMag * v.sqrMag) / v.sqrMag = 0 by
    field_simp; ring]
  simp

/-- C26: in every case `mirror(v)` twice changes no component by more than `8 eps`. -/
theorem C26_dir_involution_error (w v : Vec n) (hv : v.elem ≠ 0) (i : Fin n) :
    |((w.mirrorDir v).mirrorDir v).elem i - w.elem i| ≤ 8 * epsilon := by
  have ps := Vec.sqrMag_pos.2 hv
  have he := epsilon_pos
  have e1 := Vec.dot_err v w
  have e2 := Vec.dot_err v (w.mirrorDir v)
  have hm := maxAbs_nonneg v.elem
  have k1 : |v.dot w - v.elem ⬝ᵥ w.elem| ≤ 2 * epsilon * maxAbs v.elem :=
    le_trans e1 (mul_le_mul_of_nonneg_left (min_le_left _ _) (by linarith))
  have k2 : |v.dot (w.mirrorDir v) - v.elem ⬝ᵥ (w.mirrorDir v).elem| ≤ 2 * epsilon * maxAbs v.elem :=
    le_trans e2 (mul_le_mul_of_nonneg_left (min_le_left _ _) (by linarith))
  have hx : v.elem ⬝ᵥ (w.mirrorDir v).elem = v.elem ⬝ᵥ w.elem - 2 * v.dot w := by
    rw [mirrorDir_elem, dotProduct_sub, dotProduct_smul, smul_eq_mul, ← Vec.sqrMag_eq,
      div_mul_cancel₀ _ ps.ne']
  rw [hx] at k2
  have hE : ((w.mirrorDir v).mirrorDir v).elem i - w.elem i
      = -(2 * (v.dot w + v.dot (w.mirrorDir v)) / v.sqrMag) * v.elem i := by
    rw [mirrorDir_elem]
    simp only [Pi.sub_apply, Pi.smul_apply, smul_eq_mul]
    rw [mirrorDir_elem]
    simp only [Pi.sub_apply, Pi.smul_apply, smul_eq_mul]
    ring
  have hs : |v.dot w + v.dot (w.mirrorDir v)| ≤ 4 * epsilon * maxAbs v.elem := by
    rw [abs_le] at *; constructor <;> linarith [k1.1, k1.2, k2.1, k2.2]
  have hvi := Vec.abs_mul_maxAbs_le v i
  rw [hE, abs_mul, abs_neg, abs_div, abs_mul, abs_two, abs_of_pos ps, div_mul_eq_mul_div,
    div_le_iff₀ ps]
  have := abs_nonneg (v.elem i)
  nlinarith [mul_le_mul_of_nonneg_right hs this, mul_nonneg he.le (abs_nonneg (v.elem i))]

example : ((⟨![1, 0], true⟩ : Vec 2).mirrorDir ⟨![1, 0], true⟩).elem = ![-1, 0] := by
  have e := epsilon_lt
  rw [C26_dir_negates]
  · funext i; fin_cases i <;> simp
  · simp only [maxAbs2 1 0 (by simp)]; norm_num; linarith

/-! ### C28 tolerant equality of vectors -/

/-- C28: true exactly when both are valid and every component differs by at most the scaled epsilon. -/
theorem C28_vector_iff (u v : Vec n) (eps : ℝ) :
    u.isEqualTo v eps = true ↔ u.valid = true ∧ v.valid = true ∧
      ∀ i, |u.elem i - v.elem i| ≤ scaleEpsilonArr u.elem v.elem eps := by
  unfold Vec.isEqualTo
  cases hu : u.valid <;> cases hv : v.valid <;> simp

/-- C28: the scaled epsilon is between `eps` and `2 eps` times the largest component of the smaller
vector (if neither is zero). -/
theorem C28_scale (u v : Vec n) (eps : ℝ) (he : 0 ≤ eps) (hu : u.elem ≠ 0) (hv : v.elem ≠ 0) :
    eps * min (maxAbs u.elem) (maxAbs v.elem) ≤ scaleEpsilonArr u.elem v.elem eps ∧
    scaleEpsilonArr u.elem v.elem eps ≤ 2 * eps * min (maxAbs u.elem) (maxAbs v.elem) :=
  ⟨le_scaleEpsilonArr he, scaleEpsilonArr_le he hu hv⟩

/-- C28: reflexive on valid vectors, symmetric, false if either is invalid. -/
theorem C28_vector_laws (u v : Vec n) (eps : ℝ) (he : 0 ≤ eps) :
    (u.valid = true → u.isEqualTo u eps = true) ∧ u.isEqualTo v eps = v.isEqualTo u eps ∧
    (u.valid = false ∨ v.valid = false → u.isEqualTo v eps = false) := by
  refine ⟨fun h => ?_, ?_, fun h => ?_⟩
  · rw [C28_vector_iff]; exact ⟨h, h, fun i => by simp [scaleEpsilonArr_nonneg he]⟩
  · rw [Bool.eq_iff_iff, C28_vector_iff, C28_vector_iff, scaleEpsilonArr_symm]
    simp only [abs_sub_comm]; tauto
  · rw [Bool.eq_false_iff, Ne, C28_vector_iff]
    rintro ⟨h1, h2, _⟩
    simp [h1, h2] at h

example : (⟨![1, 2], true⟩ : Vec 2).isEqualTo ⟨![1, 2], true⟩ epsilon = true :=
  (C28_vector_laws _ (Vec.zero) _ epsilon_pos.le).1 rfl

end WFMath
