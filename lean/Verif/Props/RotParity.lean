/- Property C46, the parity: with the limits of `double`, in two and three dimensions, `setVals` reports the sign of the determinant. -/
import Verif.Props.RotNormalize
import Verif.Lemmas.DetSign

namespace WFMath
open Matrix Gauss Spec
variable {n : Nat}

theorem loop_det {L : Limits} {p : ℝ} (f : Nat) : ∀ {V V' : Matrix (Fin n) (Fin n) ℝ},
    RotMat.setValsLoop L p f V = .accepted V' → V'.det ≠ 0 → 0 < V'.det * V.det := by
  induction f with
  | zero => intro V V' h; unfold RotMat.setValsLoop at h; exact absurd h (by simp)
  | succ f ih =>
    intro V V' h hne
    unfold RotMat.setValsLoop at h
    split at h
    · exact absurd h (by simp)
    · split at h
      · obtain rfl := RotMat.LoopResult.accepted.inj h
        exact mul_self_pos.2 hne
      · cases hi : RotMat.improve L V with
        | none => rw [hi] at h; exact absurd h (by simp)
        | some V1 =>
          rw [hi] at h
          have h1 := ih h hne
          obtain ⟨X, hX, e⟩ := RotMat.improve_spec hi
          have h2 := avg_det hX
          rw [← e] at h2
          have h3 : 0 < V'.det * V1.det * (V1.det * V.det) := mul_pos h1 h2
          have h4 : 0 < V1.det ^ 2 := by
            have : V1.det ≠ 0 := fun hc => by rw [hc, zero_mul] at h2; exact lt_irrefl _ h2
            positivity
          by_contra hc
          nlinarith [mul_nonpos_of_nonpos_of_nonneg (not_lt.1 hc) h4.le]

theorem near_gram {V : Matrix (Fin n) (Fin n) ℝ} (h : ∀ i j, |(V * Vᵀ - 1) i j| ≤ epsilon) :
    (∀ i, ∑ j, V i j * V i j ≤ 101 / 100) ∧ (∀ i k, i ≠ k → |∑ j, V i j * V k j| ≤ 1 / 100) ∧ (∀ i, |(V * Vᵀ) i i - 1| ≤ 1 / 1000) ∧
    (∀ i k, i ≠ k → |(V * Vᵀ) i k| ≤ 1 / 1000) := by
  have he2 := epsilon_lt
  norm_num at he2
  have e : ∀ i k, (V * Vᵀ) i k = ∑ j, V i j * V k j := fun i k => by rw [Matrix.mul_apply]; rfl
  have d : ∀ i, |(V * Vᵀ) i i - 1| ≤ 1 / 1000 := fun i => by
    have := h i i; rw [Matrix.sub_apply, one_apply_eq] at this; linarith
  have o : ∀ i k, i ≠ k → |(V * Vᵀ) i k| ≤ 1 / 1000 := fun i k hk => by
    have := h i k; rw [Matrix.sub_apply, one_apply_ne hk, sub_zero] at this; linarith
  refine ⟨fun i => ?_, fun i k hk => ?_, d, o⟩
  · have := abs_le.1 (d i); rw [e] at this; linarith
  · have := o i k hk; rw [e] at this; linarith

theorem det_large {d G : ℝ} (h : d * d = G) (hG : 95 / 100 ≤ G) : 95 / 100 ≤ |d| := by
  have := abs_nonneg d
  rw [← abs_mul_abs_self d] at h
  nlinarith

theorem small_mul {a b : ℝ} (ha : |a| ≤ 1 / 1000) (hb : |b| ≤ 2) : |a * b| ≤ 1 / 100 := by
  rw [abs_mul]; nlinarith [abs_nonneg a, abs_nonneg b]

theorem det_sign (hn : n = 2 ∨ n = 3) {V : Matrix (Fin n) (Fin n) ℝ} (h : ∀ i j, |(V * Vᵀ - 1) i j| ≤ epsilon) :
    SameSign (determinantImpl doubleLimits V) V.det := by
  obtain ⟨w, w0, w1, w2, w3⟩ := doubleLimits_spec
  obtain ⟨rows, off, dg, og⟩ := near_gram h
  have hdet : V.det * V.det = (V * Vᵀ).det := by rw [det_mul, det_transpose]
  rcases hn with rfl | rfl
  · refine det_two w0 w1 w2 w3 V rows (le_trans (by norm_num) (det_large hdet ?_))
    rw [det_fin_two]
    have d0 := abs_le.1 (dg 0)
    have d1 := abs_le.1 (dg 1)
    have o := abs_le.1 (small_mul (og 0 1 (by decide)) ((og 1 0 (by decide)).trans (by norm_num)))
    nlinarith
  · refine det_three w0 w1 w2 w3 V rows (fun i hi => off 0 i (Ne.symm hi)) (det_large hdet ?_)
    rw [det_fin_three]
    have d0 := abs_le.1 (dg 0)
    have d1 := abs_le.1 (dg 1)
    have d2 := abs_le.1 (dg 2)
    have s0 : |(V * Vᵀ) 0 0| ≤ 11 / 10 := abs_le.2 ⟨by linarith, by linarith⟩
    have s1 : |(V * Vᵀ) 1 1| ≤ 11 / 10 := abs_le.2 ⟨by linarith, by linarith⟩
    have s2 : |(V * Vᵀ) 2 2| ≤ 11 / 10 := abs_le.2 ⟨by linarith, by linarith⟩
    have k : ∀ a b c : ℝ, |a| ≤ 1 / 1000 → |b| ≤ 1 / 1000 → |c| ≤ 11 / 10 → |a * b * c| ≤ 1 / 1000 := fun a b c ha hb hc => by
      rw [abs_mul, abs_mul]
      have : |a| * |b| ≤ 1 / 1000 * (1 / 1000) := mul_le_mul ha hb (abs_nonneg _) (by norm_num)
      have := mul_le_mul this hc (abs_nonneg _) (by norm_num)
      linarith
    have t1 := abs_le.1 (k _ _ _ (og 1 2 (by decide)) (og 2 1 (by decide)) s0)
    have t2 := abs_le.1 (k _ _ _ (og 0 1 (by decide)) (og 1 0 (by decide)) s2)
    have t3 := abs_le.1 (k _ _ _ (og 0 1 (by decide)) (og 1 2 (by decide)) ((og 2 0 (by decide)).trans (by norm_num)))
    have t4 := abs_le.1 (k _ _ _ (og 0 2 (by decide)) (og 1 0 (by decide)) ((og 2 1 (by decide)).trans (by norm_num)))
    have t5 := abs_le.1 (k _ _ _ (og 0 2 (by decide)) (og 2 0 (by decide)) s1)
    have t6 : 99 / 100 ≤ (V * Vᵀ) 0 0 * (V * Vᵀ) 1 1 * (V * Vᵀ) 2 2 := by
      have a : 998 / 1000 ≤ (V * Vᵀ) 0 0 * (V * Vᵀ) 1 1 := by nlinarith
      nlinarith
    linarith

/-- C46, the parity: in two and three dimensions, for which the library is built, and with the limits of `double`, every array that `setVals` accepts is stored with the
parity of its determinant, which the improvement steps do not change. -/
theorem C46_parity (hn : n = 2 ∨ n = 3) (fuel : Nat) (m m' : RotMat n) (vals : Matrix (Fin n) (Fin n) ℝ) (p : ℝ)
    (h : RotMat.setVals doubleLimits fuel m vals p = some (m', true)) :
    (m'.flip = true ↔ vals.det < 0) ∧ (m'.flip = true ↔ m'.elem.det < 0) ∧ vals.det ≠ 0 ∧ m'.elem.det ≠ 0 := by
  unfold RotMat.setVals at h
  split at h
  · exact absurd (Prod.mk.inj (Option.some.inj h)).2 (by simp)
  · cases hl : RotMat.setValsLoop doubleLimits |p| fuel vals with
    | outOfFuel => rw [hl] at h; exact absurd h (by simp)
    | refused => rw [hl] at h; exact absurd (Prod.mk.inj (Option.some.inj h)).2 (by simp)
    | accepted v =>
      rw [hl] at h
      obtain ⟨rfl, -⟩ := Prod.mk.inj (Option.some.inj h)
      have hs := det_sign hn (RotMat.orthError_le.1 (loop_accepted fuel hl).2).2
      have hne : v.det ≠ 0 := by
        rcases hs with hs | hs
        · exact hs.2.ne'
        · exact hs.2.ne
      have hv := loop_det fuel hl hne
      have hvals : vals.det ≠ 0 := fun hc => by rw [hc, mul_zero] at hv; exact lt_irrefl _ hv
      have f : (decide (determinantImpl doubleLimits v < 0) = true) ↔ v.det < 0 := by
        rw [decide_eq_true_eq]
        rcases hs with hs | hs
        · exact ⟨fun h => absurd h (not_lt.2 hs.1.le), fun h => absurd h (not_lt.2 hs.2.le)⟩
        · exact ⟨fun _ => hs.2, fun _ => hs.1⟩
      refine ⟨f.trans ⟨fun hc => ?_, fun hc => ?_⟩, f, hvals, hne⟩
      · exact neg_of_mul_pos_right hv hc.le
      · exact neg_of_mul_pos_left hv hc.le

/-- C46, orthogonal arrays: they are stored unchanged, and the result is a rotation or reflection with the right parity. -/
theorem C46_rotation (hn : n = 2 ∨ n = 3) (fuel : Nat) (m : RotMat n) (vals : Matrix (Fin n) (Fin n) ℝ) (p : ℝ) (hp : |p| < 0.9) (h : vals * valsᵀ = 1) :
    ∃ m', RotMat.setVals doubleLimits (fuel + 1) m vals p = some (m', true) ∧ m'.elem = vals ∧ IsRotation m' := by
  obtain ⟨m', h1, h2, h3⟩ := C46_orthogonal doubleLimits fuel m vals p hp h
  obtain ⟨f, -, hne, -⟩ := C46_parity hn _ m m' vals p h1
  refine ⟨m', h1, h2, by rw [h2]; exact h, ?_⟩
  have hsq := det_sq_of_orth h
  have : vals.det = 1 ∨ vals.det = -1 := by
    have h2 : (vals.det - 1) * (vals.det + 1) = 0 := by linear_combination hsq
    rcases mul_eq_zero.1 h2 with h | h
    · left; linarith
    · right; linarith
  rw [h2]
  rcases this with h | h
  · rw [h] at f ⊢
    have : m'.flip = false := by rw [Bool.eq_false_iff]; exact fun hc => absurd (f.1 hc) (by norm_num)
    rw [this]; rfl
  · rw [h] at f ⊢
    rw [f.2 (by norm_num)]; rfl

/-- An exchange of two axes in space is stored as a reflection, a turn about an axis as a rotation. -/
example (m : RotMat 3) : ∃ m', RotMat.setVals doubleLimits 1 m !![0, 1, 0; 1, 0, 0; 0, 0, 1] 0 = some (m', true) ∧ m'.flip = true := by
  have h : (!![0, 1, 0; 1, 0, 0; 0, 0, 1] : Matrix (Fin 3) (Fin 3) ℝ) * (!![0, 1, 0; 1, 0, 0; 0, 0, 1] : Matrix (Fin 3) (Fin 3) ℝ)ᵀ = 1 := by
    ext i j; fin_cases i <;> fin_cases j <;> simp [Matrix.mul_apply, Fin.sum_univ_three]
  obtain ⟨m', h1, h2, -⟩ := C46_rotation (.inr rfl) 0 m _ 0 (by norm_num) h
  refine ⟨m', h1, (C46_parity (.inr rfl) _ m m' _ 0 h1).1.2 ?_⟩
  simp [det_fin_three]

end WFMath
