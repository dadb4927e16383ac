/- For every matrix the helpers are exact once the thresholds are small enough. -/
import Verif.Lemmas.GaussDet

namespace WFMath.Gauss
open Matrix
variable {n : Nat}

/-- Thresholds of size at most `δ`. -/
def Limits.Small (L : Limits) (δ : ℝ) : Prop := L.minD ≤ δ ∧ 1 ≤ δ * L.maxD

theorem Limits.Small.mono {L : Limits} {a b : ℝ} (h : L.Small a) (hab : a ≤ b) : L.Small b :=
  ⟨h.1.trans hab, h.2.trans (mul_le_mul_of_nonneg_right hab L.maxD_pos.le)⟩

theorem exists_min_pos (f : Fin n → ℝ) (hf : ∀ j, 0 ≤ f j) : ∃ q : ℝ, 0 < q ∧ ∀ j, f j ≠ 0 → q ≤ f j := by
  classical
  by_cases h : (Finset.univ.filter fun j => f j ≠ 0).Nonempty
  · obtain ⟨j0, h0, hmin⟩ := Finset.exists_min_image _ f h
    rw [Finset.mem_filter] at h0
    refine ⟨f j0, lt_of_le_of_ne (hf j0) (Ne.symm h0.2), fun j hj => hmin j ?_⟩
    rw [Finset.mem_filter]; exact ⟨Finset.mem_univ _, hj⟩
  · refine ⟨1, one_pos, fun j hj => absurd ⟨j, ?_⟩ h⟩
    rw [Finset.mem_filter]; exact ⟨Finset.mem_univ _, hj⟩

theorem exists_threshold (m : Matrix (Fin n) (Fin n) ℝ) (i : Fin n) :
    ∃ δ : ℝ, 0 < δ ∧ ∀ L : Limits, L.Small δ → ∀ j, m j i ≠ 0 → minval L m i ≤ m j i * m j i := by
  obtain ⟨q, hq, hmin⟩ := exists_min_pos (fun j => m j i * m j i) (fun j => mul_self_nonneg _)
  have hS : 0 ≤ ∑ j, m j i * m j i := Finset.sum_nonneg fun j _ => mul_self_nonneg _
  refine ⟨q / ((∑ j, m j i * m j i) + 1), by positivity, fun L hL j hj => ?_⟩
  refine le_trans ?_ (hmin j (mul_self_ne_zero.2 hj))
  unfold minval
  simp only
  split
  · refine hL.1.trans ?_
    rw [div_le_iff₀ (by positivity)]; nlinarith
  · rw [div_le_iff₀ L.maxD_pos]
    have h2 := hL.2
    rw [div_mul_eq_mul_div, le_div_iff₀ (by positivity)] at h2
    linarith

theorem findRow_congr {L : Limits} {m : Matrix (Fin n) (Fin n) ℝ} {i : Fin n}
    (h : ∀ j, m j i ≠ 0 → minval L m i ≤ m j i * m j i) :
    findRow L m i = (List.finRange n).find? fun j => decide (j > i) && decide (m j i ≠ 0) := by
  unfold findRow
  congr 1
  funext j
  congr 1
  rw [decide_eq_decide]
  constructor
  · intro h1 h0
    rw [h0] at h1
    have := minval_pos L m i
    linarith
  · exact h j

theorem lt_minval_iff {L : Limits} {m : Matrix (Fin n) (Fin n) ℝ} {i j : Fin n}
    (h : ∀ j, m j i ≠ 0 → minval L m i ≤ m j i * m j i) :
    m j i * m j i < minval L m i ↔ m j i = 0 := by
  constructor
  · intro h1
    by_contra h0
    exact absurd (h j h0) (not_le.2 h1)
  · intro h0
    rw [h0, mul_zero]; exact minval_pos L m i

/-- The exact pivot choice of the determinant helper. -/
noncomputable def exactDetPivot (i : Fin n) (m : Matrix (Fin n) (Fin n) ℝ) :
    Option (Matrix (Fin n) (Fin n) ℝ) :=
  if m i i = 0 then
    match (List.finRange n).find? fun j => decide (j > i) && decide (m j i ≠ 0) with
    | none => none
    | some j => some fun r k =>
        if r = i then (if k = i then m j i else if k > i then m i k + m j k else m i k) else m r k
  else some m

theorem detPivot_eq_exact {L : Limits} {m : Matrix (Fin n) (Fin n) ℝ} {i : Fin n}
    (h : ∀ j, m j i ≠ 0 → minval L m i ≤ m j i * m j i) : detPivot L i m = exactDetPivot i m := by
  unfold detPivot exactDetPivot
  rw [findRow_congr h]
  by_cases h0 : m i i = 0
  · rw [if_pos ((lt_minval_iff h).2 h0), if_pos h0]
    cases (List.finRange n).find? _ <;> rfl
  · rw [if_neg (fun h1 => h0 ((lt_minval_iff h).1 h1)), if_neg h0]

theorem exists_detClean (l : List (Fin n)) : ∀ m : Matrix (Fin n) (Fin n) ℝ,
    ∃ δ : ℝ, 0 < δ ∧ ∀ L : Limits, L.Small δ → DetClean L l m := by
  induction l with
  | nil => intro m; exact ⟨1, one_pos, fun _ _ => trivial⟩
  | cons i is ih =>
    intro m
    obtain ⟨δ, hδ, h1⟩ := exists_threshold m i
    cases hp : exactDetPivot i m with
    | none =>
      refine ⟨δ, hδ, fun L hL => ?_⟩
      have h := h1 L hL
      refine ⟨(lt_minval_iff h).1, fun j _ => (lt_minval_iff h).1, fun m' hm' => ?_⟩
      rw [detPivot_eq_exact h, hp] at hm'; exact absurd hm' (by simp)
    | some m1 =>
      obtain ⟨δ2, hδ2, h2⟩ := ih (detClear i m1)
      refine ⟨min δ δ2, lt_min hδ hδ2, fun L hL => ?_⟩
      have h := h1 L (hL.mono (min_le_left _ _))
      refine ⟨(lt_minval_iff h).1, fun j _ => (lt_minval_iff h).1, fun m' hm' => ?_⟩
      rw [detPivot_eq_exact h, hp] at hm'
      have hm' := Option.some.inj hm'
      subst hm'
      exact h2 L (hL.mono (min_le_right _ _))

/-- The exact pivot choice of the inversion helper. -/
noncomputable def exactPivot (i : Fin n) (s : Matrix (Fin n) (Fin n) ℝ × Matrix (Fin n) (Fin n) ℝ) :
    Option (Matrix (Fin n) (Fin n) ℝ × Matrix (Fin n) (Fin n) ℝ) :=
  if s.1 i i = 0 then
    match (List.finRange n).find? fun j => decide (j > i) && decide (s.1 j i ≠ 0) with
    | none => none
    | some j => some (fun r k => if r = i then s.1 i k + s.1 j k else s.1 r k,
                      fun r k => if r = i then s.2 i k + s.2 j k else s.2 r k)
  else some s

theorem pivot_eq_exact {L : Limits} {s : Matrix (Fin n) (Fin n) ℝ × Matrix (Fin n) (Fin n) ℝ} {i : Fin n}
    (h : ∀ j, s.1 j i ≠ 0 → minval L s.1 i ≤ s.1 j i * s.1 j i) : pivot L i s = exactPivot i s := by
  unfold pivot exactPivot
  rw [findRow_congr h]
  by_cases h0 : s.1 i i = 0
  · rw [if_pos ((lt_minval_iff h).2 h0), if_pos h0]
    cases (List.finRange n).find? _ <;> rfl
  · rw [if_neg (fun h1 => h0 ((lt_minval_iff h).1 h1)), if_neg h0]

theorem exists_forward (d : Nat) : ∀ (k : Nat), k + d = n →
    ∀ {A B : Matrix (Fin n) (Fin n) ℝ} {s : Matrix (Fin n) (Fin n) ℝ × Matrix (Fin n) (Fin n) ℝ},
    IsUnit A.det → RowEq k A B s → (∀ c : Fin n, c.val < k → s.1 c c = 1) →
    ∃ δ : ℝ, 0 < δ ∧ ∀ L : Limits, L.Small δ → (forward L ((List.finRange n).drop k) s).isSome := by
  induction d with
  | zero =>
    intro k hk A B s _ _ _
    rw [List.drop_of_length_le (by simp; omega)]
    exact ⟨1, one_pos, fun _ _ => rfl⟩
  | succ d ih =>
    intro k hk A B s hA h hd
    have hkn : k < n := by omega
    rw [finRange_drop hkn]
    obtain ⟨δ, hδ, h1⟩ := exists_threshold s.1 ⟨k, hkn⟩
    cases hp : exactPivot ⟨k, hkn⟩ s with
    | none =>
      exfalso
      -- some admissible limits exist
      let L : Limits := ⟨1 / δ, δ, by positivity, hδ⟩
      have hL : L.Small δ := ⟨le_rfl, by
        show 1 ≤ δ * (1 / δ)
        rw [mul_one_div_cancel hδ.ne']⟩
      have hex := h1 L hL
      rw [← pivot_eq_exact hex] at hp
      have hlow := pivot_none hp
      obtain ⟨E, hE, e1, _⟩ := h
      have hdet : (clean k s.1).det = 0 := by
        apply det_eq_zero_of_column (i := ⟨k, hkn⟩)
        · intro r c h1 h2; unfold clean; rw [if_pos ⟨h2, h1⟩]
        · intro r hr
          unfold clean
          rw [if_neg (fun h => by simp at h)]
          exact (lt_minval_iff hex).1 (hlow r hr)
      rw [← e1, det_mul] at hdet
      rw [Matrix.isUnit_iff_isUnit_det] at hE
      exact (hE.mul hA).ne_zero hdet
    | some s1 =>
      let L : Limits := ⟨1 / δ, δ, by positivity, hδ⟩
      have hL : L.Small δ := ⟨le_rfl, by
        show 1 ≤ δ * (1 / δ)
        rw [mul_one_div_cancel hδ.ne']⟩
      have hstep : forwardStep L ⟨k, hkn⟩ s = some (clearBelow ⟨k, hkn⟩ (scaleRow ⟨k, hkn⟩ s1)) := by
        unfold forwardStep; rw [pivot_eq_exact (h1 L hL), hp]; rfl
      obtain ⟨a, b⟩ := forwardStep_spec (k := k) rfl h hd hstep
      obtain ⟨δ2, hδ2, h2⟩ := ih (k + 1) (by omega) hA a b
      refine ⟨min δ δ2, lt_min hδ hδ2, fun L hL => ?_⟩
      simp only [forward]
      have : forwardStep L ⟨k, hkn⟩ s = some (clearBelow ⟨k, hkn⟩ (scaleRow ⟨k, hkn⟩ s1)) := by
        unfold forwardStep; rw [pivot_eq_exact (h1 L (hL.mono (min_le_left _ _))), hp]; rfl
      rw [this]
      exact h2 L (hL.mono (min_le_right _ _))

end WFMath.Gauss
