/- The determinant helper, and what a failed inversion means. -/
import Verif.Lemmas.Gauss
import Mathlib.Order.Interval.Finset.Fin

namespace WFMath.Gauss
open Matrix
variable {n : Nat}

/-- No nonzero pivot was ever mistaken for zero: whenever the code replaces a pivot, that pivot is
exactly zero, and whenever it gives up, all the candidates are exactly zero. -/
def DetClean (L : Limits) : List (Fin n) → Matrix (Fin n) (Fin n) ℝ → Prop
  | [], _ => True
  | i :: is, m =>
    (m i i * m i i < minval L m i → m i i = 0) ∧
    (∀ j, i ≤ j → m j i * m j i < minval L m i → m j i = 0) ∧
    (∀ m', detPivot L i m = some m' → DetClean L is (detClear i m'))

theorem detPivot_spec {L : Limits} {i : Fin n} {m m' : Matrix (Fin n) (Fin n) ℝ}
    (hz : ∀ r c : Fin n, c < i → c < r → m r c = 0)
    (hc : m i i * m i i < minval L m i → m i i = 0) (h : detPivot L i m = some m') :
    m'.det = m.det ∧ (∀ r c : Fin n, c < i → c < r → m' r c = 0) ∧ m' i i ≠ 0 := by
  unfold detPivot at h
  split at h
  · rename_i hlt
    cases hf : findRow L m i with
    | none => rw [hf] at h; exact absurd h (by simp)
    | some j =>
      rw [hf] at h
      obtain ⟨hij, hj⟩ := findRow_some hf
      have h := Option.some.inj h
      have h0 := hc hlt
      have e : m' = transvection i j 1 * m := by
        rw [← h]; ext r c
        rw [addRow_apply]
        by_cases hr : r = i
        · subst hr
          simp only [if_true, one_mul]
          by_cases hcr : c = r
          · subst hcr; rw [if_pos rfl, h0, zero_add]
          · rw [if_neg hcr]
            by_cases hlt : c > r
            · rw [if_pos hlt]
            · have : c < r := lt_of_le_of_ne (not_lt.1 hlt) hcr
              rw [if_neg hlt, hz j c this (lt_trans this hij), add_zero]
        · simp only [if_neg hr]
      refine ⟨?_, ?_, ?_⟩
      · rw [e, det_mul, det_transvection_of_ne i j hij.ne, one_mul]
      · intro r c h1 h2
        rw [e, addRow_apply]
        split
        · rw [hz i c h1 h1, hz j c h1 (lt_trans h1 hij)]; ring
        · exact hz r c h1 h2
      · rw [e, addRow_apply, if_pos rfl, h0, zero_add, one_mul]
        intro h; rw [h] at hj
        have := minval_pos L m i; linarith
  · rename_i hge
    simp only [Option.some.injEq] at h
    subst h
    refine ⟨rfl, hz, ?_⟩
    intro h0
    rw [h0] at hge
    have := minval_pos L m i
    apply hge; linarith

theorem det_subRows (i : Fin n) (w : Fin n → ℝ) (h : ∀ r, r ≤ i → w r = 0) : (subRows i w).det = 1 := by
  rw [det_of_lowerTriangular]
  · apply Finset.prod_eq_one
    intro r _
    unfold subRows
    by_cases hr : r = i
    · subst hr; simp [vecMulVec_apply, h r le_rfl]
    · simp [vecMulVec_apply, hr]
  · intro r c hrc
    have hrc : r < c := hrc
    unfold subRows
    rw [Matrix.sub_apply, vecMulVec_apply, Matrix.one_apply_ne hrc.ne]
    by_cases hc : c = i
    · subst hc; rw [h r hrc.le]; ring
    · rw [Pi.single_apply, if_neg hc]; ring

theorem detClear_spec {i : Fin n} {m : Matrix (Fin n) (Fin n) ℝ}
    (hz : ∀ r c : Fin n, c < i → c < r → m r c = 0) (h0 : m i i ≠ 0) :
    (detClear i m).det = m.det ∧ (∀ r c : Fin n, c ≤ i → c < r → detClear i m r c = 0) := by
  constructor
  · have e : detClear i m = subRows i (fun r => if r > i then m r i / m i i else 0) * m := by
      ext r c
      rw [subRows_apply]
      unfold detClear
      by_cases hr : r > i
      · simp only [if_pos hr]
        by_cases hc : c = i
        · subst hc; rw [if_pos rfl]; field_simp; ring
        · rw [if_neg hc]
          by_cases hgt : c > i
          · by_cases hf : m r i / m i i = 0
            · simp [hf]
            · rw [if_pos ⟨hf, hgt⟩]; ring
          · have : c < i := lt_of_le_of_ne (not_lt.1 hgt) hc
            rw [if_neg (fun h => hgt h.2), hz i c this this]; ring
      · simp [hr]
    rw [e, det_mul, det_subRows, one_mul]
    intro r hr; rw [if_neg (not_lt.2 hr)]
  · intro r c h1 h2
    unfold detClear
    by_cases hc : c = i
    · subst hc; rw [if_pos h2]; simp
    · have hci : c < i := lt_of_le_of_ne h1 hc
      by_cases hr : r > i
      · simp only [if_pos hr]
        rw [if_neg hc, if_neg (fun h => absurd h.2 (not_lt.2 h1))]; exact hz r c hci h2
      · rw [if_neg hr]; exact hz r c hci h2

theorem det_eq_zero_of_column {i : Fin n} {m : Matrix (Fin n) (Fin n) ℝ}
    (hz : ∀ r c : Fin n, c < i → c < r → m r c = 0) (hi : ∀ r, i ≤ r → m r i = 0) : m.det = 0 := by
  rw [det_apply]
  apply Finset.sum_eq_zero
  intro σ _
  have : ∃ c, m (σ c) c = 0 := by
    by_contra hne
    push Not at hne
    have h1 : ∀ c ∈ Finset.Iic i, σ c ∈ Finset.Iio i := by
      intro c hc
      rw [Finset.mem_Iic] at hc
      rw [Finset.mem_Iio]
      rcases hc.eq_or_lt with rfl | hlt
      · by_contra h; exact hne c (hi _ (not_lt.1 h))
      · by_contra h
        exact hne c (hz _ c hlt (lt_of_lt_of_le hlt (not_lt.1 h)))
    have := Finset.card_le_card_of_injOn σ h1 (σ.injective.injOn)
    rw [Fin.card_Iic, Fin.card_Iio] at this
    omega
  obtain ⟨c, hc⟩ := this
  have h0 : ∏ c, m (σ c) c = 0 := Finset.prod_eq_zero (Finset.mem_univ c) hc
  exact smul_eq_zero_of_right _ h0

theorem detPivot_none {L : Limits} {i : Fin n} {m : Matrix (Fin n) (Fin n) ℝ}
    (h : detPivot L i m = none) : ∀ r, i ≤ r → m r i * m r i < minval L m i := by
  unfold detPivot at h
  split at h
  · rename_i hlt
    cases hf : findRow L m i with
    | some j => rw [hf] at h; exact absurd h (by simp)
    | none =>
      intro r hr
      rcases hr.eq_or_lt with rfl | hir
      · exact hlt
      · unfold findRow at hf
        rw [List.find?_eq_none] at hf
        have := hf r (List.mem_finRange r)
        simpa [hir] using this
  · exact absurd h (by simp)

theorem detForward_spec {L : Limits} (d : Nat) : ∀ (k : Nat), k + d = n →
    ∀ {m : Matrix (Fin n) (Fin n) ℝ}, (∀ r c : Fin n, c.val < k → c < r → m r c = 0) →
    DetClean L (((List.finRange n).drop k).filter fun i => i.val + 1 < n) m →
    (match detForward L (((List.finRange n).drop k).filter fun i => i.val + 1 < n) m with
      | none => 0
      | some m => ((List.finRange n).map fun i => m i i).prod) = m.det := by
  induction d with
  | zero =>
    intro k hk m hz _
    have hkn : k = n := by omega
    subst hkn
    rw [List.drop_of_length_le (by simp)]
    simp only [List.filter_nil, detForward]
    rw [det_of_upperTriangular (fun r c hrc => hz r c c.2 hrc), ← List.ofFn_eq_map, List.prod_ofFn]
  | succ d ih =>
    intro k hk m hz hcl
    have hkn : k < n := by omega
    rw [finRange_drop hkn] at hcl ⊢
    by_cases hlast : k + 1 < n
    · rw [List.filter_cons_of_pos (by simpa using hlast)] at hcl ⊢
      simp only [detForward]
      obtain ⟨c1, c2, c3⟩ := hcl
      have hz' : ∀ r c : Fin n, c < ⟨k, hkn⟩ → c < r → m r c = 0 := fun r c h1 h2 => hz r c h1 h2
      cases hp : detPivot L ⟨k, hkn⟩ m with
      | none =>
        simp only [Option.bind_none]
        exact (det_eq_zero_of_column hz' fun r hr => c2 r hr (detPivot_none hp r hr)).symm
      | some m' =>
        simp only [Option.bind_some]
        obtain ⟨d1, d2, d3⟩ := detPivot_spec hz' c1 hp
        obtain ⟨e1, e2⟩ := detClear_spec d2 d3
        rw [ih (k + 1) (by omega) (fun r c h1 h2 => e2 r c (by rw [Fin.le_def]; simp; omega) h2) (c3 m' hp), e1, d1]
    · rw [List.filter_cons_of_neg (by simpa using hlast)] at hcl ⊢
      have hkn' : k + 1 = n := by omega
      have hnil : (List.finRange n).drop (k + 1) = [] := List.drop_of_length_le (by simp; omega)
      rw [hnil] at hcl ⊢
      simp only [List.filter_nil, detForward]
      rw [det_of_upperTriangular, ← List.ofFn_eq_map, List.prod_ofFn]
      intro r c hrc
      have hrc : c < r := hrc
      apply hz r c _ hrc
      have := r.2
      rw [Fin.lt_def] at hrc; omega

/-- The determinant helper is exact when no nonzero pivot is mistaken for zero. -/
theorem determinantImpl_eq {L : Limits} {m : Matrix (Fin n) (Fin n) ℝ}
    (h : DetClean L ((List.finRange n).filter fun i => i.val + 1 < n) m) :
    determinantImpl L m = m.det := by
  have := detForward_spec (L := L) n 0 (by omega) (m := m) (by simp) (by simpa using h)
  rw [List.drop_zero] at this
  unfold determinantImpl
  cases h2 : detForward L ((List.finRange n).filter fun i => i.val + 1 < n) m with
  | none => rw [h2] at this; exact this
  | some m' => rw [h2] at this; exact this

theorem pivot_none {L : Limits} {i : Fin n} {s : Matrix (Fin n) (Fin n) ℝ × Matrix (Fin n) (Fin n) ℝ}
    (h : pivot L i s = none) : ∀ r, i ≤ r → s.1 r i * s.1 r i < minval L s.1 i := by
  unfold pivot at h
  split at h
  · rename_i hlt
    cases hf : findRow L s.1 i with
    | some j => rw [hf] at h; exact absurd h (by simp)
    | none =>
      intro r hr
      rcases hr.eq_or_lt with rfl | hir
      · exact hlt
      · unfold findRow at hf
        rw [List.find?_eq_none] at hf
        have := hf r (List.mem_finRange r)
        simpa [hir] using this
  · exact absurd h (by simp)

theorem forward_none {L : Limits} (d : Nat) : ∀ (k : Nat), k + d = n →
    ∀ {A B : Matrix (Fin n) (Fin n) ℝ} {s : Matrix (Fin n) (Fin n) ℝ × Matrix (Fin n) (Fin n) ℝ},
    RowEq k A B s → (∀ c : Fin n, c.val < k → s.1 c c = 1) →
    forward L ((List.finRange n).drop k) s = none →
    ∃ (i : Fin n) (s' : Matrix (Fin n) (Fin n) ℝ × Matrix (Fin n) (Fin n) ℝ), RowEq i.val A B s' ∧
      (∀ c : Fin n, c < i → s'.1 c c = 1) ∧
      ∀ r, i ≤ r → s'.1 r i * s'.1 r i < minval L s'.1 i := by
  induction d with
  | zero =>
    intro k hk A B s _ _ hf
    have hkn : k = n := by omega
    subst hkn
    rw [List.drop_of_length_le (by simp)] at hf
    simp [forward] at hf
  | succ d ih =>
    intro k hk A B s h hd hf
    have hkn : k < n := by omega
    rw [finRange_drop hkn] at hf
    simp only [forward] at hf
    cases h1 : forwardStep L ⟨k, hkn⟩ s with
    | none =>
      refine ⟨⟨k, hkn⟩, s, h, fun c hc => hd c hc, ?_⟩
      unfold forwardStep at h1
      rw [Option.map_eq_none_iff] at h1
      exact pivot_none h1
    | some s1 =>
      rw [h1, Option.bind_some] at hf
      obtain ⟨a, b⟩ := forwardStep_spec (k := k) rfl h hd h1
      exact ih (k + 1) (by omega) a b hf

/-- Inverting a diagonal matrix. -/
theorem forward_of_diagonal {L : Limits} (d : Nat) : ∀ (k : Nat), k + d = n →
    ∀ {s : Matrix (Fin n) (Fin n) ℝ × Matrix (Fin n) (Fin n) ℝ},
    (∀ r c : Fin n, r ≠ c → s.1 r c = 0) →
    (∀ c : Fin n, k ≤ c.val → minval L s.1 c ≤ s.1 c c * s.1 c c) →
    ∃ s', forward L ((List.finRange n).drop k) s = some s' := by
  induction d with
  | zero =>
    intro k hk s _ _
    rw [List.drop_of_length_le (by simp; omega)]
    exact ⟨s, rfl⟩
  | succ d ih =>
    intro k hk s ho hd
    have hkn : k < n := by omega
    rw [finRange_drop hkn]
    simp only [forward, forwardStep, pivot]
    rw [if_neg (not_lt.2 (hd ⟨k, hkn⟩ le_rfl))]
    simp only [Option.map_some, Option.bind_some]
    have key : ∀ r c : Fin n, c.val ≠ k →
        (clearBelow ⟨k, hkn⟩ (scaleRow ⟨k, hkn⟩ s)).1 r c = s.1 r c := by
      intro r c hc
      have hcne : c ≠ ⟨k, hkn⟩ := fun h => hc (by rw [h])
      have hkc : s.1 ⟨k, hkn⟩ c = 0 := ho _ _ (Ne.symm hcne)
      unfold clearBelow scaleRow
      by_cases hr : r > ⟨k, hkn⟩
      · have hrk : r ≠ ⟨k, hkn⟩ := ne_of_gt hr
        simp [hr, hrk, hcne, ho r _ hrk]
      · by_cases hrk : r = ⟨k, hkn⟩
        · subst hrk; simp [hcne, hkc]
        · simp [hr, hrk]
    have hcol : ∀ r : Fin n, r ≠ ⟨k, hkn⟩ →
        (clearBelow ⟨k, hkn⟩ (scaleRow ⟨k, hkn⟩ s)).1 r ⟨k, hkn⟩ = 0 := by
      intro r hrk
      unfold clearBelow scaleRow
      by_cases hr : r > ⟨k, hkn⟩
      · simp [hr, hrk, ho r _ hrk]
      · simp [hr, hrk, ho r _ hrk]
    apply ih (k + 1) (by omega)
    · intro r c hrc
      by_cases hc : c.val = k
      · have hc' : c = ⟨k, hkn⟩ := Fin.ext hc
        rw [hc']; exact hcol r (fun h => hrc (by rw [h, hc']))
      · rw [key r c hc]; exact ho r c hrc
    · intro c hc
      have hck : c.val ≠ k := by omega
      have : minval L (clearBelow ⟨k, hkn⟩ (scaleRow ⟨k, hkn⟩ s)).1 c = minval L s.1 c := by
        unfold minval
        simp only [key _ c hck]
      rw [this, key c c hck]
      exact hd c (by omega)

end WFMath.Gauss
