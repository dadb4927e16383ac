/- Correctness of the Gaussian elimination helpers (see `Model/Gauss.lean`). -/
import Verif.Model.Gauss
import Mathlib.LinearAlgebra.Matrix.NonsingularInverse
import Mathlib.LinearAlgebra.Matrix.Transvection
import Mathlib.LinearAlgebra.Matrix.Block
import Mathlib.Tactic.Linarith
import Mathlib.Tactic.FieldSimp

namespace WFMath.Gauss
open Matrix
variable {n : Nat}

theorem minval_pos (L : Limits) (m : Matrix (Fin n) (Fin n) ℝ) (i : Fin n) : 0 < minval L m i := by
  unfold minval
  simp only
  split
  · exact L.minD_pos
  · rename_i h; exact lt_of_lt_of_le L.minD_pos (not_lt.1 h)

theorem findRow_some {L : Limits} {m : Matrix (Fin n) (Fin n) ℝ} {i j : Fin n}
    (h : findRow L m i = some j) : i < j ∧ minval L m i ≤ m j i * m j i := by
  have := List.find?_some h
  simpa using this

/-- The cells below the diagonal in the first `k` columns read as 0. -/
def clean (k : Nat) (m : Matrix (Fin n) (Fin n) ℝ) : Matrix (Fin n) (Fin n) ℝ :=
  fun r c => if c < r ∧ c.val < k then 0 else m r c

/-- `(m, out)` arises from `(A, B)` by invertible row operations, up to the ignored cells. -/
def RowEq (k : Nat) (A B : Matrix (Fin n) (Fin n) ℝ) (s : Matrix (Fin n) (Fin n) ℝ × Matrix (Fin n) (Fin n) ℝ) :
    Prop := ∃ E : Matrix (Fin n) (Fin n) ℝ, IsUnit E ∧ E * A = clean k s.1 ∧ E * B = s.2

theorem RowEq.step {k k' : Nat} {A B : Matrix (Fin n) (Fin n) ℝ}
    {s s' : Matrix (Fin n) (Fin n) ℝ × Matrix (Fin n) (Fin n) ℝ} (h : RowEq k A B s)
    (F : Matrix (Fin n) (Fin n) ℝ) (hF : IsUnit F) (h1 : F * clean k s.1 = clean k' s'.1)
    (h2 : F * s.2 = s'.2) : RowEq k' A B s' := by
  obtain ⟨E, hE, e1, e2⟩ := h
  exact ⟨F * E, hF.mul hE, by rw [Matrix.mul_assoc, e1, h1], by rw [Matrix.mul_assoc, e2, h2]⟩

theorem addRow_unit {i j : Fin n} (h : i ≠ j) (c : ℝ) : IsUnit (transvection i j c) := by
  rw [Matrix.isUnit_iff_isUnit_det, det_transvection_of_ne i j h]; exact isUnit_one

theorem addRow_apply {i j : Fin n} (c : ℝ) (M : Matrix (Fin n) (Fin n) ℝ) (r k : Fin n) :
    (transvection i j c * M) r k = if r = i then M i k + c * M j k else M r k := by
  by_cases h : r = i
  · subst h; rw [if_pos rfl, transvection_mul_apply_same]
  · rw [if_neg h, transvection_mul_apply_of_ne _ _ _ _ h]

theorem pivot_spec {L : Limits} {k : Nat} {i : Fin n} (hi : i.val = k) {A B : Matrix (Fin n) (Fin n) ℝ}
    {s s' : Matrix (Fin n) (Fin n) ℝ × Matrix (Fin n) (Fin n) ℝ} (h : RowEq k A B s)
    (hd : ∀ c : Fin n, c.val < k → s.1 c c = 1) (hp : pivot L i s = some s') :
    RowEq k A B s' ∧ (∀ c : Fin n, c.val < k → s'.1 c c = 1) ∧ s'.1 i i ≠ 0 := by
  unfold pivot at hp
  split at hp
  · rename_i hlt
    cases hf : findRow L s.1 i with
    | none => rw [hf] at hp; exact absurd hp (by simp)
    | some j =>
      rw [hf] at hp
      obtain ⟨hij, hj⟩ := findRow_some hf
      simp only [Option.some.injEq] at hp
      subst hp
      refine ⟨h.step (transvection i j 1) (addRow_unit hij.ne 1) ?_ ?_, ?_, ?_⟩
      · ext r c
        rw [addRow_apply]
        unfold clean
        by_cases hr : r = i
        · subst hr
          simp only [if_true, one_mul]
          by_cases hc : c < r
          · have hck : c.val < k := by rw [← hi]; exact hc
            rw [if_pos ⟨hc, hck⟩, if_pos ⟨lt_trans hc hij, hck⟩, add_zero, if_pos ⟨hc, hck⟩]
          · have hck : ¬ c.val < k := by rw [← hi]; exact hc
            rw [if_neg (fun h => hc h.1), if_neg (fun h => hck h.2), if_neg (fun h => hc h.1)]
        · simp only [if_neg hr]
      · ext r c
        rw [addRow_apply]
        by_cases hr : r = i
        · subst hr; simp
        · simp [hr]
      · intro c hc
        have : c ≠ i := by rintro rfl; omega
        simp only [if_neg this]; exact hd c hc
      · simp only [if_true]
        intro h0
        have : s.1 i i = -s.1 j i := by linarith
        rw [this] at hlt
        linarith
  · rename_i hge
    simp only [Option.some.injEq] at hp
    subst hp
    refine ⟨h, hd, ?_⟩
    intro h0
    rw [h0] at hge
    have := minval_pos L s.1 i
    apply hge; linarith

theorem scaleRow_spec {k : Nat} {i : Fin n} (hi : i.val = k) {A B : Matrix (Fin n) (Fin n) ℝ}
    {s : Matrix (Fin n) (Fin n) ℝ × Matrix (Fin n) (Fin n) ℝ} (h : RowEq k A B s)
    (hd : ∀ c : Fin n, c.val < k → s.1 c c = 1) (h0 : s.1 i i ≠ 0) :
    RowEq k A B (scaleRow i s) ∧ (∀ c : Fin n, c.val < k + 1 → (scaleRow i s).1 c c = 1) := by
  constructor
  · refine h.step (diagonal fun r => if r = i then (s.1 i i)⁻¹ else 1) ?_ ?_ ?_
    · rw [Matrix.isUnit_iff_isUnit_det, det_diagonal]
      apply IsUnit.mk0
      rw [Finset.prod_ne_zero_iff]
      intro r _
      split
      · exact inv_ne_zero h0
      · exact one_ne_zero
    · ext r c
      rw [diagonal_mul]
      unfold clean scaleRow
      by_cases hr : r = i
      · subst hr
        simp only [if_true]
        by_cases hc : c < r
        · have hck : c.val < k := by rw [← hi]; exact hc
          rw [if_pos ⟨hc, hck⟩, if_pos ⟨hc, hck⟩, mul_zero]
        · rw [if_neg (fun h => hc h.1), if_neg (fun h => hc h.1)]
          by_cases hcr : c = r
          · subst hcr; simp [h0]
          · have : c > r := lt_of_le_of_ne (not_lt.1 hc) (Ne.symm hcr)
            rw [if_neg hcr, if_pos this]; rw [div_eq_inv_mul]
      · simp only [if_neg hr, one_mul]
    · ext r c
      rw [diagonal_mul]
      unfold scaleRow
      by_cases hr : r = i
      · subst hr; simp [div_eq_inv_mul]
      · simp [hr]
  · intro c hc
    unfold scaleRow
    by_cases hci : c = i
    · subst hci; simp
    · have : c.val < k := by
        have : c.val ≠ i.val := fun h => hci (Fin.ext h)
        omega
      simp only [if_neg hci]; exact hd c this

/-- Subtract `w r` times row `i` from every row `r`. -/
def subRows (i : Fin n) (w : Fin n → ℝ) : Matrix (Fin n) (Fin n) ℝ :=
  1 - vecMulVec w (Pi.single i 1)

theorem subRows_apply (i : Fin n) (w : Fin n → ℝ) (M : Matrix (Fin n) (Fin n) ℝ) (r c : Fin n) :
    (subRows i w * M) r c = M r c - w r * M i c := by
  unfold subRows
  rw [Matrix.sub_mul, Matrix.one_mul, Matrix.sub_apply, Matrix.mul_apply]
  congr 1
  rw [Finset.sum_eq_single i]
  · simp [vecMulVec_apply]
  · intro b _ hb; simp [vecMulVec_apply, hb]
  · simp

theorem subRows_unit (i : Fin n) (w : Fin n → ℝ) (h : w i = 0) : IsUnit (subRows i w) := by
  have e : subRows i w * subRows i (-w) = 1 := by
    ext r c
    rw [subRows_apply]
    unfold subRows
    simp only [Matrix.sub_apply, vecMulVec_apply, Pi.neg_apply, h, Pi.single_apply, Matrix.one_apply,
      eq_comm (a := c)]
    ring
  exact IsUnit.of_mul_eq_one _ e

theorem clearBelow_spec {k : Nat} {i : Fin n} (hi : i.val = k) {A B : Matrix (Fin n) (Fin n) ℝ}
    {s : Matrix (Fin n) (Fin n) ℝ × Matrix (Fin n) (Fin n) ℝ} (h : RowEq k A B s)
    (hd : ∀ c : Fin n, c.val < k + 1 → s.1 c c = 1) :
    RowEq (k + 1) A B (clearBelow i s) ∧
    (∀ c : Fin n, c.val < k + 1 → (clearBelow i s).1 c c = 1) := by
  have hii : s.1 i i = 1 := hd i (by omega)
  constructor
  · refine h.step (subRows i fun r => if r > i then s.1 r i else 0) (subRows_unit _ _ (by simp)) ?_ ?_
    · ext r c
      rw [subRows_apply]
      unfold clean clearBelow
      by_cases hr : r > i
      · simp only [if_pos hr]
        by_cases hck : c.val < k
        · have h1 : c < i := by rw [Fin.lt_def]; omega
          rw [if_pos ⟨lt_trans h1 hr, hck⟩, if_pos ⟨h1, hck⟩, if_pos ⟨lt_trans h1 hr, by omega⟩]; ring
        · rw [if_neg (fun h => hck h.2), if_neg (fun h => hck h.2)]
          by_cases hci : c = i
          · subst hci
            rw [if_pos ⟨hr, by omega⟩, hii]; ring
          · have : ¬ c.val < k + 1 := by
              have : c.val ≠ i.val := fun h => hci (Fin.ext h)
              omega
            rw [if_neg (fun h => this h.2), if_neg hci]
            by_cases hz : s.1 r i = 0
            · simp [hz]
            · rw [if_pos hz]; ring
      · simp only [if_neg hr, zero_mul, sub_zero]
        have : (c < r ∧ c.val < k) ↔ (c < r ∧ c.val < k + 1) := by
          rw [gt_iff_lt, not_lt, Fin.le_def] at hr
          simp only [Fin.lt_def]; omega
        by_cases hc : c < r ∧ c.val < k
        · rw [if_pos hc, if_pos (this.1 hc)]
        · rw [if_neg hc, if_neg (fun h => hc (this.2 h))]
    · ext r c
      rw [subRows_apply]
      unfold clearBelow
      by_cases hr : r > i
      · simp only [if_pos hr]
        by_cases hz : s.1 r i = 0
        · simp [hz]
        · rw [if_pos hz]; ring
      · simp only [if_neg hr, zero_mul, sub_zero]
  · intro c hc
    have : ¬ c > i := by rw [gt_iff_lt, Fin.lt_def]; omega
    unfold clearBelow
    simp only [if_neg this]; exact hd c hc

theorem forwardStep_spec {L : Limits} {k : Nat} {i : Fin n} (hi : i.val = k)
    {A B : Matrix (Fin n) (Fin n) ℝ}
    {s s' : Matrix (Fin n) (Fin n) ℝ × Matrix (Fin n) (Fin n) ℝ} (h : RowEq k A B s)
    (hd : ∀ c : Fin n, c.val < k → s.1 c c = 1) (hp : forwardStep L i s = some s') :
    RowEq (k + 1) A B s' ∧ (∀ c : Fin n, c.val < k + 1 → s'.1 c c = 1) := by
  unfold forwardStep at hp
  rw [Option.map_eq_some_iff] at hp
  obtain ⟨s1, h1, rfl⟩ := hp
  obtain ⟨a, b, c⟩ := pivot_spec hi h hd h1
  obtain ⟨a, b⟩ := scaleRow_spec hi a b c
  exact clearBelow_spec hi a b

theorem finRange_drop {k : Nat} (h : k < n) :
    (List.finRange n).drop k = ⟨k, h⟩ :: (List.finRange n).drop (k + 1) := by
  rw [List.drop_eq_getElem_cons (by simpa using h)]
  simp

theorem forward_spec {L : Limits} (d : Nat) : ∀ (k : Nat), k + d = n →
    ∀ {A B : Matrix (Fin n) (Fin n) ℝ} {s s' : Matrix (Fin n) (Fin n) ℝ × Matrix (Fin n) (Fin n) ℝ},
    RowEq k A B s → (∀ c : Fin n, c.val < k → s.1 c c = 1) →
    forward L ((List.finRange n).drop k) s = some s' →
    RowEq n A B s' ∧ (∀ c : Fin n, s'.1 c c = 1) := by
  induction d with
  | zero =>
    intro k hk A B s s' h hd hf
    have hkn : k = n := by omega
    subst hkn
    rw [List.drop_of_length_le (by simp)] at hf
    simp only [forward, Option.some.injEq] at hf
    subst hf
    exact ⟨h, fun c => hd c c.2⟩
  | succ d ih =>
    intro k hk A B s s' h hd hf
    have hkn : k < n := by omega
    rw [finRange_drop hkn] at hf
    simp only [forward] at hf
    rw [Option.bind_eq_some_iff] at hf
    obtain ⟨s1, h1, h2⟩ := hf
    obtain ⟨a, b⟩ := forwardStep_spec (k := k) rfl h hd h1
    exact ih (k + 1) (by omega) a b h2

/-- `U` with the cells above the diagonal cleared in the columns from `k` on. -/
def upto (k : Nat) (U : Matrix (Fin n) (Fin n) ℝ) : Matrix (Fin n) (Fin n) ℝ :=
  fun r c => if r < c ∧ k ≤ c.val then 0 else U r c

theorem back_spec {U : Matrix (Fin n) (Fin n) ℝ} (hU : ∀ r c, c < r → U r c = 0) (hd : ∀ c, U c c = 1)
    {m : Matrix (Fin n) (Fin n) ℝ} (hm : ∀ r c, r < c → m r c = U r c)
    {Y out : Matrix (Fin n) (Fin n) ℝ} (hY : U * Y = out) (d : Nat) : ∀ k, k + d = n →
    upto k U * Y = ((List.finRange n).drop k).foldr (backStep m) out := by
  induction d with
  | zero =>
    intro k hk
    have hkn : k = n := by omega
    subst hkn
    rw [List.drop_of_length_le (by simp)]
    have : upto k U = U := by
      ext r c; unfold upto; rw [if_neg]; rintro ⟨_, h⟩; have := c.2; omega
    rw [this, hY]; rfl
  | succ d ih =>
    intro k hk
    have hkn : k < n := by omega
    rw [finRange_drop hkn, List.foldr_cons, ← ih (k + 1) (by omega)]
    have hrow : ∀ c, (upto (k + 1) U * Y) ⟨k, hkn⟩ c = Y ⟨k, hkn⟩ c := by
      intro c
      rw [Matrix.mul_apply, Finset.sum_eq_single ⟨k, hkn⟩]
      · unfold upto; simp [hd]
      · intro b _ hb
        unfold upto
        by_cases hlt : (⟨k, hkn⟩ : Fin n) < b
        · rw [if_pos ⟨hlt, hlt⟩, zero_mul]
        · rw [if_neg (fun h => hlt h.1), hU _ _ (lt_of_le_of_ne (not_lt.1 hlt) hb), zero_mul]
      · simp
    ext r c
    unfold backStep
    by_cases hr : r < ⟨k, hkn⟩
    · rw [if_pos hr, hrow]
      have e : (upto k U * Y) r c = (upto (k + 1) U * Y) r c - Y ⟨k, hkn⟩ c * U r ⟨k, hkn⟩ := by
        rw [eq_sub_iff_add_eq, Matrix.mul_apply, Matrix.mul_apply,
          ← Finset.add_sum_erase _ _ (Finset.mem_univ (⟨k, hkn⟩ : Fin n)),
          ← Finset.add_sum_erase Finset.univ (fun j => upto (k + 1) U r j * Y j c) (Finset.mem_univ (⟨k, hkn⟩ : Fin n))]
        have h1 : upto k U r ⟨k, hkn⟩ = 0 := by unfold upto; rw [if_pos ⟨hr, le_rfl⟩]
        have h2 : upto (k + 1) U r ⟨k, hkn⟩ = U r ⟨k, hkn⟩ := by
          unfold upto; rw [if_neg]; rintro ⟨_, h⟩; simp at h
        rw [h1, h2]
        have h3 : ∑ x ∈ Finset.univ.erase (⟨k, hkn⟩ : Fin n), upto k U r x * Y x c
            = ∑ x ∈ Finset.univ.erase (⟨k, hkn⟩ : Fin n), upto (k + 1) U r x * Y x c := by
          apply Finset.sum_congr rfl
          intro x hx
          have hx' : x ≠ ⟨k, hkn⟩ := Finset.ne_of_mem_erase hx
          have : x.val ≠ k := fun h => hx' (Fin.ext h)
          unfold upto
          have : (r < x ∧ k ≤ x.val) ↔ (r < x ∧ k + 1 ≤ x.val) := by omega
          simp only [this]
        rw [h3]; ring
      rw [e, hm _ _ hr]
      split
      · rfl
      · rename_i h0; simp only [ne_eq, not_not] at h0; rw [h0]; ring
    · rw [if_neg hr, Matrix.mul_apply, Matrix.mul_apply]
      apply Finset.sum_congr rfl
      intro x _
      unfold upto
      have : (r < x ∧ k ≤ x.val) ↔ (r < x ∧ k + 1 ≤ x.val) := by
        simp only [Fin.lt_def] at *; omega
      simp only [this]

/-- On success the inversion helper solves `A X = B`, and `A` is invertible. -/
theorem inverseImpl_spec {L : Limits} {A B X : Matrix (Fin n) (Fin n) ℝ}
    (h : inverseImpl L A B = some X) : IsUnit A.det ∧ A * X = B := by
  unfold inverseImpl at h
  rw [Option.map_eq_some_iff] at h
  obtain ⟨s, hs, hX⟩ := h
  have h0 : RowEq 0 A B (A, B) := by
    refine ⟨1, isUnit_one, ?_, by rw [Matrix.one_mul]⟩
    rw [Matrix.one_mul]; ext r c; simp [clean]
  obtain ⟨⟨E, hE, e1, e2⟩, hd⟩ := forward_spec n 0 (by omega) h0 (by simp) (by simpa using hs)
  have hU : ∀ r c, c < r → clean n s.1 r c = 0 := by
    intro r c hrc; unfold clean; rw [if_pos ⟨hrc, c.2⟩]
  have hdU : ∀ c, clean n s.1 c c = 1 := by
    intro c; unfold clean; rw [if_neg (fun h => lt_irrefl _ h.1)]; exact hd c
  have hdet : (clean n s.1).det = 1 := by
    rw [det_of_upperTriangular (fun r c hrc => hU r c hrc)]
    simp [hdU]
  have hunit : IsUnit A.det := by
    have : E.det * A.det = 1 := by rw [← det_mul, e1, hdet]
    exact IsUnit.of_mul_eq_one_right _ this
  refine ⟨hunit, ?_⟩
  have hAY : A * (A⁻¹ * B) = B := by rw [← Matrix.mul_assoc, Matrix.mul_nonsing_inv _ hunit, Matrix.one_mul]
  have hY : clean n s.1 * (A⁻¹ * B) = s.2 := by
    rw [← e1, Matrix.mul_assoc, hAY, e2]
  have := back_spec hU hdU (m := s.1) (fun r c hrc => by
    unfold clean; rw [if_neg (fun h => absurd h.1 (not_lt.2 hrc.le))]) hY n 0 (by omega)
  have h1 : upto 0 (clean n s.1) = 1 := by
    ext r c
    unfold upto
    by_cases hrc : r = c
    · subst hrc; rw [if_neg (fun h => lt_irrefl _ h.1), hdU]; simp
    · rw [Matrix.one_apply_ne hrc]
      by_cases hlt : r < c
      · rw [if_pos ⟨hlt, Nat.zero_le _⟩]
      · rw [if_neg (fun h => hlt h.1)]; exact hU _ _ (lt_of_le_of_ne (not_lt.1 hlt) (Ne.symm hrc))
  rw [h1, Matrix.one_mul, List.drop_zero, hX] at this
  rw [← this]; exact hAY

end WFMath.Gauss
