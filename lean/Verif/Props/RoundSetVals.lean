/- Property theorems C138: giving a rotation matrix its elements (`setVals`) in floating point. -/
import Verif.Lemmas.RoundDet

namespace WFMath
open Spec Matrix Gauss Rounding
variable {n : Nat}

theorem Fl.loop_isFl (r : Rounding 53) {L : Limits} {p : ℝ} (f : Nat) : ∀ {V V' : Matrix (Fin n) (Fin n) ℝ}, (∀ i j, IsFl 53 (V i j)) → Fl.setValsLoop r L p f V = .accepted V' →
    ∀ i j, IsFl 53 (V' i j) := by
  induction f with
  | zero => intro V V' _ h; unfold Fl.setValsLoop at h; exact absurd h (by simp)
  | succ f ih =>
    intro V V' hV h
    unfold Fl.setValsLoop at h
    split at h
    · exact absurd h (by simp)
    · split at h
      · obtain rfl := RotMat.LoopResult.accepted.inj h
        exact hV
      · cases hi : Fl.improve r L V with
        | none => rw [hi] at h; exact absurd h (by simp)
        | some V1 =>
          rw [hi] at h
          refine ih (fun i j => ?_) h
          unfold Fl.improve at hi
          rw [Option.map_eq_some_iff] at hi
          obtain ⟨b, -, rfl⟩ := hi
          exact r.isFl _

/-- The three ways a call can end. -/
theorem Fl.setVals_cases (r : Rounding 53) (L : Limits) (fuel : Nat) (m m' : RotMat n) (vals : Matrix (Fin n) (Fin n) ℝ) (p : ℝ) (ok : Bool)
    (h : Fl.setVals r L fuel m vals p = some (m', ok)) :
    (ok = false ∧ m' = m) ∨ (ok = true ∧ |p| < 0.9 ∧ ∃ v, Fl.setValsLoop r L |p| fuel vals = .accepted v ∧ m' = ⟨v, decide (Fl.determinantImpl r L v < 0), true, 1⟩) := by
  unfold Fl.setVals at h
  split at h
  · obtain ⟨rfl, rfl⟩ := Prod.mk.inj (Option.some.inj h)
    exact Or.inl ⟨rfl, rfl⟩
  · rename_i hp
    cases hl : Fl.setValsLoop r L |p| fuel vals with
    | outOfFuel => rw [hl] at h; exact absurd h (by simp)
    | refused =>
      rw [hl] at h
      obtain ⟨rfl, rfl⟩ := Prod.mk.inj (Option.some.inj h)
      exact Or.inl ⟨rfl, rfl⟩
    | accepted v =>
      rw [hl] at h
      obtain ⟨rfl, rfl⟩ := Prod.mk.inj (Option.some.inj h)
      exact Or.inr ⟨rfl, not_le.1 hp, v, rfl, rfl⟩

/-- C138: in floating point, too, whatever is accepted was orthogonal up to the precision asked for, and what is stored is valid, made of doubles and orthogonal up to `epsilon`, apart from a few
roundings; and a refusal never changes the matrix. -/
theorem C138_accepts (r : Rounding 53) (hn : n ≤ 3) (fuel : Nat) (m m' : RotMat n) (vals : Matrix (Fin n) (Fin n) ℝ) (hfl : ∀ i j, IsFl 53 (vals i j)) (p : ℝ) (ok : Bool)
    (h : Fl.setVals r doubleLimits fuel m vals p = some (m', ok)) :
    (ok = true → |p| < 0.9 ∧ (∀ i j, |(vals * valsᵀ - 1) i j| ≤ |p| + 2 ^ (-49 : ℤ)) ∧ (∀ i j, |(m'.elem * m'.elemᵀ - 1) i j| ≤ epsilon + 2 ^ (-50 : ℤ)) ∧
      (∀ i j, IsFl 53 (m'.elem i j)) ∧ m'.valid = true ∧ m'.age = 1) ∧
    (ok = false → m' = m) := by
  have hu0 : 0 < u 53 := u_pos
  have hu : u 53 ≤ 1 / 1000000 := by rw [Fl.u53]; norm_num
  have e49 : (2 : ℝ) ^ (-49 : ℤ) = 16 * u 53 := by rw [Fl.u53]; norm_num
  have e50 : (2 : ℝ) ^ (-50 : ℤ) = 8 * u 53 := by rw [Fl.u53]; norm_num
  have ee := Fl.eps_u
  rcases Fl.setVals_cases r _ fuel m m' vals p ok h with ⟨rfl, rfl⟩ | ⟨rfl, hp, v, hl, rfl⟩
  · exact ⟨fun h => absurd h (by simp), fun _ => rfl⟩
  · obtain ⟨h1, h2⟩ := Fl.loop_spec r fuel hl
    rw [Fl.orthError_le] at h1 h2
    have hp' : |p| ≤ 9 / 10 := by norm_num at hp; linarith
    refine ⟨fun _ => ⟨hp, fun i j => ?_, fun i j => ?_, Fl.loop_isFl r fuel hfl hl, rfl, rfl⟩, fun h => absurd h (by simp)⟩
    · refine (Fl.near_of_entry r hn vals hp' h1.2 i j).trans ?_
      rw [e49]
      nlinarith
    · refine (Fl.near_of_entry r hn v (by rw [ee]; linarith) h2.2 i j).trans ?_
      rw [e50, ee]
      nlinarith

/-- C138: an array that misses the precision by more than a few roundings is refused, and so is any array when the precision is 0.9 or more. -/
theorem C138_refuses (r : Rounding 53) (hn : n ≤ 3) (fuel : Nat) (m : RotMat n) (vals : Matrix (Fin n) (Fin n) ℝ) (p : ℝ) :
    (0.9 ≤ |p| → Fl.setVals r doubleLimits fuel m vals p = some (m, false)) ∧
    ((∃ i j, |p| + 2 ^ (-49 : ℤ) < |(vals * valsᵀ - 1) i j|) → Fl.setVals r doubleLimits (fuel + 1) m vals p = some (m, false)) := by
  have h1 : ∀ f, 0.9 ≤ |p| → Fl.setVals r doubleLimits f m vals p = some (m, false) := by
    intro f h; unfold Fl.setVals; rw [if_pos h]
  refine ⟨h1 fuel, ?_⟩
  rintro ⟨i, j, hij⟩
  by_cases hp : 0.9 ≤ |p|
  · exact h1 _ hp
  · unfold Fl.setVals
    rw [if_neg hp]
    unfold Fl.setValsLoop
    rw [if_pos]
    by_contra hle
    rw [gt_iff_lt, not_lt, Fl.orthError_le] at hle
    have hp' : |p| ≤ 9 / 10 := by norm_num at hp; linarith
    have := Fl.near_of_entry r hn vals hp' hle.2 i j
    have hu0 : 0 < u 53 := u_pos
    have e49 : (2 : ℝ) ^ (-49 : ℤ) = 16 * u 53 := by rw [Fl.u53]; norm_num
    rw [e49] at hij
    nlinarith

/-- C138: an array orthogonal up to `epsilon` less a few roundings, and up to the precision less as much, is stored as it is. -/
theorem C138_orthogonal (r : Rounding 53) (hn : n ≤ 3) (fuel : Nat) (m : RotMat n) (vals : Matrix (Fin n) (Fin n) ℝ) (p : ℝ) (hp : |p| < 0.9)
    (h : ∀ i j, |(vals * valsᵀ - 1) i j| ≤ epsilon - 2 ^ (-50 : ℤ)) (h' : ∀ i j, |(vals * valsᵀ - 1) i j| ≤ |p| - 2 ^ (-50 : ℤ)) :
    ∃ m', Fl.setVals r doubleLimits (fuel + 1) m vals p = some (m', true) ∧ m'.elem = vals ∧ m'.valid = true ∧ m'.age = 1 := by
  have hu0 : 0 < u 53 := u_pos
  have hu : u 53 ≤ 1 / 1000000 := by rw [Fl.u53]; norm_num
  have e50 : (2 : ℝ) ^ (-50 : ℤ) = 8 * u 53 := by rw [Fl.u53]; norm_num
  have ee := Fl.eps_u
  rw [e50] at h h'
  rw [ee] at h
  have bound : ∀ i j, |Fl.orthEntry r vals i j| ≤ |(vals * valsᵀ - 1) i j| + 8 * u 53 := fun i j => by
    have h1 := Fl.entry_of_near r hn vals h i j
    have h2 := abs_sub_abs_le_abs_sub (Fl.orthEntry r vals i j) ((vals * valsᵀ - 1) i j)
    nlinarith
  have o1 : Fl.orthError r vals ≤ |p| := (Fl.orthError_le r).2 ⟨abs_nonneg _, fun i j => (bound i j).trans (by linarith [h' i j])⟩
  have o2 : Fl.orthError r vals ≤ epsilon := (Fl.orthError_le r).2 ⟨epsilon_pos.le, fun i j => (bound i j).trans (by rw [ee]; linarith [h i j])⟩
  unfold Fl.setVals
  rw [if_neg (by linarith)]
  unfold Fl.setValsLoop
  rw [if_neg (by linarith), if_pos o2]
  exact ⟨_, rfl, rfl, rfl, rfl⟩

theorem Fl.flag_iff {x y : ℝ} (h : SignType.sign x = SignType.sign y) : decide (x < 0) = true ↔ y < 0 := by
  rw [decide_eq_true_eq, ← sign_eq_neg_one_iff, h, sign_eq_neg_one_iff]

/-- C138: in the plane every array accepted is stored with the parity of its determinant. -/
theorem C138_parity_plane (r : Rounding 53) (fuel : Nat) (m m' : RotMat 2) (vals : Matrix (Fin 2) (Fin 2) ℝ) (hfl : ∀ i j, IsFl 53 (vals i j)) (p : ℝ)
    (h : Fl.setVals r doubleLimits fuel m vals p = some (m', true)) : (m'.flip = true ↔ m'.elem.det < 0) ∧ m'.elem.det ≠ 0 := by
  obtain ⟨-, -, ho, hv, -⟩ := (C138_accepts r (by norm_num) fuel m m' vals hfl p true h).1 rfl
  rcases Fl.setVals_cases r _ fuel m m' vals p true h with ⟨h1, -⟩ | ⟨-, -, v, -, rfl⟩
  · exact absurd h1 (by simp)
  · have he := epsilon_lt
    norm_num at he
    have hδ : epsilon + 2 ^ (-50 : ℤ) ≤ 1 / 1000 := by norm_num; linarith
    have hd := det_near_two hδ ho
    refine ⟨Fl.flag_iff (Fl.det_plane r hv (fun i j => (entry_near hδ ho i j).trans (by norm_num)) hd), fun hz => ?_⟩
    rw [hz, abs_zero] at hd
    linarith

/-- C138 in space, in part: the same holds as long as the leading minors of what is stored are not small. Without this it is refuted by `C138_false`. -/
theorem C138_parity_space_partial (r : Rounding 53) (fuel : Nat) (m m' : RotMat 3) (vals : Matrix (Fin 3) (Fin 3) ℝ) (hfl : ∀ i j, IsFl 53 (vals i j)) (p : ℝ)
    (h : Fl.setVals r doubleLimits fuel m vals p = some (m', true)) (h0 : 1 / 256 ≤ |m'.elem 0 0|) (h1 : 1 / 256 ≤ |m'.elem 0 0 * m'.elem 1 1 - m'.elem 0 1 * m'.elem 1 0|) :
    (m'.flip = true ↔ m'.elem.det < 0) ∧ m'.elem.det ≠ 0 := by
  obtain ⟨-, -, ho, hv, -⟩ := (C138_accepts r (by norm_num) fuel m m' vals hfl p true h).1 rfl
  rcases Fl.setVals_cases r _ fuel m m' vals p true h with ⟨h1, -⟩ | ⟨-, -, v, -, rfl⟩
  · exact absurd h1 (by simp)
  · have he := epsilon_lt
    norm_num at he
    have hδ : epsilon + 2 ^ (-50 : ℤ) ≤ 1 / 1000 := by norm_num; linarith
    have hd := det_near_three hδ ho
    refine ⟨Fl.flag_iff (Fl.det_space r hv (fun i j => (entry_near hδ ho i j).trans (by norm_num)) (fun k c => ?_) hd (P := 256) (by norm_num) le_rfl h0
      (by rw [mul_comm (v 1 1)]; exact h1)), fun hz => ?_⟩
    · have := minor_near hδ ho k 0 c 0
      rwa [mul_comm (v k 0)] at this
    · rw [hz, abs_zero] at hd
      linarith

end WFMath
