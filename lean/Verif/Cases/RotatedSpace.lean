/- Concrete cases for the theorems about rotated boxes in space in floating point (C135). -/
import Verif.Props.RoundSatTwo

namespace WFMath.Cases
open Spec Matrix Rounding

/-- A rotation of space none of whose edges is near an axis. -/
noncomputable def R3 : Matrix (Fin 3) (Fin 3) ℝ := Matrix.of ![![2 / 3, -1 / 3, 2 / 3], ![2 / 3, 2 / 3, -1 / 3], ![-1 / 3, 2 / 3, 2 / 3]]
/-- A box with corner 0 and sides 3 along the rows of it, rounded. -/
noncomputable def rb3 (r : Rounding 53) : RBox 3 := ⟨⟨0, true⟩, ⟨![3, 3, 3], true⟩, ⟨Matrix.of fun i j => r (R3 i j), false, true, 0⟩⟩

theorem hR3 : R3ᵀ * R3 = 1 := by
  unfold R3; ext i j; fin_cases i <;> fin_cases j <;> simp [Matrix.mul_apply, Fin.sum_univ_three] <;> norm_num
theorem hax3 (i j : Fin 3) : R3 i j ^ 2 ≤ 1 - (1 / 2) ^ 2 := by
  unfold R3; fin_cases i <;> fin_cases j <;> simp <;> norm_num
theorem len3 (v : Fin 3 → ℝ) : len v ≤ |v 0| + |v 1| + |v 2| := by
  refine Real.sqrt_le_iff.2 ⟨by positivity, ?_⟩
  simp only [dotProduct, Fin.sum_univ_three]
  nlinarith [abs_mul_abs_self (v 0), abs_mul_abs_self (v 1), abs_mul_abs_self (v 2), mul_nonneg (abs_nonneg (v 0)) (abs_nonneg (v 1)), mul_nonneg (abs_nonneg (v 0)) (abs_nonneg (v 2)),
    mul_nonneg (abs_nonneg (v 1)) (abs_nonneg (v 2))]
theorem stands3 (r : Rounding 53) : Stands (rb3 r).orient.elem R3 (26 * 2 ^ (-52 : ℤ) - 24 * 2 ^ (-52 : ℤ)) := fun v => by
  have row : ∀ i, |((rb3 r).orient.elem *ᵥ v - R3 *ᵥ v) i| ≤ 2 ^ (-53 : ℤ) * len v := fun i => by
    rw [← sub_mulVec]
    have h1 : len (((rb3 r).orient.elem - R3) i) ≤ 2 ^ (-53 : ℤ) * len (R3 i) := Fl.len_round r (R3 i)
    rw [Fl.row_len hR3, mul_one] at h1
    exact (abs_dot_le_len _ v).trans (mul_le_mul_of_nonneg_right h1 (len_nonneg _))
  refine (len3 _).trans ((add_le_add (add_le_add (row 0) (row 1)) (row 2)).trans ?_)
  have := len_nonneg v
  rw [← add_mul, ← add_mul]
  exact mul_le_mul_of_nonneg_right (by norm_num) this
theorem mul3 (x : Fin 3 → ℝ) : R3 *ᵥ x = ![2 / 3 * x 0 - 1 / 3 * x 1 + 2 / 3 * x 2, 2 / 3 * x 0 + 2 / 3 * x 1 - 1 / 3 * x 2, -1 / 3 * x 0 + 2 / 3 * x 1 + 2 / 3 * x 2] := by
  funext i; fin_cases i <;> simp [R3, mulVec, dotProduct, Fin.sum_univ_three] <;> ring
theorem mem3 (x : Fin 3 → ℝ) (d : ℝ) : x ∈ turnedBox 0 ![3, 3, 3] R3 d ↔
    (-d ≤ 2 / 3 * x 0 - 1 / 3 * x 1 + 2 / 3 * x 2 ∧ 2 / 3 * x 0 - 1 / 3 * x 1 + 2 / 3 * x 2 ≤ 3 + d) ∧
    (-d ≤ 2 / 3 * x 0 + 2 / 3 * x 1 - 1 / 3 * x 2 ∧ 2 / 3 * x 0 + 2 / 3 * x 1 - 1 / 3 * x 2 ≤ 3 + d) ∧
    (-d ≤ -1 / 3 * x 0 + 2 / 3 * x 1 + 2 / 3 * x 2 ∧ -1 / 3 * x 0 + 2 / 3 * x 1 + 2 / 3 * x 2 ≤ 3 + d) := by
  show (∀ i, _) ↔ _
  rw [sub_zero, mul3]
  constructor
  · intro h
    have h0 := h 0
    have h1 := h 1
    have h2 := h 2
    simp [cons_val] at h0 h1 h2
    refine ⟨⟨?_, ?_⟩, ⟨?_, ?_⟩, ⟨?_, ?_⟩⟩ <;> linarith [h0.1, h0.2, h1.1, h1.2, h2.1, h2.2]
  · rintro ⟨h0, h1, h2⟩ i
    fin_cases i <;> simp [cons_val] <;> constructor <;> linarith [h0.1, h0.2, h1.1, h1.2, h2.1, h2.2]

/-- Small multiples of moderate lengths. -/
theorem sm3 {k x : ℝ} (hk : 0 ≤ k) (hx : x ≤ 100) (h : k * 100 ≤ 1 / 1000) : k * x ≤ 1 / 1000 := (mul_le_mul_of_nonneg_left hx hk).trans h

theorem margins3 (r : Rounding 53) (a : Box 3) (h1 : eucl a.low.elem a.high.elem ≤ 30) (h2 : eucl a.low.elem 0 ≤ 30) :
    ∃ M G : ℝ, M = 26 * 2 ^ (-52 : ℤ) * len (rb3 r).size.elem + (26 * 2 ^ (-52 : ℤ) + 2 ^ (-51 : ℤ)) * eucl a.low.elem a.high.elem +
      (3 * (26 * 2 ^ (-52 : ℤ)) + 2 ^ (-51 : ℤ)) * eucl a.low.elem (rb3 r).corner.elem + 4 * 2 ^ (-50 : ℤ) * len (rb3 r).corner.elem +
      2 ^ (-53 : ℤ) * len ((rb3 r).corner.elem + (rb3 r).size.elem) ∧
    G = 8 * (26 * 2 ^ (-52 : ℤ) + epsilon) * (len (rb3 r).size.elem + eucl a.low.elem a.high.elem + eucl a.low.elem (rb3 r).corner.elem) ∧ M ≤ 1 / 100 ∧ G ≤ 1 / 100 := by
  have hs : len (![3, 3, 3] : Fin 3 → ℝ) ≤ 30 := (len3 _).trans (by simp [cons_val] <;> norm_num)
  have hc : len (0 : Fin 3 → ℝ) ≤ 30 := (len3 _).trans (by simp [cons_val] <;> norm_num)
  refine ⟨_, _, rfl, rfl, ?_, ?_⟩
  · show 26 * 2 ^ (-52 : ℤ) * len ![3, 3, 3] + (26 * 2 ^ (-52 : ℤ) + 2 ^ (-51 : ℤ)) * eucl a.low.elem a.high.elem + (3 * (26 * 2 ^ (-52 : ℤ)) + 2 ^ (-51 : ℤ)) * eucl a.low.elem 0 +
      4 * 2 ^ (-50 : ℤ) * len 0 + 2 ^ (-53 : ℤ) * len (0 + ![3, 3, 3]) ≤ 1 / 100
    rw [zero_add]
    have b1 : 26 * 2 ^ (-52 : ℤ) * len ![3, 3, 3] ≤ 1 / 1000 := sm3 (by positivity) (hs.trans (by norm_num)) (by norm_num)
    have b2 : (26 * 2 ^ (-52 : ℤ) + 2 ^ (-51 : ℤ)) * eucl a.low.elem a.high.elem ≤ 1 / 1000 := sm3 (by positivity) (h1.trans (by norm_num)) (by norm_num)
    have b3 : (3 * (26 * 2 ^ (-52 : ℤ)) + 2 ^ (-51 : ℤ)) * eucl a.low.elem 0 ≤ 1 / 1000 := sm3 (by positivity) (h2.trans (by norm_num)) (by norm_num)
    have b4 : 4 * 2 ^ (-50 : ℤ) * len (0 : Fin 3 → ℝ) ≤ 1 / 1000 := sm3 (by positivity) (hc.trans (by norm_num)) (by norm_num)
    have b5 : 2 ^ (-53 : ℤ) * len ![3, 3, 3] ≤ 1 / 1000 := sm3 (by positivity) (hs.trans (by norm_num)) (by norm_num)
    exact (add_le_add (add_le_add (add_le_add (add_le_add b1 b2) b3) b4) b5).trans (by norm_num)
  · exact (sm3 (mul_nonneg (by norm_num) (add_nonneg (by positivity) epsilon_pos.le)) ((add_le_add (add_le_add hs h1) h2).trans (by norm_num)) (by unfold epsilon; norm_num)).trans (by norm_num)

/-- C135_space: the box with corners (1, 1, 1) and (2, 2, 2) meets the rotated box; that with corners (4, 4, 4) and (5, 5, 5) does not. -/
example (r : Rounding 53) : Fl.interRB3 r (rb3 r) ⟨⟨![1, 1, 1], true⟩, ⟨![2, 2, 2], true⟩⟩ true = true ∧
    Fl.interRB3 r (rb3 r) ⟨⟨![4, 4, 4], true⟩, ⟨![5, 5, 5], true⟩⟩ false = false := by
  have hl : 26 * 2 ^ (-52 : ℤ) + 2 * epsilon ≤ 1 / 2 := by unfold epsilon; norm_num
  constructor
  · obtain ⟨M, G, hM, hG, m1, m2⟩ := margins3 r ⟨⟨![1, 1, 1], true⟩, ⟨![2, 2, 2], true⟩⟩ (by rw [eucl_eq_len]; exact (len3 _).trans (by simp [cons_val] <;> norm_num [abs_of_nonneg]))
      (by rw [eucl_eq_len]; exact (len3 _).trans (by simp [cons_val] <;> norm_num [abs_of_nonneg]))
    exact ((C135_space r (rb3 r) R3 (26 * 2 ^ (-52 : ℤ)) (1 / 2) hR3 (by norm_num) (by norm_num) (stands3 r) _ (by intro i; fin_cases i <;> norm_num [cons_val]) hl (by norm_num)
      (fun i j => Or.inl (hax3 i j)) M G hM hG).1 (1 / 10) (1 / 10) 0 ![3 / 2, 3 / 2, 3 / 2] ![3 / 2, 3 / 2, 3 / 2] (by norm_num) (by norm_num)
      ((mem3 _ _).2 (by simp [cons_val] <;> norm_num)) (by intro i; fin_cases i <;> norm_num [cons_val]) (by rw [eucl_eq_len, sub_self]; simp [len])).2 (by linarith) (by linarith)
  · obtain ⟨M, G, hM, hG, m1, m2⟩ := margins3 r ⟨⟨![4, 4, 4], true⟩, ⟨![5, 5, 5], true⟩⟩ (by rw [eucl_eq_len]; exact (len3 _).trans (by simp [cons_val] <;> norm_num [abs_of_nonneg]))
      (by rw [eucl_eq_len]; exact (len3 _).trans (by simp [cons_val] <;> norm_num [abs_of_nonneg]))
    rw [← Bool.not_eq_true]
    intro g
    obtain ⟨x, hx2, hx⟩ := (C135_space r (rb3 r) R3 (26 * 2 ^ (-52 : ℤ)) (1 / 2) hR3 (by norm_num) (by norm_num) (stands3 r) _ (by intro i; fin_cases i <;> norm_num [cons_val]) hl (by norm_num)
      (fun i j => Or.inl (hax3 i j)) M G hM hG).2.1 g
    have he : epsilon * (1 + 2 ^ (-52 : ℤ)) ≤ 1 / 100 := by unfold epsilon; norm_num
    have hV : (epsilon * (1 + 2 ^ (-52 : ℤ)) + M + G) / (1 / 2) ≤ 6 / 100 := by
      rw [div_le_iff₀ (by norm_num)]
      generalize epsilon * (1 + 2 ^ (-52 : ℤ)) = k at *
      linarith
    generalize (epsilon * (1 + 2 ^ (-52 : ℤ)) + M + G) / (1 / 2) = V at *
    have h := ((mem3 _ _).1 hx2).1.2
    have x0 := (hx 0).1
    have x1 := (hx 1).2
    have x2 := (hx 2).1
    simp only [cons_val_zero, cons_val_one, cons_val] at x0 x1 x2
    linarith

/-- An axis-aligned box given as a rotated one. -/
noncomputable def rbId3 : RBox 3 := ⟨⟨![1, 1, 1], true⟩, ⟨![1, 1, 1], true⟩, ⟨1, false, true, 0⟩⟩

/-- C135_space_rotated: the rotated box meets the axis-aligned one. -/
example (r : Rounding 53) : Fl.interRR3 r (rb3 r) rbId3 true = true := by
  have hl : 3 * (26 * 2 ^ (-52 : ℤ)) + 2 * epsilon ≤ 1 / 2 := by unfold epsilon; norm_num
  have hs : len (![3, 3, 3] : Fin 3 → ℝ) ≤ 30 := (len3 _).trans (by simp [cons_val] <;> norm_num)
  have h1 : len (![1, 1, 1] : Fin 3 → ℝ) ≤ 30 := (len3 _).trans (by simp [cons_val] <;> norm_num)
  have h2 : eucl (0 : Fin 3 → ℝ) ![1, 1, 1] ≤ 30 := by rw [eucl_eq_len]; exact (len3 _).trans (by simp [cons_val] <;> norm_num)
  obtain ⟨M, hM, m1⟩ : ∃ M, M = 70 * (26 * 2 ^ (-52 : ℤ) + epsilon) * (len (rb3 r).size.elem + len rbId3.size.elem + eucl (rb3 r).corner.elem rbId3.corner.elem) +
      2 ^ (-46 : ℤ) * len rbId3.corner.elem ∧ M ≤ 2 / 1000 := by
    have b1 : 70 * (26 * 2 ^ (-52 : ℤ) + epsilon) * (len (rb3 r).size.elem + len rbId3.size.elem + eucl (rb3 r).corner.elem rbId3.corner.elem) ≤ 1 / 1000 :=
      sm3 (mul_nonneg (by norm_num) (add_nonneg (by positivity) epsilon_pos.le)) ((add_le_add (add_le_add hs h1) h2).trans (by norm_num)) (by unfold epsilon; norm_num)
    have b2 : 2 ^ (-46 : ℤ) * len rbId3.corner.elem ≤ 1 / 1000 := sm3 (by positivity) (h1.trans (by norm_num)) (by norm_num)
    exact ⟨_, rfl, (add_le_add b1 b2).trans (by norm_num)⟩
  exact ((C135_space_rotated r (rb3 r) rbId3 R3 1 (26 * 2 ^ (-52 : ℤ)) (1 / 2) hR3 (by simp) (by norm_num) (by norm_num) (stands3 r) (fun v => by
    show len ((1 : Matrix (Fin 3) (Fin 3) ℝ) *ᵥ v - _) ≤ _
    rw [sub_self, show len (0 : Fin 3 → ℝ) = 0 by simp [len]]; exact mul_nonneg (by norm_num) (len_nonneg _)) hl (by norm_num) (fun i j => by
      have : R3 i ⬝ᵥ (1 : Matrix (Fin 3) (Fin 3) ℝ) j = R3 i j := by simp [dotProduct, Matrix.one_apply]
      rw [this]; exact hax3 i j) M hM).1 (1 / 10) (1 / 10) 0 ![3 / 2, 3 / 2, 3 / 2] ![3 / 2, 3 / 2, 3 / 2] (by norm_num) (by norm_num)
    ((mem3 _ _).2 (by simp [cons_val] <;> norm_num)) (by intro i; rw [one_mulVec]; fin_cases i <;> simp [rbId3] <;> norm_num) (by rw [eucl_eq_len, sub_self]; simp [len])).2 (by linarith)

end WFMath.Cases
