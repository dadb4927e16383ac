/- Facts about the Euclidean distance and balls. -/
import Verif.Lemmas.Len
import Verif.Spec.Shapes

namespace WFMath
open Spec Matrix
variable {n : Nat}

theorem eucl_eq_len (x y : Fin n → ℝ) : eucl x y = len (x - y) := by
  unfold eucl len
  congr 1
  simp only [dotProduct, Pi.sub_apply, sq]

theorem eucl_nonneg (x y : Fin n → ℝ) : 0 ≤ eucl x y := Real.sqrt_nonneg _
theorem eucl_comm (x y : Fin n → ℝ) : eucl x y = eucl y x := by rw [eucl_eq_len, eucl_eq_len, len_sub_comm]
theorem eucl_self (x : Fin n → ℝ) : eucl x x = 0 := by rw [eucl_eq_len, sub_self, len_zero]
theorem eucl_triangle (x y z : Fin n → ℝ) : eucl x z ≤ eucl x y + eucl y z := by
  simp only [eucl_eq_len]; exact len_triangle _ _ _
theorem eucl_sq (x y : Fin n → ℝ) : eucl x y ^ 2 = ∑ i, (x i - y i) ^ 2 :=
  Real.sq_sqrt (Finset.sum_nonneg fun _ _ => sq_nonneg _)
theorem eucl_le_iff {x y : Fin n → ℝ} {r : ℝ} (hr : 0 ≤ r) : eucl x y ≤ r ↔ ∑ i, (x i - y i) ^ 2 ≤ r ^ 2 := by
  rw [← eucl_sq, pow_le_pow_iff_left₀ (eucl_nonneg _ _) hr (by norm_num)]
theorem eucl_lt_iff {x y : Fin n → ℝ} {r : ℝ} (hr : 0 ≤ r) : eucl x y < r ↔ ∑ i, (x i - y i) ^ 2 < r ^ 2 := by
  rw [← eucl_sq, pow_lt_pow_iff_left₀ (eucl_nonneg _ _) hr (by norm_num)]
theorem abs_sub_le_eucl (x y : Fin n → ℝ) (i : Fin n) : |x i - y i| ≤ eucl x y := by
  rw [← abs_of_nonneg (eucl_nonneg x y), ← sq_le_sq, eucl_sq]
  exact Finset.single_le_sum (f := fun i => (x i - y i) ^ 2) (fun _ _ => sq_nonneg _) (Finset.mem_univ i)
theorem eucl_eq_zero {x y : Fin n → ℝ} : eucl x y = 0 ↔ x = y := by
  rw [eucl_eq_len, len_eq_zero, sub_eq_zero]

/-- The point at distance `r` from `y` beyond `y` as seen from `x`. -/
theorem exists_beyond (hn : 0 < n) (x y : Fin n → ℝ) {r : ℝ} (hr : 0 ≤ r) : ∃ z, eucl z y = r ∧ eucl z x = eucl x y + r := by
  by_cases h : x = y
  · subst h
    refine ⟨x + Pi.single ⟨0, hn⟩ r, ?_⟩
    have : eucl (x + Pi.single ⟨0, hn⟩ r) x = r := by
      rw [eucl_eq_len, add_sub_cancel_left, len, dotProduct_single]
      simp [Real.sqrt_mul_self hr]
    rw [this, eucl_self]; simp
  · have hp : 0 < eucl x y := lt_of_le_of_ne (eucl_nonneg _ _) fun e => h (eucl_eq_zero.1 e.symm)
    refine ⟨y + (r / eucl x y) • (y - x), ?_, ?_⟩
    · rw [eucl_eq_len, add_sub_cancel_left, len_smul, len_sub_comm, ← eucl_eq_len, abs_of_nonneg (by positivity)]
      field_simp
    · have : y + (r / eucl x y) • (y - x) - x = (1 + r / eucl x y) • (y - x) := by module
      rw [eucl_eq_len, this, len_smul, len_sub_comm, ← eucl_eq_len, abs_of_nonneg (by positivity)]
      field_simp

/-- The point between `x` and `y` splitting the distance as asked. -/
theorem exists_between (x y : Fin n → ℝ) {r : ℝ} (hr : 0 ≤ r) (h : r ≤ eucl x y) : ∃ z, eucl z x = r ∧ eucl z y = eucl x y - r := by
  rcases eq_or_lt_of_le (eucl_nonneg x y) with h0 | hp
  · have : r = 0 := le_antisymm (h0 ▸ h) hr
    subst this
    exact ⟨x, eucl_self x, by simp⟩
  · refine ⟨x + (r / eucl x y) • (y - x), ?_, ?_⟩
    · rw [eucl_eq_len, add_sub_cancel_left, len_smul, len_sub_comm, ← eucl_eq_len, abs_of_nonneg (by positivity)]
      field_simp
    · have : x + (r / eucl x y) • (y - x) - y = (1 - r / eucl x y) • (x - y) := by module
      rw [eucl_eq_len, this, len_smul, ← eucl_eq_len, abs_of_nonneg]
      · field_simp
      · rw [sub_nonneg, div_le_one hp]; exact h

theorem ballSet_subset (hn : 0 < n) (a b : Ball n) (hb : 0 ≤ b.radius) :
    ballSet b ⊆ ballSet a ↔ eucl a.center.elem b.center.elem + b.radius ≤ a.radius := by
  constructor
  · intro h
    obtain ⟨z, h1, h2⟩ := exists_beyond hn a.center.elem b.center.elem hb
    rw [← h2]; exact h (show eucl z _ ≤ _ from h1.le)
  · intro h x hx
    show eucl x _ ≤ _
    have hx' : eucl x b.center.elem ≤ b.radius := hx
    have := eucl_triangle x b.center.elem a.center.elem
    rw [eucl_comm b.center.elem] at this
    linarith

theorem ballSet_subset_interior (hn : 0 < n) (a b : Ball n) (hb : 0 ≤ b.radius) :
    ballSet b ⊆ ballInterior a ↔ eucl a.center.elem b.center.elem + b.radius < a.radius := by
  constructor
  · intro h
    obtain ⟨z, h1, h2⟩ := exists_beyond hn a.center.elem b.center.elem hb
    rw [← h2]; exact h (show eucl z _ ≤ _ from h1.le)
  · intro h x hx
    show eucl x _ < _
    have hx' : eucl x b.center.elem ≤ b.radius := hx
    have := eucl_triangle x b.center.elem a.center.elem
    rw [eucl_comm b.center.elem] at this
    linarith

theorem ballSet_inter (a b : Ball n) (ha : 0 ≤ a.radius) (hb : 0 ≤ b.radius) :
    (ballSet a ∩ ballSet b).Nonempty ↔ eucl a.center.elem b.center.elem ≤ a.radius + b.radius := by
  constructor
  · rintro ⟨x, h1, h2⟩
    have h1' : eucl x a.center.elem ≤ a.radius := h1
    have h2' : eucl x b.center.elem ≤ b.radius := h2
    have := eucl_triangle a.center.elem x b.center.elem
    rw [eucl_comm a.center.elem x] at this
    linarith
  · intro h
    rcases le_total a.radius (eucl a.center.elem b.center.elem) with h1 | h1
    · obtain ⟨z, z1, z2⟩ := exists_between a.center.elem b.center.elem ha h1
      refine ⟨z, z1.le, ?_⟩
      show eucl z _ ≤ _
      linarith
    · refine ⟨b.center.elem, ?_, ?_⟩
      · show eucl _ _ ≤ _; rw [eucl_comm]; exact h1
      · show eucl _ _ ≤ _; rw [eucl_self]; exact hb

theorem ballInterior_inter (a b : Ball n) (ha : 0 < a.radius) (hb : 0 < b.radius) :
    (ballInterior a ∩ ballInterior b).Nonempty ↔ eucl a.center.elem b.center.elem < a.radius + b.radius := by
  constructor
  · rintro ⟨x, h1, h2⟩
    have h1' : eucl x a.center.elem < a.radius := h1
    have h2' : eucl x b.center.elem < b.radius := h2
    have := eucl_triangle a.center.elem x b.center.elem
    rw [eucl_comm a.center.elem x] at this
    linarith
  · intro h
    have h0 := eucl_nonneg a.center.elem b.center.elem
    obtain ⟨z, z1, z2⟩ := exists_between a.center.elem b.center.elem
      (r := eucl a.center.elem b.center.elem * (a.radius / (a.radius + b.radius))) (by positivity)
      (mul_le_of_le_one_right h0 (by rw [div_le_one (by linarith)]; linarith))
    refine ⟨z, ?_, ?_⟩
    · show eucl z _ < _
      rw [z1, ← mul_div_assoc, div_lt_iff₀ (by linarith)]
      nlinarith
    · show eucl z _ < _
      rw [z2, sub_lt_iff_lt_add, ← mul_div_assoc, ← sub_lt_iff_lt_add', lt_div_iff₀ (by linarith)]
      nlinarith

end WFMath
