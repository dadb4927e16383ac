/- Property theorems C135, continued: rotating a rotated box, and two rotated boxes, computed in doubles. -/
import Verif.Props.RoundRBoxPlane

namespace WFMath
open Spec Matrix Rounding
variable {n : Nat}

/-- C135, rotating about a point: a rotated box turned about a point has its size unchanged, its corner near the turned corner, and an orientation standing for the product
of the two rotations. -/
theorem C135_rotate (r : Rounding 53) (b : RBox n) (m : RotMat n) (p : Pt n) (R S : Matrix (Fin n) (Fin n) ℝ) (E F : ℝ) (hn : n < 2 ^ 52) (hR : Rᵀ * R = 1) (hS : Sᵀ * S = 1)
    (h0 : 2 * n * (n + 1) * 2 ^ (-52 : ℤ) ≤ E) (h1 : E ≤ 1 / 4) (hm : Stands b.orient.elem R (E - 2 * n * (n + 1) * 2 ^ (-52 : ℤ)))
    (h0' : 2 * n * (n + 1) * 2 ^ (-52 : ℤ) ≤ F) (h1' : F ≤ 1 / 4) (hm' : Stands m.elem S (F - 2 * n * (n + 1) * 2 ^ (-52 : ℤ))) :
    (Fl.rbRotate r b m p).size = b.size ∧
    eucl (Fl.rbRotate r b m p).corner.elem (p.elem + (b.corner.elem - p.elem) ᵥ* S) ≤ (2 * F + 3 * 2 ^ (-53 : ℤ)) * eucl b.corner.elem p.elem + 2 ^ (-53 : ℤ) * len p.elem ∧
    Stands (Fl.rbRotate r b m p).orient.elem (R * S) (E + F + E * F - 2 * n * (n + 1) * 2 ^ (-52 : ℤ)) := by
  refine ⟨rfl, ?_, ?_⟩
  · rw [eucl_eq_len, eucl_eq_len]
    exact C125_about r m S F hn hS h0' h1' hm' b.corner p
  · have hκ : (0 : ℝ) ≤ 2 * n * (n + 1) * 2 ^ (-52 : ℤ) := by positivity
    have h := (C124_product r b.orient m R S _ _ hn (sub_nonneg.2 h0) (sub_nonneg.2 h0') ((sub_le_self _ hκ).trans h1) ((sub_le_self _ hκ).trans h1') hR hS hm hm').1
    intro v
    refine (h v).trans (mul_le_mul_of_nonneg_right ?_ (len_nonneg _))
    generalize (2 : ℝ) * n * (n + 1) * 2 ^ (-52 : ℤ) = κ at *
    nlinarith [mul_nonneg (sub_nonneg.2 h0) hκ, mul_nonneg (sub_nonneg.2 h0') hκ, mul_nonneg hκ hκ]

namespace Fl

/-- The place of a point in the coordinates of an exact rotation about a point. -/
theorem move_eq (R S : Matrix (Fin n) (Fin n) ℝ) (hS : Sᵀ * S = 1) (c c' p x : Fin n → ℝ) :
    (R * Sᵀ) *ᵥ (p + S *ᵥ (x - p) + (c' - (p + S *ᵥ (c - p))) - c') = R *ᵥ (x - c) := by
  have : p + S *ᵥ (x - p) + (c' - (p + S *ᵥ (c - p))) - c' = S *ᵥ (x - c) := by
    have e : S *ᵥ (x - c) = S *ᵥ (x - p) - S *ᵥ (c - p) := by rw [← mulVec_sub]; congr 1; abel
    rw [e]; abel
  rw [this, mulVec_mulVec, Matrix.mul_assoc, hS, Matrix.mul_one]

theorem move_back (S : Matrix (Fin n) (Fin n) ℝ) (hS' : S * Sᵀ = 1) (p z : Fin n → ℝ) : p + S *ᵥ (p + Sᵀ *ᵥ (z - p) - p) = z := by
  rw [add_sub_cancel_left, mulVec_mulVec, hS', one_mulVec]; abel

/-- What the rotation of one box into the coordinates of the other does, exactly and computed. -/
theorem two_boxes (r : Rounding 53) (b₁ b₂ : RBox n) (R S : Matrix (Fin n) (Fin n) ℝ) (E : ℝ) (hn : n < 2 ^ 52) (hR : Rᵀ * R = 1) (hS : Sᵀ * S = 1)
    (h0 : 2 * n * (n + 1) * 2 ^ (-52 : ℤ) ≤ E) (h1 : E ≤ 1 / 12) (hm : Stands b₁.orient.elem R (E - 2 * n * (n + 1) * 2 ^ (-52 : ℤ)))
    (hm' : Stands b₂.orient.elem S (E - 2 * n * (n + 1) * 2 ^ (-52 : ℤ))) :
    ∃ δ : Fin n → ℝ, len δ ≤ (2 * E + 3 * 2 ^ (-53 : ℤ)) * eucl b₁.corner.elem b₂.corner.elem + 2 ^ (-53 : ℤ) * len b₂.corner.elem ∧
    len (rbRotate r b₁ b₂.orient.inverse b₂.corner).corner.elem ≤ len b₂.corner.elem + eucl b₁.corner.elem b₂.corner.elem +
      ((2 * E + 3 * 2 ^ (-53 : ℤ)) * eucl b₁.corner.elem b₂.corner.elem + 2 ^ (-53 : ℤ) * len b₂.corner.elem) ∧
    len ((rbRotate r b₁ b₂.orient.inverse b₂.corner).corner.elem - b₂.corner.elem) ≤ eucl b₁.corner.elem b₂.corner.elem +
      ((2 * E + 3 * 2 ^ (-53 : ℤ)) * eucl b₁.corner.elem b₂.corner.elem + 2 ^ (-53 : ℤ) * len b₂.corner.elem) ∧
    Stands (rbRotate r b₁ b₂.orient.inverse b₂.corner).orient.elem (R * Sᵀ) (3 * E - 2 * n * (n + 1) * 2 ^ (-52 : ℤ)) ∧
    (∀ x d, x ∈ turnedBox b₁.corner.elem b₁.size.elem R d →
      b₂.corner.elem + S *ᵥ (x - b₂.corner.elem) + δ ∈ turnedBox (rbRotate r b₁ b₂.orient.inverse b₂.corner).corner.elem b₁.size.elem (R * Sᵀ) d) ∧
    ∀ y, ∃ x, b₂.corner.elem + S *ᵥ (x - b₂.corner.elem) + δ = y ∧ ∀ d, (y ∈ turnedBox (rbRotate r b₁ b₂.orient.inverse b₂.corner).corner.elem b₁.size.elem (R * Sᵀ) d →
      x ∈ turnedBox b₁.corner.elem b₁.size.elem R d) := by
  have hS' : S * Sᵀ = 1 := mul_eq_one_comm.1 hS
  have hSt : Sᵀᵀ * Sᵀ = 1 := by rwa [transpose_transpose]
  have hE : 0 ≤ E := le_trans (by positivity) h0
  have hin : (b₂.orient.inverse).elem = b₂.orient.elemᵀ := RotMat.inverse_elem _
  have hmt : Stands (b₂.orient.inverse).elem Sᵀ (E - 2 * n * (n + 1) * 2 ^ (-52 : ℤ)) := by rw [hin]; exact stands_transpose (sub_nonneg.2 h0) hm'
  obtain ⟨-, c2, c3⟩ := C135_rotate r b₁ b₂.orient.inverse b₂.corner R Sᵀ E E hn hR hSt h0 (h1.trans (by norm_num)) hm h0 (h1.trans (by norm_num)) hmt
  rw [vecMul_transpose] at c2
  set c'' := (rbRotate r b₁ b₂.orient.inverse b₂.corner).corner.elem with hc''
  rw [eucl_eq_len] at c2
  have mv := fun x => move_eq R S hS b₁.corner.elem c'' b₂.corner.elem x
  have t1 := len_add_le (c'' - (b₂.corner.elem + S *ᵥ (b₁.corner.elem - b₂.corner.elem))) (S *ᵥ (b₁.corner.elem - b₂.corner.elem))
  rw [len_orth hS, show c'' - (b₂.corner.elem + S *ᵥ (b₁.corner.elem - b₂.corner.elem)) + S *ᵥ (b₁.corner.elem - b₂.corner.elem) = c'' - b₂.corner.elem by abel, ← eucl_eq_len b₁.corner.elem] at t1
  have t2 := len_add_le (c'' - b₂.corner.elem) b₂.corner.elem
  rw [sub_add_cancel] at t2
  have T1 := t1.trans (add_le_add c2 le_rfl)
  have T2 := t2.trans (add_le_add T1 le_rfl)
  refine ⟨c'' - (b₂.corner.elem + S *ᵥ (b₁.corner.elem - b₂.corner.elem)), c2, T2.trans (le_of_eq (by ring)), T1.trans (le_of_eq (by ring)), fun v => ?_, fun x d hx k => ?_, fun y => ?_⟩
  · refine (c3 v).trans (mul_le_mul_of_nonneg_right ?_ (len_nonneg _))
    generalize (2 : ℝ) * n * (n + 1) * 2 ^ (-52 : ℤ) = κ at *
    nlinarith
  · rw [mv]; exact hx k
  · refine ⟨b₂.corner.elem + Sᵀ *ᵥ (y - (c'' - (b₂.corner.elem + S *ᵥ (b₁.corner.elem - b₂.corner.elem))) - b₂.corner.elem), ?_, fun d hy k => ?_⟩
    · rw [move_back S hS', sub_add_cancel]
    · rw [← mv, move_back S hS', sub_add_cancel]; exact hy k

theorem two_margin {u E N X D C C' : ℝ} (u0 : 0 ≤ u) (u1 : u ≤ 1 / 1000) (n1 : 1 ≤ N) (hN : 4 * N * (N + 1) * u ≤ E) (hE1 : E ≤ 1 / 12) (hD : 0 ≤ D) (hC : 0 ≤ C)
    (hC' : C' ≤ C + D + ((2 * E + 3 * u) * D + u * C)) :
    3 * E * X + N * (2 * u) * C' + ((2 * E + 3 * u) * D + u * C) ≤ 3 * E * (X + D) + (N + 1) * (4 * u) * C := by
  have hE : 0 ≤ E := le_trans (by positivity) hN
  have g3 : C' ≤ 1001 / 1000 * C + 8 / 5 * D := by
    have := mul_le_mul_of_nonneg_right (show 2 * E + 3 * u ≤ 3 / 5 by linarith) hD
    have := mul_le_mul_of_nonneg_right u1 hC
    linarith
  have g4 := mul_le_mul_of_nonneg_left g3 (show 0 ≤ N * (2 * u) by positivity)
  have nu : 0 ≤ N * u := by positivity
  have nE : N * u ≤ E / 8 := by
    have : 8 * (N * u) ≤ 4 * N * (N + 1) * u := by nlinarith
    linarith
  have g5 : N * u * D ≤ E / 8 * D := mul_le_mul_of_nonneg_right nE hD
  have g6 : u * D ≤ E / 8 * D := mul_le_mul_of_nonneg_right (by nlinarith) hD
  have z3 := mul_nonneg u0 hC
  have z4 := mul_nonneg nu hC
  have z5 := mul_nonneg hE hD
  nlinarith

end Fl

/-- C135, rotated box containing a rotated box: computed in doubles, compared with the exact boxes. -/
theorem C135_contains_rotated (r : Rounding 53) (outer inner : RBox n) (R S : Matrix (Fin n) (Fin n) ℝ) (E : ℝ) (hn : n < 2 ^ 52) (hR : Rᵀ * R = 1) (hS : Sᵀ * S = 1)
    (h0 : 2 * n * (n + 1) * 2 ^ (-52 : ℤ) ≤ E) (h1 : E ≤ 1 / 12) (hm : Stands inner.orient.elem R (E - 2 * n * (n + 1) * 2 ^ (-52 : ℤ)))
    (hm' : Stands outer.orient.elem S (E - 2 * n * (n + 1) * 2 ^ (-52 : ℤ))) (M : ℝ)
    (hM : M = 3 * E * (len inner.size.elem + eucl inner.corner.elem outer.corner.elem) + (n + 1) * 2 ^ (-51 : ℤ) * len outer.corner.elem +
      2 ^ (-53 : ℤ) * len (outer.corner.elem + outer.size.elem)) :
    (turnedBox inner.corner.elem inner.size.elem R 0 ⊆ turnedBox outer.corner.elem outer.size.elem S (epsilon - M) → Fl.containsRR r outer inner false = true) ∧
    (turnedBox inner.corner.elem inner.size.elem R 0 ⊆ turnedInterior outer.corner.elem outer.size.elem S (-M) → Fl.containsRR r outer inner true = true) ∧
    (Fl.containsRR r outer inner false = true → turnedBox inner.corner.elem inner.size.elem R 0 ⊆
      turnedBox outer.corner.elem outer.size.elem S (epsilon * (1 + 2 ^ (-52 : ℤ)) + M)) ∧
    (Fl.containsRR r outer inner true = true → turnedBox inner.corner.elem inner.size.elem R 0 ⊆ turnedInterior outer.corner.elem outer.size.elem S M) := by
  obtain ⟨δ, d1, d2, -, d4, d5, d6⟩ := Fl.two_boxes r inner outer R S E hn hR hS h0 h1 hm hm'
  have hE : 0 ≤ E := le_trans (by positivity) h0
  have hRS : (R * Sᵀ)ᵀ * (R * Sᵀ) = 1 := by
    rw [transpose_mul, transpose_transpose, Matrix.mul_assoc, ← Matrix.mul_assoc Rᵀ, hR, Matrix.one_mul]
    exact mul_eq_one_comm.1 hS
  obtain ⟨e1, e2, e3, e4⟩ := C135_in_box r (Fl.rbRotate r inner outer.orient.inverse outer.corner) (R * Sᵀ) (3 * E) hn hRS (by linarith) (by linarith) d4 (Fl.rbFlat r outer) _ rfl
  have face := Fl.flat_face r outer
  have tot : ∀ _ : Fin n, 3 * E * len inner.size.elem + n * 2 ^ (-52 : ℤ) * len (Fl.rbRotate r inner outer.orient.inverse outer.corner).corner.elem + len δ +
      2 ^ (-53 : ℤ) * len (outer.corner.elem + outer.size.elem) ≤ M := fun i => by
    have hnn : (1 : ℝ) ≤ n := by have := i.isLt; exact_mod_cast (by omega : 1 ≤ n)
    have := Fl.two_margin (u := 2 ^ (-53 : ℤ)) (E := E) (N := n) (X := len inner.size.elem) (by positivity) (by norm_num) hnn
      (by have e2 : (2 : ℝ) ^ (-52 : ℤ) = 2 * 2 ^ (-53 : ℤ) := by norm_num
          rw [e2] at h0
          refine le_trans (le_of_eq ?_) h0; ring) h1 (eucl_nonneg _ _) (len_nonneg _) d2
    rw [hM, show (2 : ℝ) ^ (-51 : ℤ) = 4 * 2 ^ (-53 : ℤ) by norm_num, show (2 : ℝ) ^ (-52 : ℤ) = 2 * 2 ^ (-53 : ℤ) by norm_num]
    linarith
  have dx : ∀ i, |δ i| ≤ len δ := abs_le_len δ
  have hsz : (Fl.rbRotate r inner outer.orient.inverse outer.corner).size.elem = inner.size.elem := rfl
  rw [hsz] at e1 e2 e3 e4
  generalize len (Fl.rbRotate r inner outer.orient.inverse outer.corner).corner.elem = C' at *
  generalize 3 * E * len inner.size.elem + n * 2 ^ (-52 : ℤ) * C' = K at *
  generalize (2 : ℝ) ^ (-53 : ℤ) * len (outer.corner.elem + outer.size.elem) = f at *
  unfold Fl.containsRR
  refine ⟨fun h => e1 fun y hy i => ?_, fun h => e2 fun y hy i => ?_, fun h x hx i => ?_, fun h x hx i => ?_⟩
  · obtain ⟨x, ex, hx⟩ := d6 y
    have g := h (hx 0 hy) i
    have := tot i
    have := _root_.abs_le.1 (dx i)
    have f1 := _root_.abs_le.1 (face i).1
    have f2 := _root_.abs_le.1 (face i).2
    have e : y i = outer.corner.elem i + (S *ᵥ (x - outer.corner.elem)) i + δ i := by rw [← ex]; rfl
    constructor <;> linarith
  · obtain ⟨x, ex, hx⟩ := d6 y
    have g := h (hx 0 hy) i
    have := tot i
    have := _root_.abs_le.1 (dx i)
    have f1 := _root_.abs_le.1 (face i).1
    have f2 := _root_.abs_le.1 (face i).2
    have e : y i = outer.corner.elem i + (S *ᵥ (x - outer.corner.elem)) i + δ i := by rw [← ex]; rfl
    constructor <;> linarith
  · have g := e3 h _ (d5 x 0 hx) i
    have := tot i
    have := _root_.abs_le.1 (dx i)
    have f1 := _root_.abs_le.1 (face i).1
    have f2 := _root_.abs_le.1 (face i).2
    simp only [Pi.add_apply] at g
    constructor <;> linarith
  · have g := e4 h _ (d5 x 0 hx) i
    have := tot i
    have := _root_.abs_le.1 (dx i)
    have f1 := _root_.abs_le.1 (face i).1
    have f2 := _root_.abs_le.1 (face i).2
    simp only [Pi.add_apply] at g
    constructor <;> linarith

namespace Fl

theorem plane_margin {u E X Y D C Lf G Cc CS Y' w f M : ℝ} (u0 : 0 ≤ u) (u1 : u ≤ 1 / 1000) (hN : 24 * u ≤ E) (hE1 : E ≤ 1 / 12) (hX : 0 ≤ X) (hY : 0 ≤ Y) (hD : 0 ≤ D) (hC : 0 ≤ C)
    (hw : w = (2 * E + 3 * u) * D + u * C) (hY' : Y' ≤ C + Y) (hf : f = u * Y') (hL : Lf ≤ Y + f) (hG : G ≤ Y + f + (D + w)) (hCc : Cc ≤ C + D + w) (hCS : CS ≤ Cc + X)
    (hM : M = 3 * E * X + (3 * E + 4 * u) * Lf + (3 * (3 * E) + 4 * u) * G + 3 * (8 * u) * Cc + u * CS) :
    M + w + 2 * f ≤ 16 * E * (X + Y + D) + 64 * u * C := by
  have hE : 0 ≤ E := le_trans (by positivity) hN
  have zX := mul_nonneg hE hX
  have zY := mul_nonneg hE hY
  have zD := mul_nonneg hE hD
  have zC := mul_nonneg u0 hC
  have uE : u ≤ E / 24 := by linarith
  have uX := mul_le_mul_of_nonneg_right uE hX
  have uY := mul_le_mul_of_nonneg_right uE hY
  have uD := mul_le_mul_of_nonneg_right uE hD
  have ED := mul_le_mul_of_nonneg_right hE1 hD
  have uC := mul_le_mul_of_nonneg_right u1 hC
  have uY' := mul_le_mul_of_nonneg_right u1 hY
  have uD' := mul_le_mul_of_nonneg_right u1 hD
  have a3 : E * (u * C) ≤ 1 / 12 * (u * C) := mul_le_mul_of_nonneg_right hE1 zC
  have f1 : f ≤ u * C + u * Y := by rw [hf]; linarith [mul_le_mul_of_nonneg_left hY' u0]
  have hw1 : w ≤ 17 / 8 * (E * D) + u * C := by rw [hw]; linarith
  have hw2 : w ≤ D / 5 + u * C := by linarith
  have hfC : f ≤ u * C + Y / 1000 := by linarith
  have eL : (3 * E + 4 * u) * Lf ≤ 10 / 3 * (E * Y) + u * C := by
    have a1 : (3 * E + 4 * u) * Lf ≤ (3 * E + 4 * u) * (1001 / 1000 * Y + u * C) := mul_le_mul_of_nonneg_left (by linarith) (by positivity)
    have a2 : (3 * E + 4 * u) * (1001 / 1000 * Y + u * C) ≤ (3 * E + E / 6) * (1001 / 1000 * Y + u * C) := mul_le_mul_of_nonneg_right (by linarith) (by positivity)
    linarith
  have eG : (3 * (3 * E) + 4 * u) * G ≤ 10 * (E * Y) + 12 * (E * D) + 2 * (u * C) := by
    have a1 : (3 * (3 * E) + 4 * u) * G ≤ (3 * (3 * E) + 4 * u) * (1001 / 1000 * Y + 6 / 5 * D + 2 * (u * C)) := mul_le_mul_of_nonneg_left (by linarith) (by positivity)
    have a2 : (3 * (3 * E) + 4 * u) * (1001 / 1000 * Y + 6 / 5 * D + 2 * (u * C)) ≤ (9 * E + E / 6) * (1001 / 1000 * Y + 6 / 5 * D + 2 * (u * C)) :=
      mul_le_mul_of_nonneg_right (by linarith) (by positivity)
    linarith
  have eC : u * Cc ≤ 6 / 5 * (u * D) + 11 / 10 * (u * C) := by
    have : u * Cc ≤ u * (6 / 5 * D + 11 / 10 * C) := mul_le_mul_of_nonneg_left (by linarith) u0
    linarith
  have eS := mul_le_mul_of_nonneg_left hCS u0
  rw [hM]
  linarith

end Fl

/-- C135, two rotated boxes of the plane: computed in doubles, compared with the exact boxes. -/
theorem C135_plane_rotated (r : Rounding 53) (b₁ b₂ : RBox 2) (R S : Matrix (Fin 2) (Fin 2) ℝ) (E : ℝ) (hR : Rᵀ * R = 1) (hS : Sᵀ * S = 1)
    (h0 : 12 * 2 ^ (-52 : ℤ) ≤ E) (h1 : E ≤ 1 / 12) (hm : Stands b₁.orient.elem R (E - 12 * 2 ^ (-52 : ℤ))) (hm' : Stands b₂.orient.elem S (E - 12 * 2 ^ (-52 : ℤ))) (M : ℝ)
    (hM : M = 16 * E * (len b₁.size.elem + len b₂.size.elem + eucl b₁.corner.elem b₂.corner.elem) + 2 ^ (-47 : ℤ) * len b₂.corner.elem) :
    (∀ d₁ d₂ e x y, 0 ≤ d₁ → 0 ≤ d₂ → x ∈ turnedBox b₁.corner.elem b₁.size.elem R (-d₁) → y ∈ turnedBox b₂.corner.elem b₂.size.elem S (-d₂) → eucl x y ≤ e →
      (M + e ≤ d₁ + d₂ + epsilon → Fl.interRR2 r b₁ b₂ false = true) ∧ (M + e < d₁ + d₂ → Fl.interRR2 r b₁ b₂ true = true)) ∧
    (Fl.interRR2 r b₁ b₂ false = true → ∃ x ∈ turnedBox b₁.corner.elem b₁.size.elem R (epsilon * (1 + 2 ^ (-52 : ℤ)) + M),
      x ∈ turnedBox b₂.corner.elem b₂.size.elem S (epsilon * (1 + 2 ^ (-52 : ℤ)) + M)) ∧
    (Fl.interRR2 r b₁ b₂ true = true → ∃ x ∈ turnedBox b₁.corner.elem b₁.size.elem R M, x ∈ turnedBox b₂.corner.elem b₂.size.elem S M) := by
  have hκ : (2 : ℝ) * (2 : ℕ) * ((2 : ℕ) + 1) * 2 ^ (-52 : ℤ) = 12 * 2 ^ (-52 : ℤ) := by norm_num
  obtain ⟨δ, d1, d2, d3, d4, d5, d6⟩ := Fl.two_boxes r b₁ b₂ R S E (by norm_num) hR hS (by rw [hκ]; exact h0) h1 (by rw [hκ]; exact hm) (by rw [hκ]; exact hm')
  rw [hκ] at d4
  have hE : 0 ≤ E := le_trans (by positivity) h0
  have hRS : (R * Sᵀ)ᵀ * (R * Sᵀ) = 1 := by
    rw [transpose_mul, transpose_transpose, Matrix.mul_assoc, ← Matrix.mul_assoc Rᵀ, hR, Matrix.one_mul]
    exact mul_eq_one_comm.1 hS
  obtain ⟨e1, e2, e3⟩ := C135_plane r (Fl.rbRotate r b₁ b₂.orient.inverse b₂.corner) (R * Sᵀ) (3 * E) hRS (by linarith) (by linarith) d4 (Fl.rbFlat r b₂) (Fl.flat_ordered r b₂) _ rfl
  have face := Fl.flat_face r b₂
  have hsz : (Fl.rbRotate r b₁ b₂.orient.inverse b₂.corner).size.elem = b₁.size.elem := rfl
  rw [hsz] at e1 e2 e3
  have fl0 : ∀ i, |(Fl.rbFlat r b₂).low.elem i - b₂.corner.elem i| ≤ |(Fl.addVec r b₂.corner b₂.size).elem i - b₂.corner.elem i| := fun i => by
    rw [Fl.flat_low]
    show _ ≤ |r (b₂.corner.elem i + b₂.size.elem i) - b₂.corner.elem i|
    rcases min_choice (b₂.corner.elem i) (r (b₂.corner.elem i + b₂.size.elem i)) with g | g <;> rw [g]
    rw [sub_self, abs_zero]; exact abs_nonneg _
  have fl1 : ∀ i, |(Fl.rbFlat r b₂).low.elem i - (Fl.rbFlat r b₂).high.elem i| ≤ |(Fl.addVec r b₂.corner b₂.size).elem i - b₂.corner.elem i| := fun i => by
    rw [Fl.flat_low, Fl.flat_high]
    show _ ≤ |r (b₂.corner.elem i + b₂.size.elem i) - b₂.corner.elem i|
    rw [abs_sub_comm, max_sub_min_eq_abs, abs_abs]
  have add0 : len ((Fl.addVec r b₂.corner b₂.size).elem - b₂.corner.elem) ≤ len b₂.size.elem + 2 ^ (-53 : ℤ) * len (b₂.corner.elem + b₂.size.elem) := by
    have h2 : len ((Fl.addVec r b₂.corner b₂.size).elem - (b₂.corner.elem + b₂.size.elem)) ≤ 2 ^ (-53 : ℤ) * len (b₂.corner.elem + b₂.size.elem) := Fl.len_round r _
    have := len_add_le ((Fl.addVec r b₂.corner b₂.size).elem - (b₂.corner.elem + b₂.size.elem)) b₂.size.elem
    rw [show (Fl.addVec r b₂.corner b₂.size).elem - (b₂.corner.elem + b₂.size.elem) + b₂.size.elem = (Fl.addVec r b₂.corner b₂.size).elem - b₂.corner.elem by abel] at this
    linarith
  have lf : eucl (Fl.rbFlat r b₂).low.elem (Fl.rbFlat r b₂).high.elem ≤ len b₂.size.elem + 2 ^ (-53 : ℤ) * len (b₂.corner.elem + b₂.size.elem) := by
    rw [eucl_eq_len]; exact (Fl.len_mono (b := (Fl.addVec r b₂.corner b₂.size).elem - b₂.corner.elem) one_pos.le fun i => (fl1 i).trans (one_mul _).ge).trans (by rw [one_mul]; exact add0)
  have lg : eucl (Fl.rbFlat r b₂).low.elem (Fl.rbRotate r b₁ b₂.orient.inverse b₂.corner).corner.elem ≤ len b₂.size.elem + 2 ^ (-53 : ℤ) * len (b₂.corner.elem + b₂.size.elem) +
      (eucl b₁.corner.elem b₂.corner.elem + ((2 * E + 3 * 2 ^ (-53 : ℤ)) * eucl b₁.corner.elem b₂.corner.elem + 2 ^ (-53 : ℤ) * len b₂.corner.elem)) := by
    rw [eucl_eq_len (Fl.rbFlat r b₂).low.elem]
    have t1 : len ((Fl.rbFlat r b₂).low.elem - b₂.corner.elem) ≤ len b₂.size.elem + 2 ^ (-53 : ℤ) * len (b₂.corner.elem + b₂.size.elem) :=
      (Fl.len_mono (b := (Fl.addVec r b₂.corner b₂.size).elem - b₂.corner.elem) one_pos.le fun i => (fl0 i).trans (one_mul _).ge).trans (by rw [one_mul]; exact add0)
    have t2 := len_triangle (Fl.rbFlat r b₂).low.elem b₂.corner.elem (Fl.rbRotate r b₁ b₂.orient.inverse b₂.corner).corner.elem
    rw [← eucl_eq_len b₂.corner.elem, eucl_comm, eucl_eq_len] at t2
    linarith
  have tot := Fl.plane_margin (u := 2 ^ (-53 : ℤ)) (E := E) (by positivity) (by norm_num) (by refine le_trans (le_of_eq ?_) h0; norm_num) h1 (len_nonneg b₁.size.elem)
    (len_nonneg b₂.size.elem) (eucl_nonneg b₁.corner.elem b₂.corner.elem) (len_nonneg b₂.corner.elem) rfl (len_add_le b₂.corner.elem b₂.size.elem) rfl lf lg d2
    (len_add_le _ b₁.size.elem) rfl
  rw [show 4 * (2 : ℝ) ^ (-53 : ℤ) = 2 ^ (-51 : ℤ) by norm_num, show 8 * (2 : ℝ) ^ (-53 : ℤ) = 2 ^ (-50 : ℤ) by norm_num, show 64 * (2 : ℝ) ^ (-53 : ℤ) = 2 ^ (-47 : ℤ) by norm_num, ← hM] at tot
  have dx : ∀ i, |δ i| ≤ len δ := abs_le_len δ
  have near' := fun y hy => Fl.flat_near' r b₂ (y := y) hy
  generalize 3 * E * len b₁.size.elem + (3 * E + 2 ^ (-51 : ℤ)) * eucl (Fl.rbFlat r b₂).low.elem (Fl.rbFlat r b₂).high.elem +
    (3 * (3 * E) + 2 ^ (-51 : ℤ)) * eucl (Fl.rbFlat r b₂).low.elem (Fl.rbRotate r b₁ b₂.orient.inverse b₂.corner).corner.elem +
    3 * 2 ^ (-50 : ℤ) * len (Fl.rbRotate r b₁ b₂.orient.inverse b₂.corner).corner.elem +
    2 ^ (-53 : ℤ) * len ((Fl.rbRotate r b₁ b₂.orient.inverse b₂.corner).corner.elem + b₁.size.elem) = K at *
  generalize (2 * E + 3 * 2 ^ (-53 : ℤ)) * eucl b₁.corner.elem b₂.corner.elem + 2 ^ (-53 : ℤ) * len b₂.corner.elem = w at *
  have f0 : 0 ≤ (2 : ℝ) ^ (-53 : ℤ) * len (b₂.corner.elem + b₂.size.elem) := mul_nonneg (by positivity) (len_nonneg _)
  generalize (2 : ℝ) ^ (-53 : ℤ) * len (b₂.corner.elem + b₂.size.elem) = f at *
  unfold Fl.interRR2
  have sound : ∀ w', (∃ x ∈ turnedBox (Fl.rbRotate r b₁ b₂.orient.inverse b₂.corner).corner.elem b₁.size.elem (R * Sᵀ) (w' + K),
      ∀ i, (Fl.rbFlat r b₂).low.elem i - (w' + K) ≤ x i ∧ x i ≤ (Fl.rbFlat r b₂).high.elem i + (w' + K)) →
      ∃ x ∈ turnedBox b₁.corner.elem b₁.size.elem R (w' + M), x ∈ turnedBox b₂.corner.elem b₂.size.elem S (w' + M) := by
    rintro w' ⟨y, hy, hy2⟩
    obtain ⟨x, ex, hx⟩ := d6 y
    have := len_nonneg δ
    refine ⟨x, fun k => ?_, fun k => ?_⟩
    · have := hx _ hy k
      constructor <;> linarith
    · have g := hy2 k
      have := _root_.abs_le.1 (dx k)
      have f1 := _root_.abs_le.1 (face k).1
      have f2 := _root_.abs_le.1 (face k).2
      have e : y k = b₂.corner.elem k + (S *ᵥ (x - b₂.corner.elem)) k + δ k := by rw [← ex]; rfl
      constructor <;> linarith
  refine ⟨fun q₁ q₂ e x y hq1 hq2 hx hy he => ?_, fun h => sound _ (e2 h), fun h => ?_⟩
  · have hx' := d5 x _ hx
    have dist : len (b₂.corner.elem + S *ᵥ (x - b₂.corner.elem) + δ - (b₂.corner.elem + S *ᵥ (y - b₂.corner.elem))) ≤ e + w := by
      have t := len_add_le (S *ᵥ (x - y)) δ
      rw [Fl.len_orth hS, ← eucl_eq_len] at t
      rw [show b₂.corner.elem + S *ᵥ (x - b₂.corner.elem) + δ - (b₂.corner.elem + S *ᵥ (y - b₂.corner.elem)) = S *ᵥ (x - y) + δ by
        rw [← sub_sub_sub_cancel_right x y b₂.corner.elem, mulVec_sub S (x - b₂.corner.elem)]; abel]
      linarith
    by_cases hf : f ≤ q₂
    · obtain ⟨g1, g2⟩ := e1 q₁ (q₂ - f) (e + w) _ (b₂.corner.elem + S *ᵥ (y - b₂.corner.elem)) hq1 (by linarith) hx' (fun i => by
        have f1 := _root_.abs_le.1 (face i).1
        have f2 := _root_.abs_le.1 (face i).2
        have := hy i
        rw [Pi.add_apply]
        constructor <;> linarith) (by rw [eucl_eq_len]; exact dist)
      exact ⟨fun h => g1 (by linarith), fun h => g2 (by linarith)⟩
    · push Not at hf
      obtain ⟨z, hz, ez⟩ := near' (b₂.corner.elem + S *ᵥ (y - b₂.corner.elem)) (fun i => by
        have := hy i
        rw [Pi.add_apply]
        constructor <;> linarith)
      obtain ⟨g1, g2⟩ := e1 q₁ 0 (e + w + f) _ z hq1 le_rfl hx' (fun i => by
        have := hz i
        constructor <;> linarith [this.1, this.2]) (by
        rw [eucl_eq_len]
        have t := len_triangle (b₂.corner.elem + S *ᵥ (x - b₂.corner.elem) + δ) (b₂.corner.elem + S *ᵥ (y - b₂.corner.elem)) z
        linarith)
      exact ⟨fun h => g1 (by linarith), fun h => g2 (by linarith)⟩
  · have := sound 0 (by rw [zero_add]; exact e3 h)
    rwa [zero_add] at this

end WFMath
