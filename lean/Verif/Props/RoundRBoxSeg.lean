/- Property theorems C135, continued: rotated boxes against segments and boxes, and turned further, computed in doubles. -/
import Verif.Props.RoundRBoxTest

namespace WFMath
open Spec Matrix Rounding
variable {n : Nat}

namespace Fl

/-- The rounding errors of the segment test add up to the stated margin. -/
theorem seg_margin {u E D1 D2 L C CS m : ℝ} (u0 : 0 ≤ u) (u1 : u ≤ 1 / 1000) (hE : 0 ≤ E) (hE1 : E ≤ 1 / 4) (d1 : 0 ≤ D1) (d2 : 0 ≤ D2) (hL : 0 ≤ L) (hC : 0 ≤ C)
    (hCS : CS ≤ C + L) (hm : m = (E + 4 * u) * (D1 + D2) + u * C) :
    m + u * CS + 3 * (2 * u) * (u * CS + L + D1 + m) ≤ (E + 32 * u) * (D1 + D2 + L) + 8 * u * C := by
  have hP : 0 ≤ D1 + D2 := by linarith
  have m1 : m ≤ 1 / 2 * (D1 + D2) + C := by
    rw [hm]
    have := mul_le_mul_of_nonneg_right (show E + 4 * u ≤ 1 / 2 by linarith) hP
    have := mul_le_mul_of_nonneg_right (show u ≤ 1 by linarith) hC
    linarith
  have c1 := mul_le_mul_of_nonneg_left hCS u0
  have c2 : u * (C + L) ≤ C + L := by
    have := mul_le_mul_of_nonneg_right (show u ≤ 1 by linarith) (show 0 ≤ C + L by linarith)
    linarith
  have c3 : 3 * (2 * u) * (u * CS + L + D1 + m) ≤ 3 * (2 * u) * (1 / 1000 * (C + L) + L + D1 + m) :=
    mul_le_mul_of_nonneg_left (by have := mul_le_mul_of_nonneg_right u1 (show 0 ≤ C + L by linarith); linarith) (by linarith)
  have c4 : 3 * (2 * u) * (1 / 1000 * (C + L) + L + D1 + m) ≤ 3 * (2 * u) * (1 / 1000 * (C + L) + L + D1 + (1 / 2 * (D1 + D2) + u * C)) := by
    refine mul_le_mul_of_nonneg_left ?_ (by linarith)
    rw [hm]
    have := mul_le_mul_of_nonneg_right (show E + 4 * u ≤ 1 / 2 by linarith) hP
    linarith
  have c5 := mul_le_mul_of_nonneg_right u1 hC
  have c6 : 3 * (2 * u) * (1 / 1000 * (C + L) + L + D1 + (1 / 2 * (D1 + D2) + u * C)) ≤ 3 * (2 * u) * (1 / 1000 * (C + L) + L + D1 + (1 / 2 * (D1 + D2) + 1 / 1000 * C)) :=
    mul_le_mul_of_nonneg_left (by linarith) (by linarith)
  have z1 := mul_nonneg u0 d1
  have z2 := mul_nonneg u0 d2
  have z3 := mul_nonneg u0 hL
  have z4 := mul_nonneg u0 hC
  have z5 := mul_nonneg hE hL
  rw [hm] at *
  nlinarith

/-- What the tests with a segment rest on: corresponding points, and the faces. -/
theorem seg_corr (r : Rounding 53) (b : RBox n) (R : Matrix (Fin n) (Fin n) ℝ) (E : ℝ) (hn : n < 2 ^ 52) (hR : Rᵀ * R = 1)
    (h0 : 2 * n * (n + 1) * 2 ^ (-52 : ℤ) ≤ E) (h1 : E ≤ 1 / 4) (hm : Stands b.orient.elem R (E - 2 * n * (n + 1) * 2 ^ (-52 : ℤ)))
    (s : Seg n) (M : ℝ)
    (hM : M = (E + 2 ^ (-48 : ℤ)) * (eucl s.p1.elem b.corner.elem + eucl s.p2.elem b.corner.elem + len b.size.elem) + 2 ^ (-50 : ℤ) * len b.corner.elem) :
    ∃ m k : ℝ, 0 ≤ k ∧ 0 ≤ m ∧ m + k + 3 * 2 ^ (-52 : ℤ) * (k + len b.size.elem + eucl s.p1.elem b.corner.elem + m) ≤ M ∧
      (∀ t : ℝ, 0 ≤ t → t ≤ 1 → ∀ i, |((1 - t) • (rbUnrotate r b s.p1).elem + t • (rbUnrotate r b s.p2).elem) i - b.corner.elem i -
        (R *ᵥ ((1 - t) • s.p1.elem + t • s.p2.elem - b.corner.elem)) i| ≤ m) ∧
      (∀ i, |(rbFlat r b).low.elem i - (b.corner.elem i + min 0 (b.size.elem i))| ≤ k ∧ |(rbFlat r b).high.elem i - (b.corner.elem i + max 0 (b.size.elem i))| ≤ k) ∧
      (∀ i, |(rbFlat r b).low.elem i - (rbUnrotate r b s.p1).elem i| ≤ k + len b.size.elem + eucl s.p1.elem b.corner.elem + m ∧
        |(rbFlat r b).high.elem i - (rbUnrotate r b s.p1).elem i| ≤ k + len b.size.elem + eucl s.p1.elem b.corner.elem + m) := by
  have hE : 0 ≤ E := le_trans (by positivity) h0
  have q1 := unrotate_err r b R E hn hR h0 h1 hm s.p1
  have q2 := unrotate_err r b R E hn hR h0 h1 hm s.p2
  have d1 := eucl_nonneg s.p1.elem b.corner.elem
  have d2 := eucl_nonneg s.p2.elem b.corner.elem
  have hL := len_nonneg b.size.elem
  have hC := len_nonneg b.corner.elem
  have v0 : (0 : ℝ) ≤ E + 2 ^ (-51 : ℤ) := add_nonneg hE (by positivity)
  have x1 : (E + 2 ^ (-51 : ℤ)) * eucl s.p1.elem b.corner.elem ≤ (E + 2 ^ (-51 : ℤ)) * (eucl s.p1.elem b.corner.elem + eucl s.p2.elem b.corner.elem) :=
    mul_le_mul_of_nonneg_left (by linarith) v0
  have x2 : (E + 2 ^ (-51 : ℤ)) * eucl s.p2.elem b.corner.elem ≤ (E + 2 ^ (-51 : ℤ)) * (eucl s.p1.elem b.corner.elem + eucl s.p2.elem b.corner.elem) :=
    mul_le_mul_of_nonneg_left (by linarith) v0
  have face := flat_face r b
  refine ⟨(E + 2 ^ (-51 : ℤ)) * (eucl s.p1.elem b.corner.elem + eucl s.p2.elem b.corner.elem) + 2 ^ (-53 : ℤ) * len b.corner.elem,
    2 ^ (-53 : ℤ) * len (b.corner.elem + b.size.elem), mul_nonneg (by positivity) (len_nonneg _), add_nonneg (mul_nonneg v0 (by linarith)) (mul_nonneg (by positivity) hC), ?_, fun t t0 t1 i => ?_, face, fun i => ?_⟩
  · have := seg_margin (u := 2 ^ (-53 : ℤ)) (by positivity) (by norm_num) hE h1 d1 d2 hL hC (len_add_le b.corner.elem b.size.elem) rfl
    rw [hM, show (2 : ℝ) ^ (-48 : ℤ) = 32 * 2 ^ (-53 : ℤ) by norm_num, show (2 : ℝ) ^ (-50 : ℤ) = 8 * 2 ^ (-53 : ℤ) by norm_num,
      show (2 : ℝ) ^ (-51 : ℤ) = 4 * 2 ^ (-53 : ℤ) by norm_num, show (2 : ℝ) ^ (-52 : ℤ) = 2 * 2 ^ (-53 : ℤ) by norm_num]
    exact this
  · have e1 := (abs_le_len _ i).trans q1
    have e2 := (abs_le_len _ i).trans q2
    have e : R *ᵥ ((1 - t) • s.p1.elem + t • s.p2.elem - b.corner.elem) = (1 - t) • R *ᵥ (s.p1.elem - b.corner.elem) + t • R *ᵥ (s.p2.elem - b.corner.elem) := by
      rw [← mulVec_smul, ← mulVec_smul, ← mulVec_add]; congr 1; ext k; simp; ring
    rw [e]
    simp only [Pi.add_apply, Pi.sub_apply, Pi.smul_apply, smul_eq_mul] at e1 e2 ⊢
    generalize (R *ᵥ (s.p1.elem - b.corner.elem)) i = a at *
    generalize (R *ᵥ (s.p2.elem - b.corner.elem)) i = c at *
    generalize (2 : ℝ) ^ (-53 : ℤ) * len b.corner.elem = z at *
    have g1 := mul_le_mul_of_nonneg_left (e1.trans (add_le_add_left x1 z)) (sub_nonneg.2 t1)
    have g2 := mul_le_mul_of_nonneg_left (e2.trans (add_le_add_left x2 z)) t0
    rw [show (1 - t) * (rbUnrotate r b s.p1).elem i + t * (rbUnrotate r b s.p2).elem i - b.corner.elem i - ((1 - t) * a + t * c) =
      (1 - t) * ((rbUnrotate r b s.p1).elem i - (b.corner.elem i + a)) + t * ((rbUnrotate r b s.p2).elem i - (b.corner.elem i + c)) by ring]
    refine (abs_add_le _ _).trans ?_
    rw [abs_mul, abs_mul, abs_of_nonneg (sub_nonneg.2 t1), abs_of_nonneg t0]
    linarith
  · have e1 := _root_.abs_le.1 ((abs_le_len _ i).trans q1)
    have e2 : |(R *ᵥ (s.p1.elem - b.corner.elem)) i| ≤ eucl s.p1.elem b.corner.elem := by
      rw [eucl_eq_len, ← len_orth hR]; exact abs_le_len _ i
    have e3 := abs_le_len b.size.elem i
    have f1 := _root_.abs_le.1 (face i).1
    have f2 := _root_.abs_le.1 (face i).2
    have e2' := _root_.abs_le.1 e2
    simp only [Pi.add_apply, Pi.sub_apply] at e1
    have e3' := _root_.abs_le.1 e3
    have mn1 : -len b.size.elem ≤ min 0 (b.size.elem i) := le_min (by linarith) e3'.1
    have mn2 : min 0 (b.size.elem i) ≤ 0 := min_le_left _ _
    have mx1 : max 0 (b.size.elem i) ≤ len b.size.elem := max_le (by linarith) e3'.2
    have mx2 : 0 ≤ max 0 (b.size.elem i) := le_max_left _ _
    generalize (2 : ℝ) ^ (-53 : ℤ) * len b.corner.elem = z at *
    generalize (2 : ℝ) ^ (-53 : ℤ) * len (b.corner.elem + b.size.elem) = z' at *
    constructor <;> rw [_root_.abs_le] <;> constructor <;> linarith

end Fl

/-- C135, rotated box and segment. Computed in doubles, the tolerant test accepts a segment with a point in the exact box by the stated margin, and a segment it accepts has
a point in the box up to epsilon and that margin; likewise the proper test and the inside of the box. -/
theorem C135_segment (r : Rounding 53) (b : RBox n) (R : Matrix (Fin n) (Fin n) ℝ) (E : ℝ) (hn : n < 2 ^ 52) (hR : Rᵀ * R = 1)
    (h0 : 2 * n * (n + 1) * 2 ^ (-52 : ℤ) ≤ E) (h1 : E ≤ 1 / 4) (hm : Stands b.orient.elem R (E - 2 * n * (n + 1) * 2 ^ (-52 : ℤ)))
    (s : Seg n) (M : ℝ)
    (hM : M = (E + 2 ^ (-48 : ℤ)) * (eucl s.p1.elem b.corner.elem + eucl s.p2.elem b.corner.elem + len b.size.elem) + 2 ^ (-50 : ℤ) * len b.corner.elem) :
    ((∃ x ∈ segSet s, x ∈ turnedBox b.corner.elem b.size.elem R (-M)) → Fl.interRS r b s false = true) ∧
    ((∃ x ∈ segSet s, x ∈ turnedInterior b.corner.elem b.size.elem R (-M)) → Fl.interRS r b s true = true) ∧
    (Fl.interRS r b s false = true → ∃ x ∈ segSet s, x ∈ turnedBox b.corner.elem b.size.elem R (epsilon + M)) ∧
    (Fl.interRS r b s true = true → ∃ x ∈ segSet s, x ∈ turnedInterior b.corner.elem b.size.elem R M) := by
  obtain ⟨m, k, hk, hm0, hmk, corr, face, far⟩ := Fl.seg_corr r b R E hn hR h0 h1 hm s M hM
  have c := C134_box r ⟨Fl.rbUnrotate r b s.p1, Fl.rbUnrotate r b s.p2⟩ (Fl.rbFlat r b) (Fl.flat_ordered r b)
  have w0 : (0 : ℝ) ≤ 3 * 2 ^ (-52 : ℤ) := by positivity
  have far1 : ∀ i, 3 * 2 ^ (-52 : ℤ) * |(Fl.rbFlat r b).low.elem i - (Fl.rbUnrotate r b s.p1).elem i| ≤
      3 * 2 ^ (-52 : ℤ) * (k + len b.size.elem + eucl s.p1.elem b.corner.elem + m) := fun i => mul_le_mul_of_nonneg_left (far i).1 w0
  have far2 : ∀ i, 3 * 2 ^ (-52 : ℤ) * |(Fl.rbFlat r b).high.elem i - (Fl.rbUnrotate r b s.p1).elem i| ≤
      3 * 2 ^ (-52 : ℤ) * (k + len b.size.elem + eucl s.p1.elem b.corner.elem + m) := fun i => mul_le_mul_of_nonneg_left (far i).2 w0
  generalize 3 * 2 ^ (-52 : ℤ) * (k + len b.size.elem + eucl s.p1.elem b.corner.elem + m) = w at *
  clear far hM
  refine ⟨?_, ?_, fun h => ?_, fun h => ?_⟩
  · rintro ⟨x, ⟨t, t0, t1, rfl⟩, hx⟩
    refine c.1 ⟨_, ⟨t, t0, t1, rfl⟩, fun i => ?_⟩
    have a := _root_.abs_le.1 (corr t t0 t1 i)
    have f1 := _root_.abs_le.1 (face i).1
    have f2 := _root_.abs_le.1 (face i).2
    have g1 := far1 i
    have g2 := far2 i
    have hi := hx i
    constructor <;> linarith
  · rintro ⟨x, ⟨t, t0, t1, rfl⟩, hx⟩
    refine c.2.1 ⟨_, ⟨t, t0, t1, rfl⟩, fun i => ?_⟩
    have a := _root_.abs_le.1 (corr t t0 t1 i)
    have f1 := _root_.abs_le.1 (face i).1
    have f2 := _root_.abs_le.1 (face i).2
    have g1 := far1 i
    have g2 := far2 i
    have hi := hx i
    constructor <;> linarith
  · obtain ⟨y, ⟨t, t0, t1, rfl⟩, hy⟩ := c.2.2.1 h
    refine ⟨_, ⟨t, t0, t1, rfl⟩, fun i => ?_⟩
    have a := _root_.abs_le.1 (corr t t0 t1 i)
    have f1 := _root_.abs_le.1 (face i).1
    have f2 := _root_.abs_le.1 (face i).2
    have g1 := far1 i
    have g2 := far2 i
    have hi := hy i
    dsimp only at hi
    constructor <;> linarith
  · obtain ⟨y, ⟨t, t0, t1, rfl⟩, hy⟩ := c.2.2.2 h
    refine ⟨_, ⟨t, t0, t1, rfl⟩, fun i => ?_⟩
    have a := _root_.abs_le.1 (corr t t0 t1 i)
    have f1 := _root_.abs_le.1 (face i).1
    have f2 := _root_.abs_le.1 (face i).2
    have g1 := far1 i
    have g2 := far2 i
    have hi := hy i
    dsimp only at hi
    constructor <;> linarith

/-- C135, rotated box containing a segment, with the same margin. -/
theorem C135_contains_segment (r : Rounding 53) (b : RBox n) (R : Matrix (Fin n) (Fin n) ℝ) (E : ℝ) (hn : n < 2 ^ 52) (hR : Rᵀ * R = 1)
    (h0 : 2 * n * (n + 1) * 2 ^ (-52 : ℤ) ≤ E) (h1 : E ≤ 1 / 4) (hm : Stands b.orient.elem R (E - 2 * n * (n + 1) * 2 ^ (-52 : ℤ)))
    (s : Seg n) (M : ℝ)
    (hM : M = (E + 2 ^ (-48 : ℤ)) * (eucl s.p1.elem b.corner.elem + eucl s.p2.elem b.corner.elem + len b.size.elem) + 2 ^ (-50 : ℤ) * len b.corner.elem) :
    (segSet s ⊆ turnedBox b.corner.elem b.size.elem R (epsilon - M) → Fl.containsRS r b s false = true) ∧
    (segSet s ⊆ turnedInterior b.corner.elem b.size.elem R (-M) → Fl.containsRS r b s true = true) ∧
    (Fl.containsRS r b s false = true → segSet s ⊆ turnedBox b.corner.elem b.size.elem R (epsilon * (1 + 2 ^ (-52 : ℤ)) + M)) ∧
    (Fl.containsRS r b s true = true → segSet s ⊆ turnedInterior b.corner.elem b.size.elem R M) := by
  obtain ⟨m, k, hk, hm0, hmk, corr, face, far⟩ := Fl.seg_corr r b R E hn hR h0 h1 hm s M hM
  have ho := Fl.flat_ordered r b
  have c := C134_in_box r (Fl.rbFlat r b) ⟨Fl.rbUnrotate r b s.p1, Fl.rbUnrotate r b s.p2⟩ ho
  have he := epsilon_pos
  have w0 : (0 : ℝ) ≤ 3 * 2 ^ (-52 : ℤ) := by positivity
  have hmk' : m + k ≤ M := by
    refine le_trans (le_add_of_nonneg_right (mul_nonneg w0 ?_)) hmk
    exact add_nonneg (add_nonneg (add_nonneg hk (len_nonneg _)) (eucl_nonneg _ _)) hm0
  have hd : 0 ≤ epsilon * (1 + 2 ^ (-52 : ℤ)) := by positivity
  clear far hmk hM
  refine ⟨fun h => c.2.1 ?_, fun h => c.1.2 ?_, fun h => ?_, fun h => ?_⟩
  · rintro _ ⟨t, t0, t1, rfl⟩
    rw [mem_near_box ho he.le]
    intro i
    have a := _root_.abs_le.1 (corr t t0 t1 i)
    have f1 := _root_.abs_le.1 (face i).1
    have f2 := _root_.abs_le.1 (face i).2
    have hi := h ⟨t, t0, t1, rfl⟩ i
    constructor <;> linarith
  · rintro _ ⟨t, t0, t1, rfl⟩ i
    have a := _root_.abs_le.1 (corr t t0 t1 i)
    have f1 := _root_.abs_le.1 (face i).1
    have f2 := _root_.abs_le.1 (face i).2
    have hi := h ⟨t, t0, t1, rfl⟩ i
    constructor <;> linarith
  · rintro _ ⟨t, t0, t1, rfl⟩ i
    have hi := (mem_near_box ho hd).1 (c.2.2 h ⟨t, t0, t1, rfl⟩) i
    have a := _root_.abs_le.1 (corr t t0 t1 i)
    have f1 := _root_.abs_le.1 (face i).1
    have f2 := _root_.abs_le.1 (face i).2
    dsimp only at hi
    constructor <;> linarith
  · rintro _ ⟨t, t0, t1, rfl⟩ i
    have hi := c.1.1 h ⟨t, t0, t1, rfl⟩ i
    have a := _root_.abs_le.1 (corr t t0 t1 i)
    have f1 := _root_.abs_le.1 (face i).1
    have f2 := _root_.abs_le.1 (face i).2
    dsimp only at hi
    constructor <;> linarith

end WFMath
