/- Property theorems C135, continued: rotated boxes against boxes, computed in doubles. -/
import Verif.Props.RoundRBoxSeg
import Verif.Lemmas.Separating

namespace WFMath
open Spec Matrix Rounding
variable {n : Nat}

namespace Fl

/-- The errors made with a box seen from a rotated one add up to the stated margin. -/
theorem seen_margin {u E N L L' D C C' : ℝ} (u0 : 0 ≤ u) (u1 : u ≤ 1 / 1000) (n1 : 1 ≤ N) (hN : 4 * N * (N + 1) * u ≤ E) (hE1 : E ≤ 1 / 4) (hL : 0 ≤ L) (hD : 0 ≤ D) (hC : 0 ≤ C)
    (hL' : L' ≤ (1 + u) * L) (hC' : C' ≤ C + D + ((2 * E + 3 * u) * D + u * C)) :
    E * L' + N * (2 * u) * C' + ((2 * E + 3 * u) * D + u * C) + u * L ≤ (E + 4 * u) * L + (3 * E + 4 * u) * D + (N + 1) * (4 * u) * C := by
  have hE : 0 ≤ E := le_trans (by positivity) hN
  have g1 := mul_le_mul_of_nonneg_left hL' hE
  have g2 := mul_le_mul_of_nonneg_right hE1 (mul_nonneg u0 hL)
  have g3 : C' ≤ 1001 / 1000 * C + 8 / 5 * D := by
    have := mul_le_mul_of_nonneg_right (show 2 * E + 3 * u ≤ 3 / 5 by linarith) hD
    have := mul_le_mul_of_nonneg_right u1 hC
    linarith
  have g4 := mul_le_mul_of_nonneg_left g3 (show 0 ≤ N * (2 * u) by positivity)
  have nu : 0 ≤ N * u := by positivity
  have g5 : N * u * D ≤ E / 8 * D := by
    refine mul_le_mul_of_nonneg_right ?_ hD
    have : 8 * (N * u) ≤ 4 * N * (N + 1) * u := by nlinarith
    linarith
  have z1 := mul_nonneg u0 hL
  have z2 := mul_nonneg u0 hD
  have z3 := mul_nonneg u0 hC
  have z4 := mul_nonneg nu hC
  have z5 := mul_nonneg hE hD
  nlinarith

/-- The bounds of an axis box seen from a rotated one, computed and exact. -/
theorem seen_err (r : Rounding 53) (b : RBox n) (a : Box n) (R : Matrix (Fin n) (Fin n) ℝ) (E : ℝ) (hn : n < 2 ^ 52) (hR : Rᵀ * R = 1)
    (h0 : 2 * n * (n + 1) * 2 ^ (-52 : ℤ) ≤ E) (h1 : E ≤ 1 / 4) (hm : Stands b.orient.elem R (E - 2 * n * (n + 1) * 2 ^ (-52 : ℤ))) (M : ℝ)
    (hM : M = (E + 2 ^ (-51 : ℤ)) * eucl a.low.elem a.high.elem + (3 * E + 2 ^ (-51 : ℤ)) * eucl a.low.elem b.corner.elem + (n + 1) * 2 ^ (-51 : ℤ) * len b.corner.elem) (i : Fin n) :
    |(rbBox r (rbSeen r b a)).low.elem i - ((b.corner.elem + R *ᵥ (a.low.elem - b.corner.elem)) i + ∑ j, min 0 (R i j * (a.high.elem j - a.low.elem j)))| ≤ M ∧
    |(rbBox r (rbSeen r b a)).high.elem i - ((b.corner.elem + R *ᵥ (a.low.elem - b.corner.elem)) i + ∑ j, max 0 (R i j * (a.high.elem j - a.low.elem j)))| ≤ M := by
  have hR' : R * Rᵀ = 1 := mul_eq_one_comm.1 hR
  have hRt : Rᵀᵀ * Rᵀ = 1 := by rwa [transpose_transpose]
  have hin : (b.orient.inverse).elem = b.orient.elemᵀ := RotMat.inverse_elem _
  have hmt : Stands (b.orient.inverse).elem Rᵀ (E - 2 * n * (n + 1) * 2 ^ (-52 : ℤ)) := by rw [hin]; exact stands_transpose (sub_nonneg.2 h0) hm
  have e := rbBox_err r (rbSeen r b a) Rᵀ E hn hRt h0 h1 hmt i
  have hc := C125_about r b.orient.inverse Rᵀ E hn hRt h0 h1 hmt a.low b.corner
  have hs : len ((rbSeen r b a).size.elem - (a.high.elem - a.low.elem)) ≤ 2 ^ (-53 : ℤ) * len (a.high.elem - a.low.elem) := len_round r (a.high.elem - a.low.elem)
  have hs' : len (rbSeen r b a).size.elem ≤ (1 + 2 ^ (-53 : ℤ)) * len (a.high.elem - a.low.elem) := by
    have := len_add_le ((rbSeen r b a).size.elem - (a.high.elem - a.low.elem)) (a.high.elem - a.low.elem)
    rw [sub_add_cancel] at this; linarith
  have hL := len_nonneg (a.high.elem - a.low.elem)
  have hD := len_nonneg (a.low.elem - b.corner.elem)
  have hC := len_nonneg b.corner.elem
  rw [vecMul_transpose] at hc
  have hci : |(rbSeen r b a).corner.elem i - (b.corner.elem + R *ᵥ (a.low.elem - b.corner.elem)) i| ≤
      (2 * E + 3 * 2 ^ (-53 : ℤ)) * len (a.low.elem - b.corner.elem) + 2 ^ (-53 : ℤ) * len b.corner.elem := (abs_le_len _ i).trans hc
  have hca : |(rbSeen r b a).corner.elem i| ≤ len b.corner.elem + len (a.low.elem - b.corner.elem) +
      ((2 * E + 3 * 2 ^ (-53 : ℤ)) * len (a.low.elem - b.corner.elem) + 2 ^ (-53 : ℤ) * len b.corner.elem) := by
    have t1 := (abs_le_len _ i).trans (len_add_le b.corner.elem (R *ᵥ (a.low.elem - b.corner.elem)))
    rw [len_orth hR] at t1
    have t2 := abs_add_le ((rbSeen r b a).corner.elem i - (b.corner.elem + R *ᵥ (a.low.elem - b.corner.elem)) i) ((b.corner.elem + R *ᵥ (a.low.elem - b.corner.elem)) i)
    rw [sub_add_cancel] at t2
    linarith
  have row : ∑ j, |R i j * (rbSeen r b a).size.elem j - R i j * (a.high.elem j - a.low.elem j)| ≤ 2 ^ (-53 : ℤ) * len (a.high.elem - a.low.elem) := by
    have h2 : ∀ j, |R i j * (rbSeen r b a).size.elem j - R i j * (a.high.elem j - a.low.elem j)| = |R i j * ((rbSeen r b a).size.elem - (a.high.elem - a.low.elem)) j| := fun j => by
      rw [← mul_sub]; rfl
    simp only [h2]
    refine (col_abs_le (fun j => R i j) _).trans ?_
    have h3 : len (fun j => R i j) = 1 := by
      have h4 : (R * Rᵀ) i i = 1 := by rw [hR', Matrix.one_apply_eq]
      have h5 : (fun j => R i j) ⬝ᵥ (fun j => R i j) = 1 := h4
      unfold len; rw [h5, Real.sqrt_one]
    rw [h3, one_mul]; exact hs
  have hnn : (1 : ℝ) ≤ n := by have := i.isLt; exact_mod_cast (by omega : 1 ≤ n)
  have total : E * len (rbSeen r b a).size.elem + n * 2 ^ (-52 : ℤ) * |(rbSeen r b a).corner.elem i| +
      ((2 * E + 3 * 2 ^ (-53 : ℤ)) * len (a.low.elem - b.corner.elem) + 2 ^ (-53 : ℤ) * len b.corner.elem) + 2 ^ (-53 : ℤ) * len (a.high.elem - a.low.elem) ≤ M := by
    have := seen_margin (u := 2 ^ (-53 : ℤ)) (E := E) (N := n) (by positivity) (by norm_num) hnn
      (by have e2 : (2 : ℝ) ^ (-52 : ℤ) = 2 * 2 ^ (-53 : ℤ) := by norm_num
          rw [e2] at h0
          refine le_trans (le_of_eq ?_) h0; ring) h1 hL hD hC hs' hca
    rw [hM, eucl_comm, eucl_eq_len, eucl_eq_len, show (2 : ℝ) ^ (-51 : ℤ) = 4 * 2 ^ (-53 : ℤ) by norm_num, show (2 : ℝ) ^ (-52 : ℤ) = 2 * 2 ^ (-53 : ℤ) by norm_num]
    exact this
  have fin : ∀ {x y z : ℝ}, |x - ((rbSeen r b a).corner.elem i + y)| ≤ E * len (rbSeen r b a).size.elem + n * 2 ^ (-52 : ℤ) * |(rbSeen r b a).corner.elem i| →
      |y - z| ≤ ∑ j, |R i j * (rbSeen r b a).size.elem j - R i j * (a.high.elem j - a.low.elem j)| →
      |x - ((b.corner.elem + R *ᵥ (a.low.elem - b.corner.elem)) i + z)| ≤ M := by
    intro x y z hx hyz
    have t := abs_add_three (x - ((rbSeen r b a).corner.elem i + y)) ((rbSeen r b a).corner.elem i - (b.corner.elem + R *ᵥ (a.low.elem - b.corner.elem)) i) (y - z)
    rw [show x - ((rbSeen r b a).corner.elem i + y) + ((rbSeen r b a).corner.elem i - (b.corner.elem + R *ᵥ (a.low.elem - b.corner.elem)) i) + (y - z) =
      x - ((b.corner.elem + R *ᵥ (a.low.elem - b.corner.elem)) i + z) by ring] at t
    linarith [hyz.trans row]
  refine ⟨fin e.1 ?_, fin e.2 ?_⟩
  · rw [← Finset.sum_sub_distrib]
    exact (Finset.abs_sum_le_sum_abs _ _).trans (Finset.sum_le_sum fun j _ => min_lip _ _)
  · rw [← Finset.sum_sub_distrib]
    exact (Finset.abs_sum_le_sum_abs _ _).trans (Finset.sum_le_sum fun j _ => max_lip _ _)

/-- The exact bounds of a box seen from a rotated one are those of its points, and taken by points of the box. -/
theorem seen_exact (R : Matrix (Fin n) (Fin n) ℝ) (c : Fin n → ℝ) (a : Box n) (ho : Ordered a) (i : Fin n) :
    (∀ x ∈ boxSet a, (c + R *ᵥ (a.low.elem - c)) i + ∑ j, min 0 (R i j * (a.high.elem j - a.low.elem j)) ≤ (c + R *ᵥ (x - c)) i ∧
      (c + R *ᵥ (x - c)) i ≤ (c + R *ᵥ (a.low.elem - c)) i + ∑ j, max 0 (R i j * (a.high.elem j - a.low.elem j))) ∧
    (∃ x ∈ boxSet a, (c + R *ᵥ (x - c)) i = (c + R *ᵥ (a.low.elem - c)) i + ∑ j, min 0 (R i j * (a.high.elem j - a.low.elem j))) ∧
    ∃ x ∈ boxSet a, (c + R *ᵥ (x - c)) i = (c + R *ᵥ (a.low.elem - c)) i + ∑ j, max 0 (R i j * (a.high.elem j - a.low.elem j)) := by
  have key : ∀ x, (c + R *ᵥ (x - c)) i = (c + R *ᵥ (a.low.elem - c)) i + ∑ j, R i j * (x j - a.low.elem j) := fun x => by
    have : R *ᵥ (x - c) = R *ᵥ (a.low.elem - c) + R *ᵥ (x - a.low.elem) := by rw [← mulVec_add]; congr 1; abel
    rw [this]
    simp only [Pi.add_apply]
    rw [add_assoc]; rfl
  have pick : ∀ (f : Fin n → Prop) [DecidablePred f], ∃ x ∈ boxSet a, (c + R *ᵥ (x - c)) i = (c + R *ᵥ (a.low.elem - c)) i +
      ∑ j, R i j * (if f j then a.high.elem j - a.low.elem j else 0) := fun f _ => by
    refine ⟨fun j => if f j then a.high.elem j else a.low.elem j, fun j => ?_, ?_⟩
    · show a.low.elem j ≤ (if f j then a.high.elem j else a.low.elem j) ∧ (if f j then a.high.elem j else a.low.elem j) ≤ a.high.elem j
      split_ifs
      · exact ⟨ho j, le_rfl⟩
      · exact ⟨le_rfl, ho j⟩
    · rw [key]
      congr 1
      refine Finset.sum_congr rfl fun j _ => ?_
      split_ifs <;> simp
  refine ⟨fun x hx => ?_, ?_, ?_⟩
  · rw [key x]
    constructor
    · refine add_le_add_right (Finset.sum_le_sum fun j _ => ?_) _
      have := hx j
      rcases le_total 0 (R i j) with g | g
      · exact (min_le_left _ _).trans (mul_nonneg g (by linarith))
      · exact (min_le_right _ _).trans (mul_le_mul_of_nonpos_left (by linarith) g)
    · refine add_le_add_right (Finset.sum_le_sum fun j _ => ?_) _
      have := hx j
      rcases le_total 0 (R i j) with g | g
      · exact le_trans (mul_le_mul_of_nonneg_left (by linarith) g) (le_max_right _ _)
      · exact le_trans (mul_nonpos_of_nonpos_of_nonneg g (by linarith)) (le_max_left _ _)
  · obtain ⟨x, hx, e⟩ := pick fun j => R i j * (a.high.elem j - a.low.elem j) < 0
    refine ⟨x, hx, e.trans (congrArg _ (Finset.sum_congr rfl fun j _ => ?_))⟩
    split_ifs with h
    · rw [min_eq_right h.le]
    · rw [min_eq_left (not_lt.1 h), mul_zero]
  · obtain ⟨x, hx, e⟩ := pick fun j => 0 < R i j * (a.high.elem j - a.low.elem j)
    refine ⟨x, hx, e.trans (congrArg _ (Finset.sum_congr rfl fun j _ => ?_))⟩
    split_ifs with h
    · rw [max_eq_right h.le]
    · rw [max_eq_left (not_lt.1 h), mul_zero]

theorem containsBB_false_of (r : Rounding 53) {a b : Box n} (h : ∀ i, a.low.elem i - epsilon ≤ b.low.elem i ∧ b.high.elem i ≤ a.high.elem i + epsilon) :
    containsBB r a b false = true := by
  unfold containsBB
  simp only [List.all_eq_true, List.mem_finRange, true_implies, not_or_bool, less, greater, Bool.false_eq_true, if_false, decide_eq_true_eq, gt_iff_lt, not_lt]
  exact fun i => ⟨r.le_fl isFl_epsilon (by linarith [(h i).1]), r.le_fl isFl_epsilon (by linarith [(h i).2])⟩

theorem of_containsBB_false (r : Rounding 53) {a b : Box n} (h : containsBB r a b false = true) (i : Fin n) :
    a.low.elem i - epsilon * (1 + 2 ^ (-52 : ℤ)) ≤ b.low.elem i ∧ b.high.elem i ≤ a.high.elem i + epsilon * (1 + 2 ^ (-52 : ℤ)) := by
  unfold containsBB at h
  simp only [List.all_eq_true, List.mem_finRange, true_implies, not_or_bool] at h
  have h1 := not_less (h i).1
  have h2 := not_greater (h i).2
  constructor <;> linarith

theorem containsBB_true_iff (r : Rounding 53) {a b : Box n} : containsBB r a b true = true ↔ ∀ i, a.low.elem i < b.low.elem i ∧ b.high.elem i < a.high.elem i := by
  unfold containsBB
  simp only [List.all_eq_true, List.mem_finRange, true_implies, not_or_bool, less_proper, greater_proper, less_true, greater_true, not_le]

end Fl

/-- C135, box containing a rotated box: computed in doubles, compared with the exact rotated box. -/
theorem C135_in_box (r : Rounding 53) (b : RBox n) (R : Matrix (Fin n) (Fin n) ℝ) (E : ℝ) (hn : n < 2 ^ 52) (hR : Rᵀ * R = 1)
    (h0 : 2 * n * (n + 1) * 2 ^ (-52 : ℤ) ≤ E) (h1 : E ≤ 1 / 4) (hm : Stands b.orient.elem R (E - 2 * n * (n + 1) * 2 ^ (-52 : ℤ))) (a : Box n) (M : ℝ)
    (hM : M = E * len b.size.elem + n * 2 ^ (-52 : ℤ) * len b.corner.elem) :
    ((∀ x ∈ turnedBox b.corner.elem b.size.elem R 0, ∀ i, a.low.elem i - (epsilon - M) ≤ x i ∧ x i ≤ a.high.elem i + (epsilon - M)) → Fl.containsBR r a b false = true) ∧
    ((∀ x ∈ turnedBox b.corner.elem b.size.elem R 0, ∀ i, a.low.elem i + M < x i ∧ x i < a.high.elem i - M) → Fl.containsBR r a b true = true) ∧
    (Fl.containsBR r a b false = true → ∀ x ∈ turnedBox b.corner.elem b.size.elem R 0, ∀ i,
      a.low.elem i - (epsilon * (1 + 2 ^ (-52 : ℤ)) + M) ≤ x i ∧ x i ≤ a.high.elem i + (epsilon * (1 + 2 ^ (-52 : ℤ)) + M)) ∧
    (Fl.containsBR r a b true = true → ∀ x ∈ turnedBox b.corner.elem b.size.elem R 0, ∀ i, a.low.elem i - M < x i ∧ x i < a.high.elem i + M) := by
  obtain ⟨c1, c2, -⟩ := C135_bounding_box r b R E hn hR h0 h1 hm
  have hi : ∀ i, E * len b.size.elem + n * 2 ^ (-52 : ℤ) * |b.corner.elem i| ≤ M := fun i => by
    rw [hM]; exact add_le_add_right (mul_le_mul_of_nonneg_left (abs_le_len _ i) (by positivity)) _
  unfold Fl.containsBR
  refine ⟨fun h => Fl.containsBB_false_of r fun i => ?_, fun h => (Fl.containsBB_true_iff r).2 fun i => ?_, fun h x hx i => ?_, fun h x hx i => ?_⟩
  · obtain ⟨⟨x, hx, ex⟩, ⟨y, hy, ey⟩⟩ := c2 i
    have gx := _root_.abs_le.1 (ex.trans (hi i))
    have gy := _root_.abs_le.1 (ey.trans (hi i))
    have hx' := (h x hx i).1
    have hy' := (h y hy i).2
    constructor <;> linarith
  · obtain ⟨⟨x, hx, ex⟩, ⟨y, hy, ey⟩⟩ := c2 i
    have gx := _root_.abs_le.1 (ex.trans (hi i))
    have gy := _root_.abs_le.1 (ey.trans (hi i))
    have hx' := (h x hx i).1
    have hy' := (h y hy i).2
    constructor <;> linarith
  · have := c1 x hx i
    have g := hi i
    have e := Fl.of_containsBB_false r h i
    constructor <;> linarith
  · have := c1 x hx i
    have g := hi i
    have e := (Fl.containsBB_true_iff r).1 h i
    constructor <;> linarith

/-- C135, rotated box containing a box: computed in doubles, compared with the exact rotated box. -/
theorem C135_contains_box (r : Rounding 53) (b : RBox n) (R : Matrix (Fin n) (Fin n) ℝ) (E : ℝ) (hn : n < 2 ^ 52) (hR : Rᵀ * R = 1)
    (h0 : 2 * n * (n + 1) * 2 ^ (-52 : ℤ) ≤ E) (h1 : E ≤ 1 / 4) (hm : Stands b.orient.elem R (E - 2 * n * (n + 1) * 2 ^ (-52 : ℤ))) (a : Box n) (ho : Ordered a) (M : ℝ)
    (hM : M = (E + 2 ^ (-51 : ℤ)) * eucl a.low.elem a.high.elem + (3 * E + 2 ^ (-51 : ℤ)) * eucl a.low.elem b.corner.elem + (n + 1) * 2 ^ (-51 : ℤ) * len b.corner.elem +
      2 ^ (-53 : ℤ) * len (b.corner.elem + b.size.elem)) :
    (boxSet a ⊆ turnedBox b.corner.elem b.size.elem R (epsilon - M) → Fl.containsRB r b a false = true) ∧
    (boxSet a ⊆ turnedInterior b.corner.elem b.size.elem R (-M) → Fl.containsRB r b a true = true) ∧
    (Fl.containsRB r b a false = true → boxSet a ⊆ turnedBox b.corner.elem b.size.elem R (epsilon * (1 + 2 ^ (-52 : ℤ)) + M)) ∧
    (Fl.containsRB r b a true = true → boxSet a ⊆ turnedInterior b.corner.elem b.size.elem R M) := by
  have err := Fl.seen_err r b a R E hn hR h0 h1 hm _ rfl
  have face := Fl.flat_face r b
  have exa := Fl.seen_exact R b.corner.elem a ho
  unfold Fl.containsRB Fl.containsBR
  generalize (E + 2 ^ (-51 : ℤ)) * eucl a.low.elem a.high.elem + (3 * E + 2 ^ (-51 : ℤ)) * eucl a.low.elem b.corner.elem + (n + 1) * 2 ^ (-51 : ℤ) * len b.corner.elem = K at *
  generalize (2 : ℝ) ^ (-53 : ℤ) * len (b.corner.elem + b.size.elem) = k at *
  refine ⟨fun h => Fl.containsBB_false_of r fun i => ?_, fun h => (Fl.containsBB_true_iff r).2 fun i => ?_, fun h x hx i => ?_, fun h x hx i => ?_⟩
  · obtain ⟨-, ⟨x, hx, ex⟩, ⟨y, hy, ey⟩⟩ := exa i
    have g1 := _root_.abs_le.1 (err i).1
    have g2 := _root_.abs_le.1 (err i).2
    have f1 := _root_.abs_le.1 (face i).1
    have f2 := _root_.abs_le.1 (face i).2
    have hx' := (h hx i).1
    have hy' := (h hy i).2
    rw [← ex] at g1
    rw [← ey] at g2
    simp only [Pi.add_apply] at g1 g2
    constructor <;> linarith
  · obtain ⟨-, ⟨x, hx, ex⟩, ⟨y, hy, ey⟩⟩ := exa i
    have g1 := _root_.abs_le.1 (err i).1
    have g2 := _root_.abs_le.1 (err i).2
    have f1 := _root_.abs_le.1 (face i).1
    have f2 := _root_.abs_le.1 (face i).2
    have hx' := (h hx i).1
    have hy' := (h hy i).2
    rw [← ex] at g1
    rw [← ey] at g2
    simp only [Pi.add_apply] at g1 g2
    constructor <;> linarith
  · have g := (exa i).1 x hx
    have g1 := _root_.abs_le.1 (err i).1
    have g2 := _root_.abs_le.1 (err i).2
    have f1 := _root_.abs_le.1 (face i).1
    have f2 := _root_.abs_le.1 (face i).2
    have e := Fl.of_containsBB_false r h i
    rw [Pi.add_apply b.corner.elem (R *ᵥ (x - b.corner.elem))] at g
    constructor <;> linarith
  · have g := (exa i).1 x hx
    have g1 := _root_.abs_le.1 (err i).1
    have g2 := _root_.abs_le.1 (err i).2
    have f1 := _root_.abs_le.1 (face i).1
    have f2 := _root_.abs_le.1 (face i).2
    have e := (Fl.containsBB_true_iff r).1 h i
    rw [Pi.add_apply b.corner.elem (R *ᵥ (x - b.corner.elem))] at g
    constructor <;> linarith

end WFMath
