/- Property theorems C135, continued: the bounding box and the bounding sphere of a rotated box computed in doubles. -/
import Verif.Props.RoundRBox

namespace WFMath
open Spec Matrix Rounding
variable {n : Nat}

namespace Fl

theorem col_abs_le (a b : Fin n → ℝ) : ∑ i, |a i * b i| ≤ len a * len b := by
  have e : ∑ i, |a i * b i| = (fun i => |a i|) ⬝ᵥ fun i => |b i| := by
    unfold dotProduct; exact Finset.sum_congr rfl fun i _ => abs_mul _ _
  have h4 : ∀ x : Fin n → ℝ, len (fun i => |x i|) = len x := fun x => by
    unfold len dotProduct; congr 1; exact Finset.sum_congr rfl fun i _ => abs_mul_abs_self _
  rw [e, ← h4 a, ← h4 b]
  exact dot_le_len _ _

/-- One rounded addition in a running sum. -/
theorem bb_step (r : Rounding 53) {mn v S T res : ℝ} {k : ℕ} (hk : (k : ℝ) * (2 * 2 ^ (-53 : ℤ)) ≤ 1) (hS : 0 ≤ S)
    (ih : |res - (r (mn + v) + T)| ≤ k * (2 * 2 ^ (-53 : ℤ)) * (|r (mn + v)| + S)) :
    |res - (mn + (v + T))| ≤ (k + 1 : ℕ) * (2 * 2 ^ (-53 : ℤ)) * (|mn| + (|v| + S)) := by
  have h := r.err pos53 (mn + v)
  rw [u53] at h
  have h3 := abs_add_le mn v
  have u0 : (0 : ℝ) ≤ 2 ^ (-53 : ℤ) := by positivity
  have k0 : (0 : ℝ) ≤ k := k.cast_nonneg
  push_cast
  generalize (2 : ℝ) ^ (-53 : ℤ) = u at *
  generalize r (mn + v) = y at *
  generalize (k : ℝ) = k at *
  have h4 : |y| ≤ (1 + u) * (|mn| + |v|) := by
    have := abs_add_le (y - (mn + v)) (mn + v); rw [sub_add_cancel] at this
    nlinarith
  have h5 : |res - (mn + (v + T))| ≤ |res - (y + T)| + |y - (mn + v)| := by
    have := abs_add_le (res - (y + T)) (y - (mn + v))
    rwa [show res - (y + T) + (y - (mn + v)) = res - (mn + (v + T)) by ring] at this
  have h6 : k * (2 * u) * (|y| + S) ≤ k * (2 * u) * ((1 + u) * (|mn| + |v|) + S) := mul_le_mul_of_nonneg_left (by linarith) (by positivity)
  have m0 : 0 ≤ |mn| + |v| := by positivity
  have h7 : k * (2 * u) * (u * (|mn| + |v|)) ≤ 1 * (u * (|mn| + |v|)) := mul_le_mul_of_nonneg_right hk (by positivity)
  have h8 : u * |mn + v| ≤ u * (|mn| + |v|) := mul_le_mul_of_nonneg_left h3 u0
  have h9 : 0 ≤ u * S := by positivity
  nlinarith

theorem bbSums_err (r : Rounding 53) (b : RBox n) (i : Fin n) (l : List (Fin n)) (hl : (l.length : ℝ) * (2 * 2 ^ (-53 : ℤ)) ≤ 1) (mn mx : ℝ) :
    |(bbSums r b i l (mn, mx)).1 - (mn + (l.map fun j => min 0 (r (b.orient.elem j i * b.size.elem j))).sum)| ≤
      l.length * (2 * 2 ^ (-53 : ℤ)) * (|mn| + (l.map fun j => |r (b.orient.elem j i * b.size.elem j)|).sum) ∧
    |(bbSums r b i l (mn, mx)).2 - (mx + (l.map fun j => max 0 (r (b.orient.elem j i * b.size.elem j))).sum)| ≤
      l.length * (2 * 2 ^ (-53 : ℤ)) * (|mx| + (l.map fun j => |r (b.orient.elem j i * b.size.elem j)|).sum) := by
  induction l generalizing mn mx with
  | nil => simp [bbSums]
  | cons j js ih =>
    rw [List.length_cons] at hl
    have hl' : (js.length : ℝ) * (2 * 2 ^ (-53 : ℤ)) ≤ 1 := by push_cast at hl; linarith [show (0 : ℝ) ≤ 2 ^ (-53 : ℤ) by positivity]
    have u0 : (0 : ℝ) ≤ 2 ^ (-53 : ℤ) := by positivity
    have hS : 0 ≤ (js.map fun j => |r (b.orient.elem j i * b.size.elem j)|).sum := List.sum_nonneg (by simp)
    simp only [bbSums, List.map_cons, List.sum_cons, List.length_cons]
    have grow : ∀ {x y : ℝ}, 0 ≤ x → js.length * (2 * 2 ^ (-53 : ℤ)) * (|y| + (js.map fun j => |r (b.orient.elem j i * b.size.elem j)|).sum) ≤
        (js.length + 1 : ℕ) * (2 * 2 ^ (-53 : ℤ)) * (|y| + (x + (js.map fun j => |r (b.orient.elem j i * b.size.elem j)|).sum)) := by
      intro x y hx
      refine mul_le_mul (mul_le_mul_of_nonneg_right (by push_cast; linarith) (by linarith)) (by linarith) (by positivity) (by positivity)
    split_ifs with h
    · obtain ⟨i1, i2⟩ := ih hl' (r (mn + r (b.orient.elem j i * b.size.elem j))) mx
      rw [min_eq_right h.le, max_eq_left h.le]
      refine ⟨bb_step r hl' hS i1, ?_⟩
      rw [zero_add]
      exact i2.trans (grow (abs_nonneg _))
    · obtain ⟨i1, i2⟩ := ih hl' mn (r (mx + r (b.orient.elem j i * b.size.elem j)))
      rw [min_eq_left (not_lt.1 h), max_eq_right (not_lt.1 h)]
      refine ⟨?_, bb_step r hl' hS i2⟩
      rw [zero_add]
      exact i1.trans (grow (abs_nonneg _))

/-- Between the corner and the computed bounds there is no surprise when the corner consists of doubles. -/
theorem bbSums_order (r : Rounding 53) (b : RBox n) (i : Fin n) (l : List (Fin n)) {mn mx : ℝ} (h1 : IsFl 53 mn) (h2 : IsFl 53 mx) :
    (bbSums r b i l (mn, mx)).1 ≤ mn ∧ mx ≤ (bbSums r b i l (mn, mx)).2 := by
  induction l generalizing mn mx with
  | nil => exact ⟨le_rfl, le_rfl⟩
  | cons j js ih =>
    simp only [bbSums]
    split_ifs with h
    · obtain ⟨i1, i2⟩ := ih (r.isFl _) h2 (mn := r (mn + r (b.orient.elem j i * b.size.elem j)))
      exact ⟨i1.trans (r.le_fl h1 (by linarith)), i2⟩
    · obtain ⟨i1, i2⟩ := ih h1 (r.isFl _) (mx := r (mx + r (b.orient.elem j i * b.size.elem j)))
      exact ⟨i1, (r.fl_le h2 (by linarith)).trans i2⟩

theorem min_lip (x y : ℝ) : |min 0 x - min 0 y| ≤ |x - y| := by
  have := abs_min_sub_min_le_max 0 x 0 y
  rwa [sub_self, abs_zero, max_eq_right (abs_nonneg _)] at this

theorem max_lip (x y : ℝ) : |max 0 x - max 0 y| ≤ |x - y| := by
  have := abs_max_sub_max_le_max 0 x 0 y
  rwa [sub_self, abs_zero, max_eq_right (a := (0 : ℝ)) (b := |x - y|) (abs_nonneg _)] at this

/-- The computed bounds of a rotated box against those of the exact one. -/
theorem rbBox_err (r : Rounding 53) (b : RBox n) (R : Matrix (Fin n) (Fin n) ℝ) (E : ℝ) (hn : n < 2 ^ 52) (hR : Rᵀ * R = 1)
    (h0 : 2 * n * (n + 1) * 2 ^ (-52 : ℤ) ≤ E) (h1 : E ≤ 1 / 4) (hm : Stands b.orient.elem R (E - 2 * n * (n + 1) * 2 ^ (-52 : ℤ))) (i : Fin n) :
    |(rbBox r b).low.elem i - (b.corner.elem i + ∑ j, min 0 (R j i * b.size.elem j))| ≤ E * len b.size.elem + n * 2 ^ (-52 : ℤ) * |b.corner.elem i| ∧
    |(rbBox r b).high.elem i - (b.corner.elem i + ∑ j, max 0 (R j i * b.size.elem j))| ≤ E * len b.size.elem + n * 2 ^ (-52 : ℤ) * |b.corner.elem i| := by
  have hn1 : 1 ≤ n := by have := i.isLt; omega
  have hκ : (0 : ℝ) ≤ 2 * n * (n + 1) * 2 ^ (-52 : ℤ) := by positivity
  have h54 : 1 + (E - 2 * n * (n + 1) * 2 ^ (-52 : ℤ)) ≤ 5 / 4 := by
    have := (sub_le_self E hκ).trans h1
    generalize E - 2 * n * (n + 1) * 2 ^ (-52 : ℤ) = x at this ⊢
    linarith
  have e52 : (2 : ℝ) ^ (-52 : ℤ) = 2 * 2 ^ (-53 : ℤ) := by norm_num
  have hnu : (n : ℝ) * (2 * 2 ^ (-53 : ℤ)) ≤ 1 := by
    have : (n : ℝ) ≤ 2 ^ 52 := by exact_mod_cast hn.le
    have h := mul_le_mul_of_nonneg_right this (show (0 : ℝ) ≤ 2 * 2 ^ (-53 : ℤ) by positivity)
    exact h.trans (by norm_num)
  have hs := bbSums_err r b i (List.finRange n) (by rw [List.length_finRange]; exact hnu) (b.corner.elem i) (b.corner.elem i)
  rw [List.length_finRange] at hs
  simp only [← List.ofFn_eq_map, List.sum_ofFn] at hs
  have hL := len_nonneg b.size.elem
  -- sums over the column
  have c1 : ∑ j, |b.orient.elem j i * b.size.elem j| ≤ 5 / 4 * len b.size.elem :=
    (col_abs_le (fun j => b.orient.elem j i) _).trans (mul_le_mul_of_nonneg_right ((stands_col hR hm i).trans h54) hL)
  have c2 : ∑ j, |(b.orient.elem j i - R j i) * b.size.elem j| ≤ (E - 2 * n * (n + 1) * 2 ^ (-52 : ℤ)) * len b.size.elem := by
    refine (col_abs_le (fun j => b.orient.elem j i - R j i) _).trans (mul_le_mul_of_nonneg_right ?_ hL)
    have := hm (Pi.single i 1)
    rwa [len_single, mul_one, mulVec_single_one, mulVec_single_one] at this
  have c3 : ∀ j, |r (b.orient.elem j i * b.size.elem j) - R j i * b.size.elem j| ≤
      2 ^ (-53 : ℤ) * |b.orient.elem j i * b.size.elem j| + |(b.orient.elem j i - R j i) * b.size.elem j| := fun j => by
    have h := r.err pos53 (b.orient.elem j i * b.size.elem j)
    rw [u53] at h
    have := abs_add_le (r (b.orient.elem j i * b.size.elem j) - b.orient.elem j i * b.size.elem j) ((b.orient.elem j i - R j i) * b.size.elem j)
    rw [show r (b.orient.elem j i * b.size.elem j) - b.orient.elem j i * b.size.elem j + (b.orient.elem j i - R j i) * b.size.elem j =
      r (b.orient.elem j i * b.size.elem j) - R j i * b.size.elem j by ring] at this
    linarith
  have c4 : ∑ j, |r (b.orient.elem j i * b.size.elem j) - R j i * b.size.elem j| ≤
      2 ^ (-53 : ℤ) * (5 / 4 * len b.size.elem) + (E - 2 * n * (n + 1) * 2 ^ (-52 : ℤ)) * len b.size.elem := by
    refine (Finset.sum_le_sum fun j _ => c3 j).trans ?_
    rw [Finset.sum_add_distrib, ← Finset.mul_sum]
    exact add_le_add (mul_le_mul_of_nonneg_left c1 (by positivity)) c2
  have c5 : ∑ j, |r (b.orient.elem j i * b.size.elem j)| ≤ 4 / 3 * len b.size.elem := by
    have : ∀ j, |r (b.orient.elem j i * b.size.elem j)| ≤ (1 + 2 ^ (-53 : ℤ)) * |b.orient.elem j i * b.size.elem j| := fun j => by
      have h := r.err pos53 (b.orient.elem j i * b.size.elem j)
      rw [u53] at h
      have := abs_add_le (r (b.orient.elem j i * b.size.elem j) - b.orient.elem j i * b.size.elem j) (b.orient.elem j i * b.size.elem j)
      rw [sub_add_cancel] at this
      linarith
    refine (Finset.sum_le_sum fun j _ => this j).trans ?_
    rw [← Finset.mul_sum]
    refine (mul_le_mul_of_nonneg_left c1 (by positivity)).trans ?_
    rw [← mul_assoc]
    exact mul_le_mul_of_nonneg_right (by norm_num) hL
  have fin : ∀ {x y z : ℝ}, |x - (b.corner.elem i + y)| ≤ n * (2 * 2 ^ (-53 : ℤ)) * (|b.corner.elem i| + ∑ j, |r (b.orient.elem j i * b.size.elem j)|) →
      |y - z| ≤ ∑ j, |r (b.orient.elem j i * b.size.elem j) - R j i * b.size.elem j| →
      |x - (b.corner.elem i + z)| ≤ E * len b.size.elem + n * 2 ^ (-52 : ℤ) * |b.corner.elem i| := by
    intro x y z hx hyz
    have t := abs_add_le (x - (b.corner.elem i + y)) (y - z)
    rw [show x - (b.corner.elem i + y) + (y - z) = x - (b.corner.elem i + z) by ring] at t
    have hyz' := hyz.trans c4
    have n1 : (1 : ℝ) ≤ n := by exact_mod_cast hn1
    have u0 : (0 : ℝ) ≤ 2 ^ (-53 : ℤ) := by positivity
    rw [e52] at hyz' ⊢
    generalize (2 : ℝ) ^ (-53 : ℤ) = u at *
    have hx' := hx.trans (mul_le_mul_of_nonneg_left (add_le_add_right c5 _) (by positivity))
    generalize len b.size.elem = L at *
    generalize (n : ℝ) = n at *
    have q : 0 ≤ (u * L) := mul_nonneg u0 hL
    have q2 : 0 ≤ (4 * n * (n + 1) - 8 / 3 * n - 5 / 4) * (u * L) := mul_nonneg (by nlinarith) q
    nlinarith
  refine ⟨fin hs.1 ?_, fin hs.2 ?_⟩
  · rw [← Finset.sum_sub_distrib]
    exact (Finset.abs_sum_le_sum_abs _ _).trans (Finset.sum_le_sum fun j _ => min_lip _ _)
  · rw [← Finset.sum_sub_distrib]
    exact (Finset.abs_sum_le_sum_abs _ _).trans (Finset.sum_le_sum fun j _ => max_lip _ _)

end Fl

/-- C135, bounding box: computed in doubles it holds every point of the exact box up to the stated margin, and none of its faces is farther out than that margin
beyond the exact box. When the corner of the box consists of doubles the bounding box holds that corner and is not inside out. -/
theorem C135_bounding_box (r : Rounding 53) (b : RBox n) (R : Matrix (Fin n) (Fin n) ℝ) (E : ℝ) (hn : n < 2 ^ 52) (hR : Rᵀ * R = 1)
    (h0 : 2 * n * (n + 1) * 2 ^ (-52 : ℤ) ≤ E) (h1 : E ≤ 1 / 4) (hm : Stands b.orient.elem R (E - 2 * n * (n + 1) * 2 ^ (-52 : ℤ))) :
    (∀ x ∈ turnedBox b.corner.elem b.size.elem R 0, ∀ i,
      (Fl.rbBox r b).low.elem i - (E * len b.size.elem + n * 2 ^ (-52 : ℤ) * |b.corner.elem i|) ≤ x i ∧
      x i ≤ (Fl.rbBox r b).high.elem i + (E * len b.size.elem + n * 2 ^ (-52 : ℤ) * |b.corner.elem i|)) ∧
    (∀ i, (∃ x ∈ turnedBox b.corner.elem b.size.elem R 0, |x i - (Fl.rbBox r b).low.elem i| ≤ E * len b.size.elem + n * 2 ^ (-52 : ℤ) * |b.corner.elem i|) ∧
      ∃ x ∈ turnedBox b.corner.elem b.size.elem R 0, |x i - (Fl.rbBox r b).high.elem i| ≤ E * len b.size.elem + n * 2 ^ (-52 : ℤ) * |b.corner.elem i|) ∧
    ((∀ i, IsFl 53 (b.corner.elem i)) → Ordered (Fl.rbBox r b) ∧ b.corner.elem ∈ boxSet (Fl.rbBox r b)) := by
  have hR' : R * Rᵀ = 1 := mul_eq_one_comm.1 hR
  have at' : ∀ x i, x i = b.corner.elem i + ∑ j, R j i * (R *ᵥ (x - b.corner.elem)) j := fun x i => by
    have e : x - b.corner.elem = Rᵀ *ᵥ (R *ᵥ (x - b.corner.elem)) := by rw [mulVec_mulVec, hR, one_mulVec]
    have e' : (Rᵀ *ᵥ (R *ᵥ (x - b.corner.elem))) i = ∑ j, R j i * (R *ᵥ (x - b.corner.elem)) j := rfl
    rw [← e', ← e]; simp
  have mk : ∀ t : Fin n → ℝ, R *ᵥ (b.corner.elem + Rᵀ *ᵥ t - b.corner.elem) = t := fun t => by
    rw [add_sub_cancel_left, mulVec_mulVec, hR', one_mulVec]
  have pick : ∀ (i : Fin n) (f : Fin n → Prop) [DecidablePred f], ∃ x ∈ turnedBox b.corner.elem b.size.elem R 0,
      x i = b.corner.elem i + ∑ j, R j i * (if f j then b.size.elem j else 0) := fun i f _ => by
    refine ⟨b.corner.elem + Rᵀ *ᵥ fun j => if f j then b.size.elem j else 0, fun j => ?_, rfl⟩
    rw [mk, sub_zero, add_zero]
    split_ifs
    · exact ⟨min_le_right _ _, le_max_right _ _⟩
    · exact ⟨min_le_left _ _, le_max_left _ _⟩
  refine ⟨fun x hx i => ?_, fun i => ⟨?_, ?_⟩, fun hf => ?_⟩
  · obtain ⟨e1, e2⟩ := Fl.rbBox_err r b R E hn hR h0 h1 hm i
    have a1 : ∑ j, min 0 (R j i * b.size.elem j) ≤ ∑ j, R j i * (R *ᵥ (x - b.corner.elem)) j := by
      refine Finset.sum_le_sum fun j _ => ?_
      have := hx j
      rw [sub_zero, add_zero] at this
      generalize (R *ᵥ (x - b.corner.elem)) j = t at *
      generalize b.size.elem j = s at *
      generalize R j i = a at *
      rcases le_total 0 s with h | h <;> rcases le_total 0 a with g | g
      · rw [min_eq_left h] at this; exact (min_le_left _ _).trans (mul_nonneg g this.1)
      · rw [max_eq_right h] at this; exact (min_le_right _ _).trans (by nlinarith)
      · rw [min_eq_right h] at this; exact (min_le_right _ _).trans (by nlinarith)
      · rw [max_eq_left h] at this; exact (min_le_left _ _).trans (by nlinarith)
    have a2 : ∑ j, R j i * (R *ᵥ (x - b.corner.elem)) j ≤ ∑ j, max 0 (R j i * b.size.elem j) := by
      refine Finset.sum_le_sum fun j _ => ?_
      have := hx j
      rw [sub_zero, add_zero] at this
      generalize (R *ᵥ (x - b.corner.elem)) j = t at *
      generalize b.size.elem j = s at *
      generalize R j i = a at *
      rcases le_total 0 s with h | h <;> rcases le_total 0 a with g | g
      · rw [max_eq_right h] at this; exact le_trans (by nlinarith) (le_max_right _ _)
      · rw [min_eq_left h] at this; exact le_trans (by nlinarith) (le_max_left _ _)
      · rw [max_eq_left h] at this; exact le_trans (by nlinarith) (le_max_left _ _)
      · rw [min_eq_right h] at this; exact le_trans (by nlinarith) (le_max_right _ _)
    have ex := at' x i
    have e1' := _root_.abs_le.1 e1
    have e2' := _root_.abs_le.1 e2
    constructor <;> linarith
  · obtain ⟨x, hx, e⟩ := pick i fun j => R j i * b.size.elem j < 0
    refine ⟨x, hx, ?_⟩
    rw [abs_sub_comm, e]
    have : ∑ j, R j i * (if R j i * b.size.elem j < 0 then b.size.elem j else 0) = ∑ j, min 0 (R j i * b.size.elem j) :=
      Finset.sum_congr rfl fun j _ => by
        split_ifs with h
        · rw [min_eq_right h.le]
        · rw [min_eq_left (not_lt.1 h), mul_zero]
    rw [this]
    exact (Fl.rbBox_err r b R E hn hR h0 h1 hm i).1
  · obtain ⟨x, hx, e⟩ := pick i fun j => 0 < R j i * b.size.elem j
    refine ⟨x, hx, ?_⟩
    rw [abs_sub_comm, e]
    have : ∑ j, R j i * (if 0 < R j i * b.size.elem j then b.size.elem j else 0) = ∑ j, max 0 (R j i * b.size.elem j) :=
      Finset.sum_congr rfl fun j _ => by
        split_ifs with h
        · rw [max_eq_right h.le]
        · rw [max_eq_left (not_lt.1 h), mul_zero]
    rw [this]
    exact (Fl.rbBox_err r b R E hn hR h0 h1 hm i).2
  · have h := fun i => Fl.bbSums_order r b i (List.finRange n) (hf i) (hf i)
    exact ⟨fun i => (h i).1.trans (h i).2, fun i => h i⟩

/-- C135, bounding sphere: computed in doubles, enlarged by a factor `1 + epsilon` and by the stated margin, it holds the exact box. -/
theorem C135_bounding_sphere (r : Rounding 53) (b : RBox n) (R : Matrix (Fin n) (Fin n) ℝ) (E : ℝ) (hn : n ≤ 50) (hR : Rᵀ * R = 1)
    (h0 : 2 * n * (n + 1) * 2 ^ (-52 : ℤ) ≤ E) (h1 : E ≤ 1 / 4) (hm : Stands b.orient.elem R (E - 2 * n * (n + 1) * 2 ^ (-52 : ℤ))) :
    ∀ x ∈ turnedBox b.corner.elem b.size.elem R 0, eucl x (Fl.rbSphere r b).center.elem ≤
      (Fl.rbSphere r b).radius * (1 + epsilon) + ((E + 2 ^ (-51 : ℤ)) * (len b.size.elem / 2) + 2 ^ (-53 : ℤ) * len b.corner.elem) := by
  intro x hx
  have hc := (C135_corner r b R E (by omega) hR h0 h1 hm).2.2
  have hrad : Close 53 (1 + n + 1 + 1) (Fl.rbSphere r b).radius (len b.size.elem / 2) := by
    have := ((Fl.mag_close r b.size).div Fl.pos53 (Close.refl Fl.pos53 0 2)).round Fl.pos53 r
    exact this.mono Fl.pos53 (by omega)
  have hcen : (Fl.rbSphere r b).center.elem = (Fl.rbCenter r b).elem := by
    show (if _ then _ else _ : Pt n).elem = _
    split_ifs <;> rfl
  have hL := len_nonneg b.size.elem
  have hrad' : len b.size.elem / 2 ≤ (Fl.rbSphere r b).radius * (1 + epsilon) := by
    have he := epsilon_pos
    have h2 := Fl.le_of_close (Close.refl Fl.pos53 0 (Fl.rbSphere r b).radius) hrad (hrad.nonneg Fl.pos53 (by linarith)) (by linarith) le_rfl
    obtain ⟨t, t1, t2, e⟩ := hrad
    have hf := Fl.fudge (k := 1 + n + 1 + 1) (by omega)
    rw [e]
    have t3 : (1 : ℝ) ≤ t * (1 + epsilon) := by
      have := mul_le_mul_of_nonneg_right t1 (show 0 ≤ 1 + epsilon by linarith)
      linarith
    nlinarith
  rw [hcen, eucl_eq_len]
  have hR' : R * Rᵀ = 1 := mul_eq_one_comm.1 hR
  have key : len (x - fun k => b.corner.elem k + ∑ j : Fin n, b.size.elem j / 2 * R j k) ≤ len b.size.elem / 2 := by
    have e : R *ᵥ (x - fun k => b.corner.elem k + ∑ j : Fin n, b.size.elem j / 2 * R j k) = R *ᵥ (x - b.corner.elem) - fun j => b.size.elem j / 2 := by
      have : (fun k => b.corner.elem k + ∑ j : Fin n, b.size.elem j / 2 * R j k) = b.corner.elem + Rᵀ *ᵥ fun j => b.size.elem j / 2 := by
        ext k; simp only [Pi.add_apply, mulVec, dotProduct, Matrix.transpose_apply]
        congr 1; exact Finset.sum_congr rfl fun j _ => mul_comm _ _
      rw [this, ← sub_sub, mulVec_sub, mulVec_mulVec, hR', one_mulVec]
    rw [← Fl.len_orth hR, e]
    have := Fl.len_mono (a := R *ᵥ (x - b.corner.elem) - fun j => b.size.elem j / 2) (b := b.size.elem) (c := 1 / 2) (by norm_num) fun j => ?_
    · linarith
    · have h := hx j
      rw [sub_zero, add_zero] at h
      rw [Pi.sub_apply, _root_.abs_le]
      rcases le_total 0 (b.size.elem j) with g | g
      · rw [min_eq_left g, max_eq_right g] at h
        rw [abs_of_nonneg g]; constructor <;> linarith
      · rw [min_eq_right g, max_eq_left g] at h
        rw [abs_of_nonpos g]; constructor <;> linarith
  have t := len_triangle x (fun k => b.corner.elem k + ∑ j : Fin n, b.size.elem j / 2 * R j k) (Fl.rbCenter r b).elem
  have sw : len ((fun k => b.corner.elem k + ∑ j : Fin n, b.size.elem j / 2 * R j k) - (Fl.rbCenter r b).elem) =
      len ((Fl.rbCenter r b).elem - fun k => b.corner.elem k + ∑ j : Fin n, b.size.elem j / 2 * R j k) := by
    rw [← eucl_eq_len, ← eucl_eq_len, eucl_comm]
  rw [sw] at t
  linarith

end WFMath
