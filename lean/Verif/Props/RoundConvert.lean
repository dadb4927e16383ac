/- C131: rotation matrices turned into quaternions, in floating point. -/
import Verif.Props.RoundBuild
import Verif.Model.RoundedQuat

namespace WFMath
open Matrix Spec Quaternion
open scoped Quaternion

namespace Fl

theorem sum3 (r : Rounding 53) (f : Fin 3 → ℝ) : sum r f = r (r (r (0 + f 0) + f 1) + f 2) := by
  simp [sum, List.finRange_succ]

/-- The root, half its inverse, and a product with it: `T'` is close to `4 p²`, `d'` to `4 p t`. -/
theorem root_core (r : Rounding 53) {T' p τ : ℝ} (hp : 9 / 40 ≤ p ^ 2) (hp1 : p ^ 2 ≤ 1) (h : |T' - 4 * p ^ 2| ≤ τ) (hτ : τ ≤ 1 / 50) :
    |r (Real.sqrt T') - 2 * (|p|)| ≤ τ * (3 / 5) + 2 ^ (-53 : ℤ) * 3 ∧ |r (1 / 2 / r (Real.sqrt T')) - 1 / (4 * |p|)| ≤ τ * (2 / 5) + 2 ^ (-53 : ℤ) * 4 ∧
    0 < r (Real.sqrt T') := by
  have hτ0 := (abs_nonneg _).trans h
  have ha := abs_le.1 h
  set P := |p| with hP
  have hPsq : P ^ 2 = p ^ 2 := sq_abs p
  have hP0 : 0 ≤ P := abs_nonneg p
  rw [← hPsq] at hp hp1 ha
  have hP1 : 47 / 100 ≤ P := by nlinarith
  have hP2 : P ≤ 1 := by nlinarith
  have hT0 : 0 ≤ T' := by linarith
  set S := Real.sqrt T' with hS
  have hSsq : S ^ 2 = T' := Real.sq_sqrt hT0
  have hS0 : 0 ≤ S := Real.sqrt_nonneg _
  have hS1 : 93 / 100 ≤ S := by nlinarith
  have hS2 : S ≤ 21 / 10 := by nlinarith
  have hd : |S - 2 * P| ≤ τ * (27 / 50) := by
    rw [abs_le]
    constructor
    · nlinarith
    · nlinarith
  have hrr : ∀ x, |r x - x| ≤ 2 ^ (-53 : ℤ) * |x| := fun x => r.err pos53 x
  have hr := hrr S
  rw [abs_of_nonneg hS0] at hr
  have hu : (2 : ℝ) ^ (-53 : ℤ) ≤ 1 / 1000000 := by norm_num
  have hu0 : (0 : ℝ) < 2 ^ (-53 : ℤ) := by positivity
  generalize (2 : ℝ) ^ (-53 : ℤ) = w at *
  have h1 : |r S - 2 * P| ≤ τ * (27 / 50) + w * (21 / 10) := by
    have := abs_sub_le (r S) S (2 * P)
    have : w * S ≤ w * (21 / 10) := by gcongr
    linarith
  set s := r S with hs
  have h1' := abs_le.1 h1
  have hs1 : 9 / 10 ≤ s := by linarith
  have hs0 : 0 < s := by linarith
  refine ⟨h1.trans (by nlinarith), ?_, hs0⟩
  have e : 1 / 2 / s - 1 / (4 * P) = (2 * P - s) / (4 * P * s) := by
    have : P ≠ 0 := by linarith
    field_simp
    ring
  have h2 : |1 / 2 / s - 1 / (4 * P)| ≤ |s - 2 * P| * (6 / 10) := by
    rw [e, abs_div, abs_sub_comm, abs_of_pos (show 0 < 4 * P * s by positivity), div_le_iff₀ (by positivity)]
    have : 1 ≤ 6 / 10 * (4 * P * s) := by nlinarith
    nlinarith [abs_nonneg (s - 2 * P)]
  have hq : |1 / 2 / s| ≤ 6 / 10 := by
    rw [abs_of_pos (by positivity), div_le_iff₀ hs0]; linarith
  have h3 := hrr (1 / 2 / s)
  have h4 : w * |1 / 2 / s| ≤ w * (6 / 10) := by gcongr
  have := abs_sub_le (r (1 / 2 / s)) (1 / 2 / s) (1 / (4 * P))
  nlinarith

/-- `d' ≈ 4 p t`, `g' ≈ 1 / (4 |p|)`. -/
theorem comp_core (r : Rounding 53) {d' g' p t τ : ℝ} (hp : 9 / 40 ≤ p ^ 2) (hp1 : p ^ 2 ≤ 1) (ht : |4 * p * t| ≤ 2) (h : |d' - 4 * p * t| ≤ τ) (hτ : τ ≤ 1 / 50)
    (hg : |g' - 1 / (4 * |p|)| ≤ τ * (2 / 5) + 2 ^ (-53 : ℤ) * 4) :
    |r (d' * g') - p / |p| * t| ≤ τ * 2 + 2 ^ (-53 : ℤ) * 16 := by
  have hτ0 := (abs_nonneg _).trans h
  have hP0 : 0 ≤ |p| := abs_nonneg p
  have hPsq : |p| ^ 2 = p ^ 2 := sq_abs p
  have hP1 : 47 / 100 ≤ |p| := by nlinarith
  have hb : |1 / (4 * |p|)| ≤ 6 / 10 := by
    rw [abs_of_pos (by positivity), div_le_iff₀ (by positivity)]; linarith
  have := err_mul r h hg ht hb
  have e : 4 * p * t * (1 / (4 * |p|)) = p / |p| * t := by
    have : |p| ≠ 0 := by linarith
    field_simp
  rw [e] at this
  refine this.trans ?_
  have hu : (2 : ℝ) ^ (-53 : ℤ) ≤ 1 / 1000000 := by norm_num
  have hu0 : (0 : ℝ) < 2 ^ (-53 : ℤ) := by positivity
  generalize (2 : ℝ) ^ (-53 : ℤ) = w at *
  have k1 : τ * τ ≤ τ * (1 / 50) := mul_le_mul_of_nonneg_left hτ hτ0
  have k2 : w * τ ≤ w * (1 / 50) := mul_le_mul_of_nonneg_left hτ hu0.le
  have k3 : w * w ≤ w * (1 / 1000000) := mul_le_mul_of_nonneg_left hu hu0.le
  have hX : τ * (6 / 10) + 2 * (τ * (2 / 5) + w * 4) + τ * (τ * (2 / 5) + w * 4) ≤ τ * (3 / 2) + w * 9 := by nlinarith
  have hX2 : w * (2 * (6 / 10) + (τ * (6 / 10) + 2 * (τ * (2 / 5) + w * 4) + τ * (τ * (2 / 5) + w * 4))) ≤ w * 2 :=
    mul_le_mul_of_nonneg_left (by linarith) hu0.le
  linarith

/-- Entries of the matrix of a unit quaternion, about the index `i`. -/
theorem quat_pivot (q : Quat) (hq : ‖toH q‖ = 1) (i : Fin 3) :
    let B := RotMat.quatArr q
    let v := q.vec.elem
    1 + B i i - B (i + 1) (i + 1) - B (i + 1 + 1) (i + 1 + 1) = 4 * v i ^ 2 ∧ B (i + 1 + 1) (i + 1) - B (i + 1) (i + 1 + 1) = 4 * v i * q.w ∧
    B i (i + 1) + B (i + 1) i = 4 * v i * v (i + 1) ∧ B i (i + 1 + 1) + B (i + 1 + 1) i = 4 * v i * v (i + 1 + 1) ∧
    B i i - B (i + 1) (i + 1) = 2 * (v i ^ 2 - v (i + 1) ^ 2) ∧ B i i - B (i + 1 + 1) (i + 1 + 1) = 2 * (v i ^ 2 - v (i + 1 + 1) ^ 2) ∧
    v i ^ 2 + v (i + 1) ^ 2 + v (i + 1 + 1) ^ 2 + q.w ^ 2 = 1 := by
  have hn := sq_of_norm hq
  intro B v
  fin_cases i <;> simp [B, v, RotMat.quatArr] <;> refine ⟨?_, ?_, ?_, ?_, ?_, ?_, ?_⟩ <;> first | ring1 | linear_combination hn

theorem abs_entry {B : Matrix (Fin 3) (Fin 3) ℝ} (h : SO3 B) (i j : Fin 3) : |B i j| ≤ 1 := by
  have h1 := h.row i i
  simp only [if_true] at h1
  rw [abs_le]
  constructor <;> fin_cases j <;> simp <;> nlinarith [sq_nonneg (B i 0), sq_nonneg (B i 1), sq_nonneg (B i 2)]

/-- Three rounded sums. -/
theorem sum_core (r : Rounding 53) {a0 a1 a2 b0 b1 b2 η : ℝ} (h0 : |a0 - b0| ≤ η) (h1 : |a1 - b1| ≤ η) (h2 : |a2 - b2| ≤ η) (c0 : |b0| ≤ 1) (c1 : |b1| ≤ 1) (c2 : |b2| ≤ 1)
    (hη : η ≤ 1 / 1000) :
    |r (r (r (0 + a0) + a1) + a2) - (b0 + b1 + b2)| ≤ 3 * η + 2 ^ (-53 : ℤ) * 8 ∧
    |r (r (r (r (0 + a0) + a1) + a2) + 1) - (b0 + b1 + b2 + 1)| ≤ 3 * η + 2 ^ (-53 : ℤ) * 16 ∧
    |r (r (r (1 + a0) - a1) - a2) - (1 + b0 - b1 - b2)| ≤ 3 * η + 2 ^ (-53 : ℤ) * 16 := by
  have hη0 := (abs_nonneg _).trans h0
  have e1 := err_add r (show |(0 : ℝ) - 0| ≤ 0 by simp) h0 (show |(0 : ℝ)| ≤ 0 by simp) c0
  rw [zero_add b0] at e1
  have e2 := err_add r e1 h1 c0 c1
  have b2' : |b0 + b1| ≤ 2 := (abs_add_le _ _).trans (by linarith)
  have e3 := err_add r e2 h2 b2' c2
  have b3' : |b0 + b1 + b2| ≤ 3 := (abs_add_le _ _).trans (by linarith)
  have e4 := err_add r e3 (show |(1 : ℝ) - 1| ≤ 0 by simp) b3' (show |(1 : ℝ)| ≤ 1 by simp)
  have f1 := err_add r (show |(1 : ℝ) - 1| ≤ 0 by simp) h0 (show |(1 : ℝ)| ≤ 1 by simp) c0
  have d1 : |1 + b0| ≤ 2 := (abs_add_le _ _).trans (by rw [abs_one]; linarith)
  have f2 := err_sub r f1 h1 d1 c1
  have d2 : |1 + b0 - b1| ≤ 3 := (abs_sub _ _).trans (by linarith)
  have f3 := err_sub r f2 h2 d2 c2
  have hu : (2 : ℝ) ^ (-53 : ℤ) ≤ 1 / 1000000 := by norm_num
  have hu0 : (0 : ℝ) < 2 ^ (-53 : ℤ) := by positivity
  generalize (2 : ℝ) ^ (-53 : ℤ) = w at *
  have step : ∀ {x y : ℝ}, x ≤ y → w * x ≤ w * y := fun h => mul_le_mul_of_nonneg_left h hu0.le
  refine ⟨e3.trans ?_, e4.trans ?_, f3.trans ?_⟩
  · have s1 : w * (0 + 1 + 0 + η) ≤ w * (11 / 10) := step (by linarith)
    have s2 : w * (1 + 1 + (0 + η + w * (0 + 1 + 0 + η)) + η) ≤ w * (22 / 10) := step (by linarith)
    have s3 : w * (2 + 1 + (0 + η + w * (0 + 1 + 0 + η) + η + w * (1 + 1 + (0 + η + w * (0 + 1 + 0 + η)) + η)) + η) ≤ w * (33 / 10) := step (by linarith)
    linarith
  · have s1 : w * (0 + 1 + 0 + η) ≤ w * (11 / 10) := step (by linarith)
    have s2 : w * (1 + 1 + (0 + η + w * (0 + 1 + 0 + η)) + η) ≤ w * (22 / 10) := step (by linarith)
    have s3 : w * (2 + 1 + (0 + η + w * (0 + 1 + 0 + η) + η + w * (1 + 1 + (0 + η + w * (0 + 1 + 0 + η)) + η)) + η) ≤ w * (33 / 10) := step (by linarith)
    have s4 := @step (3 + 1 + (0 + η + w * (0 + 1 + 0 + η) + η + w * (1 + 1 + (0 + η + w * (0 + 1 + 0 + η)) + η) + η + w * (2 + 1 + (0 + η + w * (0 + 1 + 0 + η) + η + w * (1 + 1 + (0 + η + w * (0 + 1 + 0 + η)) + η)) + η)) + 0) (44 / 10) (by linarith)
    linarith
  · have s1 : w * (1 + 1 + 0 + η) ≤ w * (21 / 10) := step (by linarith)
    have s2 := @step (2 + 1 + (0 + η + w * (1 + 1 + 0 + η)) + η) (33 / 10) (by linarith)
    have s3 := @step (3 + 1 + (0 + η + w * (1 + 1 + 0 + η) + η + w * (2 + 1 + (0 + η + w * (1 + 1 + 0 + η)) + η)) + η) (44 / 10) (by linarith)
    linarith

/-- Sums and differences of two entries. -/
theorem two_core (r : Rounding 53) {a0 a1 b0 b1 η : ℝ} (h0 : |a0 - b0| ≤ η) (h1 : |a1 - b1| ≤ η) (c0 : |b0| ≤ 1) (c1 : |b1| ≤ 1) (hη : η ≤ 1 / 1000) :
    |r (a0 + a1) - (b0 + b1)| ≤ 3 * η + 2 ^ (-53 : ℤ) * 16 ∧ |r (a0 - a1) - (b0 - b1)| ≤ 3 * η + 2 ^ (-53 : ℤ) * 16 := by
  have hη0 := (abs_nonneg _).trans h0
  have e1 := err_add r h0 h1 c0 c1
  have e2 := err_sub r h0 h1 c0 c1
  have hu0 : (0 : ℝ) < 2 ^ (-53 : ℤ) := by positivity
  generalize (2 : ℝ) ^ (-53 : ℤ) = w at *
  have s1 : w * (1 + 1 + η + η) ≤ w * 3 := mul_le_mul_of_nonneg_left (by linarith) hu0.le
  exact ⟨e1.trans (by linarith), e2.trans (by linarith)⟩

/-- The pivot: a root of `4 p²` and products with half its inverse. -/
theorem pivot_core (r : Rounding 53) {T' p η : ℝ} (hη0 : 0 ≤ η) (hη : η ≤ 1 / 1000) (hp : 9 / 40 ≤ p ^ 2) (hp1 : p ^ 2 ≤ 1) (h : |T' - 4 * p ^ 2| ≤ 3 * η + 2 ^ (-53 : ℤ) * 16) :
    0 < r (Real.sqrt T') ∧ |r (Real.sqrt T') / 2 - p / |p| * p| ≤ 6 * η + 2 ^ (-53 : ℤ) * 48 ∧
    ∀ {d' t : ℝ}, p ^ 2 + t ^ 2 ≤ 1 → |d' - 4 * p * t| ≤ 3 * η + 2 ^ (-53 : ℤ) * 16 → |r (d' * r (1 / 2 / r (Real.sqrt T'))) - p / |p| * t| ≤ 6 * η + 2 ^ (-53 : ℤ) * 48 := by
  have hu : (2 : ℝ) ^ (-53 : ℤ) ≤ 1 / 1000000 := by norm_num
  have hu0 : (0 : ℝ) < 2 ^ (-53 : ℤ) := by positivity
  obtain ⟨h1, h2, h3⟩ := root_core r hp hp1 h (by linarith)
  refine ⟨h3, ?_, fun {d' t} ht hd => ?_⟩
  · have hP0 : 0 ≤ |p| := abs_nonneg p
    have hPsq : |p| ^ 2 = p ^ 2 := sq_abs p
    have hP1 : 47 / 100 ≤ |p| := by nlinarith
    have e : p / |p| * p = |p| := by
      have : |p| ≠ 0 := by linarith
      rw [div_mul_eq_mul_div, ← sq, ← hPsq]; field_simp
    rw [e, show r (Real.sqrt T') / 2 - |p| = (r (Real.sqrt T') - 2 * |p|) * (1 / 2) by ring, abs_mul, abs_of_pos (show (0 : ℝ) < 1 / 2 by norm_num)]
    linarith
  · have := comp_core r hp hp1 (abs_le.2 ⟨by nlinarith [sq_nonneg (p + t)], by nlinarith [sq_nonneg (p - t)]⟩) hd (by linarith) h2
    linarith

theorem sgn_cases {p : ℝ} (hp : 9 / 40 ≤ p ^ 2) : p / |p| = 1 ∨ p / |p| = -1 := by
  rcases lt_trichotomy p 0 with h | h | h
  · right; rw [abs_of_neg h, div_neg, div_self h.ne]
  · rw [h] at hp; norm_num at hp
  · left; rw [abs_of_pos h, div_self h.ne']

theorem fin3_cases (i j : Fin 3) : j = i ∨ j = i + 1 ∨ j = i + 1 + 1 := by fin_cases i <;> fin_cases j <;> simp

/-- Both branches, with the index of the pivot. -/
theorem convert_core (r : Rounding 53) (A : Matrix (Fin 3) (Fin 3) ℝ) (q : Quat) (hq : ‖toH q‖ = 1) {η : ℝ} (hA : ∀ i j, |A i j - RotMat.quatArr q i j| ≤ η) (hη : η ≤ 1 / 1000) :
    let c := fromMatrixComponents r A
    c.2.2 = true ∧ |trace r A - (4 * q.w ^ 2 - 1)| ≤ 3 * η + 2 ^ (-53 : ℤ) * 8 ∧
    (0 < trace r A → ∃ s : ℝ, (s = 1 ∨ s = -1) ∧ |c.1 - s * q.w| ≤ 6 * η + 2 ^ (-53 : ℤ) * 48 ∧
      ∀ j, |c.2.1 j - s * q.vec.elem j| ≤ 6 * η + 2 ^ (-53 : ℤ) * 48) ∧
    (¬ 0 < trace r A → ∃ i : Fin 3, 9 / 40 ≤ q.vec.elem i ^ 2 ∧ ∃ s : ℝ, (s = 1 ∨ s = -1) ∧ |c.1 - s * q.w| ≤ 6 * η + 2 ^ (-53 : ℤ) * 48 ∧
      ∀ j, |c.2.1 j - s * (if j = i then -q.vec.elem j else q.vec.elem j)| ≤ 6 * η + 2 ^ (-53 : ℤ) * 48) := by
  intro c
  have hη0 := (abs_nonneg _).trans (hA 0 0)
  have hu : (2 : ℝ) ^ (-53 : ℤ) ≤ 1 / 1000000 := by norm_num
  have hu0 : (0 : ℝ) < 2 ^ (-53 : ℤ) := by positivity
  have hB := abs_entry (quatArr_so3 hq)
  have hn := sq_of_norm hq
  obtain ⟨t1, t2, -⟩ := sum_core r (hA 0 0) (hA 1 1) (hA 2 2) (hB 0 0) (hB 1 1) (hB 2 2) hη
  have etr : RotMat.quatArr q 0 0 + RotMat.quatArr q 1 1 + RotMat.quatArr q 2 2 = 4 * q.w ^ 2 - 1 := by
    simp [RotMat.quatArr]; linear_combination (-4) * hn
  have ht : trace r A = r (r (r (0 + A 0 0) + A 1 1) + A 2 2) := sum3 r _
  rw [etr] at t1 t2
  rw [sub_add_cancel] at t2
  rw [← ht] at t1 t2
  have hs1 : |trace r A - (4 * q.w ^ 2 - 1)| ≤ 1 / 100 := t1.trans (by linarith)
  by_cases hpos : 0 < trace r A
  · have hw : 9 / 40 ≤ q.w ^ 2 := by have := (abs_le.1 hs1).2; clear t1 t2 hu hu0; linarith
    have hw1 : q.w ^ 2 ≤ 1 := by nlinarith [sq_nonneg (q.vec.elem 0), sq_nonneg (q.vec.elem 1), sq_nonneg (q.vec.elem 2)]
    obtain ⟨p1, p2, p3⟩ := pivot_core r hη0 hη hw hw1 t2
    have hc : c = (r (r (Real.sqrt (r (trace r A + 1))) / 2), ![r (r (A 2 1 - A 1 2) * r (1 / 2 / r (Real.sqrt (r (trace r A + 1))))),
      r (r (A 0 2 - A 2 0) * r (1 / 2 / r (Real.sqrt (r (trace r A + 1))))), r (r (A 1 0 - A 0 1) * r (1 / 2 / r (Real.sqrt (r (trace r A + 1)))))], true) := by
      show fromMatrixComponents r A = _
      unfold fromMatrixComponents
      simp only [gt_iff_lt]
      rw [if_pos hpos]
    refine ⟨by rw [hc], t1, fun _ => ⟨q.w / |q.w|, sgn_cases hw, ?_, fun j => ?_⟩, fun h => absurd hpos h⟩
    · rw [hc]
      show |r (_ / 2) - _| ≤ _
      rw [half_fl r (r.isFl _)]
      exact p2
    · have e : ∀ i j k : Fin 3, RotMat.quatArr q k j - RotMat.quatArr q j k = 4 * q.w * q.vec.elem i → q.w ^ 2 + q.vec.elem i ^ 2 ≤ 1 →
          |r (r (A k j - A j k) * r (1 / 2 / r (Real.sqrt (r (trace r A + 1))))) - q.w / |q.w| * q.vec.elem i| ≤ 6 * η + 2 ^ (-53 : ℤ) * 48 := fun i j k h h' => by
        refine p3 h' ?_
        rw [← h]
        exact (two_core r (hA k j) (hA j k) (hB k j) (hB j k) hη).2
      rw [hc]
      have s0 := sq_nonneg (q.vec.elem 0); have s1 := sq_nonneg (q.vec.elem 1); have s2 := sq_nonneg (q.vec.elem 2)
      fin_cases j
      · exact e 0 1 2 (by simp [RotMat.quatArr]; ring) (by linarith)
      · exact e 1 2 0 (by simp [RotMat.quatArr]; ring) (by linarith)
      · exact e 2 0 1 (by simp [RotMat.quatArr]; ring) (by linarith)
  · set i0 : Fin 3 := if A 1 1 > A 0 0 then 1 else 0 with hi0
    set i : Fin 3 := if A 2 2 > A i0 i0 then 2 else i0 with hi
    have hmax : ∀ j, A j j ≤ A i i := by
      have h0 : A 0 0 ≤ A i0 i0 ∧ A 1 1 ≤ A i0 i0 := by
        rw [hi0]; split_ifs with h
        · exact ⟨h.le, le_refl _⟩
        · exact ⟨le_refl _, not_lt.1 h⟩
      have h1 : A i0 i0 ≤ A i i ∧ A 2 2 ≤ A i i := by
        rw [hi]; split_ifs with h
        · exact ⟨h.le, le_refl _⟩
        · exact ⟨le_refl _, not_lt.1 h⟩
      intro j; fin_cases j
      · exact h0.1.trans h1.1
      · exact h0.2.trans h1.1
      · exact h1.2
    obtain ⟨k1, k2, k3, k4, k5, k6, k7⟩ := quat_pivot q hq i
    set v := q.vec.elem with hv
    have hw : 9 / 40 ≤ v i ^ 2 := by
      have a1 := abs_le.1 (hA i i); have a2 := abs_le.1 (hA (i + 1) (i + 1)); have a3 := abs_le.1 (hA (i + 1 + 1) (i + 1 + 1))
      have m1 := hmax (i + 1); have m2 := hmax (i + 1 + 1)
      have := (abs_le.1 hs1).1
      push Not at hpos
      clear t1 t2 hu hu0
      linarith
    have s0 := sq_nonneg (v i); have s1 := sq_nonneg (v (i + 1)); have s2 := sq_nonneg (v (i + 1 + 1)); have s3 := sq_nonneg q.w
    have hT := (sum_core r (hA i i) (hA (i + 1) (i + 1)) (hA (i + 1 + 1) (i + 1 + 1)) (hB i i) (hB (i + 1) (i + 1)) (hB (i + 1 + 1) (i + 1 + 1)) hη).2.2
    rw [k1] at hT
    obtain ⟨p1, p2, p3⟩ := pivot_core r hη0 hη hw (by linarith) hT
    set S := r (Real.sqrt (r (r (r (1 + A i i) - A (i + 1) (i + 1)) - A (i + 1 + 1) (i + 1 + 1)))) with hS
    have hc : c = (r (r (A (i + 1 + 1) (i + 1) - A (i + 1) (i + 1 + 1)) * r (1 / 2 / S)), (fun l =>
      if l = i then -r (S * (1 / 2)) else if l = i + 1 then r (r (A i (i + 1) + A (i + 1) i) * r (1 / 2 / S)) else r (r (A i (i + 1 + 1) + A (i + 1 + 1) i) * r (1 / 2 / S))),
      decide (S > 0)) := by
      show fromMatrixComponents r A = _
      unfold fromMatrixComponents
      simp only [gt_iff_lt]
      rw [if_neg hpos]
    refine ⟨by rw [hc]; exact decide_eq_true p1, t1, fun h => absurd h hpos, fun _ => ⟨i, hw, v i / |v i|, sgn_cases hw, ?_, fun j => ?_⟩⟩
    · rw [hc]
      refine p3 (by linarith) ?_
      rw [← k2]
      exact (two_core r (hA _ _) (hA _ _) (hB _ _) (hB _ _) hη).2
    · rw [hc]
      rcases fin3_cases i j with h | h | h
      · subst h
        simp only [if_true]
        rw [show S * (1 / 2) = S / 2 by ring, half_fl r (r.isFl _), mul_neg, neg_sub_neg, abs_sub_comm]
        exact p2
      · have h1 : j ≠ i := by rw [h]; intro hc; have := congrArg Fin.val hc; revert this; generalize i = x; fin_cases x <;> simp
        simp only [if_neg h1, if_pos h]
        rw [h]
        refine p3 (by linarith) ?_
        rw [← k3]
        exact (two_core r (hA _ _) (hA _ _) (hB _ _) (hB _ _) hη).1
      · have h1 : j ≠ i := by rw [h]; generalize i = x; fin_cases x <;> simp
        have h2 : j ≠ i + 1 := by rw [h]; generalize i = x; fin_cases x <;> simp
        simp only [if_neg h1, if_neg h2]
        rw [h]
        refine p3 (by linarith) ?_
        rw [← k4]
        exact (two_core r (hA _ _) (hA _ _) (hB _ _) (hB _ _) hη).1

/-- Mirroring the first axis is exact. -/
theorem mirror_elem (r : Rounding 53) (m : RotMat 3) (hfl : ∀ i j, IsFl 53 (m.elem i j)) : (prod r m (RotMat.mirrorAxis 0)).elem = m.elem * diagonal ![-1, 1, 1] := by
  ext i j
  show sum r (fun k => r (m.elem i k * (RotMat.mirrorAxis (0 : Fin 3)).elem k j)) = _
  rw [sum3, Matrix.mul_diagonal]
  have h := r.of_fl (hfl i j)
  have h' := r.of_fl (hfl i j).neg
  fin_cases j <;> simp [RotMat.mirrorAxis] at h h' ⊢ <;> simp [r.zero, h, h']

/-- The matrix of a unit quaternion, by entries. -/
theorem eq_quatArr {u : ℍ[ℝ]} (hu : ‖u‖ = 1) {R : Matrix (Fin 3) (Fin 3) ℝ} (hR : ∀ v, R *ᵥ v = act u v) :
    ∃ q : Quat, toH q = u ∧ RotMat.quatArr q = R := by
  have e : toH ⟨u.re, ⟨![u.imI, u.imJ, u.imK], true⟩, true, 0⟩ = u := by ext <;> rfl
  refine ⟨_, e, ?_⟩
  refine Matrix.ext_of_mulVec_single fun j => ?_
  rw [hR, quatArr_mulVec (by rw [e, hu]), e]

theorem entry_stands {A B : Matrix (Fin 3) (Fin 3) ℝ} {η : ℝ} (h : Stands A B η) (i j : Fin 3) : |A i j - B i j| ≤ η := by
  have h1 := h (Pi.single j 1)
  rw [len_single, mul_one] at h1
  refine le_trans ?_ h1
  have := abs_le_len (A *ᵥ Pi.single j 1 - B *ᵥ Pi.single j 1) i
  simpa using this

/-- The matrix that the components are computed from. -/
theorem unflip (r : Rounding 53) (m : RotMat 3) {R : Matrix (Fin 3) (Fin 3) ℝ} {η : ℝ} (hfl : ∀ i j, IsFl 53 (m.elem i j))
    (hm : Stands m.elem (if m.flip then R * diagonal ![-1, 1, 1] else R) η) (i j : Fin 3) :
    |(if m.flip then prod r m (RotMat.mirrorAxis 0) else m).elem i j - R i j| ≤ η := by
  have h := entry_stands hm i j
  cases hf : m.flip
  · rw [hf] at h; simpa using h
  · rw [hf, if_pos rfl, Matrix.mul_diagonal] at h
    rw [if_pos rfl, mirror_elem r m hfl, Matrix.mul_diagonal]
    refine le_trans (le_of_eq ?_) h
    fin_cases j <;> simp
    rw [← abs_neg]; congr 1; ring

end Fl

/-- C131, `Quaternion::fromRotMatrix`, rotations by less than 120 degrees (`4 w² > 1`, with a margin for the errors): when the matrix, after taking out the mirror of the first
axis if it is marked as a mirror, stands for the unit quaternion `u` with an error up to `η`, the result is `u` or `-u` with an error up to `18 η + 2⁻⁴⁵`.
Missing: the other rotations, for which it is false (`C131_wrong`, `C131_false`). -/
theorem C131_convert_partial (r : Rounding 53) (m : RotMat 3) (u : ℍ[ℝ]) (R : Matrix (Fin 3) (Fin 3) ℝ) (η : ℝ) (hu : ‖u‖ = 1) (hR : ∀ v, R *ᵥ v = act u v)
    (hfl : ∀ i j, IsFl 53 (m.elem i j)) (hm : Stands m.elem (if m.flip then R * diagonal ![-1, 1, 1] else R) η) (hη : η ≤ 1 / 1000)
    (hw : 1 + 3 * η + 2 ^ (-50 : ℤ) < 4 * u.re ^ 2) :
    ∃ q, Fl.fromRotMatrix r m = some (q, !m.flip) ∧ (‖toH q - u‖ ≤ 18 * η + 2 ^ (-45 : ℤ) ∨ ‖toH q + u‖ ≤ 18 * η + 2 ^ (-45 : ℤ)) ∧
      q.valid = m.valid ∧ q.age = m.age := by
  obtain ⟨p, rfl, rfl⟩ := Fl.eq_quatArr hu hR
  obtain ⟨c1, c2, c3, -⟩ := Fl.convert_core r _ p hu (Fl.unflip r m hfl hm) hη
  have hη0 := (abs_nonneg _).trans (Fl.entry_stands hm 0 0)
  have hre : (toH p).re = p.w := rfl
  rw [hre] at hw
  have ht : 0 < Fl.trace r (if m.flip then Fl.prod r m (RotMat.mirrorAxis 0) else m).elem := by
    have h1 := (abs_le.1 c2).1
    have e : (2 : ℝ) ^ (-53 : ℤ) * 8 = 2 ^ (-50 : ℤ) := by norm_num
    rw [e] at h1
    linarith
  obtain ⟨s, hs, h1, h2⟩ := c3 ht
  set c := Fl.fromMatrixComponents r (if m.flip then Fl.prod r m (RotMat.mirrorAxis 0) else m).elem with hc
  refine ⟨⟨c.1, ⟨c.2.1, m.valid⟩, m.valid, m.age⟩, ?_, ?_, rfl, rfl⟩
  · unfold Fl.fromRotMatrix; simp only [← hc]; rw [if_pos c1]
  · have hE : (0 : ℝ) ≤ 6 * η + 2 ^ (-53 : ℤ) * 48 := by positivity
    have h3 : len (c.2.1 - s • p.vec.elem) ≤ 2 * (6 * η + 2 ^ (-53 : ℤ) * 48) := len3_le hE fun i => h2 i
    have h4 := Fl.norm_toH_sub_le ⟨c.1, ⟨c.2.1, m.valid⟩, m.valid, m.age⟩ ⟨s * p.w, ⟨s • p.vec.elem, true⟩, true, 0⟩
    have h5 : ‖toH ⟨c.1, ⟨c.2.1, m.valid⟩, m.valid, m.age⟩ - toH ⟨s * p.w, ⟨s • p.vec.elem, true⟩, true, 0⟩‖ ≤ 18 * η + 2 ^ (-45 : ℤ) := by
      refine h4.trans ((add_le_add h1 h3).trans ?_)
      norm_num
      linarith
    rcases hs with rfl | rfl
    · left
      have e : toH ⟨1 * p.w, ⟨(1 : ℝ) • p.vec.elem, true⟩, true, 0⟩ = toH p := by ext <;> simp
      rwa [e] at h5
    · right
      have e : toH ⟨-1 * p.w, ⟨(-1 : ℝ) • p.vec.elem, true⟩, true, 0⟩ = -toH p := by ext <;> simp
      rwa [e, sub_neg_eq_add] at h5

/-- C131, what is returned for the other rotations (by more than 120 degrees): up to rounding the quaternion, or its opposite, with the sign of one component of the vector
part reversed, one whose square is at least 9/40. The assertion in this branch holds. -/
theorem C131_wrong (r : Rounding 53) (m : RotMat 3) (u : ℍ[ℝ]) (R : Matrix (Fin 3) (Fin 3) ℝ) (η : ℝ) (hu : ‖u‖ = 1) (hR : ∀ v, R *ᵥ v = act u v)
    (hfl : ∀ i j, IsFl 53 (m.elem i j)) (hm : Stands m.elem (if m.flip then R * diagonal ![-1, 1, 1] else R) η) (hη : η ≤ 1 / 1000)
    (hw : 4 * u.re ^ 2 + 3 * η + 2 ^ (-50 : ℤ) < 1) :
    ∃ q, Fl.fromRotMatrix r m = some (q, !m.flip) ∧ ∃ i : Fin 3, 9 / 40 ≤ vecOf u i ^ 2 ∧ ∃ s : ℝ, (s = 1 ∨ s = -1) ∧
      |q.w - s * u.re| ≤ 6 * η + 2 ^ (-47 : ℤ) ∧ ∀ j, |q.vec.elem j - s * (if j = i then -vecOf u j else vecOf u j)| ≤ 6 * η + 2 ^ (-47 : ℤ) := by
  obtain ⟨p, rfl, rfl⟩ := Fl.eq_quatArr hu hR
  obtain ⟨c1, c2, -, c4⟩ := Fl.convert_core r _ p hu (Fl.unflip r m hfl hm) hη
  have hη0 := (abs_nonneg _).trans (Fl.entry_stands hm 0 0)
  have hre : (toH p).re = p.w := rfl
  rw [hre] at hw
  have ht : ¬ 0 < Fl.trace r (if m.flip then Fl.prod r m (RotMat.mirrorAxis 0) else m).elem := by
    have h1 := (abs_le.1 c2).2
    have e : (2 : ℝ) ^ (-53 : ℤ) * 8 = 2 ^ (-50 : ℤ) := by norm_num
    rw [e] at h1
    linarith
  obtain ⟨i, hi, s, hs, h1, h2⟩ := c4 ht
  have hE : 6 * η + (2 : ℝ) ^ (-53 : ℤ) * 48 ≤ 6 * η + 2 ^ (-47 : ℤ) := by norm_num
  set c := Fl.fromMatrixComponents r (if m.flip then Fl.prod r m (RotMat.mirrorAxis 0) else m).elem with hc
  refine ⟨⟨c.1, ⟨c.2.1, m.valid⟩, m.valid, m.age⟩, ?_, i, ?_, s, hs, h1.trans hE, fun j => ?_⟩
  · unfold Fl.fromRotMatrix; simp only [← hc]; rw [if_pos c1]
  · rw [vecOf_toH]; exact hi
  · rw [vecOf_toH]; exact (h2 j).trans hE

/-- C131, there and back: a quaternion that stands for the unit quaternion `u`, turned into a matrix and back, gives the quaternion or its opposite up to rounding, for rotations by
less than 120 degrees. -/
theorem C131_roundtrip_partial (r : Rounding 53) (q : Quat) (u : ℍ[ℝ]) (δ : ℝ) (hu : ‖u‖ = 1) (hq : ‖toH q - u‖ ≤ δ) (hδ : δ ≤ 1 / 20000)
    (hw : 1 + 54 * δ + 2 ^ (-43 : ℤ) < 4 * u.re ^ 2) :
    ∃ p, Fl.fromRotMatrix r (Fl.fromQuaternion r q) = some (p, true) ∧
      (‖toH p - toH q‖ ≤ 325 * δ + 2 ^ (-40 : ℤ) ∨ ‖toH p + toH q‖ ≤ 325 * δ + 2 ^ (-40 : ℤ)) := by
  have hδ0 := (norm_nonneg _).trans hq
  obtain ⟨R, -, -, h3, h4, -⟩ := C130_matrix r q u δ hu hq (by linarith)
  have hfl : ∀ i j, IsFl 53 ((Fl.fromQuaternion r q).elem i j) := fun i j => by
    fin_cases i <;> fin_cases j <;> exact r.isFl _
  obtain ⟨p, k1, k2, -⟩ := C131_convert_partial r (Fl.fromQuaternion r q) u R (18 * δ + 2 ^ (-45 : ℤ)) hu h3 hfl h4 (by norm_num at *; linarith) (by norm_num at *; linarith)
  refine ⟨p, k1, ?_⟩
  rcases k2 with h | h
  · left
    have := norm_sub_le_norm_sub_add_norm_sub (toH p) u (toH q)
    rw [norm_sub_rev u] at this
    norm_num at *
    linarith
  · right
    have e : toH p + toH q = (toH p + u) + (toH q - u) := by abel
    rw [e]
    refine (norm_add_le _ _).trans ?_
    norm_num at *
    linarith

/-- C131, `q.rotate(m)`: the product of the two rotations, up to the sign and rounding, when `m` turns by less than 120 degrees. -/
theorem C131_rotate_partial (r : Rounding 53) (q : Quat) (m : RotMat 3) (a u : ℍ[ℝ]) (R : Matrix (Fin 3) (Fin 3) ℝ) (α η : ℝ) (ha : ‖a‖ = 1) (hq : ‖toH q - a‖ ≤ α)
    (hα : α ≤ 1 / 100) (hu : ‖u‖ = 1) (hR : ∀ v, R *ᵥ v = act u v) (hfl : ∀ i j, IsFl 53 (m.elem i j))
    (hm : Stands m.elem (if m.flip then R * diagonal ![-1, 1, 1] else R) η) (hη : η ≤ 1 / 2000) (hw : 1 + 3 * η + 2 ^ (-50 : ℤ) < 4 * u.re ^ 2) :
    ∃ p, Fl.qRotateMat r q m = some p ∧
      (‖toH p - u * a‖ ≤ 3 * α + 36 * η + 18 * epsilon ∨ ‖toH p + u * a‖ ≤ 3 * α + 36 * η + 18 * epsilon) := by
  obtain ⟨c, k1, k2, -⟩ := C131_convert_partial r m u R η hu hR hfl hm (by linarith) hw
  have e0 : (2 : ℝ) ^ (-45 : ℤ) ≤ 9 / 2 * epsilon := by unfold epsilon; norm_num
  have hsm : 18 * η + (2 : ℝ) ^ (-45 : ℤ) ≤ 1 / 100 := by norm_num at *; linarith
  refine ⟨Fl.qMul r q c, by unfold Fl.qRotateMat; rw [k1]; rfl, ?_⟩
  rcases k2 with h | h
  · left
    have := (C122_product r q c a u α _ ha hu hq h hα hsm).2.1
    generalize (2 : ℝ) ^ (-45 : ℤ) = w at *
    linarith
  · right
    have := (C122_product r q c a (-u) α _ ha (by rw [norm_neg, hu]) hq (by rwa [sub_neg_eq_add]) hα hsm).2.1
    rw [neg_mul, sub_neg_eq_add] at this
    generalize (2 : ℝ) ^ (-45 : ℤ) = w at *
    linarith

/-- C131 fails for larger rotations: the quaternion (1/2, 1/2, 1/2, 1/2), for which nothing is rounded, comes back as (1/2, -1/2, 1/2, 1/2). -/
theorem C131_false (r : Rounding 53) : ∃ q : Quat, q.valid = true ∧ ‖toH q‖ = 1 ∧
    ∃ p, Fl.fromRotMatrix r (Fl.fromQuaternion r q) = some (p, true) ∧ 1 ≤ ‖toH p - toH q‖ ∧ 1 ≤ ‖toH p + toH q‖ := by
  have h0 : r 0 = 0 := r.zero
  have h1 : r 1 = 1 := r.of_fl ⟨1, 0, by norm_num, by norm_num⟩
  have h2 : r (1 / 2) = 1 / 2 := r.of_fl ⟨1, -1, by norm_num, by norm_num⟩
  have h4 : r (1 / 4) = 1 / 4 := r.of_fl ⟨1, -2, by norm_num, by norm_num⟩
  have hE : (Fl.fromQuaternion r ⟨1 / 2, ⟨![1 / 2, 1 / 2, 1 / 2], true⟩, true, 1⟩).elem = !![0, 0, 1; 1, 0, 0; 0, 1, 0] := by
    show Fl.quatArr r _ = _
    unfold Fl.quatArr Fl.scale
    ext i j
    have e2 : (![1 / 2, 1 / 2, 1 / 2] : Fin 3 → ℝ) 2 = 1 / 2 := rfl
    fin_cases i <;> fin_cases j <;> norm_num [h0, h1, h2, h4, e2]
  have hc : Fl.fromMatrixComponents r !![0, 0, 1; 1, 0, 0; 0, 1, 0] = (1 / 2, ![-(1 / 2), 1 / 2, 1 / 2], true) := by
    obtain ⟨A, hA⟩ : ∃ A : Matrix (Fin 3) (Fin 3) ℝ, A = !![0, 0, 1; 1, 0, 0; 0, 1, 0] := ⟨_, rfl⟩
    have a00 : A 0 0 = 0 := by rw [hA]; rfl
    have a01 : A 0 1 = 0 := by rw [hA]; rfl
    have a02 : A 0 2 = 1 := by rw [hA]; rfl
    have a10 : A 1 0 = 1 := by rw [hA]; rfl
    have a11 : A 1 1 = 0 := by rw [hA]; rfl
    have a12 : A 1 2 = 0 := by rw [hA]; rfl
    have a20 : A 2 0 = 0 := by rw [hA]; rfl
    have a21 : A 2 1 = 1 := by rw [hA]; rfl
    have a22 : A 2 2 = 0 := by rw [hA]; rfl
    rw [← hA]
    have ht : Fl.trace r A = 0 := by
      unfold Fl.trace; rw [Fl.sum3]; simp [h0, a00, a11, a22]
    have hi : (if A 2 2 > A (if A 1 1 > A 0 0 then 1 else 0) (if A 1 1 > A 0 0 then 1 else 0) then (2 : Fin 3) else if A 1 1 > A 0 0 then 1 else 0) = 0 := by
      simp [a00, a11, a22]
    unfold Fl.fromMatrixComponents
    simp only
    rw [ht, if_neg (lt_irrefl _), hi]
    have e12 : (0 : Fin 3) + 1 + 1 = 2 := rfl
    have e01 : (0 : Fin 3) + 1 = 1 := rfl
    rw [e12, e01, a00, a11, a22, a21, a12, a01, a10, a02, a20]
    have hS : r (Real.sqrt (r (r (r (1 + 0) - 0) - 0))) = 1 := by simp [h1]
    rw [hS]
    refine Prod.ext ?_ (Prod.ext ?_ ?_)
    · norm_num [h1, h2]
    · funext j
      fin_cases j <;> norm_num [h1, h2]
    · simp
  have hlow : ∀ h : ℍ[ℝ], 1 ≤ |h.imI| ∨ 1 ≤ |h.re| → 1 ≤ ‖h‖ := fun h hh => by
    have : (1 : ℝ) ≤ ‖h‖ ^ 2 := by
      rw [sq, ← normSq_eq_norm_mul_self, normSq_def']
      rcases hh with hh | hh
      · nlinarith [sq_abs h.imI, sq_nonneg h.re, sq_nonneg h.imJ, sq_nonneg h.imK]
      · nlinarith [sq_abs h.re, sq_nonneg h.imI, sq_nonneg h.imJ, sq_nonneg h.imK]
    nlinarith [norm_nonneg h]
  refine ⟨⟨1 / 2, ⟨![1 / 2, 1 / 2, 1 / 2], true⟩, true, 1⟩, rfl, norm_of_sq (by simp; norm_num), ⟨1 / 2, ⟨![-(1 / 2), 1 / 2, 1 / 2], true⟩, true, 1⟩, ?_, ?_, ?_⟩
  · unfold Fl.fromRotMatrix
    simp only [show (Fl.fromQuaternion r ⟨1 / 2, ⟨![1 / 2, 1 / 2, 1 / 2], true⟩, true, 1⟩).flip = false from rfl, Bool.false_eq_true, if_false]
    rw [hE, hc]
    rfl
  · refine hlow _ (Or.inl (le_of_eq ?_))
    norm_num
  · refine hlow _ (Or.inr (le_of_eq ?_))
    norm_num

/-- The hypotheses of `C131_roundtrip_partial` are met by every quaternion near (15, 0, 0, 8)/17. -/
example (r : Rounding 53) (q : Quat) (hq : ‖toH q - toH ⟨15 / 17, ⟨![0, 0, 8 / 17], true⟩, true, 1⟩‖ ≤ 1 / 100000) :
    ∃ p, Fl.fromRotMatrix r (Fl.fromQuaternion r q) = some (p, true) ∧ (‖toH p - toH q‖ ≤ 1 / 300 ∨ ‖toH p + toH q‖ ≤ 1 / 300) := by
  have h17 : ‖toH ⟨15 / 17, ⟨![0, 0, 8 / 17], true⟩, true, 1⟩‖ = 1 := norm_of_sq (by simp; norm_num)
  obtain ⟨p, h1, h2⟩ := C131_roundtrip_partial r q _ (1 / 100000) h17 hq (by norm_num) (by rw [toH_re]; norm_num)
  exact ⟨p, h1, h2.imp (fun h => h.trans (by norm_num)) fun h => h.trans (by norm_num)⟩

/-- The hypotheses of `C131_convert_partial` and `C131_rotate_partial` are met by the mirror of the first axis, those of `C131_wrong` by a half turn about z. -/
example (r : Rounding 53) : (∃ q, Fl.fromRotMatrix r (RotMat.mirrorAxis 0) = some (q, false) ∧ q.valid = true) ∧
    (∃ p, Fl.qRotateMat r Quat.identity (RotMat.mirrorAxis 0) = some p) ∧
    ∃ q, Fl.fromRotMatrix r ⟨RotMat.quatArr ⟨0, ⟨![0, 0, 1], true⟩, true, 1⟩, false, true, 1⟩ = some (q, true) := by
  have hone : ∀ v, (1 : Matrix (Fin 3) (Fin 3) ℝ) *ᵥ v = act 1 v := fun v => by
    have := quatArr_mulVec norm_identity v
    have e : RotMat.quatArr Quat.identity = 1 := by
      ext i j; fin_cases i <;> fin_cases j <;> simp [RotMat.quatArr, Quat.identity, Vec.zero]
    have e2 : toH Quat.identity = 1 := by ext <;> rfl
    rw [e, e2] at this
    exact this
  have hfl : ∀ i j, IsFl 53 ((RotMat.mirrorAxis (0 : Fin 3)).elem i j) := fun i j => by
    show IsFl 53 (if _ then _ else _)
    split_ifs
    · exact ⟨-1, 0, by norm_num, by norm_num⟩
    · exact ⟨1, 0, by norm_num, by norm_num⟩
    · exact ⟨0, 0, by norm_num, by norm_num⟩
  have he : (RotMat.mirrorAxis (0 : Fin 3)).elem = 1 * diagonal ![-1, 1, 1] := by
    rw [one_mul]; ext i j; fin_cases i <;> fin_cases j <;> simp [RotMat.mirrorAxis]
  have hS : Stands (RotMat.mirrorAxis (0 : Fin 3)).elem (if (RotMat.mirrorAxis (0 : Fin 3)).flip then 1 * diagonal ![-1, 1, 1] else 1) 0 := fun v => by
    rw [if_pos (show (RotMat.mirrorAxis (0 : Fin 3)).flip = true from rfl), he, sub_self]; simp [len]
  have hre : 1 + 3 * (0 : ℝ) + 2 ^ (-50 : ℤ) < 4 * (1 : ℍ[ℝ]).re ^ 2 := by norm_num
  refine ⟨?_, ?_, ?_⟩
  · obtain ⟨q, h1, -, h2, -⟩ := C131_convert_partial r (RotMat.mirrorAxis 0) 1 1 0 norm_one hone hfl hS (by norm_num) hre
    exact ⟨q, h1, h2⟩
  · obtain ⟨p, h1, -⟩ := C131_rotate_partial r Quat.identity (RotMat.mirrorAxis 0) 1 1 1 0 0 norm_one
      (by rw [show toH Quat.identity = 1 by ext <;> rfl, sub_self, norm_zero]) (by norm_num) norm_one hone hfl hS (by norm_num) hre
    exact ⟨p, h1⟩
  · have hz : ‖toH ⟨0, ⟨![0, 0, 1], true⟩, true, 1⟩‖ = 1 := norm_of_sq (by simp)
    obtain ⟨q, h1, -⟩ := C131_wrong r ⟨RotMat.quatArr ⟨0, ⟨![0, 0, 1], true⟩, true, 1⟩, false, true, 1⟩ _ (RotMat.quatArr ⟨0, ⟨![0, 0, 1], true⟩, true, 1⟩) 0 hz (quatArr_mulVec hz)
      (fun i j => by
        have key : ∀ x : ℝ, x = 0 ∨ x = 1 ∨ x = -1 → IsFl 53 x := by
          rintro x (rfl | rfl | rfl)
          · exact ⟨0, 0, by norm_num, by norm_num⟩
          · exact ⟨1, 0, by norm_num, by norm_num⟩
          · exact ⟨-1, 0, by norm_num, by norm_num⟩
        apply key
        fin_cases i <;> fin_cases j <;> simp [RotMat.quatArr] <;> norm_num)
      (fun v => by simp [len]) (by norm_num) (by rw [toH_re]; norm_num)
    exact ⟨q, h1⟩

end WFMath
