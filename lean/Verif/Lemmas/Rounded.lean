/- Lemmas about rounded sums. -/
import Verif.Model.Rounded
import Verif.Lemmas.Float
import Verif.Lemmas.Vector

namespace WFMath.Fl
open Spec
open WFMath.Spec.Rounding (u)
variable {n : Nat}

theorem pos53 : 0 < 53 := by norm_num

theorem u53 : u 53 = (2 : ℝ) ^ (-53 : ℤ) := rfl

theorem sum_list (f : Fin n → ℝ) : ∑ i, f i = ((List.finRange n).map f).sum := by
  rw [← List.ofFn_eq_map, List.sum_ofFn]

/-- A rounded sum of numbers of one sign has a small relative error. -/
theorem sum_close (r : Rounding 53) {k : Nat} {f g : Fin n → ℝ} (h : ∀ i, Close 53 k (f i) (g i)) (hg : ∀ i, 0 ≤ g i) :
    Close 53 (k + n) (sum r f) (∑ i, g i) := by
  have key : ∀ (l : List (Fin n)) (m : Nat) (s' s : ℝ), Close 53 (k + m) s' s → 0 ≤ s →
      Close 53 (k + m + l.length) (l.foldl (fun s i => r (s + f i)) s') (s + (l.map g).sum) := by
    intro l
    induction l with
    | nil => intro m s' s hs _; simpa using hs
    | cons i l ih =>
      intro m s' s hs h0
      have h1 := ((hs.add pos53 ((h i).mono pos53 (Nat.le_add_right k m)) h0 (hg i)).round pos53 r)
      have := ih (m + 1) _ _ h1 (add_nonneg h0 (hg i))
      rw [List.map_cons, List.sum_cons, ← add_assoc, List.length_cons, List.foldl_cons]
      rw [show k + m + (l.length + 1) = k + (m + 1) + l.length by ring]
      exact this
  have := key (List.finRange n) 0 0 0 (Close.refl pos53 _ _) le_rfl
  rw [List.length_finRange, zero_add, add_zero] at this
  rw [sum_list]
  exact this

/-- What `k` roundings can add to a number, relative to it. -/
noncomputable def gam (k : Nat) : ℝ := 1 / (1 - u 53) ^ k - 1

theorem gam_nonneg (k : Nat) : 0 ≤ gam k := by
  have := Close.pow pos53 k
  unfold gam
  rw [sub_nonneg, le_div_iff₀ this.1, one_mul]; exact this.2

theorem gam_mono {k l : Nat} (h : k ≤ l) : gam k ≤ gam l := by
  have := Close.pow pos53 l
  have hle : (1 - u 53) ^ l ≤ (1 - u 53) ^ k := pow_le_pow_of_le_one (Close.base pos53).1.le (Close.base pos53).2 h
  unfold gam
  have := one_div_le_one_div_of_le this.1 hle
  linarith

theorem gam_succ (k : Nat) : gam k + u 53 * (1 + gam k) ≤ gam (k + 1) := by
  have hk := Close.pow pos53 k
  have hb := Close.base pos53
  have hu : (0 : ℝ) < u 53 := Rounding.u_pos
  unfold gam
  rw [pow_succ, ← sub_nonneg]
  have : 1 / ((1 - u 53) ^ k * (1 - u 53)) - 1 - (1 / (1 - u 53) ^ k - 1 + u 53 * (1 + (1 / (1 - u 53) ^ k - 1))) =
      1 / (1 - u 53) ^ k * (u 53 * u 53 / (1 - u 53)) := by
    have := hk.1.ne'
    have := hb.1.ne'
    field_simp
    ring
  rw [this]
  have h1 := hk.1
  have h2 := hb.1
  positivity

theorem gam_le {k : Nat} (hk : k ≤ 2 ^ 52) : gam k ≤ k * 2 ^ (-52 : ℤ) := by
  have h := Close.refl pos53 k 1
  have hp := Close.pow pos53 k
  have hc : Close 53 k (1 / (1 - u 53) ^ k) 1 :=
    ⟨1 / (1 - u 53) ^ k, by rw [le_div_iff₀ hp.1]; nlinarith, by rw [div_mul_cancel₀]; exact hp.1.ne', by ring⟩
  have hk' : (k : ℝ) ≤ 2 ^ 52 := by exact_mod_cast hk
  have h52 : (k : ℝ) * u 53 ≤ 1 / 2 := by
    calc (k : ℝ) * u 53 ≤ 2 ^ 52 * u 53 := mul_le_mul_of_nonneg_right hk' Rounding.u_pos.le
      _ = 1 / 2 := by rw [u53]; norm_num
  have := hc.err pos53 h52
  rw [abs_one, mul_one] at this
  have h3 := (le_abs_self _).trans this
  unfold gam
  rw [u53] at h3 ⊢
  norm_num at h3 ⊢
  linarith

theorem Close_err {k : Nat} {x' x : ℝ} (h : Close 53 k x' x) : |x' - x| ≤ gam k * |x| := by
  obtain ⟨t, h1, h2, rfl⟩ := h
  have hp := Close.pow pos53 k
  rw [show t * x - x = (t - 1) * x by ring, abs_mul]
  refine mul_le_mul_of_nonneg_right ?_ (abs_nonneg _)
  have h3 : t ≤ 1 / (1 - u 53) ^ k := by rw [le_div_iff₀ hp.1]; exact h2
  have h4 : 1 - (1 - u 53) ^ k ≤ gam k := by
    unfold gam
    have : 2 ≤ 1 / (1 - u 53) ^ k + (1 - u 53) ^ k := by
      have := hp.1
      rw [div_add' _ _ _ hp.1.ne', le_div_iff₀ hp.1]
      nlinarith [sq_nonneg ((1 - u 53) ^ k - 1)]
    linarith
  rw [abs_le]
  unfold gam at h4 ⊢
  constructor <;> linarith

/-- A rounded sum of numbers of any sign: the error is small relative to the sum of the absolute values. -/
theorem sum_err (r : Rounding 53) {k : Nat} {f g : Fin n → ℝ} (h : ∀ i, Close 53 k (f i) (g i)) :
    |sum r f - ∑ i, g i| ≤ gam (k + n) * ∑ i, |g i| := by
  have key : ∀ (l : List (Fin n)) (m : Nat) (s' s A : ℝ), |s' - s| ≤ gam (k + m) * A → |s| ≤ A →
      |l.foldl (fun s i => r (s + f i)) s' - (s + (l.map g).sum)| ≤ gam (k + m + l.length) * (A + (l.map fun i => |g i|).sum) := by
    intro l
    induction l with
    | nil => intro m s' s A hs _; simpa using hs
    | cons i l ih =>
      intro m s' s A hs h0
      have h1 : |f i - g i| ≤ gam (k + m) * |g i| :=
        (Close_err (h i)).trans (mul_le_mul_of_nonneg_right (gam_mono (Nat.le_add_right k m)) (abs_nonneg _))
      have h2 : |(s' + f i) - (s + g i)| ≤ gam (k + m) * (A + |g i|) := by
        rw [show (s' + f i) - (s + g i) = (s' - s) + (f i - g i) by ring]
        refine (abs_add_le _ _).trans ?_
        linarith
      have h3 : |s + g i| ≤ A + |g i| := (abs_add_le _ _).trans (by linarith)
      have h4 : |s' + f i| ≤ (1 + gam (k + m)) * (A + |g i|) := by
        have := abs_sub_abs_le_abs_sub (s' + f i) (s + g i)
        linarith
      have h5 := r.err pos53 (s' + f i)
      have hu : (0 : ℝ) < u 53 := Rounding.u_pos
      have h6 : |r (s' + f i) - (s + g i)| ≤ gam (k + (m + 1)) * (A + |g i|) := by
        have h7 := abs_sub_le (r (s' + f i)) (s' + f i) (s + g i)
        have h8 := mul_le_mul_of_nonneg_left h4 hu.le
        have h9 := mul_le_mul_of_nonneg_right (gam_succ (k + m)) ((abs_nonneg _).trans h3)
        rw [← add_assoc]
        nlinarith
      have := ih (m + 1) _ _ _ h6 h3
      rw [List.map_cons, List.sum_cons, ← add_assoc, List.length_cons, List.foldl_cons, List.map_cons, List.sum_cons, ← add_assoc A]
      rw [show k + m + (l.length + 1) = k + (m + 1) + l.length by ring]
      exact this
  have := key (List.finRange n) 0 0 0 0 (by simp) (by simp)
  rw [List.length_finRange, zero_add, add_zero, zero_add] at this
  rw [sum_list, sum_list]
  exact this

/-- The error in units of `2^-52`. -/
theorem Close_err' {k : Nat} {x' x : ℝ} (h : Close 53 k x' x) (hk : k ≤ 2 ^ 52) : |x' - x| ≤ k * 2 ^ (-52 : ℤ) * |x| :=
  (Close_err h).trans (mul_le_mul_of_nonneg_right (gam_le hk) (abs_nonneg _))

theorem isFl_sum (r : Rounding 53) (f : Fin n → ℝ) : IsFl 53 (sum r f) := by
  unfold sum
  have : ∀ (l : List (Fin n)) (s : ℝ), IsFl 53 s → IsFl 53 (l.foldl (fun s i => r (s + f i)) s) := by
    intro l
    induction l with
    | nil => intro s hs; exact hs
    | cons i l ih => intro s _; exact ih _ (r.isFl _)
  exact this _ _ IsFl.zero

theorem sum_zero (r : Rounding 53) : sum r (fun _ : Fin n => 0) = 0 := by
  have := sum_close r (f := fun _ : Fin n => 0) (g := fun _ => 0) (k := 0) (fun i => Close.refl pos53 _ _) (fun _ => le_rfl)
  rw [this.eq_zero pos53]; simp

/-! ### Lengths and distances -/

theorem sqrMag_close (r : Rounding 53) (v : Vec n) : Close 53 (1 + n) (sqrMag r v) v.sqrMag :=
  sum_close r (fun i => Close.round_self pos53 r _) fun i => mul_self_nonneg _

theorem mag_close (r : Rounding 53) (v : Vec n) : Close 53 (1 + n + 1) (mag r v) v.mag :=
  ((sqrMag_close r v).sqrt pos53).round pos53 r

/-- The sum of squares in `SquaredDistance`, before the cut-off. -/
theorem sqDistSum_close (r : Rounding 53) (p q : Fin n → ℝ) :
    Close 53 (3 + n) (sum r fun i => r (r (p i - q i) * r (p i - q i))) (∑ i, (p i - q i) * (p i - q i)) := by
  refine sum_close r (fun i => ?_) fun i => mul_self_nonneg _
  have h := Close.round_self pos53 r (p i - q i)
  exact (h.mul pos53 h).round pos53 r

end WFMath.Fl
