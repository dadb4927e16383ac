/- Sums and inner products of doubles over their whole range: sums of doubles do not underflow, products do by at most 2^-1075. -/
import Verif.Model.IeeeMove
import Verif.Lemmas.IeeeSub
import Verif.Props.RoundMatrix

namespace WFMath
open Spec Matrix
open WFMath.Spec.Rounding (u)

namespace Ie
variable {g : Nearest} {r : Rounding 53} {x y : ℝ} {n : Nat}

/-! ### One operation -/

/-- The sum of two doubles is rounded as if there were no smallest exponent. -/
theorem add_eq (hr : Ext g r) (hx : IsDbl x) (hy : IsDbl y) : g (x + y) = r (x + y) := by
  by_cases h : |x + y| < 2 ^ (-1022 : ℤ)
  · have := diff_exact hx hy.neg (by rwa [sub_neg_eq_add])
    rw [sub_neg_eq_add] at this
    rw [g.of_dbl this, r.of_fl this.isFl]
  · exact hr _ (Or.inr (not_lt.1 h))

theorem add_num (hr : Ext g r) (hx : IsDbl x) (hy : IsDbl y) (h : |x + y| ≤ 2 ^ (1023 : ℤ)) :
    Dbl.add g (.num x) (.num y) = .num (r (x + y)) ∧ IsDbl (r (x + y)) := by
  rw [← add_eq hr hx hy]
  exact ⟨round_of_le h, g.isDbl _⟩

theorem sub_num2 (hr : Ext g r) (hx : IsDbl x) (hy : IsDbl y) (h : |x - y| ≤ 2 ^ (1023 : ℤ)) :
    Dbl.sub g (.num x) (.num y) = .num (r (x - y)) ∧ IsDbl (r (x - y)) := by
  have := add_num hr hx hy.neg (by rwa [← sub_eq_add_neg])
  rwa [← sub_eq_add_neg] at this

/-- Below the normal numbers the error is at most half the smallest double. -/
theorem sub_err (h : |x| < 2 ^ (-1022 : ℤ)) : |g x - x| ≤ 2 ^ (-1075 : ℤ) := by
  obtain ⟨h1, -⟩ := subTo_nearest h
  refine (g.nearest x _ h1).trans ?_
  unfold subTo
  have hg : (0 : ℝ) < (2 : ℝ) ^ (-1074 : ℤ) := by positivity
  have e : ((_root_.round (x / (2 : ℝ) ^ (-1074 : ℤ)) : ℤ) : ℝ) * (2 : ℝ) ^ (-1074 : ℤ) - x =
      -((x / (2 : ℝ) ^ (-1074 : ℤ) - (_root_.round (x / (2 : ℝ) ^ (-1074 : ℤ)) : ℤ)) * (2 : ℝ) ^ (-1074 : ℤ)) := by
    rw [sub_mul, div_mul_cancel₀ _ hg.ne']; ring
  rw [e, abs_neg, abs_mul, abs_of_pos hg, show (-1075 : ℤ) = -1 + -1074 by norm_num, zpow_add₀ two_ne_zero]
  refine mul_le_mul_of_nonneg_right ((abs_sub_round _).trans (le_of_eq (by norm_num))) hg.le

/-- Any result is a relative error away from a number that is `2^-1075` away from the exact one. -/
theorem near_split (hr : Ext g r) (x : ℝ) : ∃ t, Close 53 1 (g x) t ∧ |t - x| ≤ 2 ^ (-1075 : ℤ) := by
  by_cases h : |x| < 2 ^ (-1022 : ℤ)
  · exact ⟨g x, Close.refl Fl.pos53 1 _, sub_err h⟩
  · exact ⟨x, by rw [hr _ (Or.inr (not_lt.1 h))]; exact Close.round_self Fl.pos53 r _, by simp⟩

theorem rnd_any (g : Nearest) (x : ℝ) : |g x - x| ≤ u 53 * |x| + 2 ^ (-1075 : ℤ) := by
  obtain ⟨r, hr⟩ := g.extends_
  by_cases h : |x| < 2 ^ (-1022 : ℤ)
  · exact (sub_err h).trans (le_add_of_nonneg_left (mul_nonneg Rounding.u_pos.le (abs_nonneg _)))
  · rw [hr _ (Or.inr (not_lt.1 h))]
    exact (r.err Fl.pos53 _).trans (le_add_of_nonneg_right (by positivity))

/-! ### Sums -/

theorem sum_fold2 (hr : Ext g r) (f : Fin n → ℝ) (b : ℤ) (hb : b ≤ 1003) (hf : ∀ i, IsDbl (f i) ∧ |f i| ≤ 2 ^ b) :
    ∀ (l : List (Fin n)) (s : ℝ) (k : Nat), k + l.length ≤ 2 ^ 20 → IsDbl s → |s| ≤ k * 2 ^ b →
      l.foldl (fun s i => Dbl.add g s (.num (f i))) (.num s) = .num (l.foldl (fun s i => r (s + f i)) s) ∧ IsDbl (l.foldl (fun s i => r (s + f i)) s) ∧
        |l.foldl (fun s i => r (s + f i)) s| ≤ ((k + l.length : Nat) : ℝ) * 2 ^ b := by
  intro l
  induction l with
  | nil => intro s k _ hs hk; exact ⟨rfl, hs, hk⟩
  | cons i l ih =>
    intro s k hk hs hb'
    obtain ⟨hfi, hfb⟩ := hf i
    have hup : |s + f i| ≤ ((k + 1 : Nat) : ℝ) * 2 ^ b := by
      have := abs_add_le s (f i)
      push_cast; linarith
    have hk1 : k + 1 ≤ 2 ^ 20 := by simp only [List.length_cons] at hk; omega
    have hk' : ((k + 1 : Nat) : ℝ) ≤ 2 ^ (20 : ℤ) := by exact_mod_cast hk1
    have hbig : ((k + 1 : Nat) : ℝ) * 2 ^ b ≤ 2 ^ (1023 : ℤ) := by
      refine (mul_le_mul_of_nonneg_right hk' (by positivity)).trans ?_
      rw [← zpow_add₀ two_ne_zero]
      exact zpow_le_zpow_right₀ one_le_two (by omega)
    obtain ⟨e, he⟩ := add_num hr hs hfi (hup.trans hbig)
    simp only [List.foldl_cons, e]
    have := ih _ (k + 1) (by simp only [List.length_cons] at hk; omega) he
      (r.abs_le_fl (by
        have := IsFl.int_zpow Fl.pos53 (k := ((k + 1 : Nat) : ℤ)) (by rw [abs_of_nonneg (by positivity)]; norm_cast; exact hk1.trans (by norm_num)) b
        rwa [Int.cast_natCast] at this) hup)
    rwa [show k + 1 + l.length = k + (i :: l).length by simp only [List.length_cons]; omega] at this

theorem sum_num2 (hr : Ext g r) (hn : n ≤ 2 ^ 20) (f : Fin n → ℝ) (b : ℤ) (hb : b ≤ 1003) (hf : ∀ i, IsDbl (f i) ∧ |f i| ≤ 2 ^ b) :
    sum g (fun i => .num (f i)) = .num (Fl.sum r f) ∧ IsDbl (Fl.sum r f) ∧ |Fl.sum r f| ≤ n * 2 ^ b := by
  have := sum_fold2 hr f b hb hf (List.finRange n) 0 0 (by simpa using hn) IsDbl.zero (by simp)
  rw [List.length_finRange, zero_add] at this
  exact this

theorem sum_abs_le (a b : Fin n → ℝ) : ∑ i, |a i * b i| ≤ len a * len b := by
  have e : ∑ i, |a i * b i| = (fun i => |a i|) ⬝ᵥ fun i => |b i| := by
    unfold dotProduct; exact Finset.sum_congr rfl fun i _ => abs_mul _ _
  have h4 : ∀ x : Fin n → ℝ, len (fun i => |x i|) = len x := fun x => by
    unfold len dotProduct; congr 1; exact Finset.sum_congr rfl fun i _ => abs_mul_abs_self _
  rw [e, ← h4 a, ← h4 b]
  exact dot_le_len _ _

/-- The computed inner product of two arrays of doubles. -/
theorem inner_num (g : Nearest) (hn : n ≤ 2 ^ 20) (a v : Fin n → ℝ) (b : ℤ) (hb : b ≤ 1002) (hb1 : 0 ≤ b) (ha : ∀ i, |a i| ≤ 2) (hv : ∀ i, |v i| ≤ 2 ^ b) :
    ∃ y, sum g (fun i => Dbl.mul g (.num (a i)) (.num (v i))) = .num y ∧ IsDbl y ∧ |y| ≤ n * 2 ^ (b + 1) ∧
      |y - a ⬝ᵥ v| ≤ (n + 1) * 2 ^ (-52 : ℤ) * (len a * len v) + n * 2 ^ (-1074 : ℤ) := by
  obtain ⟨r, hr⟩ := g.extends_
  have hb0 : ∀ i, |a i * v i| ≤ 2 ^ (b + 1) := fun i => by
    rw [abs_mul, add_comm, zpow_add₀ two_ne_zero, zpow_one]
    exact mul_le_mul (ha i) (hv i) (abs_nonneg _) (by norm_num)
  have hm : ∀ i, Dbl.mul g (.num (a i)) (.num (v i)) = .num (g (a i * v i)) := fun i =>
    round_of_le ((hb0 i).trans (zpow_le_zpow_right₀ one_le_two (by omega)))
  have hgb : ∀ i, |g (a i * v i)| ≤ 2 ^ (b + 1) := fun i => g.abs_le_dbl (IsDbl.zpow (by omega)) (hb0 i)
  obtain ⟨s1, s2, s3⟩ := sum_num2 hr hn (fun i => g (a i * v i)) (b + 1) (by omega) fun i => ⟨g.isDbl _, hgb i⟩
  refine ⟨_, by simp only [hm]; exact s1, s2, s3, ?_⟩
  choose t t1 t2 using fun i => near_split hr (a i * v i)
  have h1 := Fl.sum_err r (k := 1) t1
  have hn52 : n + 1 ≤ 2 ^ 52 := by
    have : (2 : ℕ) ^ 20 + 1 ≤ 2 ^ 52 := by norm_num
    omega
  have h2 : Fl.gam (1 + n) ≤ (n + 1) * 2 ^ (-52 : ℤ) := by
    have := Fl.gam_le (k := 1 + n) (by omega)
    push_cast at this; linarith
  have e75 : (2 : ℝ) ^ (-1074 : ℤ) = 2 * 2 ^ (-1075 : ℤ) := by
    rw [show (-1074 : ℤ) = 1 + -1075 by norm_num, zpow_add₀ two_ne_zero, zpow_one]
  have p75 : (0 : ℝ) < 2 ^ (-1075 : ℤ) := by positivity
  have h3 : ∑ i, |t i| ≤ len a * len v + n * 2 ^ (-1075 : ℤ) := by
    have : ∑ i, |t i| ≤ ∑ i, (|a i * v i| + 2 ^ (-1075 : ℤ)) := Finset.sum_le_sum fun i _ => by
      have := abs_sub_abs_le_abs_sub (t i) (a i * v i)
      linarith [t2 i]
    rw [Finset.sum_add_distrib, Finset.sum_const, Finset.card_univ, Fintype.card_fin, nsmul_eq_mul] at this
    linarith [sum_abs_le a v]
  have h4 : |∑ i, t i - a ⬝ᵥ v| ≤ n * 2 ^ (-1075 : ℤ) := by
    unfold dotProduct
    rw [← Finset.sum_sub_distrib]
    refine (Finset.abs_sum_le_sum_abs _ _).trans ((Finset.sum_le_sum fun i _ => t2 i).trans (le_of_eq ?_))
    rw [Finset.sum_const, Finset.card_univ, Fintype.card_fin, nsmul_eq_mul]
  have h5 : (n + 1 : ℝ) * 2 ^ (-52 : ℤ) ≤ 1 := by
    have : (n + 1 : ℝ) ≤ 2 ^ (52 : ℤ) := by exact_mod_cast hn52
    calc (n + 1 : ℝ) * 2 ^ (-52 : ℤ) ≤ 2 ^ (52 : ℤ) * 2 ^ (-52 : ℤ) := mul_le_mul_of_nonneg_right this (by positivity)
      _ = 1 := by norm_num
  have h6 := h1.trans (mul_le_mul h2 h3 (Finset.sum_nonneg fun i _ => abs_nonneg _) (by positivity))
  have h7 := mul_le_mul_of_nonneg_right h5 (show (0 : ℝ) ≤ n * 2 ^ (-1075 : ℤ) by positivity)
  have h8 := abs_sub_le (Fl.sum r fun i => g (a i * v i)) (∑ i, t i) (a ⬝ᵥ v)
  rw [e75]
  rw [mul_add] at h6
  linarith

/-! ### Products of a matrix and a vector -/

theorem entry_le {M S : Matrix (Fin n) (Fin n) ℝ} {δ : ℝ} (h0 : 0 ≤ δ) (h1 : δ ≤ 1) (hS : Sᵀ * S = 1) (hM : Stands M S δ) (i j : Fin n) : |M i j| ≤ 2 := by
  have h2 := Fl.stands_row h0 hS hM i
  have h3 : |M i j| ≤ len (M i) := by
    unfold len
    refine Real.abs_le_sqrt ?_
    unfold dotProduct
    rw [pow_two]
    exact Finset.single_le_sum (f := fun k => M i k * M i k) (fun k _ => mul_self_nonneg _) (Finset.mem_univ j)
  linarith

theorem mat_num (g : Nearest) (hn : n ≤ 2 ^ 20) (M S : Matrix (Fin n) (Fin n) ℝ) (δ : ℝ) (h0 : 0 ≤ δ) (h1 : δ ≤ 1) (hS : Sᵀ * S = 1) (hM : Stands M S δ)
    (v : Fin n → ℝ) (b : ℤ) (hb : b ≤ 1002) (hb1 : 0 ≤ b) (hv : ∀ i, |v i| ≤ 2 ^ b) :
    ∃ y : Fin n → ℝ, (fun i => sum g fun j => Dbl.mul g (.num (M i j)) (.num (v j))) = (fun i => .num (y i)) ∧ (∀ i, IsDbl (y i)) ∧ (∀ i, |y i| ≤ n * 2 ^ (b + 1)) ∧
      len (y - S *ᵥ v) ≤ (δ + 2 * n * (n + 1) * 2 ^ (-52 : ℤ)) * len v + n ^ 2 * 2 ^ (-1074 : ℤ) := by
  choose y y1 y2 y3 y4 using fun i => inner_num g hn (M i) v b hb hb1 (entry_le h0 h1 hS hM i) hv
  refine ⟨y, funext y1, y2, y3, ?_⟩
  have hL := len_nonneg v
  have a : ∀ i, |(y - M *ᵥ v) i| ≤ (n + 1) * 2 ^ (-52 : ℤ) * (2 * len v) + n * 2 ^ (-1074 : ℤ) := fun i =>
    (y4 i).trans (add_le_add_left (mul_le_mul_of_nonneg_left (mul_le_mul_of_nonneg_right ((Fl.stands_row h0 hS hM i).trans (by linarith)) hL) (by positivity)) _)
  have b := Fl.len_comp_le (by positivity) a
  have c : √(n : ℝ) ≤ n := by
    rcases Nat.eq_zero_or_pos n with rfl | hp
    · simp
    · rw [Real.sqrt_le_left (by positivity)]
      have : (1 : ℝ) ≤ n := by exact_mod_cast hp
      nlinarith
  have d := mul_le_mul_of_nonneg_right c (show (0 : ℝ) ≤ (n + 1) * 2 ^ (-52 : ℤ) * (2 * len v) + n * 2 ^ (-1074 : ℤ) by positivity)
  have e := len_triangle y (M *ᵥ v) (S *ᵥ v)
  have f := hM v
  generalize (2 : ℝ) ^ (-1074 : ℤ) = η at *
  linarith

end Ie
end WFMath
