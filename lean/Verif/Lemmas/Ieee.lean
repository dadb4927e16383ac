/- Lemmas about doubles with a limited range. -/
import Verif.Model.Ieee
import Verif.Model.Rounded
import Verif.Lemmas.Rounded
import Verif.Lemmas.Const

namespace WFMath
open Spec

namespace Spec

namespace IsDbl
variable {x y : ℝ}

theorem isFl (h : IsDbl x) : IsFl 53 x := by
  obtain ⟨m, e, hm, _, rfl⟩ := h
  exact ⟨m, e, hm, rfl⟩

theorem zero : IsDbl 0 := ⟨0, 0, by norm_num, by norm_num, by simp⟩

theorem neg (h : IsDbl x) : IsDbl (-x) := by
  obtain ⟨m, e, hm, he, rfl⟩ := h
  exact ⟨-m, e, by rwa [abs_neg], he, by push_cast; ring⟩

theorem of_fl (h : IsFl 53 x) (hx : (2 : ℝ) ^ (-1022 : ℤ) ≤ |x|) : IsDbl x := by
  obtain ⟨m, e, hm, rfl⟩ := h
  refine ⟨m, e, hm, ?_, rfl⟩
  have h3 : (2 : ℝ) ^ (-1022 : ℤ) < (2 : ℝ) ^ ((53 : ℤ) + e) := by
    refine hx.trans_lt ?_
    rw [abs_mul, abs_of_pos (by positivity : (0 : ℝ) < (2 : ℝ) ^ e), zpow_add₀ two_ne_zero]
    refine mul_lt_mul_of_pos_right ?_ (by positivity)
    exact_mod_cast hm
  have := (zpow_lt_zpow_iff_right₀ (by norm_num : (1 : ℝ) < 2)).1 h3
  linarith

theorem zpow {e : ℤ} (h : -1074 ≤ e) : IsDbl ((2 : ℝ) ^ e) := ⟨1, e, by norm_num, h, by simp⟩

theorem nat_zpow {k : Nat} (hk : k < 2 ^ 53) {e : ℤ} (h : -1074 ≤ e) : IsDbl ((k : ℝ) * (2 : ℝ) ^ e) :=
  ⟨k, e, by rw [abs_of_nonneg (by positivity)]; exact_mod_cast hk, h, by push_cast; rfl⟩

theorem grid (h : IsDbl x) : ∃ j : ℤ, x = j * (2 : ℝ) ^ (-1074 : ℤ) := by
  obtain ⟨m, e, hm, he, rfl⟩ := h
  obtain ⟨d, rfl⟩ := Int.le.dest he
  refine ⟨m * 2 ^ d, ?_⟩
  rw [zpow_add₀ two_ne_zero, zpow_natCast]
  push_cast; ring

end IsDbl

namespace Nearest
variable (g : Nearest) {x y t : ℝ}

theorem of_dbl (h : IsDbl x) : g x = x := by
  have := g.nearest x x h
  rw [sub_self, abs_zero] at this
  have := abs_eq_zero.1 (le_antisymm this (abs_nonneg _))
  linarith

theorem zero : g 0 = 0 := g.of_dbl IsDbl.zero

theorem mono (h : x ≤ y) : g x ≤ g y := by
  by_contra hc
  push Not at hc
  rcases eq_or_lt_of_le h with rfl | h
  · exact lt_irrefl _ hc
  have h1 := g.nearest x (g y) (g.isDbl y)
  have h2 := g.nearest y (g x) (g.isDbl x)
  rcases abs_cases (g x - x) with ⟨e1, f1⟩ | ⟨e1, f1⟩ <;> rcases abs_cases (g y - x) with ⟨e2, f2⟩ | ⟨e2, f2⟩ <;>
    rcases abs_cases (g y - y) with ⟨e3, f3⟩ | ⟨e3, f3⟩ <;> rcases abs_cases (g x - y) with ⟨e4, f4⟩ | ⟨e4, f4⟩ <;>
    rw [e1, e2] at h1 <;> rw [e3, e4] at h2 <;> linarith

theorem nonneg (h : 0 ≤ x) : 0 ≤ g x := by rw [← g.zero]; exact g.mono h
theorem le_dbl (ht : IsDbl t) (h : x ≤ t) : g x ≤ t := by rw [← g.of_dbl ht]; exact g.mono h
theorem dbl_le (ht : IsDbl t) (h : t ≤ x) : t ≤ g x := by rw [← g.of_dbl ht]; exact g.mono h
theorem abs_le_dbl (ht : IsDbl t) (h : |x| ≤ t) : |g x| ≤ t := by
  rw [_root_.abs_le] at h ⊢
  exact ⟨g.dbl_le ht.neg h.1, g.le_dbl ht h.2⟩

theorem abs_eq (x : ℝ) : |g x| = g |x| := by
  rcases le_total 0 x with h | h
  · rw [abs_of_nonneg h, abs_of_nonneg (g.nonneg h)]
  · rw [abs_of_nonpos h, g.odd, abs_of_nonpos]
    have := g.nonneg (neg_nonneg.2 h)
    rw [g.odd] at this; linarith

/-- A number not more than half of the smallest positive double is, if it is strictly less, rounded to 0. -/
theorem tiny (h : |x| < 2 ^ (-1075 : ℤ)) : g x = 0 := by
  have h1 := g.nearest x 0 IsDbl.zero
  rw [zero_sub, abs_neg] at h1
  obtain ⟨j, hj⟩ := (g.isDbl x).grid
  have h2 : |g x| < 2 ^ (-1074 : ℤ) := by
    have := abs_sub_abs_le_abs_sub (g x) x
    rw [show (-1074 : ℤ) = -1075 + 1 by norm_num, zpow_add₀ two_ne_zero]
    linarith
  rw [hj, abs_mul, abs_of_pos (by positivity : (0 : ℝ) < (2 : ℝ) ^ (-1074 : ℤ))] at h2
  have h3 : |(j : ℝ)| < 1 := by
    by_contra hc
    push Not at hc
    have := mul_le_mul_of_nonneg_right hc (by positivity : (0 : ℝ) ≤ (2 : ℝ) ^ (-1074 : ℤ))
    linarith
  have : |j| < 1 := by exact_mod_cast h3
  have : j = 0 := by rw [abs_lt] at this; omega
  rw [hj, this]; simp

/-- Away from the subnormal numbers a rounding of doubles is a rounding to 53 digits. -/
theorem extends_ : ∃ r : Rounding 53, ∀ x, x = 0 ∨ 2 ^ (-1022 : ℤ) ≤ |x| → g x = r x := by
  classical
  refine ⟨⟨fun x => if 2 ^ (-1022 : ℤ) ≤ |x| then g x else someRounding 53 Fl.pos53 x, fun x => ?_, fun x y hy => ?_, fun x => ?_⟩, fun x hx => ?_⟩
  · split_ifs
    · exact (g.isDbl x).isFl
    · exact (someRounding 53 Fl.pos53).isFl x
  · split_ifs with h
    · by_cases hd : 2 ^ (-1022 : ℤ) ≤ |y|
      · exact g.nearest x y (IsDbl.of_fl hy hd)
      · push Not at hd
        have hz : IsDbl ((2 : ℝ) ^ (-1022 : ℤ)) := IsDbl.zpow (by norm_num)
        have h4 := abs_sub_abs_le_abs_sub x y
        rw [abs_sub_comm x] at h4
        rcases le_total 0 x with hs | hs
        · have := g.nearest x _ hz
          rw [abs_of_nonneg hs] at h h4
          rw [abs_sub_comm ((2 : ℝ) ^ (-1022 : ℤ)), abs_of_nonneg (sub_nonneg.2 h)] at this
          linarith
        · have := g.nearest x _ hz.neg
          rw [abs_of_nonpos hs] at h h4
          rw [abs_of_nonneg (by linarith : 0 ≤ -(2 : ℝ) ^ (-1022 : ℤ) - x)] at this
          linarith
    · exact (someRounding 53 Fl.pos53).nearest x y hy
  · simp only [abs_neg]
    split_ifs
    · exact g.odd x
    · exact (someRounding 53 Fl.pos53).odd x
  · rcases hx with rfl | hx
    · simp only
      split_ifs
      · rfl
      · rw [g.zero]; exact ((someRounding 53 Fl.pos53).zero).symm
    · simp only [if_pos hx]

end Nearest

/-- Multiples of the smallest positive double. -/
noncomputable def subTo (x : ℝ) : ℝ := (_root_.round (x / (2 : ℝ) ^ (-1074 : ℤ)) : ℝ) * (2 : ℝ) ^ (-1074 : ℤ)

theorem subTo_nearest {x : ℝ} (h : |x| < 2 ^ (-1022 : ℤ)) : IsDbl (subTo x) ∧ ∀ y, IsDbl y → |subTo x - x| ≤ |y - x| := by
  have hg : (0 : ℝ) < (2 : ℝ) ^ (-1074 : ℤ) := by positivity
  unfold subTo
  have hr := abs_sub_round (x / (2 : ℝ) ^ (-1074 : ℤ))
  have hnear := round_nearest (x / (2 : ℝ) ^ (-1074 : ℤ))
  have hxg : |x / (2 : ℝ) ^ (-1074 : ℤ)| < 2 ^ 52 := by
    rw [abs_div, abs_of_pos hg, div_lt_iff₀ hg]
    refine h.trans_le (le_of_eq ?_)
    rw [show (-1022 : ℤ) = ((52 : Nat) : ℤ) + -1074 by norm_num, zpow_add₀ two_ne_zero, zpow_natCast]
  generalize _root_.round (x / (2 : ℝ) ^ (-1074 : ℤ)) = k at *
  refine ⟨⟨k, -1074, ?_, le_refl _, rfl⟩, fun y hy => ?_⟩
  · have : |(k : ℝ)| < 2 ^ 53 := by
      have := abs_sub_abs_le_abs_sub (k : ℝ) (x / (2 : ℝ) ^ (-1074 : ℤ))
      rw [abs_sub_comm] at this
      generalize |x / (2 : ℝ) ^ (-1074 : ℤ)| = t at *
      norm_num at hxg ⊢
      linarith
    exact_mod_cast this
  · obtain ⟨j, rfl⟩ := hy.grid
    have e1 : ∀ j : ℤ, (j : ℝ) * (2 : ℝ) ^ (-1074 : ℤ) - x = ((j : ℝ) - x / (2 : ℝ) ^ (-1074 : ℤ)) * (2 : ℝ) ^ (-1074 : ℤ) := by
      intro j
      rw [sub_mul, div_mul_cancel₀ _ hg.ne']
    rw [e1, e1, abs_mul, abs_mul]
    exact mul_le_mul_of_nonneg_right (hnear j) (abs_nonneg _)

/-- The same, mirrored for negative numbers. -/
noncomputable def subAway (x : ℝ) : ℝ := if 0 ≤ x then subTo x else -subTo (-x)

/-- Rounding to nearest, ties away from 0: the theorems about doubles are about something. -/
noncomputable def someNearest : Nearest where
  rnd x := if 2 ^ (-1022 : ℤ) ≤ |x| then someRounding 53 Fl.pos53 x else subAway x
  isDbl x := by
    split_ifs with h
    · refine IsDbl.of_fl ((someRounding 53 Fl.pos53).isFl x) ?_
      rcases le_total 0 x with hs | hs
      · rw [abs_of_nonneg hs] at h
        exact ((someRounding 53 Fl.pos53).fl_le (IsFl.zpow Fl.pos53 _) h).trans (le_abs_self _)
      · rw [abs_of_nonpos hs] at h
        have := (someRounding 53 Fl.pos53).fl_le (IsFl.zpow Fl.pos53 _) h
        rw [Rounding.odd] at this
        exact this.trans (neg_le_abs _)
    · push Not at h
      unfold subAway
      split_ifs
      · exact (subTo_nearest h).1
      · exact (subTo_nearest (by rwa [abs_neg])).1.neg
  nearest x y hy := by
    split_ifs with h
    · exact (someRounding 53 Fl.pos53).nearest x y hy.isFl
    · push Not at h
      unfold subAway
      split_ifs
      · exact (subTo_nearest h).2 y hy
      · have := (subTo_nearest (x := -x) (by rwa [abs_neg])).2 (-y) hy.neg
        rw [← abs_neg, ← abs_neg (y - x)]
        rwa [show -(-subTo (-x) - x) = subTo (-x) - -x by ring, show -(y - x) = -y - -x by ring]
  odd x := by
    simp only [abs_neg]
    split_ifs
    · exact (someRounding 53 Fl.pos53).odd x
    · unfold subAway
      rcases lt_trichotomy x 0 with h | rfl | h
      · rw [if_pos (by linarith), if_neg (by linarith), neg_neg]
      · have : subTo 0 = 0 := by unfold subTo; simp
        simp [this]
      · rw [if_neg (by linarith), if_pos h.le, neg_neg]

end Spec

/-! ### Magnitudes of intermediate results -/

namespace Nrm
variable {a b c d : ℤ} {x y : ℝ}

theorem zero : Nrm a b 0 := Or.inl rfl

theorem simple (ha : a ≤ 0) (hb : 2 ≤ b) (h1 : 1 ≤ |x|) (h2 : |x| ≤ 4) : Nrm a b x := by
  right
  refine ⟨(zpow_le_one_of_nonpos₀ one_le_two ha).trans h1, h2.trans ?_⟩
  have : (2 : ℝ) ^ (2 : ℤ) ≤ 2 ^ b := zpow_le_zpow_right₀ one_le_two hb
  norm_num at this ⊢; linarith

theorem weaken (h : Nrm a b x) (ha : c ≤ a) (hb : b ≤ d) : Nrm c d x :=
  h.imp id fun h => ⟨(zpow_le_zpow_right₀ one_le_two ha).trans h.1, h.2.trans (zpow_le_zpow_right₀ one_le_two hb)⟩

theorem abs (h : Nrm a b x) : Nrm a b |x| := by
  rcases h with rfl | h
  · exact Or.inl abs_zero
  · exact Or.inr (by rwa [abs_abs])

theorem le (h : Nrm a b x) : |x| ≤ (2 : ℝ) ^ b := by
  rcases h with rfl | h
  · rw [abs_zero]; positivity
  · exact h.2

theorem mul (hx : Nrm a b x) (hy : Nrm c d y) : Nrm (a + c) (b + d) (x * y) := by
  rcases hx with rfl | hx
  · exact Or.inl (zero_mul _)
  rcases hy with rfl | hy
  · exact Or.inl (mul_zero _)
  right
  rw [abs_mul, zpow_add₀ two_ne_zero, zpow_add₀ two_ne_zero]
  exact ⟨mul_le_mul hx.1 hy.1 (by positivity) (abs_nonneg _), mul_le_mul hx.2 hy.2 (abs_nonneg _) (by positivity)⟩

theorem inv (hx : Nrm a b x) : Nrm (-b) (-a) x⁻¹ := by
  rcases hx with rfl | hx
  · exact Or.inl inv_zero
  right
  have h0 : 0 < |x| := lt_of_lt_of_le (by positivity) hx.1
  rw [abs_inv, zpow_neg, zpow_neg]
  exact ⟨inv_anti₀ h0 hx.2, inv_anti₀ (by positivity) hx.1⟩

theorem div (hx : Nrm a b x) (hy : Nrm c d y) : Nrm (a - d) (b - c) (x / y) := by
  rw [div_eq_mul_inv, sub_eq_add_neg, sub_eq_add_neg]; exact hx.mul hy.inv

theorem sqrt (hx : Nrm (2 * a) (2 * b) x) (h0 : 0 ≤ x) : Nrm a b (Real.sqrt x) := by
  rcases hx with rfl | hx
  · exact Or.inl Real.sqrt_zero
  right
  rw [abs_of_nonneg h0] at hx
  rw [abs_of_nonneg (Real.sqrt_nonneg _)]
  have e : ∀ k : ℤ, (2 : ℝ) ^ (2 * k) = ((2 : ℝ) ^ k) ^ 2 := by
    intro k; rw [two_mul, zpow_add₀ two_ne_zero, pow_two]
  rw [e, e] at hx
  exact ⟨Real.le_sqrt_of_sq_le hx.1, Real.sqrt_le_iff.2 ⟨by positivity, hx.2⟩⟩

theorem rnd (r : Rounding 53) (h : Nrm a b x) : Nrm a b (r x) := by
  rcases h with rfl | h
  · exact Or.inl r.zero
  right
  refine ⟨?_, r.abs_le_fl (IsFl.zpow Fl.pos53 _) h.2⟩
  rcases le_total 0 x with hs | hs
  · rw [abs_of_nonneg hs] at h
    exact (r.fl_le (IsFl.zpow Fl.pos53 _) h.1).trans (le_abs_self _)
  · rw [abs_of_nonpos hs] at h
    have := r.fl_le (IsFl.zpow Fl.pos53 _) h.1
    rw [r.odd] at this
    exact this.trans (neg_le_abs _)

end Nrm

/-- Two doubles that are 0 or not tiny are equal or differ by something that is not tiny. -/
theorem Nrm.sub {a b : ℤ} {x y : ℝ} (hx : IsDbl x) (hy : IsDbl y) (nx : Nrm a b x) (ny : Nrm a b y) : Nrm (a - 52) (b + 1) (x - y) := by
  have gr : ∀ z, IsDbl z → Nrm a b z → ∃ j : ℤ, z = j * (2 : ℝ) ^ (a - 52) := by
    intro z hz nz
    rcases nz with rfl | nz
    · exact ⟨0, by simp⟩
    · obtain ⟨j, hj⟩ := hz.isFl.grid nz.1
      refine ⟨j, ?_⟩
      rw [hj]; congr 2; push_cast; ring
  obtain ⟨i, hi⟩ := gr x hx nx
  obtain ⟨j, hj⟩ := gr y hy ny
  have e : x - y = ((i - j : ℤ) : ℝ) * (2 : ℝ) ^ (a - 52) := by rw [hi, hj]; push_cast; ring
  by_cases hij : i - j = 0
  · left; rw [e, hij]; simp
  · right
    refine ⟨?_, ?_⟩
    · rw [e, abs_mul, abs_of_pos (by positivity : (0 : ℝ) < (2 : ℝ) ^ (a - 52))]
      have : (1 : ℤ) ≤ |i - j| := Int.one_le_abs hij
      have : (1 : ℝ) ≤ |((i - j : ℤ) : ℝ)| := by exact_mod_cast this
      exact le_mul_of_one_le_left (by positivity) this
    · rw [zpow_add₀ two_ne_zero, zpow_one, mul_two]
      exact (abs_sub x y).trans (add_le_add nx.le ny.le)

namespace Ie
variable {n : Nat}

/-- `r` rounds as `g` does, away from the subnormal numbers. -/
def Ext (g : Nearest) (r : Rounding 53) : Prop := ∀ x, x = 0 ∨ 2 ^ (-1022 : ℤ) ≤ |x| → g x = r x

variable {g : Nearest} {r : Rounding 53}

theorem round_num {x : ℝ} (hr : Ext g r) (h : Nrm (-1022) 1023 x) : Dbl.round g x = .num (r x) := by
  have e : g x = r x := hr x (h.imp id And.left)
  unfold Dbl.round
  rw [e, if_pos]
  exact ((h.rnd r).le).trans_lt (zpow_lt_zpow_right₀ one_lt_two (by norm_num))

theorem round_of_le {x : ℝ} (h : |x| ≤ 2 ^ (1023 : ℤ)) : Dbl.round g x = .num (g x) := by
  unfold Dbl.round
  rw [if_pos]
  exact (g.abs_le_dbl (IsDbl.zpow (by norm_num)) h).trans_lt (zpow_lt_zpow_right₀ one_lt_two (by norm_num))

theorem round_inf {x : ℝ} (h : 2 ^ (1024 : ℤ) ≤ |x|) : Dbl.round g x = .inf (decide (x < 0)) := by
  unfold Dbl.round
  rw [if_neg]
  rw [g.abs_eq, not_lt]
  exact g.dbl_le (IsDbl.zpow (by norm_num)) h

theorem round_dbl {x : ℝ} (hx : IsDbl x) (h : |x| < 2 ^ (1024 : ℤ)) : Dbl.round g x = .num x := by
  unfold Dbl.round
  rw [g.of_dbl hx, if_pos h]

theorem sub_num (x y : ℝ) : Dbl.sub g (.num x) (.num y) = Dbl.round g (x - y) := by
  simp only [Dbl.sub, Dbl.neg, Dbl.add, sub_eq_add_neg]

/-! ### Sums of squares -/

theorem sum_fold (hr : Ext g r) (f : Fin n → ℝ) :
    ∀ (l : List (Fin n)) (s : ℝ) (k : Nat), k + l.length ≤ 2 ^ 20 → (s = 0 ∨ (2 : ℝ) ^ (-1000 : ℤ) ≤ s) → s ≤ k * 2 ^ (1000 : ℤ) →
      (∀ i, 0 ≤ f i ∧ Nrm (-1000) 1000 (f i)) →
      l.foldl (fun s i => Dbl.add g s (.num (f i))) (.num s) = .num (l.foldl (fun s i => r (s + f i)) s) ∧
        Nrm (-1000) 1020 (l.foldl (fun s i => r (s + f i)) s) ∧ 0 ≤ l.foldl (fun s i => r (s + f i)) s := by
  intro l
  induction l with
  | nil =>
    intro s k hk hs hsk _
    have h0 : 0 ≤ s := hs.elim (fun h => h.ge) (fun h => (by positivity : (0 : ℝ) ≤ (2 : ℝ) ^ (-1000 : ℤ)).trans h)
    refine ⟨rfl, ?_, h0⟩
    simp only [List.foldl_nil]
    refine hs.imp id fun h => ⟨by rwa [abs_of_nonneg h0], ?_⟩
    rw [abs_of_nonneg h0]
    refine hsk.trans ?_
    have hk' : (k : ℝ) ≤ 2 ^ (20 : ℤ) := by
      simp only [List.length_nil, add_zero] at hk
      exact_mod_cast hk
    rw [show (1020 : ℤ) = 20 + 1000 by norm_num, zpow_add₀ two_ne_zero]
    exact mul_le_mul_of_nonneg_right hk' (by positivity)
  | cons i l ih =>
    intro s k hk hs hsk hf
    have h0 : 0 ≤ s := hs.elim (fun h => h.ge) (fun h => (by positivity : (0 : ℝ) ≤ (2 : ℝ) ^ (-1000 : ℤ)).trans h)
    obtain ⟨hf0, hfn⟩ := hf i
    have hlow : s + f i = 0 ∨ (2 : ℝ) ^ (-1000 : ℤ) ≤ s + f i := by
      rcases hs with hs | hs
      · rcases hfn with h | h
        · left; rw [hs, h, add_zero]
        · right; rw [abs_of_nonneg hf0] at h; linarith
      · right; linarith
    have hup : s + f i ≤ ((k + 1 : Nat) : ℝ) * 2 ^ (1000 : ℤ) := by
      have := hfn.le
      rw [abs_of_nonneg hf0] at this
      push_cast; linarith
    have hk1 : k + 1 ≤ 2 ^ 20 := by simp only [List.length_cons] at hk; omega
    have hk' : ((k + 1 : Nat) : ℝ) ≤ 2 ^ (20 : ℤ) := by exact_mod_cast hk1
    have hbig : ((k + 1 : Nat) : ℝ) * 2 ^ (1000 : ℤ) ≤ 2 ^ (1020 : ℤ) := by
      rw [show (1020 : ℤ) = 20 + 1000 by norm_num, zpow_add₀ two_ne_zero]
      exact mul_le_mul_of_nonneg_right hk' (by positivity)
    have hN : Nrm (-1000) 1020 (s + f i) := by
      refine hlow.imp id fun h => ?_
      rw [abs_of_nonneg (add_nonneg h0 hf0)]
      exact ⟨h, hup.trans hbig⟩
    simp only [List.foldl_cons]
    have e : Dbl.add g (.num s) (.num (f i)) = .num (r (s + f i)) := round_num hr (hN.weaken (by norm_num) (by norm_num))
    rw [e]
    refine ih (r (s + f i)) (k + 1) (by simp only [List.length_cons] at hk; omega) ?_ ?_ hf
    · rcases hlow with h | h
      · left; rw [h, r.zero]
      · right; exact r.fl_le (IsFl.zpow Fl.pos53 _) h
    · refine r.le_fl ?_ hup
      have := IsFl.int_zpow Fl.pos53 (k := ((k + 1 : Nat) : ℤ)) (by rw [abs_of_nonneg (by positivity)]; norm_cast; exact hk1.trans (by norm_num)) 1000
      rwa [Int.cast_natCast] at this

theorem sum_num (hr : Ext g r) (hn : n ≤ 2 ^ 20) (F : Fin n → Dbl) (f : Fin n → ℝ) (hF : ∀ i, F i = .num (f i)) (hf : ∀ i, 0 ≤ f i ∧ Nrm (-1000) 1000 (f i)) :
    sum g F = .num (Fl.sum r f) ∧ Nrm (-1000) 1020 (Fl.sum r f) ∧ 0 ≤ Fl.sum r f := by
  obtain rfl : F = fun i => .num (f i) := funext hF
  exact sum_fold hr f (List.finRange n) 0 0 (by simpa using hn) (Or.inl rfl) (by simp) hf

theorem sqrMag_num (hr : Ext g r) (hn : n ≤ 2 ^ 20) (v : Fin n → ℝ) (hv : ∀ i, Nrm (-500) 500 (v i)) :
    sqrMag g (fun i => .num (v i)) = .num (Fl.sqrMag r ⟨v, true⟩) ∧ Nrm (-1000) 1020 (Fl.sqrMag r ⟨v, true⟩) ∧ 0 ≤ Fl.sqrMag r ⟨v, true⟩ := by
  have hm : ∀ i, Nrm (-1000) 1000 (v i * v i) := fun i => (hv i).mul (hv i)
  exact sum_num hr hn _ _ (fun i => round_num hr ((hm i).weaken (by norm_num) (by norm_num))) fun i => ⟨r.nonneg (mul_self_nonneg _), (hm i).rnd r⟩

theorem sqrt_num (hr : Ext g r) {s : ℝ} {a b : ℤ} (hs : Nrm (2 * a) (2 * b) s) (h0 : 0 ≤ s) (ha : -1022 ≤ a) (hb : b ≤ 1023) :
    Dbl.sqrt g (.num s) = .num (r (Real.sqrt s)) ∧ Nrm a b (r (Real.sqrt s)) := by
  have h := hs.sqrt h0
  refine ⟨?_, h.rnd r⟩
  simp only [Dbl.sqrt, if_neg (not_lt.2 h0)]
  exact round_num hr (h.weaken ha hb)

theorem mag_num (hr : Ext g r) (hn : n ≤ 2 ^ 20) (v : Fin n → ℝ) (hv : ∀ i, Nrm (-500) 500 (v i)) :
    mag g (fun i => .num (v i)) = .num (Fl.mag r ⟨v, true⟩) ∧ Nrm (-500) 510 (Fl.mag r ⟨v, true⟩) := by
  obtain ⟨h1, h2, h3⟩ := sqrMag_num hr hn v hv
  unfold mag
  rw [h1]
  exact sqrt_num hr (a := -500) (b := 510) h2 h3 (by norm_num) (by norm_num)

theorem normalize_num (hr : Ext g r) (hn : n ≤ 2 ^ 20) (v : Fin n → ℝ) (hv : ∀ i, Nrm (-300) 300 (v i)) (norm : ℝ) (hnorm : Nrm (-200) 200 norm)
    (h0 : v ≠ 0) (i : Fin n) : normalize g (fun i => .num (v i)) (.num norm) i = .num ((Fl.normalize r ⟨v, true⟩ norm).elem i) := by
  obtain ⟨h1, h2⟩ := mag_num hr hn v fun i => (hv i).weaken (by norm_num) (by norm_num)
  have hm : Fl.mag r ⟨v, true⟩ ≠ 0 := by
    rw [Ne, (Fl.mag_close r ⟨v, true⟩).eq_zero Fl.pos53]
    exact (Vec.mag_pos (v := ⟨v, true⟩).2 h0).ne'
  have hN : Nrm (-710) 700 (norm / Fl.mag r ⟨v, true⟩) := (hnorm.div h2).weaken (by norm_num) (by norm_num)
  have hd : Dbl.div g (.num norm) (.num (Fl.mag r ⟨v, true⟩)) = .num (r (norm / Fl.mag r ⟨v, true⟩)) := by
    simp only [Dbl.div, if_neg hm]
    exact round_num hr (hN.weaken (by norm_num) (by norm_num))
  simp only [normalize, h1, hd, Dbl.mul, Fl.normalize, Fl.scale]
  exact round_num hr (((hv i).mul (hN.rnd r)).weaken (by norm_num) (by norm_num))

/-! ### Tolerances -/

theorem maxAbs_num (v : Fin n → ℝ) : maxAbs (fun i => .num (v i)) = .num (WFMath.maxAbs v) := by
  unfold maxAbs WFMath.maxAbs
  generalize List.finRange n = l
  generalize (0 : ℝ) = s
  induction l generalizing s with
  | nil => rfl
  | cons i l ih =>
    simp only [List.foldl_cons, Dbl.abs, Dbl.lt, decide_eq_true_eq, gt_iff_lt]
    split_ifs
    · exact ih _
    · exact ih _

theorem maxAbs_nrm {a b : ℤ} (v : Fin n → ℝ) (hv : ∀ i, Nrm a b (v i)) : Nrm a b (WFMath.maxAbs v) := by
  unfold WFMath.maxAbs
  have : ∀ (l : List (Fin n)) (s : ℝ), Nrm a b s → Nrm a b (l.foldl (fun m i => if |v i| > m then |v i| else m) s) := by
    intro l
    induction l with
    | nil => exact fun s h => h
    | cons i l ih =>
      intro s hs
      simp only [List.foldl_cons]
      split_ifs
      · exact ih _ (hv i).abs
      · exact ih _ hs
  exact this _ _ Nrm.zero

theorem scale_num (hr : Ext g r) (fe : ℤ) {x y eps : ℝ} (hx : Nrm (-500) 500 x) (hy : Nrm (-500) 500 y) (he : Nrm (-500) 500 eps)
    (hd : IsDbl eps) : scaleEpsilon g fe (.num x) (.num y) (.num eps) = .num (WFMath.scaleEpsilon x y eps) := by
  unfold scaleEpsilon WFMath.scaleEpsilon
  simp only [Dbl.abs, Dbl.lt, decide_eq_true_eq]
  have key : ∀ z : ℝ, Nrm (-500) 500 z → ldexp g (.num eps) (frexpExp fe (.num z)) = .num (WFMath.ldexp eps (WFMath.frexpExp z)) := by
    intro z hz
    have hz' : Nrm (-500) 501 ((2 : ℝ) ^ WFMath.frexpExp z) := by
      right
      rw [abs_of_pos (by positivity)]
      rcases hz with rfl | hz
      · rw [frexpExp_zero]
        exact ⟨zpow_le_zpow_right₀ one_le_two (by norm_num), zpow_le_zpow_right₀ one_le_two (by norm_num)⟩
      · have h0 : z ≠ 0 := by
          rintro rfl
          have : (0 : ℝ) < 2 ^ (-500 : ℤ) := by positivity
          rw [abs_zero] at hz; linarith [hz.1]
        have h1 := frexp_lower h0
        have h2 := frexp_upper h0
        refine ⟨hz.1.trans h2.le, h1.trans ?_⟩
        rw [show (501 : ℤ) = 1 + 500 by norm_num, zpow_add₀ two_ne_zero, zpow_one]
        linarith [hz.2]
    have hN := he.mul hz'
    have hfl : IsFl 53 (eps * (2 : ℝ) ^ WFMath.frexpExp z) := hd.isFl.mul_zpow _
    simp only [ldexp, frexpExp, WFMath.ldexp]
    rw [round_num hr (hN.weaken (by norm_num) (by norm_num)), r.of_fl hfl]
  split_ifs
  · exact key x hx
  · exact key y hy

theorem scaleArr_num (hr : Ext g r) (fe : ℤ) {x y : Fin n → ℝ} {eps : ℝ} (hx : ∀ i, Nrm (-500) 500 (x i)) (hy : ∀ i, Nrm (-500) 500 (y i))
    (he : Nrm (-500) 500 eps) (hd : IsDbl eps) :
    scaleEpsilonArr g fe (fun i => .num (x i)) (fun i => .num (y i)) (.num eps) = .num (WFMath.scaleEpsilonArr x y eps) := by
  unfold scaleEpsilonArr WFMath.scaleEpsilonArr
  rw [maxAbs_num, maxAbs_num]
  exact scale_num hr fe (maxAbs_nrm x hx) (maxAbs_nrm y hy) he hd

theorem sub_num' (hr : Ext g r) {x y : ℝ} (hx : IsDbl x) (hy : IsDbl y) (nx : Nrm (-440) 499 x) (ny : Nrm (-440) 499 y) :
    Dbl.sub g (.num x) (.num y) = .num (r (x - y)) ∧ Nrm (-492) 500 (r (x - y)) := by
  have h := Nrm.sub hx hy nx ny
  exact ⟨by rw [sub_num]; exact round_num hr (h.weaken (by norm_num) (by norm_num)), h.rnd r⟩

theorem vecEqual_num (hr : Ext g r) (fe : ℤ) {x y : Fin n → ℝ} {eps : ℝ} (dx : ∀ i, IsDbl (x i)) (dy : ∀ i, IsDbl (y i))
    (hx : ∀ i, Nrm (-440) 499 (x i)) (hy : ∀ i, Nrm (-440) 499 (y i)) (he : Nrm (-500) 500 eps) (hd : IsDbl eps) (a b : Bool) :
    vecEqual g fe ⟨fun i => .num (x i), a⟩ ⟨fun i => .num (y i), b⟩ (.num eps) = Fl.vecEqual r ⟨x, a⟩ ⟨y, b⟩ eps := by
  unfold vecEqual Fl.vecEqual Fl.arrEqual
  simp only [scaleArr_num hr fe (fun i => (hx i).weaken (by norm_num : (-500 : ℤ) ≤ -440) (by norm_num : (499 : ℤ) ≤ 500))
    (fun i => (hy i).weaken (by norm_num : (-500 : ℤ) ≤ -440) (by norm_num : (499 : ℤ) ≤ 500)) he hd]
  congr 1
  congr 1
  funext i
  rw [(sub_num' hr (dx i) (dy i) (hx i) (hy i)).1]
  rfl

theorem eps_nrm : Nrm (-500) 500 epsilon := by
  right
  have h1 : (2 : ℝ) ^ (-500 : ℤ) ≤ 2 ^ (-52 : ℤ) := zpow_le_zpow_right₀ one_le_two (by norm_num)
  have h2 : (1 : ℝ) ≤ 2 ^ (500 : ℤ) := one_le_zpow₀ one_le_two (by norm_num)
  have he2 := epsilon_lt
  have he : epsilon = 30 * 2 ^ (-52 : ℤ) := rfl
  have hp : (0 : ℝ) < 2 ^ (-52 : ℤ) := by positivity
  rw [abs_of_pos (by rw [he]; linarith)]
  refine ⟨?_, ?_⟩
  · rw [he]; linarith
  · refine le_trans ?_ h2
    norm_num at he2; linarith

theorem eps_dbl : IsDbl epsilon := ⟨30, -52, by norm_num, by norm_num, by simp [epsilon]⟩

theorem sqDist_num (hr : Ext g r) (fe : ℤ) (hn : n ≤ 2 ^ 20) {p q : Fin n → ℝ} (dp : ∀ i, IsDbl (p i)) (dq : ∀ i, IsDbl (q i))
    (hp : ∀ i, Nrm (-440) 499 (p i)) (hq : ∀ i, Nrm (-440) 499 (q i)) :
    sqDist g fe (fun i => .num (p i)) (fun i => .num (q i)) = .num (Fl.sqDist r ⟨p, true⟩ ⟨q, true⟩) ∧
      Nrm (-1000) 1020 (Fl.sqDist r ⟨p, true⟩ ⟨q, true⟩) ∧ 0 ≤ Fl.sqDist r ⟨p, true⟩ ⟨q, true⟩ := by
  have hs := fun i => sub_num' hr (dp i) (dq i) (hp i) (hq i)
  have hm : ∀ i, Nrm (-984) 1000 (r (p i - q i) * r (p i - q i)) := fun i => (hs i).2.mul (hs i).2
  obtain ⟨h1, h2, h3⟩ := sum_num hr hn (fun i => Dbl.mul g (Dbl.sub g (.num (p i)) (.num (q i))) (Dbl.sub g (.num (p i)) (.num (q i))))
    (fun i => r (r (p i - q i) * r (p i - q i)))
    (fun i => by rw [(hs i).1]; exact round_num hr ((hm i).weaken (by norm_num) (by norm_num)))
    (fun i => ⟨r.nonneg (mul_self_nonneg _), ((hm i).weaken (by norm_num) (by norm_num)).rnd r⟩)
  have hS := scaleArr_num hr fe (fun i => (hp i).weaken (by norm_num : (-500 : ℤ) ≤ -440) (by norm_num : (499 : ℤ) ≤ 500))
    (fun i => (hq i).weaken (by norm_num : (-500 : ℤ) ≤ -440) (by norm_num : (499 : ℤ) ≤ 500)) eps_nrm eps_dbl
  unfold sqDist Fl.sqDist
  simp only [h1, hS, Dbl.abs, Dbl.le, decide_eq_true_eq, ge_iff_le]
  split_ifs
  · exact ⟨rfl, h2, h3⟩
  · exact ⟨rfl, Nrm.zero, le_refl _⟩

theorem dist_num (hr : Ext g r) (fe : ℤ) (hn : n ≤ 2 ^ 20) {p q : Fin n → ℝ} (dp : ∀ i, IsDbl (p i)) (dq : ∀ i, IsDbl (q i))
    (hp : ∀ i, Nrm (-440) 499 (p i)) (hq : ∀ i, Nrm (-440) 499 (q i)) :
    dist g fe (fun i => .num (p i)) (fun i => .num (q i)) = .num (Fl.dist r ⟨p, true⟩ ⟨q, true⟩) := by
  obtain ⟨h1, h2, h3⟩ := sqDist_num hr fe hn dp dq hp hq
  unfold dist
  rw [h1]
  exact (sqrt_num (s := Fl.sqDist r ⟨p, true⟩ ⟨q, true⟩) hr (a := -500) (b := 510) (by norm_num; exact h2) h3 (by norm_num) (by norm_num)).1

theorem ball_num (hr : Ext g r) (fe : ℤ) (hn : n ≤ 2 ^ 20) {c p : Fin n → ℝ} {R : ℝ} (dc : ∀ i, IsDbl (c i)) (dp : ∀ i, IsDbl (p i))
    (hc : ∀ i, Nrm (-440) 499 (c i)) (hp : ∀ i, Nrm (-440) 499 (p i)) (hR : Nrm (-440) 499 R) (proper : Bool) :
    interBallP g fe (fun i => .num (c i)) (.num R) (fun i => .num (p i)) proper = Fl.interBallP r ⟨⟨c, true⟩, R⟩ ⟨p, true⟩ proper := by
  have he2 := epsilon_lt
  norm_num at he2
  have he0 := epsilon_pos
  have n1 : Nrm 0 1 (1 + epsilon) := by
    right
    rw [abs_of_pos (by linarith)]
    norm_num
    exact ⟨he0.le, by linarith⟩
  have n2 := hR.mul hR
  unfold interBallP Fl.interBallP Fl.radiusBound
  rw [(sqDist_num hr fe hn dc dp hc hp).1]
  have e1 : Dbl.mul g (.num R) (.num R) = .num (r (R * R)) := round_num hr (n2.weaken (by norm_num) (by norm_num))
  have e2 : Dbl.round g (1 + epsilon) = .num (r (1 + epsilon)) := round_num hr (n1.weaken (by norm_num) (by norm_num))
  have e3 : Dbl.mul g (.num (r (R * R))) (.num (r (1 + epsilon))) = .num (r (r (R * R) * r (1 + epsilon))) :=
    round_num hr (((n2.rnd r).mul (n1.rnd r)).weaken (by norm_num) (by norm_num))
  rw [e1, e2, e3]
  unfold lessEq WFMath.lessEq
  cases proper <;> simp [Dbl.lt, Dbl.le]

/-! ### Overflow and underflow -/

/-- Adding up numbers and +infinity, none negative. -/
def NonnegD : Dbl → Prop
  | .num x => 0 ≤ x
  | .inf s => s = false
  | .nan => False

theorem nonneg_round {x : ℝ} (h : 0 ≤ x) : NonnegD (Dbl.round g x) := by
  unfold Dbl.round
  split_ifs
  · exact g.nonneg h
  · simp [NonnegD, h]

theorem nonneg_add {a b : Dbl} (ha : NonnegD a) (hb : NonnegD b) : NonnegD (Dbl.add g a b) := by
  rcases a with x | s | _ <;> rcases b with y | t | _ <;> simp_all [NonnegD, Dbl.add]
  exact nonneg_round (add_nonneg ha hb)

theorem add_inf {a : Dbl} (ha : NonnegD a) : Dbl.add g a (.inf false) = .inf false := by
  rcases a with x | s | _ <;> simp_all [NonnegD, Dbl.add]

theorem inf_add {a : Dbl} (ha : NonnegD a) : Dbl.add g (.inf false) a = .inf false := by
  rcases a with x | s | _ <;> simp_all [NonnegD, Dbl.add]

theorem sum_inf (F : Fin n → Dbl) (hF : ∀ i, NonnegD (F i)) {k : Fin n} (hk : F k = .inf false) : sum g F = .inf false := by
  have stay : ∀ l : List (Fin n), l.foldl (fun s i => Dbl.add g s (F i)) (.inf false) = .inf false := by
    intro l
    induction l with
    | nil => rfl
    | cons i l ih => simp only [List.foldl_cons, inf_add (hF i)]; exact ih
  have key : ∀ (l : List (Fin n)) (s : Dbl), NonnegD s → k ∈ l → l.foldl (fun s i => Dbl.add g s (F i)) s = .inf false := by
    intro l
    induction l with
    | nil => intro s _ h; cases h
    | cons i l ih =>
      intro s hs h
      simp only [List.foldl_cons]
      by_cases e : i = k
      · rw [e, hk, add_inf hs]; exact stay l
      · exact ih _ (nonneg_add hs (hF i)) ((List.mem_cons.1 h).resolve_left (Ne.symm e))
  exact key _ _ (le_refl (0 : ℝ)) (List.mem_finRange k)

theorem sum_zero (F : Fin n → Dbl) (hF : ∀ i, F i = .num 0) : sum g F = .num 0 := by
  unfold sum
  generalize List.finRange n = l
  induction l with
  | nil => rfl
  | cons i l ih =>
    simp only [List.foldl_cons]
    have : Dbl.add g (.num 0) (F i) = .num 0 := by
      rw [hF i]
      simp only [Dbl.add, add_zero]
      exact round_dbl IsDbl.zero (by rw [abs_zero]; positivity)
    rw [this]; exact ih

theorem sqrMag_large (v : Fin n → ℝ) {k : Fin n} (hk : 2 ^ (512 : ℤ) ≤ |v k|) : sqrMag g (fun i => .num (v i)) = .inf false := by
  refine sum_inf _ (fun i => nonneg_round (mul_self_nonneg _)) (k := k) ?_
  simp only [Dbl.mul]
  rw [round_inf]
  · simp [not_lt.2 (mul_self_nonneg (v k))]
  · rw [abs_mul, show (1024 : ℤ) = 512 + 512 by norm_num, zpow_add₀ two_ne_zero]
    exact mul_le_mul hk hk (by positivity) (abs_nonneg _)

theorem sqrMag_small (v : Fin n → ℝ) (hv : ∀ i, |v i| < 2 ^ (-538 : ℤ)) : sqrMag g (fun i => .num (v i)) = .num 0 := by
  refine sum_zero _ fun i => ?_
  have h : |v i * v i| < 2 ^ (-1075 : ℤ) := by
    rw [abs_mul]
    have h1 : |v i| * |v i| ≤ 2 ^ (-538 : ℤ) * 2 ^ (-538 : ℤ) := mul_le_mul (hv i).le (hv i).le (abs_nonneg _) (by positivity)
    rw [← zpow_add₀ two_ne_zero] at h1
    exact h1.trans_lt (zpow_lt_zpow_right₀ one_lt_two (by norm_num))
  simp only [Dbl.mul]
  rw [round_of_le, g.tiny h]
  exact h.le.trans (zpow_le_zpow_right₀ one_le_two (by norm_num))

theorem sqrt_zero : Dbl.sqrt g (.num 0) = .num 0 := by
  simp only [Dbl.sqrt, lt_irrefl, if_false, Real.sqrt_zero]
  exact round_dbl IsDbl.zero (by rw [abs_zero]; positivity)

theorem sqrt_nan : Dbl.sqrt g .nan = .nan := rfl

theorem sub_nan_left (x : Dbl) : Dbl.sub g .nan x = .nan := by cases x <;> rfl
theorem sub_nan_right (x : Dbl) : Dbl.sub g x .nan = .nan := by cases x <;> rfl
theorem add_nan_left (x : Dbl) : Dbl.add g .nan x = .nan := by cases x <;> rfl
theorem add_nan_right (x : Dbl) : Dbl.add g x .nan = .nan := by cases x <;> rfl
theorem mul_nan_left (x : Dbl) : Dbl.mul g .nan x = .nan := by cases x <;> rfl
theorem mul_nan_right (x : Dbl) : Dbl.mul g x .nan = .nan := by cases x <;> rfl
theorem lt_nan_right (x : Dbl) : Dbl.lt x .nan = false := by cases x <;> rfl
theorem lt_nan_left (x : Dbl) : Dbl.lt .nan x = false := by cases x <;> rfl
theorem le_nan_right (x : Dbl) : Dbl.le x .nan = false := by cases x <;> rfl
theorem le_nan_left (x : Dbl) : Dbl.le .nan x = false := by cases x <;> rfl

theorem sum_nan (F : Fin n → Dbl) {k : Fin n} (hk : F k = .nan) : sum g F = .nan := by
  have stay : ∀ l : List (Fin n), l.foldl (fun s i => Dbl.add g s (F i)) .nan = .nan := by
    intro l
    induction l with
    | nil => rfl
    | cons i l ih => simp only [List.foldl_cons, add_nan_left]; exact ih
  have key : ∀ (l : List (Fin n)) (s : Dbl), k ∈ l → l.foldl (fun s i => Dbl.add g s (F i)) s = .nan := by
    intro l
    induction l with
    | nil => intro s h; cases h
    | cons i l ih =>
      intro s h
      simp only [List.foldl_cons]
      by_cases e : i = k
      · rw [e, hk, add_nan_right]; exact stay l
      · exact ih _ ((List.mem_cons.1 h).resolve_left (Ne.symm e))
  exact key _ _ (List.mem_finRange k)

/-- The squared distance of finite points is not negative and not NaN. -/
theorem sqDist_nonneg (fe : ℤ) (p q : Fin n → ℝ) : NonnegD (sqDist g fe (fun i => .num (p i)) (fun i => .num (q i))) := by
  have h : ∀ x y : ℝ, NonnegD (Dbl.mul g (Dbl.sub g (.num x) (.num y)) (Dbl.sub g (.num x) (.num y))) := by
    intro x y
    rw [sub_num]
    unfold Dbl.round
    split_ifs
    · exact nonneg_round (mul_self_nonneg _)
    · simp [Dbl.mul, NonnegD]
  have hs : NonnegD (sum g fun i => Dbl.mul g (Dbl.sub g (.num (p i)) (.num (q i))) (Dbl.sub g (.num (p i)) (.num (q i)))) := by
    unfold sum
    have : ∀ (l : List (Fin n)) (s : Dbl), NonnegD s →
        NonnegD (l.foldl (fun s i => Dbl.add g s (Dbl.mul g (Dbl.sub g (.num (p i)) (.num (q i))) (Dbl.sub g (.num (p i)) (.num (q i))))) s) := by
      intro l
      induction l with
      | nil => exact fun s hs => hs
      | cons i l ih => exact fun s hs => ih _ (nonneg_add hs (h _ _))
    exact this _ _ (le_refl (0 : ℝ))
  unfold sqDist
  simp only
  split_ifs
  · exact hs
  · exact le_refl (0 : ℝ)

/-- The tolerance of finite points is a number or +infinity. -/
theorem scale_cases (fe : ℤ) (p q : Fin n → ℝ) :
    NonnegD (scaleEpsilonArr g fe (fun i => .num (p i)) (fun i => .num (q i)) (.num epsilon)) := by
  unfold scaleEpsilonArr scaleEpsilon ldexp
  exact nonneg_round (mul_nonneg epsilon_pos.le (by positivity))

theorem le_inf {a : Dbl} (h : NonnegD a) : Dbl.le a (.inf false) = true := by
  rcases a with x | s | _ <;> simp_all [NonnegD, Dbl.le]

end Ie
end WFMath
