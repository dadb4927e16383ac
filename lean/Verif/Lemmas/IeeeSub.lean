/- Differences of finite doubles compared with a tolerance. -/
import Verif.Lemmas.Ieee

namespace WFMath
open Spec
open WFMath.Spec.Rounding (u)

namespace Ie
variable {g : Nearest} {x y e : ℝ} {n : Nat}

theorem diff_exact (hx : IsDbl x) (hy : IsDbl y) (h : |x - y| < 2 ^ (-1022 : ℤ)) : IsDbl (x - y) := by
  obtain ⟨i, rfl⟩ := hx.grid
  obtain ⟨j, rfl⟩ := hy.grid
  rw [← sub_mul, ← Int.cast_sub] at h ⊢
  refine ⟨i - j, -1074, ?_, le_refl _, rfl⟩
  have hg : (0 : ℝ) < 2 ^ (-1074 : ℤ) := by positivity
  rw [abs_mul, abs_of_pos hg, show (-1022 : ℤ) = 52 + -1074 by norm_num, zpow_add₀ two_ne_zero] at h
  have h1 : |((i - j : ℤ) : ℝ)| < 2 ^ (52 : ℤ) := lt_of_mul_lt_mul_right h hg.le
  have h2 : |i - j| < 2 ^ 52 := by exact_mod_cast h1
  exact h2.trans (by norm_num)

theorem diff_err (hx : IsDbl x) (hy : IsDbl y) : |g (x - y) - (x - y)| ≤ u 53 * |x - y| := by
  by_cases h : |x - y| < 2 ^ (-1022 : ℤ)
  · rw [g.of_dbl (diff_exact hx hy h), sub_self, abs_zero]
    exact mul_nonneg Rounding.u_pos.le (abs_nonneg _)
  · push Not at h
    obtain ⟨r, hr⟩ := g.extends_
    rw [hr _ (Or.inr h)]
    exact r.err Fl.pos53 _

theorem of_near {d d' : ℝ} (h : |d' - d| ≤ u 53 * |d|) (h0 : 0 ≤ e) (hd : d' ≤ e) : d ≤ e * (1 + 2 ^ (-52 : ℤ)) := by
  have hu : u 53 = 2 ^ (-53 : ℤ) := rfl
  have e1 : (2 : ℝ) ^ (-52 : ℤ) = 2 * u 53 := by rw [hu]; norm_num
  have h2 : u 53 ≤ 1 / 2 := Rounding.u_le_half Fl.pos53
  have h3 : 0 < u 53 := Rounding.u_pos
  rw [e1]
  rcases le_total d 0 with hs | hs
  · exact hs.trans (by positivity)
  · rw [abs_of_nonneg hs] at h
    have h4 := (_root_.abs_le.1 h).1
    generalize u 53 = t at *
    have h5 : d * (1 - t) * (1 + 2 * t) ≤ e * (1 + 2 * t) := mul_le_mul_of_nonneg_right (by linarith) (by linarith)
    have h6 : 0 ≤ d * (t * (1 - 2 * t)) := mul_nonneg hs (mul_nonneg h3.le (by linarith))
    linarith

/-- A difference within the tolerance is never found larger. -/
theorem gt_false (he : IsDbl e) (h1 : e < 2 ^ (1024 : ℤ)) (h : x - y ≤ e) : Dbl.lt (.num e) (Dbl.sub g (.num x) (.num y)) = false := by
  rw [sub_num]
  have hg := g.le_dbl he h
  unfold Dbl.round
  split_ifs with hb
  · simpa [Dbl.lt] using hg
  · have : x - y < 0 := by
      by_contra hc
      push Not at hc
      rw [abs_of_nonneg (g.nonneg hc)] at hb
      exact hb (hg.trans_lt h1)
    simp [Dbl.lt, this]

/-- A difference not found larger than the tolerance is at most a hair larger. -/
theorem of_gt_false (hx : IsDbl x) (hy : IsDbl y) (h0 : 0 ≤ e) (h : Dbl.lt (.num e) (Dbl.sub g (.num x) (.num y)) = false) :
    x - y ≤ e * (1 + 2 ^ (-52 : ℤ)) := by
  rw [sub_num] at h
  unfold Dbl.round at h
  split_ifs at h with hb
  · simp only [Dbl.lt, decide_eq_false_iff_not, not_lt] at h
    exact of_near (diff_err hx hy) h0 h
  · have : x - y < 0 := by simpa [Dbl.lt] using h
    exact this.le.trans (by positivity)

theorem agt_false (he : IsDbl e) (h1 : e < 2 ^ (1024 : ℤ)) (h : |x - y| ≤ e) : Dbl.lt (.num e) (Dbl.sub g (.num x) (.num y)).abs = false := by
  rw [sub_num]
  have hg := g.abs_le_dbl he h
  unfold Dbl.round
  rw [if_pos (hg.trans_lt h1)]
  simpa [Dbl.lt, Dbl.abs] using hg

theorem of_agt_false (hx : IsDbl x) (hy : IsDbl y) (h0 : 0 ≤ e) (h : Dbl.lt (.num e) (Dbl.sub g (.num x) (.num y)).abs = false) :
    |x - y| ≤ e * (1 + 2 ^ (-52 : ℤ)) := by
  rw [sub_num] at h
  unfold Dbl.round at h
  split_ifs at h with hb
  · simp only [Dbl.lt, Dbl.abs, decide_eq_false_iff_not, not_lt] at h
    have h2 := diff_err (g := g) hx hy
    refine of_near (d := |x - y|) (d' := |g (x - y)|) ?_ h0 h
    rw [abs_abs]
    exact (abs_abs_sub_abs_le _ _).trans h2
  · simp [Dbl.lt, Dbl.abs] at h

theorem le_eq_not_lt : Dbl.le (Dbl.sub g (.num x) (.num y)).abs (.num e) = !Dbl.lt (.num e) (Dbl.sub g (.num x) (.num y)).abs := by
  rw [sub_num]
  unfold Dbl.round
  split_ifs
  · simp only [Dbl.le, Dbl.lt, Dbl.abs]
    rw [← decide_not]; simp only [not_lt]
  · simp [Dbl.le, Dbl.lt, Dbl.abs]

theorem add_eq_sub : Dbl.add g (.num x) (.num y) = Dbl.sub g (.num x) (.num (-y)) := by
  simp [Dbl.sub, Dbl.neg]

/-! ### Scalar products -/

/-- Rounding keeps multiples of a power of two. -/
theorem rnd_grid (r : Rounding 53) {a : ℤ} (h : ∃ j : ℤ, x = j * (2 : ℝ) ^ a) : ∃ j : ℤ, r x = j * (2 : ℝ) ^ a := by
  obtain ⟨j, rfl⟩ := h
  by_cases hj : |j| ≤ 2 ^ 53
  · exact ⟨j, r.of_fl (IsFl.int_zpow Fl.pos53 hj a)⟩
  · push Not at hj
    have hx : (2 : ℝ) ^ (53 + a) ≤ |(j : ℝ) * (2 : ℝ) ^ a| := by
      rw [abs_mul, abs_of_pos (by positivity : (0 : ℝ) < 2 ^ a), zpow_add₀ two_ne_zero]
      refine mul_le_mul_of_nonneg_right ?_ (by positivity)
      exact_mod_cast hj.le
    have hN : Nrm (53 + a) (53 + a + (j.natAbs : ℤ)) ((j : ℝ) * (2 : ℝ) ^ a) := by
      right
      refine ⟨hx, ?_⟩
      rw [abs_mul, abs_of_pos (by positivity : (0 : ℝ) < 2 ^ a), show (53 + a + (j.natAbs : ℤ)) = 53 + (j.natAbs : ℤ) + a by ring, zpow_add₀ two_ne_zero]
      refine mul_le_mul_of_nonneg_right ?_ (by positivity)
      rw [zpow_add₀ two_ne_zero, zpow_natCast]
      have h1 : (j.natAbs : ℝ) ≤ 2 ^ j.natAbs := by exact_mod_cast (Nat.lt_two_pow_self).le
      have h2 : |(j : ℝ)| = (j.natAbs : ℝ) := by rw [Nat.cast_natAbs]; push_cast; rfl
      rw [h2]
      have h3 : (1 : ℝ) ≤ 2 ^ (53 : ℤ) := by norm_num
      have h4 : (0 : ℝ) ≤ 2 ^ j.natAbs := by positivity
      nlinarith
    rcases hN.rnd r with h0 | h0
    · exact ⟨0, by rw [h0]; simp⟩
    · obtain ⟨k, hk⟩ := (r.isFl _).grid h0.1
      refine ⟨k * 2, ?_⟩
      rw [hk, show (53 + a - ((53 : Nat) : ℤ) + 1) = 1 + a by push_cast; ring, zpow_add₀ two_ne_zero]
      push_cast; ring

theorem nrm_grid {a b : ℤ} (h : ∃ j : ℤ, x = j * (2 : ℝ) ^ a) (hb : |x| ≤ 2 ^ b) : Nrm a b x := by
  obtain ⟨j, rfl⟩ := h
  by_cases hj : j = 0
  · left; rw [hj]; simp
  · right
    refine ⟨?_, hb⟩
    rw [abs_mul, abs_of_pos (by positivity : (0 : ℝ) < 2 ^ a)]
    have : (1 : ℤ) ≤ |j| := Int.one_le_abs hj
    have : (1 : ℝ) ≤ |(j : ℝ)| := by exact_mod_cast this
    exact le_mul_of_one_le_left (by positivity) this

variable {r : Rounding 53}

theorem dot_fold (hr : Ext g r) (f : Fin n → ℝ) (hf : ∀ i, (∃ j : ℤ, f i = j * (2 : ℝ) ^ (-852 : ℤ)) ∧ |f i| ≤ 2 ^ (800 : ℤ)) :
    ∀ (l : List (Fin n)) (s : ℝ) (k : Nat), k + l.length ≤ 2 ^ 20 → (∃ j : ℤ, s = j * (2 : ℝ) ^ (-852 : ℤ)) → |s| ≤ k * 2 ^ (800 : ℤ) →
      l.foldl (fun s i => Dbl.add g s (.num (f i))) (.num s) = .num (l.foldl (fun s i => r (s + f i)) s) := by
  intro l
  induction l with
  | nil => intro s k _ _ _; rfl
  | cons i l ih =>
    intro s k hk hs hb
    obtain ⟨hfi, hfb⟩ := hf i
    have hg : ∃ j : ℤ, s + f i = j * (2 : ℝ) ^ (-852 : ℤ) := by
      obtain ⟨a, ha⟩ := hs
      obtain ⟨b, hb'⟩ := hfi
      exact ⟨a + b, by rw [ha, hb']; push_cast; ring⟩
    have hup : |s + f i| ≤ ((k + 1 : Nat) : ℝ) * 2 ^ (800 : ℤ) := by
      have := abs_add_le s (f i)
      push_cast; linarith
    have hk1 : k + 1 ≤ 2 ^ 20 := by simp only [List.length_cons] at hk; omega
    have hk' : ((k + 1 : Nat) : ℝ) ≤ 2 ^ (20 : ℤ) := by exact_mod_cast hk1
    have hbig : ((k + 1 : Nat) : ℝ) * 2 ^ (800 : ℤ) ≤ 2 ^ (820 : ℤ) := by
      rw [show (820 : ℤ) = 20 + 800 by norm_num, zpow_add₀ two_ne_zero]
      exact mul_le_mul_of_nonneg_right hk' (by positivity)
    have hN : Nrm (-852) 820 (s + f i) := nrm_grid hg (hup.trans hbig)
    simp only [List.foldl_cons]
    have e : Dbl.add g (.num s) (.num (f i)) = .num (r (s + f i)) := round_num hr (hN.weaken (by norm_num) (by norm_num))
    rw [e]
    refine ih _ (k + 1) (by simp only [List.length_cons] at hk; omega) (rnd_grid r hg) ?_
    refine r.abs_le_fl ?_ hup
    have := IsFl.int_zpow Fl.pos53 (k := ((k + 1 : Nat) : ℤ)) (by rw [abs_of_nonneg (by positivity)]; norm_cast; exact hk1.trans (by norm_num)) 800
    rwa [Int.cast_natCast] at this

theorem dot_num (hr : Ext g r) (fe : ℤ) (hn : n ≤ 2 ^ 20) {v w : Fin n → ℝ} (hv : ∀ i, Nrm (-400) 400 (v i)) (hw : ∀ i, Nrm (-400) 400 (w i)) :
    dot g fe (fun i => .num (v i)) (fun i => .num (w i)) = .num (Fl.dot r ⟨v, true⟩ ⟨w, true⟩) := by
  have hm : ∀ i, Nrm (-800) 800 (r (v i * w i)) := fun i => ((hv i).mul (hw i)).rnd r
  have hf : ∀ i, (∃ j : ℤ, r (v i * w i) = j * (2 : ℝ) ^ (-852 : ℤ)) ∧ |r (v i * w i)| ≤ 2 ^ (800 : ℤ) := by
    intro i
    refine ⟨?_, (hm i).le⟩
    rcases hm i with h | h
    · exact ⟨0, by rw [h]; simp⟩
    · obtain ⟨j, hj⟩ := (r.isFl (v i * w i)).grid h.1
      exact ⟨j, by rw [hj]; norm_num⟩
  have h1 : sum g (fun i => Dbl.mul g (.num (v i)) (.num (w i))) = .num (Fl.sum r fun i => r (v i * w i)) := by
    have : (fun i => Dbl.mul g (.num (v i)) (.num (w i))) = fun i => .num (r (v i * w i)) := by
      funext i
      exact round_num hr (((hv i).mul (hw i)).weaken (by norm_num) (by norm_num))
    rw [this]
    exact dot_fold hr _ hf (List.finRange n) 0 0 (by simpa using hn) ⟨0, by simp⟩ (by simp)
  have hS := scaleArr_num hr fe (fun i => (hv i).weaken (by norm_num : (-500 : ℤ) ≤ -400) (by norm_num : (400 : ℤ) ≤ 500))
    (fun i => (hw i).weaken (by norm_num : (-500 : ℤ) ≤ -400) (by norm_num : (400 : ℤ) ≤ 500)) eps_nrm eps_dbl
  unfold dot Fl.dot
  simp only [h1, hS, Dbl.abs, Dbl.le, decide_eq_true_eq, ge_iff_le]
  split_ifs <;> rfl

end Ie
end WFMath
