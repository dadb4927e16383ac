/- Property theorems C145: turning points, coordinate changes and barycenters over the whole range of doubles. -/
import Verif.Props.IeeeMove

namespace WFMath
open Spec Matrix
open WFMath.Spec.Rounding (u)
variable {n : Nat}

namespace Ie

theorem n_bound (hn : n ≤ 2 ^ 20) (b : ℤ) : (n : ℝ) * 2 ^ b ≤ 2 ^ (20 + b) := by
  have : (n : ℝ) ≤ 2 ^ (20 : ℤ) := by exact_mod_cast hn
  rw [zpow_add₀ two_ne_zero]
  exact mul_le_mul_of_nonneg_right this (by positivity)

theorem two_pow_add (b : ℤ) : (2 : ℝ) ^ b + 2 ^ b = 2 ^ (b + 1) := by rw [zpow_add₀ two_ne_zero]; ring

/-- Differences of coordinates up to 2^1000. -/
theorem vsub_num {g : Nearest} {r : Rounding 53} (hr : Ext g r) {x p : Fin n → ℝ} (dx : ∀ i, IsDbl (x i)) (dp : ∀ i, IsDbl (p i)) (hx : ∀ i, |x i| ≤ 2 ^ (1000 : ℤ))
    (hp : ∀ i, |p i| ≤ 2 ^ (1000 : ℤ)) : vsub g (nums x) (nums p) = nums (fun i => r (x i - p i)) ∧ ∀ i, IsDbl (r (x i - p i)) ∧ |r (x i - p i)| ≤ 2 ^ (1001 : ℤ) := by
  have h : ∀ i, |x i - p i| ≤ 2 ^ (1001 : ℤ) := fun i => (abs_sub _ _).trans (by
    rw [show (1001 : ℤ) = 1000 + 1 by norm_num, ← two_pow_add]; exact add_le_add (hx i) (hp i))
  have k := fun i => sub_num2 hr (dx i) (dp i) ((h i).trans (zpow_le_zpow_right₀ one_le_two (by norm_num)))
  exact ⟨funext fun i => (k i).1, fun i => ⟨(k i).2, r.abs_le_fl (IsFl.zpow Fl.pos53 _) (h i)⟩⟩

/-- A turned vector added to a point. -/
theorem turn_num (g : Nearest) {r : Rounding 53} (hr : Ext g r) (hn : n ≤ 2 ^ 20) (M S : Matrix (Fin n) (Fin n) ℝ) (E : ℝ) (h0 : 2 * n * (n + 1) * 2 ^ (-52 : ℤ) ≤ E) (h1 : E ≤ 1 / 4)
    (hS : Sᵀ * S = 1) (hM : Stands M S (E - 2 * n * (n + 1) * 2 ^ (-52 : ℤ))) (o d : Fin n → ℝ) (do' : ∀ i, IsDbl (o i)) (ho : ∀ i, |o i| ≤ 2 ^ (1000 : ℤ))
    (hd : ∀ i, |d i| ≤ 2 ^ (1001 : ℤ)) :
    ∃ y : Fin n → ℝ, vadd g (nums o) (fun i => sum g fun j => Dbl.mul g (.num (M i j)) (nums d j)) = nums y ∧ (∀ i, IsFinite (y i)) ∧
      len (y - (o + S *ᵥ d)) ≤ ((1 + 2 ^ (-53 : ℤ)) * E + 2 ^ (-53 : ℤ)) * len d + 2 ^ (-53 : ℤ) * len o + 2 * n ^ 2 * 2 ^ (-1074 : ℤ) ∧
      ((∀ i, o i = 0) → len (y - S *ᵥ d) ≤ E * len d + n ^ 2 * 2 ^ (-1074 : ℤ)) := by
  have hκ : (0 : ℝ) ≤ 2 * n * (n + 1) * 2 ^ (-52 : ℤ) := by positivity
  obtain ⟨z, z1, z2, z3, z4⟩ := mat_num g hn M S _ (sub_nonneg.2 h0) (by linarith) hS hM d 1001 (by norm_num) (by norm_num) hd
  rw [sub_add_cancel] at z4
  have hz : ∀ i, |o i + z i| ≤ 2 ^ (1023 : ℤ) := fun i => by
    have a := (z3 i).trans (n_bound hn _)
    have b : (2 : ℝ) ^ (1000 : ℤ) ≤ 2 ^ (1022 : ℤ) := zpow_le_zpow_right₀ one_le_two (by norm_num)
    refine (abs_add_le _ _).trans ((add_le_add ((ho i).trans b) a).trans (le_of_eq ?_))
    rw [show (20 + (1001 + 1) : ℤ) = 1022 by norm_num, two_pow_add]; norm_num
  have k := fun i => add_num hr (do' i) (z2 i) (hz i)
  refine ⟨fun i => r (o i + z i), funext fun i => ?_, fun i => fin_of_le (k i).2 (r.abs_le_fl (IsFl.zpow Fl.pos53 _) (hz i)), ?_, fun ho => ?_⟩
  · show Dbl.add g (.num (o i)) (sum g fun j => Dbl.mul g (.num (M i j)) (.num (d j))) = _
    rw [show sum g (fun j => Dbl.mul g (.num (M i j)) (.num (d j))) = .num (z i) from congrFun z1 i]
    exact (k i).1
  · have e1 := Fl.len_round r (o + z)
    have e2 := len_triangle (fun i => r ((o + z) i)) (o + z) (o + S *ᵥ d)
    rw [add_sub_add_left_eq_sub] at e2
    have e3 := len_add_le o z
    have e4 : len z ≤ len d + len (z - S *ᵥ d) := by
      have := len_add_le (S *ᵥ d) (z - S *ᵥ d)
      rwa [add_sub_cancel, Fl.len_orth hS] at this
    have hu0 : (0 : ℝ) < 2 ^ (-53 : ℤ) := by positivity
    have hu1 : (2 : ℝ) ^ (-53 : ℤ) ≤ 1 := by norm_num
    have hη : (0 : ℝ) ≤ n ^ 2 * 2 ^ (-1074 : ℤ) := by positivity
    rw [mul_assoc 2]
    generalize (n : ℝ) ^ 2 * 2 ^ (-1074 : ℤ) = η at *
    generalize (2 : ℝ) ^ (-53 : ℤ) = t at *
    have e5 : t * len (o + z) ≤ t * (len o + (len d + (E * len d + η))) := mul_le_mul_of_nonneg_left (by linarith) hu0.le
    have e6 : t * η ≤ 1 * η := mul_le_mul_of_nonneg_right hu1 hη
    have e7 : len ((fun i => r (o i + z i)) - (o + S *ᵥ d)) = len ((fun i => r ((o + z) i)) - (o + S *ᵥ d)) := rfl
    rw [e7]
    linarith
  · have : (fun i => r (o i + z i)) = z := funext fun i => by rw [ho i, zero_add, r.of_fl (z2 i).isFl]
    rwa [this]

theorem nums_zero : (fun _ : Fin n => Dbl.num 0) = nums (0 : Fin n → ℝ) := rfl

end Ie

/-- C145, coordinate changes and turning about a point, with coordinates up to 2^1000: nothing overflows, and underflow adds at most `2 n² 2^-1074` to the errors of C125. -/
theorem C145_frames (g : Nearest) (hn : n ≤ 2 ^ 20) (M R : Matrix (Fin n) (Fin n) ℝ) (E : ℝ) (h0 : 2 * n * (n + 1) * 2 ^ (-52 : ℤ) ≤ E) (h1 : E ≤ 1 / 4)
    (hR : Rᵀ * R = 1) (hM : Stands M R (E - 2 * n * (n + 1) * 2 ^ (-52 : ℤ))) (x o : Fin n → ℝ) (dx : ∀ i, IsDbl (x i)) (do' : ∀ i, IsDbl (o i))
    (hx : ∀ i, |x i| ≤ 2 ^ (1000 : ℤ)) (ho : ∀ i, |o i| ≤ 2 ^ (1000 : ℤ)) :
    (∃ y : Fin n → ℝ, Ie.toParent g (nums x) (nums o) (fun i => nums (M i)) = nums y ∧ (∀ i, IsFinite (y i)) ∧
      len (y - (o + x ᵥ* R)) ≤ (2 * E + 3 * 2 ^ (-53 : ℤ)) * len x + 2 ^ (-53 : ℤ) * len o + 2 * n ^ 2 * 2 ^ (-1074 : ℤ)) ∧
    (∃ y : Fin n → ℝ, Ie.toLocal g (nums x) (nums o) (fun i => nums (M i)) = nums y ∧ (∀ i, IsFinite (y i)) ∧
      len (y - R *ᵥ (x - o)) ≤ (2 * E + 3 * 2 ^ (-53 : ℤ)) * len (x - o) + 2 * n ^ 2 * 2 ^ (-1074 : ℤ)) ∧
    ∃ y : Fin n → ℝ, Ie.ptRotate g (nums x) (fun i => nums (M i)) (nums o) = nums y ∧ (∀ i, IsFinite (y i)) ∧
      len (y - (o + (x - o) ᵥ* R)) ≤ (2 * E + 3 * 2 ^ (-53 : ℤ)) * len (x - o) + 2 ^ (-53 : ℤ) * len o + 2 * n ^ 2 * 2 ^ (-1074 : ℤ) := by
  obtain ⟨r, hr⟩ := g.extends_
  have hκ : (0 : ℝ) ≤ 2 * n * (n + 1) * 2 ^ (-52 : ℤ) := by positivity
  have hE : 0 ≤ E := hκ.trans h0
  have hR' : Rᵀᵀ * Rᵀ = 1 := by rw [transpose_transpose]; exact mul_eq_one_comm.1 hR
  have hM' := Fl.stands_transpose (sub_nonneg.2 h0) hM
  have z0 : ∀ i : Fin n, |(0 : Fin n → ℝ) i| ≤ 2 ^ (1000 : ℤ) := fun i => by simp
  have d0 : ∀ i : Fin n, IsDbl ((0 : Fin n → ℝ) i) := fun i => IsDbl.zero
  have hu0 : (0 : ℝ) < 2 ^ (-53 : ℤ) := by positivity
  have hu1 : (2 : ℝ) ^ (-53 : ℤ) ≤ 1 / 8 := by norm_num
  have hη : (0 : ℝ) ≤ n ^ 2 * 2 ^ (-1074 : ℤ) := by positivity
  obtain ⟨s1, s2⟩ := Ie.vsub_num hr dx do' hx ho
  have el := Fl.len_round r (x - o)
  have el2 : len (fun i => r (x i - o i)) ≤ (1 + 2 ^ (-53 : ℤ)) * len (x - o) := by
    have := len_add_le (x - o) ((fun i => r ((x - o) i)) - (x - o))
    rw [add_sub_cancel] at this
    calc len (fun i => r (x i - o i)) ≤ _ := this
      _ ≤ _ := by linarith
  have hL := len_nonneg (x - o)
  have hX := len_nonneg x
  have hO := len_nonneg o
  refine ⟨?_, ?_, ?_⟩
  · obtain ⟨t1, t2⟩ := Ie.vsub_num hr dx d0 hx z0
    have t3 : (fun i => r (x i - (0 : Fin n → ℝ) i)) = x := funext fun i => by rw [Pi.zero_apply, sub_zero, r.of_fl (dx i).isFl]
    rw [t3] at t1
    obtain ⟨y, y1, y2, y3, -⟩ := Ie.turn_num g hr hn Mᵀ Rᵀ E h0 h1 hR' hM' o x do' ho fun i => (hx i).trans (zpow_le_zpow_right₀ one_le_two (by norm_num))
    refine ⟨y, ?_, y2, ?_⟩
    · unfold Ie.toParent
      rw [Ie.nums_zero, t1]
      exact y1
    · rw [mulVec_transpose] at y3
      refine y3.trans ?_
      rw [mul_assoc 2 ((n : ℝ) ^ 2)]
      generalize (n : ℝ) ^ 2 * 2 ^ (-1074 : ℤ) = η at *
      generalize (2 : ℝ) ^ (-53 : ℤ) = t at *
      have : t * (E * len x) ≤ 1 * (E * len x) := mul_le_mul_of_nonneg_right (by linarith) (mul_nonneg hE hX)
      have := mul_nonneg hu0.le hX
      linarith
  · obtain ⟨y, y1, y2, -, y3⟩ := Ie.turn_num g hr hn M R E h0 h1 hR hM 0 _ d0 z0 fun i => (s2 i).2
    refine ⟨y, ?_, y2, ?_⟩
    · unfold Ie.toLocal
      rw [s1]
      exact y1
    · have y4 := y3 fun i => rfl
      have e := len_triangle y (R *ᵥ fun i => r (x i - o i)) (R *ᵥ (x - o))
      rw [← mulVec_sub, Fl.len_orth hR] at e
      have e2 : len ((fun i => r (x i - o i)) - (x - o)) ≤ 2 ^ (-53 : ℤ) * len (x - o) := el
      rw [mul_assoc 2 ((n : ℝ) ^ 2)]
      generalize (n : ℝ) ^ 2 * 2 ^ (-1074 : ℤ) = η at *
      generalize (2 : ℝ) ^ (-53 : ℤ) = t at *
      have e3 := mul_le_mul_of_nonneg_left el2 hE
      have : t * (E * len (x - o)) ≤ 1 * (E * len (x - o)) := mul_le_mul_of_nonneg_right (by linarith) (mul_nonneg hE hL)
      have := mul_nonneg hu0.le hL
      linarith
  · obtain ⟨y, y1, y2, y3, -⟩ := Ie.turn_num g hr hn Mᵀ Rᵀ E h0 h1 hR' hM' o _ do' ho fun i => (s2 i).2
    refine ⟨y, ?_, y2, ?_⟩
    · unfold Ie.ptRotate
      rw [s1]
      exact y1
    · have e := len_triangle y (o + Rᵀ *ᵥ fun i => r (x i - o i)) (o + Rᵀ *ᵥ (x - o))
      rw [add_sub_add_left_eq_sub, ← mulVec_sub, Fl.len_orth hR'] at e
      have e2 : len ((fun i => r (x i - o i)) - (x - o)) ≤ 2 ^ (-53 : ℤ) * len (x - o) := el
      rw [mulVec_transpose R (x - o)] at e
      rw [mul_assoc 2 ((n : ℝ) ^ 2)] at y3 ⊢
      generalize (n : ℝ) ^ 2 * 2 ^ (-1074 : ℤ) = η at *
      generalize (2 : ℝ) ^ (-53 : ℤ) = t at *
      have e3 := mul_le_mul_of_nonneg_left el2 (show 0 ≤ (1 + t) * E + t by positivity)
      have a1 : t * (E * len (x - o)) ≤ 1 / 8 * (E * len (x - o)) := mul_le_mul_of_nonneg_right (by linarith) (mul_nonneg hE hL)
      have a2 : t * (t * len (x - o)) ≤ 1 / 8 * (t * len (x - o)) := mul_le_mul_of_nonneg_right (by linarith) (mul_nonneg hu0.le hL)
      have a3 : t * (t * (E * len (x - o))) ≤ 1 / 8 * (t * (E * len (x - o))) := mul_le_mul_of_nonneg_right (by linarith) (mul_nonneg hu0.le (mul_nonneg hE hL))
      have a4 := mul_nonneg hu0.le hL
      have a5 := mul_nonneg hE hL
      nlinarith

/-- C145, frames given by a box with lower corner `lo`: a coordinate is moved by the corner, up to rounding alone, and nothing overflows below half of the largest double. -/
theorem C145_box_frames (g : Nearest) (p lo : Fin n → ℝ) (dp : ∀ i, IsDbl (p i)) (dl : ∀ i, IsDbl (lo i)) (i : Fin n) (hp : |p i| ≤ 2 ^ (1022 : ℤ)) (hl : |lo i| ≤ 2 ^ (1022 : ℤ)) :
    (∃ y, Ie.toParentBox g (nums p) (nums lo) i = .num y ∧ IsFinite y ∧ |y - (lo i + p i)| ≤ 2 ^ (-53 : ℤ) * |lo i + p i|) ∧
    ∃ y, Ie.toLocalBox g (nums p) (nums lo) i = .num y ∧ IsFinite y ∧ |y - (p i - lo i)| ≤ 2 ^ (-53 : ℤ) * |p i - lo i| := by
  obtain ⟨r, hr⟩ := g.extends_
  have h2 : (2 : ℝ) ^ (1022 : ℤ) + 2 ^ (1022 : ℤ) = 2 ^ (1023 : ℤ) := by rw [Ie.two_pow_add]; norm_num
  have b1 : |lo i + p i| ≤ 2 ^ (1023 : ℤ) := (abs_add_le _ _).trans ((add_le_add hl hp).trans h2.le)
  have b2 : |p i - lo i| ≤ 2 ^ (1023 : ℤ) := (abs_sub _ _).trans ((add_le_add hp hl).trans h2.le)
  have b3 : |p i - 0| ≤ 2 ^ (1023 : ℤ) := by rw [sub_zero]; exact hp.trans (zpow_le_zpow_right₀ one_le_two (by norm_num))
  obtain ⟨a1, a2⟩ := Ie.add_num hr (dl i) (dp i) b1
  obtain ⟨c1, c2⟩ := Ie.sub_num2 hr (dp i) (dl i) b2
  obtain ⟨e1, -⟩ := Ie.sub_num2 hr (dp i) IsDbl.zero b3
  rw [sub_zero, r.of_fl (dp i).isFl] at e1
  have b4 : |0 + r (p i - lo i)| ≤ 2 ^ (1023 : ℤ) := by rw [zero_add]; exact r.abs_le_fl (IsFl.zpow Fl.pos53 _) b2
  obtain ⟨f1, -⟩ := Ie.add_num hr IsDbl.zero c2 b4
  rw [zero_add, r.of_fl c2.isFl] at f1
  have er := fun x => r.err Fl.pos53 x
  simp only [Fl.u53] at er
  refine ⟨⟨_, ?_, Ie.fin_of_le a2 (r.abs_le_fl (IsFl.zpow Fl.pos53 _) b1), er _⟩, _, ?_, Ie.fin_of_le c2 (r.abs_le_fl (IsFl.zpow Fl.pos53 _) b2), er _⟩
  · show Dbl.add g (.num (lo i)) (Dbl.sub g (.num (p i)) (.num 0)) = _
    rw [e1]; exact a1
  · show Dbl.add g (.num 0) (Dbl.sub g (.num (p i)) (.num (lo i))) = _
    rw [c1]; exact f1

/-- C145, the centre of a rotated box. -/
theorem C145_rotbox_center (g : Nearest) (hn : n ≤ 2 ^ 20) (M R : Matrix (Fin n) (Fin n) ℝ) (E : ℝ) (h0 : 2 * n * (n + 1) * 2 ^ (-52 : ℤ) ≤ E) (h1 : E ≤ 1 / 4)
    (hR : Rᵀ * R = 1) (hM : Stands M R (E - 2 * n * (n + 1) * 2 ^ (-52 : ℤ))) (c s : Fin n → ℝ) (dc : ∀ i, IsDbl (c i)) (ds : ∀ i, IsDbl (s i))
    (hc : ∀ i, |c i| ≤ 2 ^ (1000 : ℤ)) (hs : ∀ i, |s i| ≤ 2 ^ (1000 : ℤ)) :
    ∃ y : Fin n → ℝ, Ie.rbCenter g (nums c) (nums s) (fun i => nums (M i)) = nums y ∧ (∀ i, IsFinite (y i)) ∧
      len (y - (c + ((1 / 2 : ℝ) • s) ᵥ* R)) ≤ (2 * E + 3 * 2 ^ (-53 : ℤ)) * (len s / 2) + 2 ^ (-53 : ℤ) * len c + 4 * n ^ 2 * 2 ^ (-1074 : ℤ) := by
  obtain ⟨r, hr⟩ := g.extends_
  have hκ : (0 : ℝ) ≤ 2 * n * (n + 1) * 2 ^ (-52 : ℤ) := by positivity
  have hE : 0 ≤ E := hκ.trans h0
  have hR' : Rᵀᵀ * Rᵀ = 1 := by rw [transpose_transpose]; exact mul_eq_one_comm.1 hR
  have hM' := Fl.stands_transpose (sub_nonneg.2 h0) hM
  have hs' : ∀ i, |s i / 2| ≤ 2 ^ (1001 : ℤ) := fun i => by
    rw [abs_div, abs_two]
    have : (2 : ℝ) ^ (1000 : ℤ) ≤ 2 ^ (1001 : ℤ) := zpow_le_zpow_right₀ one_le_two (by norm_num)
    exact (half_le_self (abs_nonneg _)).trans ((hs i).trans this)
  have hd : Ie.vdiv g (nums s) (.num 2) = nums fun i => g (s i / 2) := funext fun i => by
    show Dbl.div g (.num (s i)) (.num 2) = _
    simp only [Dbl.div, two_ne_zero, if_false]
    exact Ie.round_of_le ((hs' i).trans (zpow_le_zpow_right₀ one_le_two (by norm_num)))
  obtain ⟨y, y1, y2, y3, -⟩ := Ie.turn_num g hr hn Mᵀ Rᵀ E h0 h1 hR' hM' c (fun i => g (s i / 2)) dc hc fun i => g.abs_le_dbl (IsDbl.zpow (by norm_num)) (hs' i)
  refine ⟨y, by unfold Ie.rbCenter; rw [hd]; exact y1, y2, ?_⟩
  have p75 : (0 : ℝ) ≤ 2 ^ (-1075 : ℤ) := by positivity
  have e75 : (2 : ℝ) ^ (-1074 : ℤ) = 2 * 2 ^ (-1075 : ℤ) := by
    rw [show (-1074 : ℤ) = 1 + -1075 by norm_num, zpow_add₀ two_ne_zero, zpow_one]
  have el : len ((fun i => g (s i / 2)) - (1 / 2 : ℝ) • s) ≤ n ^ 2 * 2 ^ (-1074 : ℤ) := by
    have a := Fl.len_comp_le (a := (fun i => g (s i / 2)) - (1 / 2 : ℝ) • s) p75 fun i => by
      have := Ie.half_err g (ds i)
      rwa [Pi.sub_apply, Pi.smul_apply, smul_eq_mul, one_div, inv_mul_eq_div]
    refine a.trans ?_
    rcases Nat.eq_zero_or_pos n with rfl | hp
    · simp
    · have h1n : (1 : ℝ) ≤ n := by exact_mod_cast hp
      have c1 : √(n : ℝ) ≤ n ^ 2 := by
        rw [Real.sqrt_le_left (by positivity)]
        nlinarith [pow_nonneg (Nat.cast_nonneg (α := ℝ) n) 2, pow_nonneg (Nat.cast_nonneg (α := ℝ) n) 3, mul_self_nonneg ((n : ℝ) ^ 2 - 1)]
      rw [e75]
      have := mul_le_mul_of_nonneg_right c1 p75
      have := mul_nonneg (sq_nonneg (n : ℝ)) p75
      linarith
  have hl : len ((1 / 2 : ℝ) • s) = len s / 2 := by rw [len_smul, abs_of_pos (by norm_num)]; ring
  have e := len_triangle y (c + Rᵀ *ᵥ fun i => g (s i / 2)) (c + Rᵀ *ᵥ ((1 / 2 : ℝ) • s))
  rw [add_sub_add_left_eq_sub, ← mulVec_sub, Fl.len_orth hR', mulVec_transpose R ((1 / 2 : ℝ) • s)] at e
  have e2 := len_add_le ((1 / 2 : ℝ) • s) ((fun i => g (s i / 2)) - (1 / 2 : ℝ) • s)
  rw [add_sub_cancel, hl] at e2
  have hu0 : (0 : ℝ) < 2 ^ (-53 : ℤ) := by positivity
  have hu1 : (2 : ℝ) ^ (-53 : ℤ) ≤ 1 / 8 := by norm_num
  have hη : (0 : ℝ) ≤ n ^ 2 * 2 ^ (-1074 : ℤ) := by positivity
  rw [mul_assoc 2 ((n : ℝ) ^ 2)] at y3
  rw [mul_assoc 4 ((n : ℝ) ^ 2)]
  have hS : 0 ≤ len s / 2 := by have := len_nonneg s; positivity
  generalize (n : ℝ) ^ 2 * 2 ^ (-1074 : ℤ) = η at *
  generalize (2 : ℝ) ^ (-53 : ℤ) = t at *
  generalize len s / 2 = L at *
  have e3 := mul_le_mul_of_nonneg_left (e2.trans (add_le_add_right el L)) (show 0 ≤ (1 + t) * E + t by positivity)
  have a1 : t * (E * L) ≤ 1 / 8 * (E * L) := mul_le_mul_of_nonneg_right (by linarith) (mul_nonneg hE hS)
  have a4 := mul_nonneg hu0.le hS
  have a5 := mul_nonneg hE hS
  have a6 : ((1 + t) * E + t) * η ≤ 1 * η := mul_le_mul_of_nonneg_right (by nlinarith) hη
  linarith

namespace Ie

theorem bLoop_num {g : Nearest} {r : Rounding 53} (hr : Ext g r) : ∀ (ps : List (Fin n → ℝ)) (k : Nat) (out : Fin n → ℝ), 1 ≤ k → k + ps.length ≤ 2 ^ 20 → (∀ j, IsDbl (out j)) →
    (∀ j, |out j| ≤ k * 2 ^ (1000 : ℤ)) → (∀ p ∈ ps, ∀ j, IsDbl (p j) ∧ |p j| ≤ 2 ^ (1000 : ℤ)) →
    bLoop g (.num k, nums out) (ps.map nums) = (.num ((k + ps.length : Nat) : ℝ), nums (Fl.bLoop r ((k : ℝ), true, out) (ps.map fun p => (⟨p, true⟩ : Pt n))).2.2) ∧
      ∀ j, IsDbl ((Fl.bLoop r ((k : ℝ), true, out) (ps.map fun p => (⟨p, true⟩ : Pt n))).2.2 j) ∧
        |(Fl.bLoop r ((k : ℝ), true, out) (ps.map fun p => (⟨p, true⟩ : Pt n))).2.2 j| ≤ ((k + ps.length : Nat) : ℝ) * 2 ^ (1000 : ℤ)
  | [], k, out, _, _, d, h, _ => ⟨rfl, fun j => ⟨d j, h j⟩⟩
  | p :: ps, k, out, hk1, hk, d, h, hp => by
    simp only [List.length_cons] at hk
    have hup : ∀ j, |out j + p j| ≤ ((k + 1 : Nat) : ℝ) * 2 ^ (1000 : ℤ) := fun j => by
      have := abs_add_le (out j) (p j)
      have h3 := (hp p (by simp) j).2
      have h4 := h j
      refine this.trans ((add_le_add h4 h3).trans (le_of_eq ?_))
      push_cast; ring
    have hk' : ((k + 1 : Nat) : ℝ) ≤ 2 ^ (20 : ℤ) := by
      have : k + 1 ≤ 2 ^ 20 := by omega
      exact_mod_cast this
    have hbig : ((k + 1 : Nat) : ℝ) * 2 ^ (1000 : ℤ) ≤ 2 ^ (1023 : ℤ) := by
      refine (mul_le_mul_of_nonneg_right hk' (by positivity)).trans ?_
      rw [← zpow_add₀ two_ne_zero]
      exact zpow_le_zpow_right₀ one_le_two (by norm_num)
    have e := fun j => add_num hr (d j) (hp p (by simp) j).1 ((hup j).trans hbig)
    have fk : IsFl 53 ((k : ℝ) + 1) := by
      have := IsFl.nat (p := 53) Fl.pos53 (k := k + 1) (by have : (2 : ℕ) ^ 20 ≤ 2 ^ 53 := by norm_num
                                                           omega)
      rwa [Nat.cast_add, Nat.cast_one] at this
    have dk : IsDbl (k : ℝ) := by
      have : k < 2 ^ 53 := by have : (2 : ℕ) ^ 20 ≤ 2 ^ 53 := by norm_num
                              omega
      simpa using IsDbl.nat_zpow this (e := 0) (by norm_num)
    have e0 := add_num hr dk (show IsDbl (1 : ℝ) by simpa using IsDbl.nat_zpow (k := 1) (by norm_num) (e := 0) (by norm_num)) (by
      rw [abs_of_nonneg (by positivity)]
      have : (2 : ℝ) ^ (20 : ℤ) ≤ 2 ^ (1023 : ℤ) := zpow_le_zpow_right₀ one_le_two (by norm_num)
      push_cast at hk'
      exact hk'.trans this)
    rw [r.of_fl fk] at e0
    have ih := bLoop_num hr ps (k + 1) (fun j => r (out j + p j)) (by omega) (by omega) (fun j => (e j).2)
      (fun j => r.abs_le_fl (by
        have := IsFl.int_zpow Fl.pos53 (k := ((k + 1 : Nat) : ℤ)) (by rw [abs_of_nonneg (by positivity)]; norm_cast; omega) 1000
        rwa [Int.cast_natCast] at this) (hup j)) (fun q hq => hp q (by simp [hq]))
    have f1 : bLoop g (.num k, nums out) ((p :: ps).map nums) = bLoop g (.num ((k + 1 : Nat) : ℝ), nums fun j => r (out j + p j)) (ps.map nums) := by
      show bLoop g (Dbl.add g (.num k) (.num 1), vadd g (nums out) (nums p)) (ps.map nums) = _
      rw [e0.1, show vadd g (nums out) (nums p) = nums fun j => r (out j + p j) from funext fun j => (e j).1]
      push_cast; rfl
    have f2 : Fl.bLoop r ((k : ℝ), true, out) ((p :: ps).map fun p => (⟨p, true⟩ : Pt n)) =
        Fl.bLoop r (((k + 1 : Nat) : ℝ), true, fun j => r (out j + p j)) (ps.map fun p => (⟨p, true⟩ : Pt n)) := by
      show Fl.bLoop r (r ((k : ℝ) + 1), (true && true), fun j => r (out j + p j)) (ps.map fun p => (⟨p, true⟩ : Pt n)) = _
      rw [r.of_fl fk]; push_cast; rfl
    rw [f1, f2, show k + (p :: ps).length = k + 1 + ps.length by simp only [List.length_cons]; omega]
    exact ih

theorem gr_diff {g : Nearest} {r : Rounding 53} (hr : Ext g r) (x : ℝ) : |g x - r x| ≤ 2 ^ (-1074 : ℤ) := by
  by_cases h : |x| < 2 ^ (-1022 : ℤ)
  · have h1 := sub_err (g := g) h
    have h2 := r.err Fl.pos53 x
    rw [Fl.u53] at h2
    have h3 : (2 : ℝ) ^ (-53 : ℤ) * |x| ≤ 2 ^ (-1075 : ℤ) := by
      rw [show (-1075 : ℤ) = -53 + -1022 by norm_num, zpow_add₀ two_ne_zero]
      exact mul_le_mul_of_nonneg_left h.le (by positivity)
    have h4 := abs_sub_le (g x) x (r x)
    rw [abs_sub_comm x] at h4
    have e75 : (2 : ℝ) ^ (-1074 : ℤ) = 2 * 2 ^ (-1075 : ℤ) := by
      rw [show (-1074 : ℤ) = 1 + -1075 by norm_num, zpow_add₀ two_ne_zero, zpow_one]
    rw [e75]
    generalize (2 : ℝ) ^ (-1075 : ℤ) = η at *
    linarith
  · rw [hr _ (Or.inr (not_lt.1 h)), sub_self, abs_zero]; positivity

end Ie

/-- C145, `Barycenter` of up to 2^20 points with coordinates up to 2^1000: finite, and the mean of the points up to rounding and 2^-1074. -/
theorem C145_barycenter_partial (g : Nearest) (p : Fin n → ℝ) (ps : List (Fin n → ℝ)) (hl : (p :: ps).length ≤ 2 ^ 20)
    (hp : ∀ q ∈ p :: ps, ∀ j, IsDbl (q j) ∧ |q j| ≤ 2 ^ (1000 : ℤ)) :
    ∃ y : Fin n → ℝ, Ie.barycenter g (nums p) (ps.map nums) = nums y ∧ ∀ j, IsFinite (y j) ∧
      |y j - ((p :: ps).map fun q => q j).sum / (p :: ps).length| ≤ 2 ^ (-52 : ℤ) * ((p :: ps).map fun q => |q j|).sum + 2 ^ (-1074 : ℤ) := by
  obtain ⟨r, hr⟩ := g.extends_
  simp only [List.length_cons] at hl
  obtain ⟨h1, h2⟩ := Ie.bLoop_num hr ps 1 p le_rfl (by omega) (fun j => (hp p (by simp) j).1) (fun j => by simpa using (hp p (by simp) j).2) fun q hq => hp q (by simp [hq])
  rw [Nat.cast_one] at h1
  rw [Nat.cast_one] at h2
  have hm := (C126_mean r ((p :: ps).map fun q => (⟨q, true⟩ : Pt n)) (by simp) (by
    simp only [List.length_map, List.length_cons]
    have : (2 : ℕ) ^ 20 ≤ 2 ^ 52 := by norm_num
    omega)).1
  simp only [List.map_map, Function.comp_def, List.length_map] at hm
  set out := (Fl.bLoop r ((1 : ℝ), true, p) (ps.map fun p => (⟨p, true⟩ : Pt n))).2.2 with ho
  have hK : (1 : ℝ) ≤ ((1 + ps.length : Nat) : ℝ) := by push_cast; linarith [Nat.cast_nonneg (α := ℝ) ps.length]
  have hq : ∀ j, |out j / ((1 + ps.length : Nat) : ℝ)| ≤ 2 ^ (1000 : ℤ) := fun j => by
    rw [abs_div, abs_of_pos (show (0 : ℝ) < ((1 + ps.length : Nat) : ℝ) by linarith), div_le_iff₀ (by linarith), mul_comm]
    exact (h2 j).2
  have hb : ∀ j, Ie.barycenter g (nums p) (ps.map nums) j = .num (g (out j / ((1 + ps.length : Nat) : ℝ))) := fun j => by
    unfold Ie.barycenter
    rw [h1]
    show Dbl.div g (.num (out j)) (.num _) = _
    simp only [Dbl.div]
    rw [if_neg (by linarith)]
    exact Ie.round_of_le ((hq j).trans (zpow_le_zpow_right₀ one_le_two (by norm_num)))
  refine ⟨_, funext hb, fun j => ⟨Ie.fin_of_le (g.isDbl _) ((g.abs_le_dbl (IsDbl.zpow (by norm_num)) (hq j)).trans (zpow_le_zpow_right₀ one_le_two (by norm_num))), ?_⟩⟩
  have e1 : (Fl.barycenter r ((p :: ps).map fun q => (⟨q, true⟩ : Pt n))).elem j = r (out j / ((1 + ps.length : Nat) : ℝ)) := by
    have := (Fl.bLoop_err r (ps.map fun q => (⟨q, true⟩ : Pt n)) 1 0 true p p (fun j => |p j|) (by
      simp only [List.length_map]
      have : (2 : ℕ) ^ 20 ≤ 2 ^ 53 := by norm_num
      omega) (fun j => by simp [Fl.gam]) fun j => le_rfl).1
    rw [Nat.cast_one, List.length_map] at this
    show r (out j / (Fl.bLoop r ((1 : ℝ), true, p) (ps.map fun p => (⟨p, true⟩ : Pt n))).1) = _
    rw [this]
  have e2 := hm j
  rw [e1] at e2
  have e3 := Ie.gr_diff hr (out j / ((1 + ps.length : Nat) : ℝ))
  have e4 := abs_sub_le (g (out j / ((1 + ps.length : Nat) : ℝ))) (r (out j / ((1 + ps.length : Nat) : ℝ))) (((p :: ps).map fun q => q j).sum / (p :: ps).length)
  generalize (2 : ℝ) ^ (-1074 : ℤ) = η at *
  linarith

/-- The barycenter of two equal points with coordinate 2^1023 is infinite, although their mean is that finite double: the sum overflows. The midpoint of the same points is finite. -/
theorem C145_false (g : Nearest) : IsFinite (2 ^ (1023 : ℤ)) ∧ Ie.barycenter g (nums ![2 ^ (1023 : ℤ)]) [nums ![2 ^ (1023 : ℤ)]] 0 = .inf false := by
  refine ⟨Ie.fin_of_le (IsDbl.zpow (by norm_num)) (by rw [abs_of_pos (by positivity)]), ?_⟩
  have h1 : Dbl.add g (.num (2 ^ (1023 : ℤ))) (.num (2 ^ (1023 : ℤ))) = .inf false := by
    have := Ie.round_inf (g := g) (x := 2 ^ (1023 : ℤ) + 2 ^ (1023 : ℤ)) (by rw [Ie.two_pow_add, abs_of_pos (by positivity)]; norm_num)
    rw [decide_eq_false (not_lt.2 (by positivity))] at this
    exact this
  have h2 : Dbl.add g (.num 1) (.num 1) = .num 2 := by
    have : IsDbl (2 : ℝ) := ⟨1, 1, by norm_num, by norm_num, by norm_num⟩
    have h := Ie.round_dbl (g := g) this (by
      rw [abs_of_pos (by norm_num)]
      exact lt_of_lt_of_le (by norm_num : (2 : ℝ) < 2 ^ (2 : ℤ)) (zpow_le_zpow_right₀ one_le_two (by norm_num)))
    show Dbl.round g (1 + 1) = _
    rw [one_add_one_eq_two]; exact h
  show Dbl.div g (Dbl.add g (.num (2 ^ (1023 : ℤ))) (.num (2 ^ (1023 : ℤ)))) (Dbl.add g (.num 1) (.num 1)) = _
  rw [h1, h2]
  simp [Dbl.div]

end WFMath
