/- The determinant helper with the limits of `double`: on arrays of size 2 and 3 that are nearly orthogonal its sign is right. -/
import Verif.Lemmas.GaussSmall

namespace WFMath.Gauss
open Matrix

/-- `numeric_limits<double>`: the largest double is `(2 - 2^-52) 2^1023`, the smallest positive normal one `2^-1022`. -/
noncomputable def doubleLimits : Limits := ⟨(2 - 2 ^ (-52 : ℤ)) * 2 ^ (1023 : ℤ), 2 ^ (-1022 : ℤ), by norm_num, by norm_num⟩

/-- What is used of them, with `w = 2^-511`. -/
theorem doubleLimits_spec : ∃ w : ℝ, 0 < w ∧ w ≤ 1 / 1000 ∧ doubleLimits.minD = w ^ 2 ∧ 39 / 10 ≤ doubleLimits.maxD * w ^ 2 := by
  refine ⟨2 ^ (-511 : ℤ), zpow_pos (by norm_num) _, ?_, ?_, ?_⟩
  · exact (zpow_le_zpow_right₀ (by norm_num) (by norm_num : (-511 : ℤ) ≤ -10)).trans (by norm_num)
  · show (2 : ℝ) ^ (-1022 : ℤ) = (2 ^ (-511 : ℤ)) ^ 2
    rw [← zpow_natCast, ← zpow_mul]; norm_num
  · show 39 / 10 ≤ (2 - 2 ^ (-52 : ℤ)) * 2 ^ (1023 : ℤ) * (2 ^ (-511 : ℤ)) ^ 2
    rw [← zpow_natCast, ← zpow_mul, mul_assoc, ← zpow_add₀ (by norm_num)]
    norm_num

variable {n : Nat}

theorem minval_bounds {L : Limits} {w : ℝ} (hw : 0 < w) (h1 : L.minD = w ^ 2) (h2 : 39 / 10 ≤ L.maxD * w ^ 2) (m : Matrix (Fin n) (Fin n) ℝ) (i : Fin n) :
    w ^ 2 ≤ minval L m i ∧ (minval L m i = w ^ 2 ∨ 39 / 10 * minval L m i ≤ (∑ j, m j i * m j i) * w ^ 2) := by
  unfold minval
  simp only
  have hS : 0 ≤ ∑ j, m j i * m j i := Finset.sum_nonneg fun j _ => mul_self_nonneg _
  split_ifs with h
  · exact ⟨h1.ge, .inl h1⟩
  · rw [h1] at h
    refine ⟨not_lt.1 h, .inr ?_⟩
    generalize ∑ j, m j i * m j i = S at *
    have hM := L.maxD_pos
    rw [mul_div_assoc', div_le_iff₀ hM]
    nlinarith [mul_le_mul_of_nonneg_left h2 hS]

/-- The sign is right: the two numbers are not 0 and on the same side of it. -/
def SameSign (a b : ℝ) : Prop := (0 < a ∧ 0 < b) ∨ (a < 0 ∧ b < 0)

theorem sameSign_of {d d' : ℝ} (h : 9 / 10 ≤ |d|) (h' : |d' - d| ≤ 8 / 10) : SameSign d' d := by
  rw [abs_le] at h'
  rcases le_abs.1 h with h | h
  · exact .inl ⟨by linarith, by linarith⟩
  · exact .inr ⟨by linarith, by linarith⟩

theorem findRow_two (L : Limits) (m : Matrix (Fin 2) (Fin 2) ℝ) :
    findRow L m 0 = if m 1 0 * m 1 0 ≥ minval L m 0 then some 1 else none := by
  unfold findRow
  rw [show List.finRange 2 = [0, 1] from rfl]
  by_cases h : m 1 0 * m 1 0 ≥ minval L m 0 <;> simp [List.find?, h]

theorem findRow_three (L : Limits) (m : Matrix (Fin 3) (Fin 3) ℝ) :
    findRow L m 0 = (if m 1 0 * m 1 0 ≥ minval L m 0 then some 1 else if m 2 0 * m 2 0 ≥ minval L m 0 then some 2 else none) ∧
    findRow L m 1 = if m 2 1 * m 2 1 ≥ minval L m 1 then some 2 else none := by
  unfold findRow
  rw [show List.finRange 3 = [0, 1, 2] from rfl]
  constructor
  · by_cases h : m 1 0 * m 1 0 ≥ minval L m 0 <;> by_cases h' : m 2 0 * m 2 0 ≥ minval L m 0 <;> simp [List.find?, h, h']
  · by_cases h' : m 2 1 * m 2 1 ≥ minval L m 1 <;> simp [List.find?, h']

theorem detClear_entry {m : Matrix (Fin n) (Fin n) ℝ} {i r k : Fin n} (_h : m i i ≠ 0) (hr : r > i) (hk : k > i) :
    detClear i m r k = m r k - m i k * (m r i / m i i) := by
  unfold detClear
  simp only
  rw [if_pos hr, if_neg (ne_of_gt hk)]
  split_ifs with h
  · rfl
  · have : m r i / m i i = 0 := by by_contra hc; exact h ⟨hc, hk⟩
    rw [this, mul_zero, sub_zero]

theorem detClear_top {m : Matrix (Fin n) (Fin n) ℝ} {i : Fin n} (r : Fin n) (k : Fin n) (h : ¬ r > i := by decide) : detClear i m r k = m r k := by
  unfold detClear; rw [if_neg h]

theorem detClear_left {m : Matrix (Fin n) (Fin n) ℝ} {i : Fin n} (r : Fin n) (h : r > i) : detClear i m r i = 0 := by
  unfold detClear; simp [h]

theorem prod_two (f : Fin 2 → ℝ) : ((List.finRange 2).map f).prod = f 0 * f 1 := by
  rw [show List.finRange 2 = [0, 1] from rfl]; simp
theorem prod_three (f : Fin 3 → ℝ) : ((List.finRange 3).map f).prod = f 0 * (f 1 * f 2) := by
  rw [show List.finRange 3 = [0, 1, 2] from rfl]; simp

theorem clear_two (B : Matrix (Fin 2) (Fin 2) ℝ) (h : B 0 0 ≠ 0) :
    ((List.finRange 2).map fun i => detClear 0 B i i).prod = B 0 0 * B 1 1 - B 0 1 * B 1 0 := by
  rw [prod_two, detClear_entry (r := 1) (k := 1) h (by decide) (by decide), detClear_top 0 0]
  field_simp

/-- The matrix after a pivot has been found in row `j`. -/
def over (i j : Fin n) (m : Matrix (Fin n) (Fin n) ℝ) : Matrix (Fin n) (Fin n) ℝ :=
  fun r k => if r = i then (if k = i then m j i else if k > i then m i k + m j k else m i k) else m r k

theorem detPivot_ok {L : Limits} {i : Fin n} {m : Matrix (Fin n) (Fin n) ℝ} (h : ¬ m i i * m i i < minval L m i) : detPivot L i m = some m := by
  unfold detPivot; rw [if_neg h]
theorem detPivot_some {L : Limits} {i j : Fin n} {m : Matrix (Fin n) (Fin n) ℝ} (h : m i i * m i i < minval L m i) (hj : findRow L m i = some j) :
    detPivot L i m = some (over i j m) := by
  unfold detPivot; rw [if_pos h, hj]; rfl
theorem detPivot_none' {L : Limits} {i : Fin n} {m : Matrix (Fin n) (Fin n) ℝ} (h : m i i * m i i < minval L m i) (hj : findRow L m i = none) :
    detPivot L i m = none := by
  unfold detPivot; rw [if_pos h, hj]

theorem abs_of_small {z w : ℝ} (hw : 0 < w) (hz : z * z < w ^ 2) : |z| < w := abs_lt_of_sq_lt_sq (by rw [sq, sq] at *; exact hz) hw.le

/-- Size 2. -/
theorem det_two {L : Limits} {w : ℝ} (hw : 0 < w) (hw1 : w ≤ 1 / 1000) (h1 : L.minD = w ^ 2) (h2 : 39 / 10 ≤ L.maxD * w ^ 2) (A : Matrix (Fin 2) (Fin 2) ℝ)
    (hA : ∀ i, ∑ j, A i j * A i j ≤ 101 / 100) (hd : 9 / 10 ≤ |A.det|) : SameSign (determinantImpl L A) A.det := by
  have hm := minval_bounds hw h1 h2 A 0
  have r0 := hA 0
  have r1 := hA 1
  rw [det_fin_two] at hd ⊢
  rw [Fin.sum_univ_two] at r0 r1 hm
  have hmu : minval L A 0 = w ^ 2 := by
    rcases hm.2 with h | h
    · exact h
    · nlinarith [hm.1, mul_self_nonneg (A 0 1), mul_self_nonneg (A 1 1), sq_nonneg w]
  have ent : ∀ i j, |A i j| ≤ 2 := fun i j => by
    refine abs_le_of_sq_le_sq (by
      have := hA i; rw [Fin.sum_univ_two] at this
      fin_cases j <;> simp <;> nlinarith [mul_self_nonneg (A i 0), mul_self_nonneg (A i 1)]) (by norm_num)
  have run : ∀ B, detPivot L 0 A = some B → determinantImpl L A = ((List.finRange 2).map fun i => detClear 0 B i i).prod := fun B hB => by
    unfold determinantImpl
    rw [show ((List.finRange 2).filter fun i => i.val + 1 < 2) = [0] from rfl]
    simp only [detForward, hB, Option.bind_some]
  by_cases c1 : A 0 0 * A 0 0 < minval L A 0
  · have a1 := abs_of_small hw (hmu ▸ c1)
    by_cases c2 : A 1 0 * A 1 0 ≥ minval L A 0
    · have hc : A 1 0 ≠ 0 := fun h => by rw [h, hmu] at c2; nlinarith [sq_nonneg w, pow_pos hw 2]
      rw [run _ (detPivot_some c1 (by rw [findRow_two, if_pos c2])), clear_two _ (by simpa [over] using hc)]
      refine sameSign_of hd ?_
      simp only [over, if_true, one_ne_zero, if_false, gt_iff_lt, Fin.zero_lt_one]
      rw [show A 1 0 * A 1 1 - (A 0 1 + A 1 1) * A 1 0 - (A 0 0 * A 1 1 - A 0 1 * A 1 0) = - (A 0 0 * A 1 1) by ring, abs_neg, abs_mul]
      nlinarith [abs_nonneg (A 0 0), abs_nonneg (A 1 1), ent 1 1]
    · exfalso
      have a2 := abs_of_small hw (hmu ▸ not_le.1 c2)
      have : |A 0 0 * A 1 1 - A 0 1 * A 1 0| ≤ 4 * w := by
        refine (abs_sub _ _).trans ?_
        rw [abs_mul, abs_mul]
        nlinarith [abs_nonneg (A 0 0), abs_nonneg (A 1 1), ent 1 1, ent 0 1, abs_nonneg (A 0 1), abs_nonneg (A 1 0)]
      linarith
  · have hc : A 0 0 ≠ 0 := fun h => c1 (by rw [h, hmu]; simpa using pow_pos hw 2)
    rw [run _ (detPivot_ok c1), clear_two _ hc]
    exact sameSign_of hd (by norm_num)

/-- Lagrange's identity, as a bound for the minors of two rows. -/
theorem minors_le {p x y a b c : ℝ} (h1 : p * p + x * x + y * y ≤ 21 / 10) (h2 : a * a + b * b + c * c ≤ 101 / 100) :
    (p * b - x * a) ^ 2 + (p * c - y * a) ^ 2 ≤ 213 / 100 := by
  have : (p * b - x * a) ^ 2 + (p * c - y * a) ^ 2 + (x * c - y * b) ^ 2 + (p * a + x * b + y * c) ^ 2 = (p * p + x * x + y * y) * (a * a + b * b + c * c) := by ring
  have h0 : 0 ≤ a * a + b * b + c * c := by nlinarith [mul_self_nonneg a, mul_self_nonneg b, mul_self_nonneg c]
  have h3 : (p * p + x * x + y * y) * (a * a + b * b + c * c) ≤ 21 / 10 * (101 / 100) := mul_le_mul h1 h2 h0 (by norm_num)
  linarith [sq_nonneg (x * c - y * b), sq_nonneg (p * a + x * b + y * c)]

/-- The error made when the pivot of the second column is overwritten. -/
theorem over_err {W p x b11 b21 v μ : ℝ} (hw0 : 0 < W) (hw2 : W ≤ 1 / 1000000) (hp : W ≤ p * p) (hx : x * x ≤ 21 / 10) (l : (p * b21) ^ 2 + v ^ 2 ≤ 213 / 100)
    (hm : μ = W ∨ 39 / 10 * μ ≤ (x * x + b11 * b11 + b21 * b21) * W) (hb : b11 * b11 < μ) : |b11 * v| ≤ 7 / 10 := by
  refine abs_le_of_sq_le_sq ?_ (by norm_num)
  have hz : W * (b21 * b21) ≤ (p * b21) ^ 2 := by
    have := mul_le_mul_of_nonneg_right hp (mul_self_nonneg b21)
    calc W * (b21 * b21) ≤ p * p * (b21 * b21) := this
      _ = _ := by ring
  have hz0 := sq_nonneg (p * b21)
  generalize (p * b21) ^ 2 = z at *
  have hb0 : 0 ≤ b11 ^ 2 := sq_nonneg _
  have hv0 := sq_nonneg v
  rw [mul_pow]
  rw [show b11 * b11 = b11 ^ 2 by ring] at *
  have hzz := mul_self_nonneg b21
  have hxx := mul_self_nonneg x
  generalize b11 ^ 2 = b at *
  generalize v ^ 2 = V at *
  generalize b21 * b21 = c at *
  generalize x * x = X at *
  have hzv : z * V ≤ 12 / 10 := by nlinarith [sq_nonneg (z - V)]
  have hV : V ≤ 213 / 100 := by linarith
  rcases hm with h | h
  · have : b * V ≤ 1 / 1000000 * (213 / 100) := mul_le_mul (by linarith) hV hv0 (by norm_num)
    linarith
  · have h1 : 39 / 10 * b ≤ W * X + W * b + z := by nlinarith
    have h2 := mul_le_mul_of_nonneg_right h1 hv0
    have h3 : W * X ≤ 1 / 1000000 * (21 / 10) := mul_le_mul hw2 hx hxx (by norm_num)
    have h4 : W * X * V ≤ 1 / 1000000 * (21 / 10) * (213 / 100) := mul_le_mul h3 hV hv0 (by norm_num)
    have h5 : W * (b * V) ≤ 1 / 1000000 * (b * V) := mul_le_mul_of_nonneg_right hw2 (mul_nonneg hb0 hv0)
    have h6 : 39 / 10 * (b * V) ≤ W * X * V + W * (b * V) + z * V := by linarith
    linarith

/-- When both candidates are below the threshold the determinant is small. -/
theorem none_small {W p x b11 b21 b12 b22 μ : ℝ} (hw0 : 0 < W) (hw2 : W ≤ 1 / 1000000) (hx : x * x ≤ 21 / 10) (l2 : (p * b22) ^ 2 ≤ 213 / 100)
    (l1 : (p * b12) ^ 2 ≤ 213 / 100) (hm : μ = W ∨ 39 / 10 * μ ≤ (x * x + b11 * b11 + b21 * b21) * W) (h1 : b11 * b11 < μ) (h2 : b21 * b21 < μ) :
    |p * (b11 * b22 - b12 * b21)| < 9 / 10 := by
  have hμ : μ ≤ 1 / 100 := by
    rcases hm with h | h
    · linarith
    · have h3 : (x * x + b11 * b11 + b21 * b21) * W ≤ (21 / 10 + 2 * μ) * (1 / 1000000) :=
        mul_le_mul (by linarith) hw2 hw0.le (by nlinarith [mul_self_nonneg b11])
      linarith
  have k : ∀ b c : ℝ, b * b < μ → (p * c) ^ 2 ≤ 213 / 100 → |b * (p * c)| ≤ 3 / 10 := fun b c hb hc => by
    refine abs_le_of_sq_le_sq ?_ (by norm_num)
    rw [mul_pow, show b ^ 2 = b * b by ring]
    have : b * b * (p * c) ^ 2 ≤ 1 / 100 * (213 / 100) := mul_le_mul (by linarith) hc (sq_nonneg _) (by norm_num)
    linarith
  have a1 := k b11 b22 h1 l2
  have a2 := k b21 b12 h2 l1
  rw [show p * (b11 * b22 - b12 * b21) = b11 * (p * b22) - b21 * (p * b12) by ring]
  exact lt_of_le_of_lt (abs_sub _ _) (by linarith)

set_option maxHeartbeats 1000000 in
/-- The second step of size 3. -/
theorem det_three_step {L : Limits} {w : ℝ} (hw : 0 < w) (hw1 : w ≤ 1 / 1000) (h1 : L.minD = w ^ 2) (h2 : 39 / 10 ≤ L.maxD * w ^ 2) (A B : Matrix (Fin 3) (Fin 3) ℝ)
    (hB : detPivot L 0 A = some B) (hp : w ^ 2 ≤ B 0 0 * B 0 0) (r0 : ∑ j, B 0 j * B 0 j ≤ 21 / 10) (r1 : ∑ j, B 1 j * B 1 j ≤ 101 / 100)
    (r2 : ∑ j, B 2 j * B 2 j ≤ 101 / 100) (hd : 9 / 10 ≤ |B.det|) : |determinantImpl L A - B.det| ≤ 7 / 10 := by
  have hm := minval_bounds hw h1 h2 (detClear 0 B) 1
  have hp0 : B 0 0 ≠ 0 := fun h => by rw [h, mul_zero] at hp; exact absurd hp (not_le.2 (pow_pos hw 2))
  have run : ∀ C, detPivot L 1 (detClear 0 B) = some C → determinantImpl L A = ((List.finRange 3).map fun i => detClear 1 C i i).prod := fun C hC => by
    unfold determinantImpl
    rw [show ((List.finRange 3).filter fun i => i.val + 1 < 3) = [0, 1] from rfl]
    simp only [detForward, hB, hC, Option.bind_some]
  have e01 : detClear 0 B 0 1 = B 0 1 := detClear_top 0 1
  have e00 : detClear 0 B 0 0 = B 0 0 := detClear_top 0 0
  have e02 : detClear 0 B 0 2 = B 0 2 := detClear_top 0 2
  have e11 := detClear_entry (m := B) (r := 1) (k := 1) hp0 (by decide) (by decide)
  have e12 := detClear_entry (m := B) (r := 1) (k := 2) hp0 (by decide) (by decide)
  have e21 := detClear_entry (m := B) (r := 2) (k := 1) hp0 (by decide) (by decide)
  have e22 := detClear_entry (m := B) (r := 2) (k := 2) hp0 (by decide) (by decide)
  rw [Fin.sum_univ_three] at r0 r1 r2 hm
  rw [e01] at hm
  have hdet : B.det = B 0 0 * (detClear 0 B 1 1 * detClear 0 B 2 2 - detClear 0 B 1 2 * detClear 0 B 2 1) := by
    rw [det_fin_three, e11, e12, e21, e22]
    field_simp
    ring
  have z1 : B 0 0 * detClear 0 B 2 1 = B 0 0 * B 2 1 - B 0 1 * B 2 0 := by rw [e21]; field_simp
  have z2 : B 0 0 * detClear 0 B 2 2 = B 0 0 * B 2 2 - B 0 2 * B 2 0 := by rw [e22]; field_simp
  have z3 : B 0 0 * detClear 0 B 1 2 = B 0 0 * B 1 2 - B 0 2 * B 1 0 := by rw [e12]; field_simp
  have f0 := findRow_three L (detClear 0 B)
  have l2 := minors_le r0 r2
  have l1 := minors_le r0 r1
  rw [← z1, ← z2] at l2
  rw [← z3] at l1
  have hw2 : w ^ 2 ≤ 1 / 1000000 := by nlinarith
  have hw0 : 0 < w ^ 2 := by positivity
  have hx : B 0 1 * B 0 1 ≤ 21 / 10 := by nlinarith [mul_self_nonneg (B 0 0), mul_self_nonneg (B 0 2)]
  by_cases c1 : detClear 0 B 1 1 * detClear 0 B 1 1 < minval L (detClear 0 B) 1
  · by_cases c2 : detClear 0 B 2 1 * detClear 0 B 2 1 ≥ minval L (detClear 0 B) 1
    · have hb : detClear 0 B 2 1 ≠ 0 := fun h => by rw [h, mul_zero] at c2; exact absurd (hm.1.trans c2) (not_le.2 hw0)
      have hC := detPivot_some c1 (by rw [f0.2, if_pos c2])
      rw [run _ hC, prod_three, detClear_top 0 0, detClear_top 1 1, detClear_entry (r := 2) (k := 2) (by simpa [over] using hb) (by decide) (by decide)]
      simp only [over, if_true, show (0 : Fin 3) ≠ 1 by decide, show (2 : Fin 3) ≠ 1 by decide, show (2 : Fin 3) > 1 by decide, if_false, e00]
      rw [hdet, div_self hb, mul_one]
      have := over_err hw0 hw2 hp hx l2 hm.2 c1
      rw [show B 0 0 * (detClear 0 B 2 1 * (detClear 0 B 2 2 - (detClear 0 B 1 2 + detClear 0 B 2 2))) -
        B 0 0 * (detClear 0 B 1 1 * detClear 0 B 2 2 - detClear 0 B 1 2 * detClear 0 B 2 1) = -(detClear 0 B 1 1 * (B 0 0 * detClear 0 B 2 2)) by ring, abs_neg]
      exact this
    · exfalso
      have := none_small hw0 hw2 hx (le_trans (le_add_of_nonneg_left (sq_nonneg _)) l2) (le_trans (le_add_of_nonneg_left (sq_nonneg _)) l1) hm.2 c1 (not_le.1 c2)
      rw [← hdet] at this
      linarith
  · have hc : detClear 0 B 1 1 ≠ 0 := fun h => c1 (by rw [h, mul_zero]; exact lt_of_lt_of_le hw0 hm.1)
    rw [run _ (detPivot_ok c1), prod_three, detClear_top 0 0, detClear_top 1 1, detClear_entry (r := 2) (k := 2) hc (by decide) (by decide), hdet, e00,
      show B 0 0 * (detClear 0 B 1 1 * (detClear 0 B 2 2 - detClear 0 B 1 2 * (detClear 0 B 2 1 / detClear 0 B 1 1))) -
        B 0 0 * (detClear 0 B 1 1 * detClear 0 B 2 2 - detClear 0 B 1 2 * detClear 0 B 2 1) = 0 by field_simp; ring]
    norm_num

set_option maxHeartbeats 1000000 in
/-- Size 3. -/
theorem det_three {L : Limits} {w : ℝ} (hw : 0 < w) (hw1 : w ≤ 1 / 1000) (h1 : L.minD = w ^ 2) (h2 : 39 / 10 ≤ L.maxD * w ^ 2) (A : Matrix (Fin 3) (Fin 3) ℝ)
    (hA : ∀ i, ∑ j, A i j * A i j ≤ 101 / 100) (ho : ∀ i, i ≠ 0 → |∑ j, A 0 j * A i j| ≤ 1 / 100) (hd : 95 / 100 ≤ |A.det|) : SameSign (determinantImpl L A) A.det := by
  have hm := minval_bounds hw h1 h2 A 0
  have r0 := hA 0
  have r1 := hA 1
  have r2 := hA 2
  have o1 := ho 1 (by decide)
  have o2 := ho 2 (by decide)
  have ent : ∀ i j, |A i j| ≤ 11 / 10 := fun i j => by
    refine abs_le_of_sq_le_sq (by
      have := hA i; rw [Fin.sum_univ_three] at this
      fin_cases j <;> simp <;> nlinarith [mul_self_nonneg (A i 0), mul_self_nonneg (A i 1), mul_self_nonneg (A i 2)]) (by norm_num)
  have hS : ∑ j, A j 0 * A j 0 ≤ 38 / 10 := by
    rw [Fin.sum_univ_three] at *
    nlinarith [mul_self_nonneg (A 0 1), mul_self_nonneg (A 0 2), mul_self_nonneg (A 1 1), mul_self_nonneg (A 1 2), mul_self_nonneg (A 2 1), mul_self_nonneg (A 2 2)]
  have hmu : minval L A 0 = w ^ 2 := by
    rcases hm.2 with h | h
    · exact h
    · have : 0 < w ^ 2 := by positivity
      have h3 := mul_le_mul_of_nonneg_right hS this.le
      linarith [hm.1]
  have minor : ∀ i j k l, |A i j * A k l - A i l * A k j| ≤ 3 := fun i j k l => by
    refine (abs_sub _ _).trans ?_
    rw [abs_mul, abs_mul]
    nlinarith [ent i j, ent k l, ent i l, ent k j, abs_nonneg (A i j), abs_nonneg (A k l), abs_nonneg (A i l), abs_nonneg (A k j)]
  by_cases c1 : A 0 0 * A 0 0 < minval L A 0
  · have a1 := abs_of_small hw (hmu ▸ c1)
    have row : ∀ j, j ≠ 0 → w ^ 2 ≤ A j 0 * A j 0 → detPivot L 0 A = some (over 0 j A) → (over 0 j A).det = A.det - A 0 0 * (A 1 1 * A 2 2 - A 1 2 * A 2 1) →
        SameSign (determinantImpl L A) A.det := by
      intro j hj hp hB hdet
      have hdd : |(over 0 j A).det - A.det| ≤ 3 * w := by
        rw [hdet, show A.det - A 0 0 * (A 1 1 * A 2 2 - A 1 2 * A 2 1) - A.det = -(A 0 0 * (A 1 1 * A 2 2 - A 1 2 * A 2 1)) by ring, abs_neg, abs_mul]
        nlinarith [minor 1 1 2 2, abs_nonneg (A 0 0), abs_nonneg (A 1 1 * A 2 2 - A 1 2 * A 2 1)]
      have step := det_three_step hw hw1 h1 h2 A (over 0 j A) hB (by simpa [over] using hp) (by
          have rj := hA j
          have oj := ho j hj
          rw [Fin.sum_univ_three] at *
          have e := ent j 0
          simp only [over, if_true, show (1 : Fin 3) ≠ 0 by decide, show (2 : Fin 3) ≠ 0 by decide, show (1 : Fin 3) > 0 by decide, show (2 : Fin 3) > 0 by decide, if_false]
          have q : |A 0 0 * A j 0| ≤ 1 / 100 := by
            rw [abs_mul]; nlinarith [abs_nonneg (A 0 0), abs_nonneg (A j 0)]
          rw [abs_le] at q oj
          nlinarith [mul_self_nonneg (A 0 0)]) (by simpa [over] using r1) (by simpa [over] using r2) (by
          have := abs_sub_abs_le_abs_sub A.det (over 0 j A).det
          rw [abs_sub_comm] at this
          linarith)
      refine sameSign_of (by linarith) ?_
      have := abs_sub_le (determinantImpl L A) (over 0 j A).det A.det
      linarith
    have f := (findRow_three L A).1
    by_cases c2 : A 1 0 * A 1 0 ≥ minval L A 0
    · rw [if_pos c2] at f
      refine row 1 (by decide) (hmu ▸ c2) (detPivot_some c1 f) ?_
      rw [det_fin_three, det_fin_three]
      simp [over]
      ring
    · rw [if_neg c2] at f
      by_cases c3 : A 2 0 * A 2 0 ≥ minval L A 0
      · rw [if_pos c3] at f
        refine row 2 (by decide) (hmu ▸ c3) (detPivot_some c1 f) ?_
        rw [det_fin_three, det_fin_three]
        simp [over]
        ring
      · exfalso
        have a2 := abs_of_small hw (hmu ▸ not_le.1 c2)
        have a3 := abs_of_small hw (hmu ▸ not_le.1 c3)
        have k : ∀ z m : ℝ, |z| < w → |m| ≤ 3 → |z * m| ≤ 1 / 10 := fun z m hz hm => by
          rw [abs_mul]; nlinarith [abs_nonneg z, abs_nonneg m]
        have k1 := k _ _ a1 (minor 1 1 2 2)
        have k2 := k _ _ a2 (minor 0 1 2 2)
        have k3 := k _ _ a3 (minor 0 1 1 2)
        have : A.det = A 0 0 * (A 1 1 * A 2 2 - A 1 2 * A 2 1) - A 1 0 * (A 0 1 * A 2 2 - A 0 2 * A 2 1) + A 2 0 * (A 0 1 * A 1 2 - A 0 2 * A 1 1) := by
          rw [det_fin_three]; ring
        rw [this] at hd
        rw [abs_le] at k1 k2 k3
        rcases le_abs.1 hd with h | h <;> linarith
  · have step := det_three_step hw hw1 h1 h2 A A (detPivot_ok c1) (hmu ▸ not_lt.1 c1) (by linarith) r1 r2 (by linarith)
    exact sameSign_of (by linarith) (by linarith)

end WFMath.Gauss
