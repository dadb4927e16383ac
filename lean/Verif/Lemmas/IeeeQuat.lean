/- Turning by a quaternion over the whole range of doubles: one error bound per operation. -/
import Verif.Lemmas.IeeeMove
import Verif.Props.IeeeFrame
import Verif.Props.RoundQuat

namespace WFMath
open Spec Matrix Quaternion
open WFMath.Spec.Rounding (u)

namespace Ie
variable {g : Nearest} {D D' : Dbl} {x x' e e' B B' : ℝ}

/-- The error of underflow and the bound below which nothing overflows. -/
def Cst (η T : ℝ) : Prop := η = 2 ^ (-1075 : ℤ) ∧ T = 2 ^ (1023 : ℤ)

variable {η T : ℝ}

/-- `D` is a finite double that is `e` away from `x`, and `x` is at most `B`. -/
def Val (D : Dbl) (x e B : ℝ) : Prop := ∃ y, D = .num y ∧ IsDbl y ∧ |y - x| ≤ e ∧ |x| ≤ B

namespace Val

theorem exact (hx : IsDbl x) (hB : |x| ≤ B) : Val (.num x) x 0 B := ⟨x, rfl, hx, by simp, hB⟩

theorem weaken (h : Val D x e B) (he : e ≤ e') (hB : |x| ≤ B') : Val D x e' B' := by
  obtain ⟨y, h1, h2, h3, -⟩ := h
  exact ⟨y, h1, h2, h3.trans he, hB⟩

theorem abs_le {y : ℝ} (h : |y - x| ≤ e) (hB : |x| ≤ B) : |y| ≤ B + e := by
  have := abs_sub_abs_le_abs_sub y x
  linarith

theorem mul (hC : Cst η T) (h : Val D x e B) (h' : Val D' x' e' B') (hT : (B + e) * (B' + e') ≤ T) :
    Val (Dbl.mul g D D') (x * x') (e * B' + B * e' + e * e' + u 53 * ((B + e) * (B' + e')) + η) (B * B') := by
  obtain ⟨rfl, rfl⟩ := hC
  obtain ⟨y, rfl, h2, h3, h4⟩ := h
  obtain ⟨y', rfl, k2, k3, k4⟩ := h'
  have hy := abs_le h3 h4
  have hy' := abs_le k3 k4
  have hyy : |y * y'| ≤ (B + e) * (B' + e') := by
    rw [abs_mul]; exact mul_le_mul hy hy' (abs_nonneg _) ((abs_nonneg _).trans hy)
  refine ⟨g (y * y'), round_of_le (hyy.trans hT), g.isDbl _, ?_, by rw [abs_mul]; exact mul_le_mul h4 k4 (abs_nonneg _) ((abs_nonneg _).trans h4)⟩
  have a := rnd_any g (y * y')
  have b : |y * y' - x * x'| ≤ e * B' + B * e' + e * e' := by
    have : y * y' - x * x' = (y - x) * x' + x * (y' - x') + (y - x) * (y' - x') := by ring
    rw [this]
    have e0 := (abs_nonneg _).trans h3
    have B0 := (abs_nonneg _).trans h4
    refine (abs_add_le _ _).trans (add_le_add ((abs_add_le _ _).trans (add_le_add ?_ ?_)) ?_) <;> rw [abs_mul]
    · exact mul_le_mul h3 k4 (abs_nonneg _) e0
    · exact mul_le_mul h4 k3 (abs_nonneg _) B0
    · exact mul_le_mul h3 k3 (abs_nonneg _) e0
  have c := mul_le_mul_of_nonneg_left hyy (Rounding.u_pos (p := 53)).le
  have d := abs_sub_le (g (y * y')) (y * y') (x * x')
  generalize (2 : ℝ) ^ (-1075 : ℤ) = η at *
  linarith

theorem add (hC : Cst η T) (h : Val D x e B) (h' : Val D' x' e' B') (hT : (B + e) + (B' + e') ≤ T) :
    Val (Dbl.add g D D') (x + x') (e + e' + u 53 * ((B + e) + (B' + e'))) (B + B') := by
  obtain ⟨rfl, rfl⟩ := hC
  obtain ⟨r, hr⟩ := g.extends_
  obtain ⟨y, rfl, h2, h3, h4⟩ := h
  obtain ⟨y', rfl, k2, k3, k4⟩ := h'
  have hyy : |y + y'| ≤ (B + e) + (B' + e') := (abs_add_le _ _).trans (add_le_add (abs_le h3 h4) (abs_le k3 k4))
  obtain ⟨a1, a2⟩ := add_num hr h2 k2 (hyy.trans hT)
  refine ⟨_, a1, a2, ?_, (abs_add_le _ _).trans (add_le_add h4 k4)⟩
  have a := r.err Fl.pos53 (y + y')
  have b : |y + y' - (x + x')| ≤ e + e' := by
    rw [add_sub_add_comm]; exact (abs_add_le _ _).trans (add_le_add h3 k3)
  have c := mul_le_mul_of_nonneg_left hyy (Rounding.u_pos (p := 53)).le
  have d := abs_sub_le (r (y + y')) (y + y') (x + x')
  linarith

theorem neg (h : Val D x e B) : Val D.neg (-x) e B := by
  obtain ⟨y, rfl, h2, h3, h4⟩ := h
  exact ⟨-y, rfl, h2.neg, by rw [neg_sub_neg, abs_sub_comm]; exact h3, by rwa [abs_neg]⟩

theorem sub (hC : Cst η T) (h : Val D x e B) (h' : Val D' x' e' B') (hT : (B + e) + (B' + e') ≤ T) :
    Val (Dbl.sub g D D') (x - x') (e + e' + u 53 * ((B + e) + (B' + e'))) (B + B') := by
  rw [sub_eq_add_neg]
  exact add hC h h'.neg hT

end Val

/-! ### The cut-off -/

theorem scale_any (g : Nearest) (fe : ℤ) {n : Nat} {a b : Fin n → ℝ} (hC : Cst η T) (hb : ∀ i, |b i| ≤ 2 ^ (1001 : ℤ)) :
    ∃ δ, scaleEpsilonArr g fe (nums a) (nums b) (.num epsilon) = .num δ ∧ (a ≠ 0 → b ≠ 0 → δ ≤ 121 * (u 53 * WFMath.maxAbs b) + η) := by
  have he := epsilon_pos
  have h0 := scaleEpsilonArr_nonneg (x := a) (y := b) he.le
  have hee : epsilon = 60 * u 53 := by rw [Fl.u53]; unfold epsilon; norm_num
  have hu0 := Rounding.u_pos (p := 53)
  have hu1 : u 53 ≤ 1 / 1000000 := by rw [Fl.u53]; norm_num
  have hm := maxAbs_nonneg b
  have h1 : a ≠ 0 → b ≠ 0 → WFMath.scaleEpsilonArr a b epsilon ≤ 120 * (u 53 * WFMath.maxAbs b) := fun ha hb => by
    have h1 := scaleEpsilonArr_le he.le ha hb
    have h2 := mul_le_mul_of_nonneg_left (min_le_right (WFMath.maxAbs a) (WFMath.maxAbs b)) (show 0 ≤ 2 * epsilon by linarith)
    rw [hee] at h1 h2 ⊢
    linarith
  obtain ⟨rfl, rfl⟩ := hC
  have hle : WFMath.scaleEpsilonArr a b epsilon ≤ 2 ^ (1023 : ℤ) := by
    by_cases h : a = 0 ∨ b = 0
    · rw [scaleEpsilonArr_zero h]
      have := epsilon_lt
      refine le_trans ?_ (zpow_le_zpow_right₀ one_le_two (by norm_num : (0 : ℤ) ≤ 1023))
      rw [zpow_zero, hee]; linarith
    · rw [not_or] at h
      refine (h1 h.1 h.2).trans (le_trans ?_ (maxAbs_le (by positivity) hb |>.trans (zpow_le_zpow_right₀ one_le_two (by norm_num))))
      have := mul_le_mul_of_nonneg_right hu1 hm
      linarith
  refine ⟨g (WFMath.scaleEpsilonArr a b epsilon), ?_, fun ha hb => ?_⟩
  · rw [← round_of_le (by rwa [abs_of_nonneg h0])]
    unfold scaleEpsilonArr WFMath.scaleEpsilonArr
    rw [show maxAbs (nums a) = .num (WFMath.maxAbs a) from maxAbs_num a, show maxAbs (nums b) = .num (WFMath.maxAbs b) from maxAbs_num b]
    unfold scaleEpsilon WFMath.scaleEpsilon
    simp only [Dbl.abs, Dbl.lt, decide_eq_true_eq]
    split_ifs <;> rfl
  · have h1 := h1 ha hb
    have h2 := rnd_any g (WFMath.scaleEpsilonArr a b epsilon)
    rw [abs_of_nonneg h0] at h2
    have h3 := le_abs_self (g (WFMath.scaleEpsilonArr a b epsilon) - WFMath.scaleEpsilonArr a b epsilon)
    have h4 := mul_le_mul_of_nonneg_left h1 hu0.le
    have h5 := mul_le_mul_of_nonneg_right hu1 (mul_nonneg hu0.le hm)
    generalize (2 : ℝ) ^ (-1075 : ℤ) = η at *
    linarith

/-- A value that the cut-off may replace by 0. -/
theorem Val.cut (h : Val D x e B) {δ k : ℝ} (hz : δ ≤ k ∨ x = 0) (hk : 0 ≤ k) :
    Val (if Dbl.le (.num δ) D.abs then D else .num 0) x (e + k) B ∧ Val (if Dbl.lt D.abs (.num δ) then .num 0 else D) x (e + k) B := by
  obtain ⟨y, rfl, h2, h3, h4⟩ := h
  have e0 := (abs_nonneg _).trans h3
  have hy : Val (.num y) x (e + k) B := ⟨y, rfl, h2, by linarith, h4⟩
  have h0 : |y| < δ → Val (.num 0) x (e + k) B := fun hc => by
    refine ⟨0, rfl, IsDbl.zero, ?_, h4⟩
    rw [zero_sub, abs_neg]
    rcases hz with hz | hz
    · have := abs_sub_abs_le_abs_sub x y
      rw [abs_sub_comm] at this
      linarith
    · rw [hz, abs_zero]; linarith
  simp only [Dbl.abs, Dbl.le, Dbl.lt, decide_eq_true_eq]
  constructor
  · split_ifs with c
    · exact hy
    · exact h0 (not_le.1 c)
  · split_ifs with c
    · exact h0 c
    · exact hy

/-! ### Scalar and vector product with a vector of length about 1 -/

theorem dot_val (g : Nearest) (fe : ℤ) (hC : Cst η T) {a v : Fin 3 → ℝ} (ha : len a ≤ 51 / 50) (hv : ∀ i, |v i| ≤ 2 ^ (1001 : ℤ)) :
    Val (dot g fe (nums a) (nums v)) (a ⬝ᵥ v) (130 * (u 53 * len v) + 7 * η) (51 / 50 * len v) := by
  have hL := len_nonneg v
  have hu0 := Rounding.u_pos (p := 53)
  obtain ⟨δ, d1, d2⟩ := scale_any g fe (a := a) hC hv
  obtain ⟨y, y1, y2, -, y3⟩ := inner_num g (by norm_num) a v 1001 (by norm_num) (by norm_num) (fun i => (abs_le_len a i).trans (by linarith)) hv
  have hB : |a ⬝ᵥ v| ≤ 51 / 50 * len v := (abs_dot_le_len _ _).trans (mul_le_mul_of_nonneg_right ha hL)
  have hη : 0 < η := by rw [hC.1]; positivity
  have hY : Val (sum g fun i => Dbl.mul g (.num (a i)) (.num (v i))) (a ⬝ᵥ v) (9 * (u 53 * len v) + 6 * η) (51 / 50 * len v) := by
    refine ⟨y, y1, y2, y3.trans ?_, hB⟩
    have e1 : (2 : ℝ) ^ (-1074 : ℤ) = 2 * η := by
      rw [hC.1, show (-1074 : ℤ) = 1 + -1075 by norm_num, zpow_add₀ two_ne_zero, zpow_one]
    have e2 : (2 : ℝ) ^ (-52 : ℤ) = 2 * u 53 := by rw [Fl.u53]; norm_num
    rw [e1, e2]
    have := mul_le_mul_of_nonneg_left (mul_le_mul_of_nonneg_right ha hL) hu0.le
    have := mul_nonneg hu0.le hL
    push_cast
    linarith
  have hm : WFMath.maxAbs v ≤ len v := maxAbs_le hL (abs_le_len v)
  have := (hY.cut (δ := δ) (k := 121 * (u 53 * len v) + η) (by
    by_cases h : a = 0 ∨ v = 0
    · right; rcases h with rfl | rfl <;> simp
    · rw [not_or] at h
      left
      have := mul_le_mul_of_nonneg_left hm hu0.le
      linarith [d2 h.1 h.2]) (by positivity)).1
  unfold dot
  rw [d1]
  exact this.weaken (by linarith) hB

theorem cross_val (g : Nearest) (fe : ℤ) (hC : Cst η T) {a v : Fin 3 → ℝ} (da : ∀ i, IsDbl (a i)) (dv : ∀ i, IsDbl (v i)) (ha : len a ≤ 51 / 50) (hv : ∀ i, |v i| ≤ 2 ^ (1001 : ℤ))
    (hT : 1000 * (len v + 1) ≤ T) (i : Fin 3) :
    Val (cross3 g fe (nums a) (nums v) i) ((a ⨯₃ v) i) (130 * (u 53 * len v) + 7 * η) (51 / 50 * len v) := by
  have hL := len_nonneg v
  have hu0 := Rounding.u_pos (p := 53)
  have hu1 : u 53 ≤ 1 / 1000000 := by rw [Fl.u53]; norm_num
  obtain ⟨δ, d1, d2⟩ := scale_any g fe (a := a) hC hv
  have hη : 0 < η := by rw [hC.1]; positivity
  have hη1 : η ≤ 1 := by rw [hC.1]; exact zpow_le_one_of_nonpos₀ one_le_two (by norm_num)
  have hm : WFMath.maxAbs v ≤ len v := maxAbs_le hL (abs_le_len v)
  have p1 := mul_nonneg hu0.le hL
  have p2 := mul_le_mul_of_nonneg_right hu1 hL
  have p3 := mul_le_mul_of_nonneg_right hu1 p1
  have p4 := mul_le_mul_of_nonneg_right hu1 hη.le
  have p5 := mul_nonneg hu0.le hη.le
  have key : ∀ j k : Fin 3, Val (Dbl.sub g (Dbl.mul g (.num (a j)) (.num (v k))) (Dbl.mul g (.num (v j)) (.num (a k)))) (a j * v k - v j * a k) (9 * (u 53 * len v) + 6 * η)
      (51 / 50 * len v + 51 / 50 * len v) := fun j k => by
    have v1 := fun i => Val.exact (dv i) (abs_le_len v i)
    have v2 := fun i => Val.exact (da i) ((abs_le_len a i).trans ha)
    have m1 := Val.mul (g := g) hC (v2 j) (v1 k) (by linarith)
    have m2 := Val.mul (g := g) hC (v1 j) (v2 k) (by linarith)
    have m1' := m1.weaken (e' := 2 * (u 53 * len v) + η) (B' := 51 / 50 * len v) (by linarith) (by obtain ⟨_, _, _, _, h⟩ := m1; exact h)
    have m2' := m2.weaken (e' := 2 * (u 53 * len v) + η) (B' := 51 / 50 * len v) (by linarith) (by obtain ⟨_, _, _, _, h⟩ := m2; linarith)
    have s := Val.sub (g := g) hC m1' m2' (by linarith)
    refine s.weaken (by linarith) (by obtain ⟨_, _, _, _, h⟩ := s; exact h)
  have hB : |(a ⨯₃ v) i| ≤ 51 / 50 * len v := (abs_le_len _ i).trans ((len_cross_le _ _).trans (mul_le_mul_of_nonneg_right ha hL))
  have hcut : δ ≤ 121 * (u 53 * len v) + η ∨ a = 0 ∨ v = 0 := by
    by_cases h : a = 0 ∨ v = 0
    · exact Or.inr h
    · rw [not_or] at h
      left
      have := mul_le_mul_of_nonneg_left hm hu0.le
      linarith [d2 h.1 h.2]
  have fin : ∀ j k : Fin 3, (a ⨯₃ v) i = a j * v k - v j * a k →
      Val (if Dbl.lt (Dbl.sub g (Dbl.mul g (nums a j) (nums v k)) (Dbl.mul g (nums v j) (nums a k))).abs (.num δ) then .num 0
        else Dbl.sub g (Dbl.mul g (nums a j) (nums v k)) (Dbl.mul g (nums v j) (nums a k))) ((a ⨯₃ v) i) (130 * (u 53 * len v) + 7 * η) (51 / 50 * len v) := fun j k h => by
    have := ((key j k).cut (δ := δ) (k := 121 * (u 53 * len v) + η) (hcut.imp_right fun h => by rcases h with rfl | rfl <;> simp) (by positivity)).2
    rw [← h] at this
    exact this.weaken (by linarith) hB
  unfold cross3
  rw [d1]
  fin_cases i
  · exact fin 1 2 (by simp [cross_apply]; ring)
  · exact fin 2 0 (by simp [cross_apply]; ring)
  · exact fin 0 1 (by simp [cross_apply]; ring)

/-! ### The rotation formula -/

theorem rotateQ_val (g : Nearest) (fe : ℤ) (q : Quat) (v : Fin 3 → ℝ) (dw : IsDbl q.w) (dx : ∀ i, IsDbl (q.vec.elem i)) (dv : ∀ i, IsDbl (v i)) (hq : ‖toH q‖ ≤ 51 / 50)
    (hv : ∀ i, |v i| ≤ 2 ^ (1001 : ℤ)) :
    ∃ y : Fin 3 → ℝ, rotateQ g fe (nums v) (.num q.w) (nums q.vec.elem) = nums y ∧ (∀ i, IsDbl (y i)) ∧ (∀ i, |y i| ≤ 2 ^ (1010 : ℤ)) ∧
      len (y - rotFormula q v) ≤ 20 * epsilon * len v + 2 ^ (-1068 : ℤ) := by
  obtain ⟨η, T, hC⟩ : ∃ η T, Cst η T := ⟨_, _, rfl, rfl⟩
  have hL := len_nonneg v
  have hL1 : len v ≤ 2 ^ (1002 : ℤ) := (len3_le (by positivity) hv).trans (le_of_eq (by rw [show (1002 : ℤ) = 1 + 1001 by norm_num, zpow_add₀ two_ne_zero, zpow_one]))
  have hT : 1000 * (len v + 1) ≤ T := by
    rw [hC.2]
    have h1 : (1 : ℝ) ≤ 2 ^ (1002 : ℤ) := one_le_zpow₀ one_le_two (by norm_num)
    calc (1000 : ℝ) * (len v + 1) ≤ 2 ^ (10 : ℤ) * (2 ^ (1002 : ℤ) + 2 ^ (1002 : ℤ)) := by
          refine mul_le_mul (by norm_num) (add_le_add hL1 h1) (by positivity) (by positivity)
      _ = 2 ^ (1013 : ℤ) := by rw [two_pow_add, ← zpow_add₀ two_ne_zero]; norm_num
      _ ≤ 2 ^ (1023 : ℤ) := zpow_le_zpow_right₀ one_le_two (by norm_num)
  have hbig : 8 * len v + 1 ≤ 2 ^ (1010 : ℤ) := by
    have h1 : (1 : ℝ) ≤ 2 ^ (1002 : ℤ) := one_le_zpow₀ one_le_two (by norm_num)
    calc 8 * len v + 1 ≤ 2 ^ (4 : ℤ) * 2 ^ (1002 : ℤ) := by
          generalize (2 : ℝ) ^ (1002 : ℤ) = K at *
          norm_num; linarith
      _ = 2 ^ (1006 : ℤ) := by rw [← zpow_add₀ two_ne_zero]; norm_num
      _ ≤ 2 ^ (1010 : ℤ) := zpow_le_zpow_right₀ one_le_two (by norm_num)
  have hη : 0 < η := by rw [hC.1]; positivity
  have hη1 : η ≤ u 53 / 1000000 := by
    rw [hC.1, Fl.u53]
    exact (zpow_le_zpow_right₀ one_le_two (by norm_num : (-1075 : ℤ) ≤ -100)).trans (by norm_num)
  have hη2 : (2 : ℝ) ^ (-1068 : ℤ) = 128 * η := by
    rw [hC.1, show (-1068 : ℤ) = 7 + -1075 by norm_num, zpow_add₀ two_ne_zero]; norm_num
  have hu0 := Rounding.u_pos (p := 53)
  have hu1 : u 53 ≤ 1 / 1000000 := by rw [Fl.u53]; norm_num
  have hee : epsilon = 60 * u 53 := by rw [Fl.u53]; unfold epsilon; norm_num
  have hqv := (Fl.len_vec_le q).trans hq
  have hw := ((abs_le_norm q).1).trans hq
  have hqi : ∀ i, |q.vec.elem i| ≤ 51 / 50 := fun i => ((abs_le_norm q).2 i).trans hq
  have hd := dot_val g fe hC hqv hv
  have hc := cross_val g fe hC dx dv hqv hv hT
  rw [hη2, hee]
  clear hη2 hee hL1
  generalize (2 : ℝ) ^ (1010 : ℤ) = K at *
  have p1 := mul_nonneg hu0.le hL
  have p2 := mul_le_mul_of_nonneg_right hu1 hL
  have p3 := mul_le_mul_of_nonneg_right hu1 p1
  have p4 := mul_le_mul_of_nonneg_right hu1 hη.le
  have p5 := mul_nonneg hu0.le hη.le
  have p6 := mul_le_mul_of_nonneg_right hu1 hu0.le
  have p7 := mul_le_mul_of_nonneg_right hu1 p5
  have p8 := mul_nonneg hu0.le p1
  have p9 := mul_le_mul_of_nonneg_right hu1 p8
  have d2 : IsDbl (2 : ℝ) := ⟨1, 1, by norm_num, by norm_num, by norm_num⟩
  have d1 : IsDbl (1 : ℝ) := ⟨1, 0, by norm_num, by norm_num, by norm_num⟩
  have bnd : ∀ {D : Dbl} {x e B : ℝ}, Val D x e B → |x| ≤ B := fun ⟨_, _, _, _, h⟩ => h
  have w1 := Val.mul (g := g) hC (Val.exact d2 (by rw [abs_two])) (Val.exact dw hw) (by linarith)
  have w1' := w1.weaken (e' := 3 * u 53) (B' := 51 / 25) (by linarith) ((bnd w1).trans (by norm_num))
  have w2 := Val.mul (g := g) hC w1' (Val.exact dw hw) (by linarith)
  have w2' := w2.weaken (e' := 6 * u 53) (B' := 21 / 10) (by linarith) ((bnd w2).trans (by norm_num))
  have w3 := Val.sub (g := g) hC w2' (Val.exact d1 (abs_one.le)) (by linarith)
  have w3' := w3.weaken (e' := 10 * u 53) (B' := 31 / 10) (by linarith) ((bnd w3).trans (by norm_num))
  have key : ∀ i, Val (rotateQ g fe (nums v) (.num q.w) (nums q.vec.elem) i) (rotFormula q v i) (600 * (u 53 * len v) + 64 * η) (73 / 10 * len v) := fun i => by
    have a1 := Val.mul (g := g) hC (Val.exact (dv i) (abs_le_len v i)) w3' (by linarith)
    have a1' := a1.weaken (e' := 14 * (u 53 * len v) + η) (B' := 31 / 10 * len v) (by linarith) ((bnd a1).trans (by linarith))
    have q1 := Val.mul (g := g) hC (Val.exact (dx i) (hqi i)) (Val.exact d2 (by rw [abs_two])) (by linarith)
    have q1' := q1.weaken (e' := 3 * u 53) (B' := 51 / 25) (by linarith) ((bnd q1).trans (by norm_num))
    have a2 := Val.mul (g := g) hC q1' hd (by linarith)
    have a2' := a2.weaken (e' := 272 * (u 53 * len v) + 17 * η) (B' := 21 / 10 * len v) (by linarith) ((bnd a2).trans (by linarith))
    have a3 := Val.mul (g := g) hC (hc i) w1' (by linarith)
    have a3' := a3.weaken (e' := 272 * (u 53 * len v) + 17 * η) (B' := 21 / 10 * len v) (by linarith) ((bnd a3).trans (by linarith))
    have a4 := Val.add (g := g) hC a1' a2' (by linarith)
    have a4' := a4.weaken (e' := 293 * (u 53 * len v) + 20 * η) (B' := 52 / 10 * len v) (by linarith) ((bnd a4).trans (by linarith))
    have a5 := Val.add (g := g) hC a4' a3' (by linarith)
    have a5' := a5.weaken (e' := 600 * (u 53 * len v) + 64 * η) (B' := 73 / 10 * len v) (by linarith) ((bnd a5).trans (by linarith))
    have e : rotFormula q v i = v i * (2 * q.w * q.w - 1) + q.vec.elem i * 2 * (q.vec.elem ⬝ᵥ v) + (q.vec.elem ⨯₃ v) i * (2 * q.w) := by
      simp only [rotFormula, Pi.add_apply, Pi.smul_apply, smul_eq_mul]; ring
    rw [e]
    exact a5'
  choose y y1 y2 y3 y4 using key
  refine ⟨y, funext y1, y2, fun i => ?_, ?_⟩
  · have := Val.abs_le (y3 i) (y4 i)
    linarith
  · refine (len3_le (b := 600 * (u 53 * len v) + 64 * η) (by positivity) y3).trans (le_of_eq (by ring))

end Ie
end WFMath
