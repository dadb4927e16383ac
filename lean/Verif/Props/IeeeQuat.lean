/- Property theorems C145: turning by a quaternion over the whole range of doubles. -/
import Verif.Lemmas.IeeeQuat

namespace WFMath
open Spec Matrix Quaternion

namespace Ie

theorem norm_le_of_near {q : Quat} {u : ℍ[ℝ]} {δ : ℝ} (hu : ‖u‖ = 1) (hq : ‖toH q - u‖ ≤ δ) (hδ : δ ≤ 1 / 100) : ‖toH q‖ ≤ 51 / 50 := by
  have := norm_add_le (toH q - u) u
  rw [sub_add_cancel, hu] at this
  linarith

theorem rotateQ_act (g : Nearest) (fe : ℤ) (q : Quat) (u : ℍ[ℝ]) (δ : ℝ) (hu : ‖u‖ = 1) (hq : ‖toH q - u‖ ≤ δ) (hδ : δ ≤ 1 / 100) (dw : IsDbl q.w) (dx : ∀ i, IsDbl (q.vec.elem i))
    (v : Fin 3 → ℝ) (dv : ∀ i, IsDbl (v i)) (hv : ∀ i, |v i| ≤ 2 ^ (1001 : ℤ)) :
    ∃ y : Fin 3 → ℝ, rotateQ g fe (nums v) (.num q.w) (nums q.vec.elem) = nums y ∧ (∀ i, IsDbl (y i)) ∧ (∀ i, |y i| ≤ 2 ^ (1010 : ℤ)) ∧
      len (y - act u v) ≤ (13 * δ + 20 * epsilon) * len v + 2 ^ (-1068 : ℤ) := by
  obtain ⟨y, y1, y2, y3, y4⟩ := rotateQ_val g fe q v dw dx dv (norm_le_of_near hu hq hδ) hv
  refine ⟨y, y1, y2, y3, ?_⟩
  have a := rotFormula_near hu hq hδ v
  have b := len_triangle y (rotFormula q v) (act u v)
  generalize (2 : ℝ) ^ (-1068 : ℤ) = η at *
  linarith

/-- A difference turned and added to a point. -/
theorem turnQ_num (g : Nearest) (fe : ℤ) (q : Quat) (u : ℍ[ℝ]) (δ : ℝ) (hu : ‖u‖ = 1) (hq : ‖toH q - u‖ ≤ δ) (hδ : δ ≤ 1 / 100) (dw : IsDbl q.w) (dx : ∀ i, IsDbl (q.vec.elem i))
    (x p o : Fin 3 → ℝ) (dx' : ∀ i, IsDbl (x i)) (dp : ∀ i, IsDbl (p i)) (do' : ∀ i, IsDbl (o i)) (hx : ∀ i, |x i| ≤ 2 ^ (1000 : ℤ)) (hp : ∀ i, |p i| ≤ 2 ^ (1000 : ℤ))
    (ho : ∀ i, |o i| ≤ 2 ^ (1000 : ℤ)) :
    ∃ y : Fin 3 → ℝ, vadd g (nums o) (rotateQ g fe (vsub g (nums x) (nums p)) (.num q.w) (nums q.vec.elem)) = nums y ∧ (∀ i, IsFinite (y i)) ∧
      len (y - (o + act u (x - p))) ≤ (2 * (13 * δ + 20 * epsilon) + 3 * 2 ^ (-53 : ℤ)) * len (x - p) + 2 ^ (-53 : ℤ) * len o + 2 ^ (-1067 : ℤ) := by
  obtain ⟨r, hr⟩ := g.extends_
  obtain ⟨s1, s2⟩ := vsub_num hr dx' dp hx hp
  obtain ⟨z, z1, z2, z3, z4⟩ := rotateQ_act g fe q u δ hu hq hδ dw dx _ (fun i => (s2 i).1) fun i => (s2 i).2
  have hz : ∀ i, |o i + z i| ≤ 2 ^ (1023 : ℤ) := fun i => by
    have b : (2 : ℝ) ^ (1000 : ℤ) ≤ 2 ^ (1010 : ℤ) := zpow_le_zpow_right₀ one_le_two (by norm_num)
    refine (abs_add_le _ _).trans ((add_le_add ((ho i).trans b) (z3 i)).trans ?_)
    rw [two_pow_add]; exact zpow_le_zpow_right₀ one_le_two (by norm_num)
  have k := fun i => add_num hr (do' i) (z2 i) (hz i)
  rw [s1, z1]
  refine ⟨fun i => r (o i + z i), funext fun i => (k i).1, fun i => fin_of_le (k i).2 (r.abs_le_fl (IsFl.zpow Fl.pos53 _) (hz i)), ?_⟩
  have hu' := normSq_eq_one.2 hu
  set d : Fin 3 → ℝ := fun i => r (x i - p i) with hd
  have e1 := Fl.len_round r (o + z)
  have e2 := len_triangle (fun i => r ((o + z) i)) (o + z) (o + act u (x - p))
  rw [add_sub_add_left_eq_sub] at e2
  have e3 := len_add_le o z
  have e4 : len z ≤ len d + len (z - act u d) := by
    have := len_add_le (act u d) (z - act u d)
    rwa [add_sub_cancel, len_act hu'] at this
  have e5 : len (d - (x - p)) ≤ 2 ^ (-53 : ℤ) * len (x - p) := Fl.len_round r (x - p)
  have e6 : len d ≤ len (x - p) + len (d - (x - p)) := by
    have := len_add_le (x - p) (d - (x - p))
    rwa [add_sub_cancel] at this
  have e7 := len_triangle z (act u d) (act u (x - p))
  rw [← act_sub hu', len_act hu'] at e7
  have hD := len_nonneg (x - p)
  have hE0 : 0 ≤ 13 * δ + 20 * epsilon := by have := epsilon_pos; have := (norm_nonneg _).trans hq; linarith
  have hE1 : 13 * δ + 20 * epsilon ≤ 1 / 4 := by have he2 := epsilon_lt; norm_num at he2; linarith
  have e8 : len ((fun i => r (o i + z i)) - (o + act u (x - p))) = len ((fun i => r ((o + z) i)) - (o + act u (x - p))) := rfl
  rw [e8]
  have hu0 : (0 : ℝ) < 2 ^ (-53 : ℤ) := by positivity
  have hu1 : (2 : ℝ) ^ (-53 : ℤ) ≤ 1 / 8 := by norm_num
  have hη0 : (0 : ℝ) ≤ 2 ^ (-1068 : ℤ) := by positivity
  rw [show (2 : ℝ) ^ (-1067 : ℤ) = 2 * 2 ^ (-1068 : ℤ) by rw [show (-1067 : ℤ) = 1 + -1068 by norm_num, zpow_add₀ two_ne_zero, zpow_one]]
  generalize (2 : ℝ) ^ (-1068 : ℤ) = η at *
  generalize (2 : ℝ) ^ (-53 : ℤ) = t at *
  generalize 13 * δ + 20 * epsilon = E at *
  generalize len (x - p) = D at *
  have f1 : len d ≤ (1 + t) * D := by linarith
  have f2 : E * len d ≤ E * ((1 + t) * D) := mul_le_mul_of_nonneg_left f1 hE0
  have f3 : t * len (o + z) ≤ t * (len o + ((1 + t) * D + (E * ((1 + t) * D) + η))) := mul_le_mul_of_nonneg_left (by linarith) hu0.le
  have g1 : t * η ≤ 1 / 8 * η := mul_le_mul_of_nonneg_right hu1 hη0
  have tD : 0 ≤ t * D := by positivity
  have eD : 0 ≤ E * D := by positivity
  have g2 : t * (t * D) ≤ 1 / 8 * (t * D) := mul_le_mul_of_nonneg_right hu1 tD
  have g3 : t * (E * D) ≤ 1 / 8 * (E * D) := mul_le_mul_of_nonneg_right hu1 eD
  have g4 : t * (t * (E * D)) ≤ 1 / 8 * (t * (E * D)) := mul_le_mul_of_nonneg_right hu1 (by positivity)
  linarith

end Ie

/-- C145, turning by a quaternion, with components up to 2^1000: nothing overflows, and underflow adds at most 2^-1068 to the error of C123. -/
theorem C145_quaternion (g : Nearest) (fe : ℤ) (q : Quat) (u : ℍ[ℝ]) (δ : ℝ) (hu : ‖u‖ = 1) (hq : ‖toH q - u‖ ≤ δ) (hδ : δ ≤ 1 / 100) (dw : IsDbl q.w)
    (dx : ∀ i, IsDbl (q.vec.elem i)) (v : Fin 3 → ℝ) (dv : ∀ i, IsDbl (v i)) (hv : ∀ i, |v i| ≤ 2 ^ (1000 : ℤ)) :
    ∃ y : Fin 3 → ℝ, Ie.rotateQ g fe (nums v) (.num q.w) (nums q.vec.elem) = nums y ∧ (∀ i, IsFinite (y i)) ∧
      len (y - act u v) ≤ (13 * δ + 20 * epsilon) * len v + 2 ^ (-1068 : ℤ) := by
  obtain ⟨y, y1, y2, y3, y4⟩ := Ie.rotateQ_act g fe q u δ hu hq hδ dw dx v dv fun i => (hv i).trans (zpow_le_zpow_right₀ one_le_two (by norm_num))
  exact ⟨y, y1, fun i => Ie.fin_of_le (y2 i) ((y3 i).trans (zpow_le_zpow_right₀ one_le_two (by norm_num))), y4⟩

/-- C145, coordinate changes and turning about a point by a quaternion, with coordinates up to 2^1000. -/
theorem C145_quaternion_frames (g : Nearest) (fe : ℤ) (q : Quat) (u : ℍ[ℝ]) (δ : ℝ) (hu : ‖u‖ = 1) (hq : ‖toH q - u‖ ≤ δ) (hδ : δ ≤ 1 / 100) (dw : IsDbl q.w)
    (dq : ∀ i, IsDbl (q.vec.elem i)) (x o : Fin 3 → ℝ) (dx : ∀ i, IsDbl (x i)) (do' : ∀ i, IsDbl (o i)) (hx : ∀ i, |x i| ≤ 2 ^ (1000 : ℤ)) (ho : ∀ i, |o i| ≤ 2 ^ (1000 : ℤ)) :
    (∃ y : Fin 3 → ℝ, Ie.toParentQ g fe (nums x) (nums o) (.num q.w) (nums q.vec.elem) = nums y ∧ (∀ i, IsFinite (y i)) ∧
      len (y - (o + act u x)) ≤ (2 * (13 * δ + 20 * epsilon) + 3 * 2 ^ (-53 : ℤ)) * len x + 2 ^ (-53 : ℤ) * len o + 2 ^ (-1067 : ℤ)) ∧
    (∃ y : Fin 3 → ℝ, Ie.toLocalQ g fe (nums x) (nums o) (.num q.w) (nums q.vec.elem) = nums y ∧ (∀ i, IsFinite (y i)) ∧
      len (y - act (star u) (x - o)) ≤ (2 * (13 * δ + 20 * epsilon) + 3 * 2 ^ (-53 : ℤ)) * len (x - o) + 2 ^ (-1067 : ℤ)) ∧
    ∃ y : Fin 3 → ℝ, Ie.ptRotateQ g fe (nums x) (.num q.w) (nums q.vec.elem) (nums o) = nums y ∧ (∀ i, IsFinite (y i)) ∧
      len (y - (o + act u (x - o))) ≤ (2 * (13 * δ + 20 * epsilon) + 3 * 2 ^ (-53 : ℤ)) * len (x - o) + 2 ^ (-53 : ℤ) * len o + 2 ^ (-1067 : ℤ) := by
  have z1 : ∀ i : Fin 3, IsDbl ((0 : Fin 3 → ℝ) i) := fun _ => IsDbl.zero
  have z2 : ∀ i : Fin 3, |(0 : Fin 3 → ℝ) i| ≤ 2 ^ (1000 : ℤ) := fun i => by rw [Pi.zero_apply, abs_zero]; positivity
  refine ⟨?_, ?_, Ie.turnQ_num g fe q u δ hu hq hδ dw dq x o o dx do' do' hx ho ho⟩
  · have := Ie.turnQ_num g fe q u δ hu hq hδ dw dq x 0 o dx z1 do' hx z2 ho
    rwa [sub_zero] at this
  · have := Ie.turnQ_num g fe q.inverse (star u) δ (by rw [norm_star, hu]) (by rw [toH_inverse, ← star_sub, norm_star]; exact hq) hδ dw (fun i => (dq i).neg) x o 0 dx do' z1 hx ho z2
    rwa [zero_add, len_zero, mul_zero, add_zero] at this

/-- C145, a point between two points: with coordinates up to 2^1021 it is finite and near the exact one. -/
theorem C145_between {n : Nat} (g : Nearest) (p q : Fin n → ℝ) (d : ℝ) (dd : IsDbl d) (d0 : 0 ≤ d) (d1 : d ≤ 1) (dp : ∀ i, IsDbl (p i)) (dq : ∀ i, IsDbl (q i)) (hp : ∀ i, |p i| ≤ 2 ^ (1021 : ℤ))
    (hq : ∀ i, |q i| ≤ 2 ^ (1021 : ℤ)) : ∃ y : Fin n → ℝ, Ie.midpoint g (nums p) (nums q) (.num d) = nums y ∧ ∀ i, IsFinite (y i) ∧
      |y i - ((1 - d) * p i + d * q i)| ≤ 3 * 2 ^ (-52 : ℤ) * (|p i| + |q i|) + 2 ^ (-1073 : ℤ) := by
  have key : ∀ i, ∃ y, Ie.midpoint g (nums p) (nums q) (.num d) i = .num y ∧ IsFinite y ∧
      |y - ((1 - d) * p i + d * q i)| ≤ 3 * 2 ^ (-52 : ℤ) * (|p i| + |q i|) + 2 ^ (-1073 : ℤ) := fun i => by
    obtain ⟨η, T, hC⟩ : ∃ η T, Ie.Cst η T := ⟨_, _, rfl, rfl⟩
    have hη : 0 < η := by rw [hC.1]; positivity
    have hη1 : η ≤ 1 := by rw [hC.1]; exact zpow_le_one_of_nonpos₀ one_le_two (by norm_num)
    have hη2 : (2 : ℝ) ^ (-1073 : ℤ) = 4 * η := by
      rw [hC.1, show (-1073 : ℤ) = 2 + -1075 by norm_num, zpow_add₀ two_ne_zero]; norm_num
    have hT1 : 1000 ≤ T := by
      rw [hC.2]; exact le_trans (by norm_num) (zpow_le_zpow_right₀ one_le_two (by norm_num : (10 : ℤ) ≤ 1023))
    have hT2 : T = 4 * 2 ^ (1021 : ℤ) := by
      rw [hC.2, show (1023 : ℤ) = 2 + 1021 by norm_num, zpow_add₀ two_ne_zero]; norm_num
    have hp := hp i
    have hq := hq i
    have hu0 := Rounding.u_pos (p := 53)
    have hu1 : Rounding.u 53 ≤ 1 / 1000000 := by rw [Fl.u53]; norm_num
    have e52 : (2 : ℝ) ^ (-52 : ℤ) = 2 * Rounding.u 53 := by rw [Fl.u53]; norm_num
    rw [hη2, e52]
    clear hη2 e52
    have hP := abs_nonneg (p i)
    have hQ := abs_nonneg (q i)
    have o1 : IsDbl (1 : ℝ) := ⟨1, 0, by norm_num, by norm_num, by norm_num⟩
    have bnd : ∀ {D : Dbl} {x e B : ℝ}, Ie.Val D x e B → |x| ≤ B := fun ⟨_, _, _, _, h⟩ => h
    have hfin : ∀ y, IsDbl y → |y| ≤ T → IsFinite y := fun y hy h => Ie.fin_of_le hy (by rwa [hC.2] at h)
    generalize (2 : ℝ) ^ (1021 : ℤ) = K at *
    have p1 := mul_nonneg hu0.le hP
    have p2 := mul_nonneg hu0.le hQ
    have p3 := mul_le_mul_of_nonneg_right hu1 hP
    have p4 := mul_le_mul_of_nonneg_right hu1 hQ
    have p5 := mul_le_mul_of_nonneg_right hu1 p1
    have p6 := mul_le_mul_of_nonneg_right hu1 p2
    have p7 := mul_le_mul_of_nonneg_right hu1 hη.le
    have p8 := mul_nonneg hu0.le hη.le
    have vd := Ie.Val.exact dd (show |d| ≤ 1 by rw [abs_of_nonneg d0]; exact d1)
    have s := Ie.Val.sub (g := g) hC (Ie.Val.exact o1 abs_one.le) vd (by linarith)
    have s' := s.weaken (e' := 2 * Rounding.u 53) (B' := 1) (by linarith) (by rw [abs_of_nonneg (by linarith)]; linarith)
    have m1 := Ie.Val.mul (g := g) hC (Ie.Val.exact (dp i) le_rfl) s' (by linarith)
    have m1' := m1.weaken (e' := 4 * (Rounding.u 53 * |p i|) + η) (B' := |p i|) (by linarith) ((bnd m1).trans (by linarith))
    have m2 := Ie.Val.mul (g := g) hC (Ie.Val.exact (dq i) le_rfl) vd (by linarith)
    have m2' := m2.weaken (e' := 2 * (Rounding.u 53 * |q i|) + η) (B' := |q i|) (by linarith) ((bnd m2).trans (by linarith))
    have a := Ie.Val.add (g := g) hC m1' m2' (by linarith)
    obtain ⟨y, y1, y2, y3, y4⟩ := a
    have y5 := Ie.Val.abs_le y3 y4
    refine ⟨y, y1, hfin y y2 (by linarith), ?_⟩
    rw [show (1 - d) * p i + d * q i = p i * (1 - d) + q i * d by ring]
    linarith
  choose y y1 y2 y3 using key
  exact ⟨y, funext y1, fun i => ⟨y2 i, y3 i⟩⟩

end WFMath
