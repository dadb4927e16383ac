/- Property theorems C121: bounding boxes and bounding spheres in floating point arithmetic. -/
import Verif.Props.RoundMove
import Verif.Props.BoundingSphere

namespace WFMath
open Spec
open WFMath.Spec.Rounding (u)
variable {n : Nat}

/-- C121, the bounding box of a ball: the library finds the ball in its bounding box; every point of the ball whose coordinates are doubles lies in the box, and the other
points of the ball are off by at most one rounding of its ends. -/
theorem C121_ball_box (r : Rounding 53) (b : Ball n) (hr : 0 ≤ b.radius) :
    Ordered (Fl.ballBox r b) ∧ Fl.containsBBall r (Fl.ballBox r b) b false = true ∧
    (∀ p : Pt n, (∀ i, IsFl 53 (p.elem i)) → p.elem ∈ ballSet b → p.elem ∈ boxSet (Fl.ballBox r b)) ∧
    (∀ M, 0 ≤ M → (∀ i, |b.center.elem i| + b.radius ≤ M) → ballSet b ⊆ near (2 ^ (-53 : ℤ) * M) (boxSet (Fl.ballBox r b))) := by
  have ho : Ordered (Fl.ballBox r b) := fun i => r.mono (by linarith)
  refine ⟨ho, ?_, fun p hp h i => ?_, fun M hM0 hM x hx => ?_⟩
  · unfold Fl.containsBBall
    have he := epsilon_pos
    simp only [List.all_eq_true, List.mem_finRange, true_implies, not_or_bool, Fl.ballBox, Fl.less, Fl.greater, Bool.false_eq_true, if_false, sub_self, r.zero,
      decide_eq_true_eq, gt_iff_lt, not_lt]
    exact fun i => ⟨he.le, he.le⟩
  · have := ball_bounds h i
    exact ⟨r.le_fl (hp i) this.1, r.fl_le (hp i) this.2⟩
  · rw [mem_near_box ho (by positivity)]
    intro i
    have hb := ball_bounds hx i
    have h3 := r.err Fl.pos53 (b.center.elem i - b.radius)
    have h4 := r.err Fl.pos53 (b.center.elem i + b.radius)
    rw [Fl.u53] at h3 h4
    have h5 : |b.center.elem i - b.radius| ≤ M := ((abs_sub _ _).trans (by rw [abs_of_nonneg hr])).trans (hM i)
    have h6 : |b.center.elem i + b.radius| ≤ M := ((abs_add_le _ _).trans (by rw [abs_of_nonneg hr])).trans (hM i)
    have hz : (0 : ℝ) < 2 ^ (-53 : ℤ) := by positivity
    have h7 := abs_le.1 (h3.trans (mul_le_mul_of_nonneg_left h5 hz.le))
    have h8 := abs_le.1 (h4.trans (mul_le_mul_of_nonneg_left h6 hz.le))
    simp only [Fl.ballBox]
    constructor <;> linarith

theorem Fl.dist_cases (r : Rounding 53) (p q : Pt n) (hn : n ≤ 50) : Close 53 (n + 4) (Fl.dist r p q) (eucl p.elem q.elem) ∨
    (Fl.dist r p q = 0 ∧ NearlyFlushed p q) := by
  rcases Fl.sqDist_cases r p q with h | ⟨h, s, hs, hsc⟩
  · left
    have := (h.sqrt Fl.pos53).round Fl.pos53 r
    rw [Real.sqrt_sq (eucl_nonneg _ _)] at this
    exact this.mono Fl.pos53 (by omega)
  · right
    refine ⟨by unfold Fl.dist; rw [h, Real.sqrt_zero, r.zero], ?_⟩
    have hB : Fl.sqDist r p q ≤ (0 : ℝ) := h.le
    rcases Fl.sqDist_le r hn (Close.refl Fl.pos53 0 0) le_rfl hB with h1 | h1
    · have hp := (Close.pow Fl.pos53 (3 + n + 0)).1
      have h2 : eucl p.elem q.elem ^ 2 = 0 := by
        have h0 := sq_nonneg (eucl p.elem q.elem)
        by_contra hne
        have : 0 < eucl p.elem q.elem ^ 2 := lt_of_le_of_ne h0 (Ne.symm hne)
        have := mul_pos this hp
        linarith
      have h3 := hsc.eq_zero Fl.pos53 |>.2 h2
      unfold NearlyFlushed
      have he := epsilon_pos
      rw [h2]
      rw [h3] at hs
      positivity
    · exact h1

theorem Fl.dist_half (r : Rounding 53) (p q : Pt n) : r (Fl.dist r p q / 2) = Fl.dist r p q / 2 := by
  refine r.of_fl ?_
  have := IsFl.half (r.isFl (Real.sqrt (Fl.sqDist r p q)))
  rwa [mul_one_div] at this

theorem Fl.mid_err (r : Rounding 53) (p q : Pt n) (hp : ∀ i, IsFl 53 (p.elem i)) (hq : ∀ i, IsFl 53 (q.elem i)) :
    eucl (Fl.midpoint r p q (1 / 2)).elem (Pt.midpoint p q (1 / 2)).elem ≤ 2 ^ (-53 : ℤ) * eucl (Pt.midpoint p q (1 / 2)).elem 0 := by
  have h1 := (C120_midpoint r p q hp hq).1
  have e : ∀ i, (Pt.midpoint p q (1 / 2)).elem i = (p.elem i + q.elem i) / 2 := fun i => by
    show p.elem i * (1 - 1 / 2) + q.elem i * (1 / 2) = _; ring
  have hz : (0 : ℝ) < 2 ^ (-53 : ℤ) := by positivity
  rw [eucl_le_iff (mul_nonneg hz.le (eucl_nonneg _ _)), mul_pow, eucl_sq, Finset.mul_sum]
  refine Finset.sum_le_sum fun i _ => ?_
  rw [h1, e, Pi.zero_apply, sub_zero, ← mul_pow, sq_le_sq, abs_mul, abs_of_pos hz]
  have := r.err Fl.pos53 ((p.elem i + q.elem i) / 2)
  rwa [Fl.u53] at this

theorem Fl.sphere_reach (r : Rounding 53) (p q : Pt n) (hn : n ≤ 50) (hp : ∀ i, IsFl 53 (p.elem i)) (hq : ∀ i, IsFl 53 (q.elem i)) (hf : ¬ NearlyFlushed p q)
    {x : Fin n → ℝ} (hx : eucl x (Pt.midpoint p q (1 / 2)).elem ≤ eucl p.elem q.elem / 2) :
    eucl x (Fl.midpoint r p q (1 / 2)).elem ≤ r (Fl.dist r p q / 2) * (1 + epsilon) + 2 ^ (-53 : ℤ) * eucl (Pt.midpoint p q (1 / 2)).elem 0 := by
  have h1 := eucl_triangle x (Pt.midpoint p q (1 / 2)).elem (Fl.midpoint r p q (1 / 2)).elem
  rw [eucl_comm (Pt.midpoint p q (1 / 2)).elem] at h1
  have h2 := Fl.mid_err r p q hp hq
  have h3 := (Fl.dist_cases r p q hn).resolve_right fun h => hf h.2
  have h4 := Fl.le_of_close h3 (Close.refl Fl.pos53 0 (Fl.dist r p q)) (eucl_nonneg _ _) (h3.nonneg Fl.pos53 (eucl_nonneg _ _)) le_rfl
  have h5 := Fl.fudge (k := n + 4 + 0) (by omega)
  have he := epsilon_pos
  have h6 : eucl p.elem q.elem ≤ Fl.dist r p q * (1 + epsilon) := by
    calc eucl p.elem q.elem ≤ eucl p.elem q.elem * ((1 + epsilon) * (1 - u 53) ^ (n + 4 + 0)) := le_mul_of_one_le_right (eucl_nonneg _ _) h5
      _ = (1 + epsilon) * (eucl p.elem q.elem * (1 - u 53) ^ (n + 4 + 0)) := by ring
      _ ≤ (1 + epsilon) * Fl.dist r p q := mul_le_mul_of_nonneg_left h4 (by linarith)
      _ = _ := mul_comm _ _
  rw [Fl.dist_half]
  linarith

theorem Fl.mk'_nonneg (r : Rounding 53) (c p q : Pt n) : Ball.mk' c (r (Fl.dist r p q / 2)) = ⟨c, r (Fl.dist r p q / 2)⟩ := by
  have : 0 ≤ r (Fl.dist r p q / 2) := r.nonneg (div_nonneg (r.nonneg (Real.sqrt_nonneg _)) (by norm_num))
  unfold Ball.mk'
  rw [if_neg (not_lt.2 this)]

/-- C121, the bounding spheres of a box and of a segment whose corners are doubles: the box (segment) lies in the sphere with its radius enlarged by the factor `1 + epsilon`
and by the rounding error of the centre, unless the corners are so close that their distance is set to 0. Missing for the full property: that the sphere itself, with
the library's own tolerance, contains the box; this is false of the code, `C121_false`. -/
theorem C121_sphere_partial (r : Rounding 53) (b : Box n) (s : Seg n) (hn : n ≤ 50) :
    ((∀ i, IsFl 53 (b.low.elem i)) → (∀ i, IsFl 53 (b.high.elem i)) → ¬ NearlyFlushed b.low b.high →
      boxSet b ⊆ ballSet ⟨(Fl.boxSphere r b).center, (Fl.boxSphere r b).radius * (1 + epsilon) + 2 ^ (-53 : ℤ) * eucl b.getCenter.elem 0⟩) ∧
    ((∀ i, IsFl 53 (s.p1.elem i)) → (∀ i, IsFl 53 (s.p2.elem i)) → ¬ NearlyFlushed s.p1 s.p2 →
      segSet s ⊆ ballSet ⟨(Fl.segSphere r s).center, (Fl.segSphere r s).radius * (1 + epsilon) + 2 ^ (-53 : ℤ) * eucl s.getCenter.elem 0⟩) := by
  unfold Fl.boxSphere Fl.segSphere
  rw [Fl.mk'_nonneg, Fl.mk'_nonneg]
  exact ⟨fun h1 h2 hf x hx => Fl.sphere_reach r _ _ hn h1 h2 hf (box_center_dist b hx),
    fun h1 h2 hf x hx => Fl.sphere_reach r _ _ hn h1 h2 hf (seg_center_dist s hx)⟩

/-- C121, boxes that are not far from the origin compared with their size: the library finds the box in its bounding sphere. -/
theorem C121_sphere_contains (r : Rounding 53) (b : Box n) (hn : n ≤ 10) (ho : Ordered b) (hlo : ∀ i, IsFl 53 (b.low.elem i)) (hhi : ∀ i, IsFl 53 (b.high.elem i))
    (hf : ¬ NearlyFlushed b.low b.high) (hm : eucl b.getCenter.elem 0 ≤ 4 * eucl b.low.elem b.high.elem) :
    Fl.containsBallB r (Fl.boxSphere r b) b false = true := by
  unfold Fl.boxSphere
  rw [Fl.mk'_nonneg, Fl.dist_half]
  have hD := (Fl.dist_cases r b.low b.high (by omega)).resolve_right fun h => hf h.2
  have hD0 := eucl_nonneg b.low.elem b.high.elem
  have hd0 := hD.nonneg Fl.pos53 hD0
  have he := epsilon_pos
  have hbase := Close.base Fl.pos53
  have hu := Fl.u53
  have hu0 : 0 < u 53 := by rw [hu]; positivity
  generalize hDe : eucl b.low.elem b.high.elem = D at *
  generalize hd : Fl.dist r b.low b.high = d at *
  have hsub : boxSet b ⊆ ballSet (⟨Fl.boxCenter r b, D / 2 * (1 + 8 * u 53)⟩ : Ball n) := by
    intro x hx
    show eucl x _ ≤ D / 2 * (1 + 8 * u 53)
    have h1 := eucl_triangle x b.getCenter.elem (Fl.boxCenter r b).elem
    rw [eucl_comm b.getCenter.elem] at h1
    have h2 := Fl.mid_err r b.low b.high hlo hhi
    have h3 := box_center_dist b hx
    rw [hDe] at h3
    rw [← hu] at h2
    have h4 := mul_le_mul_of_nonneg_left hm hu0.le
    have h5 : eucl (Fl.boxCenter r b).elem b.getCenter.elem ≤ u 53 * eucl b.getCenter.elem 0 := h2
    linarith
  have hS := ((Fl.far_exact ⟨Fl.boxCenter r b, d / 2⟩ b ho _ (by positivity)).1).2 hsub
  have hc := Fl.far_sum_close r ⟨Fl.boxCenter r b, d / 2⟩ b
  have hB := Fl.radiusBound_close r (d / 2)
  unfold Fl.containsBallB
  rw [lessEq_false]
  refine Fl.close_le hc hB (Finset.sum_nonneg fun i _ => mul_self_nonneg _) (by positivity) (hS.trans ?_)
  obtain ⟨t, t1, t2, rfl⟩ := hD
  have hf := Fl.fudge (k := (8 + 8) + (n + 4 + (n + 4)) + (3 + n + 2)) (by omega)
  have h8 : (1 + 8 * u 53) * (1 - u 53) ^ 8 ≤ 1 := by
    have h1 : 1 + 8 * u 53 ≤ (1 + u 53) ^ 8 := by
      have := one_add_mul_le_pow (a := u 53) (by linarith) 8
      simpa using this
    calc (1 + 8 * u 53) * (1 - u 53) ^ 8 ≤ (1 + u 53) ^ 8 * (1 - u 53) ^ 8 := mul_le_mul_of_nonneg_right h1 (by positivity)
      _ = ((1 + u 53) * (1 - u 53)) ^ 8 := by rw [mul_pow]
      _ ≤ 1 := pow_le_one₀ (mul_nonneg (by linarith) (by linarith [hbase.1])) (by nlinarith)
  have hp8 := (Close.pow Fl.pos53 8).1
  have hpn := (Close.pow Fl.pos53 (n + 4)).1
  have hp3 := (Close.pow Fl.pos53 (3 + n + 2)).1
  rw [pow_add, pow_add, pow_add, pow_add] at hf
  have hv0 : 0 ≤ 1 + 8 * u 53 := by linarith
  generalize (1 - u 53) ^ 8 = a at *
  generalize (1 - u 53) ^ (n + 4) = c at *
  generalize (1 - u 53) ^ (3 + n + 2) = g at *
  generalize 1 + 8 * u 53 = v at *
  have hva : (v * a) ^ 2 ≤ 1 := by
    exact pow_le_one₀ (by positivity) h8
  have ht : c ^ 2 ≤ t ^ 2 := pow_le_pow_left₀ hpn.le t1 2
  calc D / 2 * v * (D / 2 * v) = (D / 2) ^ 2 * v ^ 2 := by ring
    _ ≤ (D / 2) ^ 2 * v ^ 2 * ((1 + epsilon) * (a * a * (c * c) * g)) := le_mul_of_one_le_right (by positivity) hf
    _ = (D / 2) ^ 2 * (1 + epsilon) * g * (c ^ 2 * (v * a) ^ 2) := by ring
    _ ≤ (D / 2) ^ 2 * (1 + epsilon) * g * (t ^ 2 * 1) := by gcongr
    _ = _ := by ring

/-- The box of `C121_false`: far from the origin, so that its centre is not a double. -/
noncomputable def farBox : Box 2 := ⟨⟨![9007199254740992, 0], true⟩, ⟨![9007199254741190, 40], true⟩⟩

theorem farBox_center (r : Rounding 53) : r (9007199254741091 : ℝ) = 9007199254741090 ∨ r (9007199254741091 : ℝ) = 9007199254741092 := by
  have h1 := r.nearest 9007199254741091 9007199254741090 ⟨4503599627370545, 1, by norm_num, by norm_num⟩
  norm_num at h1
  rw [abs_le] at h1
  obtain ⟨j, hj⟩ := IsFl.grid (r.isFl 9007199254741091) (e := 53) (by rw [abs_of_nonneg] <;> norm_num <;> linarith [h1.1])
  norm_num at hj
  rw [hj] at h1 ⊢
  have h2 : (9007199254741090 : ℝ) ≤ ((j * 2 : ℤ) : ℝ) := by push_cast; linarith [h1.1]
  have h3 : ((j * 2 : ℤ) : ℝ) ≤ (9007199254741092 : ℝ) := by push_cast; linarith [h1.2]
  have h4 : (9007199254741090 : ℤ) ≤ j * 2 := by exact_mod_cast h2
  have h5 : j * 2 ≤ (9007199254741092 : ℤ) := by exact_mod_cast h3
  have h6 : j = 4503599627370545 ∨ j = 4503599627370546 := by omega
  rcases h6 with h6 | h6
  · left; rw [h6]; norm_num
  · right; rw [h6]; norm_num

/-- C121 in full is false of the code: for a box far from the origin compared with its size the rounding of the centre is not covered by the tolerance, and the box is not
found in its own bounding sphere, however ties are rounded. -/
theorem C121_false : (∀ i, IsFl 53 (farBox.low.elem i)) ∧ (∀ i, IsFl 53 (farBox.high.elem i)) ∧ Solid farBox ∧
    ∀ r : Rounding 53, Fl.containsBallB r (Fl.boxSphere r farBox) farBox false = false := by
  have f0 : IsFl 53 (0 : ℝ) := ⟨0, 0, by norm_num, by norm_num⟩
  have f1 : IsFl 53 (9007199254740992 : ℝ) := ⟨1, 53, by norm_num, by norm_num⟩
  have f2 : IsFl 53 (9007199254741190 : ℝ) := ⟨4503599627370595, 1, by norm_num, by norm_num⟩
  have f3 : IsFl 53 (40 : ℝ) := ⟨40, 0, by norm_num, by norm_num⟩
  have hnat : ∀ k : ℕ, k < 2 ^ 53 → IsFl 53 (k : ℝ) := fun k hk => ⟨k, 0, by rw [Nat.abs_cast]; exact_mod_cast hk, by norm_num⟩
  have hlo : ∀ i, IsFl 53 (farBox.low.elem i) := fun i => by fin_cases i; exacts [f1, f0]
  have hhi : ∀ i, IsFl 53 (farBox.high.elem i) := fun i => by fin_cases i; exacts [f2, f3]
  refine ⟨hlo, hhi, fun i => by fin_cases i <;> norm_num [farBox], fun r => ?_⟩
  have rn : ∀ k : ℕ, k < 2 ^ 53 → r (k : ℝ) = k := fun k hk => r.of_fl (hnat k hk)
  have rneg : ∀ k : ℕ, k < 2 ^ 53 → r (-(k : ℝ)) = -k := fun k hk => r.of_fl (hnat k hk).neg
  have hd : Fl.dist r farBox.low farBox.high = 202 := by
    have h1 : Fl.sum r (fun i => r (r (farBox.low.elem i - farBox.high.elem i) * r (farBox.low.elem i - farBox.high.elem i))) = 40804 := by
      show r (r (0 + r (r (9007199254740992 - 9007199254741190) * r (9007199254740992 - 9007199254741190))) + r (r (0 - 40) * r (0 - 40))) = 40804
      have e1 := rneg 198 (by norm_num)
      have e2 := rneg 40 (by norm_num)
      have e3 := rn 39204 (by norm_num)
      have e4 := rn 1600 (by norm_num)
      have e5 := rn 40804 (by norm_num)
      norm_num at e1 e2 e3 e4 e5 ⊢
      rw [e1, e2]; norm_num
      rw [e3, e3, e4]; norm_num
      exact e5
    have h2 : scaleEpsilonArr farBox.low.elem farBox.high.elem epsilon ≤ 40804 := by
      have h := scaleEpsilonArr_le (x := farBox.low.elem) (y := farBox.high.elem) epsilon_pos.le
        (fun h => by have := congrFun h 0; norm_num [farBox] at this) (fun h => by have := congrFun h 0; norm_num [farBox] at this)
      have hm : maxAbs farBox.low.elem ≤ 9007199254740992 := maxAbs_le (by norm_num) fun i => by fin_cases i <;> norm_num [farBox]
      have hm' := (min_le_left (maxAbs farBox.low.elem) (maxAbs farBox.high.elem)).trans hm
      have : 2 * epsilon * min (maxAbs farBox.low.elem) (maxAbs farBox.high.elem) ≤ 2 * epsilon * 9007199254740992 :=
        mul_le_mul_of_nonneg_left hm' (by have := epsilon_pos; linarith)
      refine h.trans (this.trans ?_)
      unfold epsilon; norm_num
    have h3 : Fl.sqDist r farBox.low farBox.high = 40804 := by
      unfold Fl.sqDist
      simp only [h1]
      rw [if_pos]
      rw [abs_of_pos (by norm_num)]; exact h2
    unfold Fl.dist
    rw [h3, show (40804 : ℝ) = 202 ^ 2 by norm_num, Real.sqrt_sq (by norm_num)]
    exact_mod_cast rn 202 (by norm_num)
  have hc := (C120_midpoint r farBox.low farBox.high hlo hhi).1
  have hc0 : (Fl.boxCenter r farBox).elem 0 = r 9007199254741091 := by
    unfold Fl.boxCenter; rw [hc]; congr 1; norm_num [farBox]
  have hc1 : (Fl.boxCenter r farBox).elem 1 = 20 := by
    unfold Fl.boxCenter; rw [hc]
    have : (farBox.low.elem 1 + farBox.high.elem 1) / 2 = ((20 : ℕ) : ℝ) := by norm_num [farBox]
    rw [this, rn 20 (by norm_num)]; norm_num
  unfold Fl.boxSphere
  rw [Fl.mk'_nonneg, Fl.dist_half, hd]
  rw [Bool.eq_false_iff]
  intro h
  unfold Fl.containsBallB at h
  rw [lessEq_false] at h
  have h1 := Fl.le_of_close (Fl.far_sum_close r ⟨Fl.boxCenter r farBox, 202 / 2⟩ farBox) (Fl.radiusBound_close r (202 / 2))
    (Finset.sum_nonneg fun i _ => mul_self_nonneg _) (by have := epsilon_pos; positivity) h
  have h2 : ∑ i, floatMax |(Fl.boxCenter r farBox).elem i - farBox.low.elem i| |(Fl.boxCenter r farBox).elem i - farBox.high.elem i| *
        floatMax |(Fl.boxCenter r farBox).elem i - farBox.low.elem i| |(Fl.boxCenter r farBox).elem i - farBox.high.elem i| = 10400 := by
    rw [Fin.sum_univ_two, hc0, hc1]
    rcases farBox_center r with h | h <;> rw [h] <;> norm_num [farBox, floatMax, abs_of_pos, abs_of_neg]
  rw [h2] at h1
  have h3 := Fl.bernoulli (3 + 2 + 2)
  rw [Fl.u53] at h1 h3
  have he := epsilon_lt
  norm_num at h1 h3 he
  nlinarith

/-- The hypotheses of `C121_sphere_contains` are met by the box between (-1, -2) and (3, 2). -/
example (r : Rounding 53) : Fl.containsBallB r (Fl.boxSphere r (⟨⟨![-1, -2], true⟩, ⟨![3, 2], true⟩⟩ : Box 2)) ⟨⟨![-1, -2], true⟩, ⟨![3, 2], true⟩⟩ false = true := by
  have hz : ∀ k : ℤ, |k| < 2 ^ 53 → IsFl 53 (k : ℝ) := fun k hk => ⟨k, 0, hk, by norm_num⟩
  have hD : eucl (![-1, -2] : Fin 2 → ℝ) ![3, 2] ^ 2 = 32 := by rw [eucl_sq, Fin.sum_univ_two]; norm_num
  have h0 := eucl_nonneg (![-1, -2] : Fin 2 → ℝ) ![3, 2]
  refine C121_sphere_contains r _ (by norm_num) (fun i => ?_) (fun i => ?_) (fun i => ?_) ?_ ?_
  · fin_cases i <;> norm_num
  · fin_cases i
    · exact_mod_cast hz (-1) (by norm_num)
    · exact_mod_cast hz (-2) (by norm_num)
  · fin_cases i
    · exact_mod_cast hz 3 (by norm_num)
    · exact_mod_cast hz 2 (by norm_num)
  · unfold NearlyFlushed
    rw [not_lt]
    have he := epsilon_pos
    have he2 := epsilon_lt
    norm_num at he2
    have h := scaleEpsilonArr_le (x := (![-1, -2] : Fin 2 → ℝ)) (y := ![3, 2]) epsilon_pos.le
        (fun h => by have := congrFun h 0; norm_num at this) (fun h => by have := congrFun h 0; norm_num at this)
    have hm : maxAbs (![-1, -2] : Fin 2 → ℝ) ≤ 2 := maxAbs_le (by norm_num) fun i => by fin_cases i <;> norm_num
    have hm' := (min_le_left (maxAbs (![-1, -2] : Fin 2 → ℝ)) (maxAbs ![3, 2])).trans hm
    have h' : scaleEpsilonArr (![-1, -2] : Fin 2 → ℝ) ![3, 2] epsilon ≤ 1 := by nlinarith
    simp only [hD]
    nlinarith
  · simp only
    rw [eucl_le_iff (by positivity), mul_pow, hD, Fin.sum_univ_two]
    norm_num [Box.getCenter, Pt.midpoint]

end WFMath
