/- Property theorems C142: lengths, distances and comparisons with the limited range of doubles. -/
import Verif.Lemmas.Ieee
import Verif.Props.RoundBall
import Verif.Props.RoundCompare

namespace WFMath
open Spec
variable {n : Nat}

/-- C142, lengths: for components that are 0 or between 2^-500 and 2^500 in absolute value nothing overflows and nothing is lost to underflow: `mag` is a finite number
with the relative error of C116, and it is 0 only for the zero vector. Missing, here and in the next theorems: coordinates outside the range, where the claim fails, see below. -/
theorem C142_mag_partial (g : Nearest) (hn : n ≤ 2 ^ 20) (v : Fin n → ℝ) (hv : ∀ i, Nrm (-500) 500 (v i)) :
    ∃ m, Ie.mag g (fun i => .num (v i)) = .num m ∧ |m - Real.sqrt (∑ i, v i ^ 2)| ≤ (n + 2) * 2 ^ (-52 : ℤ) * Real.sqrt (∑ i, v i ^ 2) ∧ (m = 0 ↔ v = 0) := by
  obtain ⟨r, hr⟩ := g.extends_
  obtain ⟨-, h2, -, h4⟩ := C116_length r ⟨v, true⟩ (by omega)
  exact ⟨_, (Ie.mag_num hr hn v hv).1, h2, h4⟩

example : ∀ i, Nrm (-500) 500 ((![3, 0, -4] : Fin 3 → ℝ) i) := by
  intro i
  fin_cases i
  · exact Nrm.simple (by norm_num) (by norm_num) (by norm_num) (by norm_num)
  · exact Nrm.zero
  · exact Nrm.simple (by norm_num) (by norm_num) (by norm_num) (by norm_num)

/-- C142, normalising: for components that are 0 or between 2^-300 and 2^300 in absolute value, not all 0, and a wanted length between 2^-200 and 2^200, `normalize`
gives finite numbers, with the errors of C116. -/
theorem C142_normalize_partial (g : Nearest) (hn : n ≤ 2 ^ 20) (v : Fin n → ℝ) (hv : ∀ i, Nrm (-300) 300 (v i)) (h0 : v ≠ 0) (norm : ℝ) (hN : Nrm (-200) 200 norm) :
    ∃ w : Fin n → ℝ, (∀ i, Ie.normalize g (fun i => .num (v i)) (.num norm) i = .num (w i)) ∧
      (∀ i, |w i - v i * (norm / Real.sqrt (∑ i, v i ^ 2))| ≤ (n + 4) * 2 ^ (-52 : ℤ) * |v i * (norm / Real.sqrt (∑ i, v i ^ 2))|) ∧
      |Real.sqrt (∑ i, w i ^ 2) - abs norm| ≤ (n + 4) * 2 ^ (-52 : ℤ) * |norm| := by
  obtain ⟨r, hr⟩ := g.extends_
  obtain ⟨h1, h2⟩ := C116_normalize r ⟨v, true⟩ norm (by omega) h0
  have e : ∀ w : Vec n, w.mag = Real.sqrt (∑ i, w.elem i ^ 2) := fun w => by
    rw [Vec.mag, Vec.sqrMag]; exact congrArg _ (Finset.sum_congr rfl fun i _ => (sq _).symm)
  rw [e] at h2
  simp only [e] at h1
  exact ⟨_, Ie.normalize_num hr hn v hv norm hN h0, h1, h2⟩

example : (∀ i, Nrm (-300) 300 ((![3, 0] : Fin 2 → ℝ) i)) ∧ (![3, 0] : Fin 2 → ℝ) ≠ 0 ∧ Nrm (-200) 200 1 := by
  refine ⟨fun i => ?_, fun h => ?_, Nrm.simple (by norm_num) (by norm_num) (by norm_num) (by norm_num)⟩
  · fin_cases i
    · exact Nrm.simple (by norm_num) (by norm_num) (by norm_num) (by norm_num)
    · exact Nrm.zero
  · have := congrFun h 0; norm_num at this

/-- C142, distances: for doubles as coordinates that are 0 or between 2^-440 and 2^499 in absolute value, `Distance` is a finite number with the error of C116 or is
cut off to 0 where C116 allows it. -/
theorem C142_distance_partial (g : Nearest) (fe : ℤ) (hn : n ≤ 2 ^ 20) (p q : Fin n → ℝ) (dp : ∀ i, IsDbl (p i)) (dq : ∀ i, IsDbl (q i))
    (hp : ∀ i, Nrm (-440) 499 (p i)) (hq : ∀ i, Nrm (-440) 499 (q i)) :
    ∃ d, Ie.dist g fe (fun i => .num (p i)) (fun i => .num (q i)) = .num d ∧
      (|d - eucl p q| ≤ (n + 4) * 2 ^ (-52 : ℤ) * eucl p q ∨
        (d = 0 ∧ eucl p q ^ 2 ≤ (1 + (n + 3) * 2 ^ (-52 : ℤ)) * scaleEpsilonArr p q epsilon)) := by
  obtain ⟨r, hr⟩ := g.extends_
  obtain ⟨h, -⟩ := C116_distance r ⟨p, true⟩ ⟨q, true⟩ (by omega)
  exact ⟨_, Ie.dist_num hr fe hn dp dq hp hq, h.imp And.right And.right⟩

/-- C142, ball and point: for centre, radius and point in the same range the test keeps the promises of C119. -/
theorem C142_ball_partial (g : Nearest) (fe : ℤ) (hn : n ≤ 50) (c p : Fin n → ℝ) (R : ℝ) (hR : 0 ≤ R) (dc : ∀ i, IsDbl (c i)) (dp : ∀ i, IsDbl (p i))
    (hc : ∀ i, Nrm (-440) 499 (c i)) (hp : ∀ i, Nrm (-440) 499 (p i)) (nR : Nrm (-440) 499 R) :
    (eucl p c ≤ R → Ie.interBallP g fe (fun i => .num (c i)) (.num R) (fun i => .num (p i)) false = true) ∧
    (eucl p c < R → Ie.interBallP g fe (fun i => .num (c i)) (.num R) (fun i => .num (p i)) true = true) ∧
    ∀ proper, Ie.interBallP g fe (fun i => .num (c i)) (.num R) (fun i => .num (p i)) proper = true →
      eucl p c ≤ R * (1 + epsilon) ∨ NearlyFlushed ⟨c, true⟩ ⟨p, true⟩ := by
  obtain ⟨r, hr⟩ := g.extends_
  obtain ⟨h1, h2, h3⟩ := C119_point r ⟨⟨c, true⟩, R⟩ ⟨p, true⟩ hn hR
  simp only [Ie.ball_num hr fe (by omega) dc dp hc hp nR]
  exact ⟨h1, h2, h3⟩

/-- C142, comparison: for vectors (or points) in the same range `isEqualTo` keeps the promises of C114. -/
theorem C142_equal_partial (g : Nearest) (fe : ℤ) (x y : Fin n → ℝ) (eps : ℝ) (dx : ∀ i, IsDbl (x i)) (dy : ∀ i, IsDbl (y i))
    (hx : ∀ i, Nrm (-440) 499 (x i)) (hy : ∀ i, Nrm (-440) 499 (y i)) (de : IsDbl eps) (he : Nrm (-500) 500 eps) (a b : Bool) :
    ((Vec.mk x a).isEqualTo ⟨y, b⟩ eps = true → Ie.vecEqual g fe ⟨fun i => .num (x i), a⟩ ⟨fun i => .num (y i), b⟩ (.num eps) = true) ∧
    (Ie.vecEqual g fe ⟨fun i => .num (x i), a⟩ ⟨fun i => .num (y i), b⟩ (.num eps) = true →
      (Vec.mk x a).isEqualTo ⟨y, b⟩ (eps * (1 + 2 ^ (-52 : ℤ))) = true) := by
  obtain ⟨r, hr⟩ := g.extends_
  rw [Ie.vecEqual_num hr fe dx dy hx hy he de]
  obtain ⟨h1, h2, -⟩ := C114_equal_arrays (n := n) r de.isFl
  exact ⟨h1 _ _, h2 _ _⟩

/-- Points, a ball and a tolerance to which the three theorems apply. -/
example : (∀ i, IsDbl ((![0, 1] : Fin 2 → ℝ) i)) ∧ (∀ i, Nrm (-440) 499 ((![0, 1] : Fin 2 → ℝ) i)) ∧ Nrm (-440) 499 1 ∧ IsDbl epsilon ∧ Nrm (-500) 500 epsilon := by
  have a1 : (2 : ℝ) ^ (-440 : ℤ) ≤ 1 := zpow_le_one_of_nonpos₀ one_le_two (by norm_num)
  have a2 : (1 : ℝ) ≤ 2 ^ (499 : ℤ) := one_le_zpow₀ one_le_two (by norm_num)
  have h1 : Nrm (-440) 499 1 := by
    right; rw [abs_one]; exact ⟨a1, a2⟩
  refine ⟨fun i => ?_, fun i => ?_, h1, Ie.eps_dbl, Ie.eps_nrm⟩
  · fin_cases i
    · exact IsDbl.zero
    · have := IsDbl.zpow (e := 0) (by norm_num); simpa using this
  · fin_cases i
    · exact Nrm.zero
    · exact h1

/-! ### Outside the range -/

/-- C142, large vectors: if some component is at least 2^512 in absolute value, the length is computed as infinity and `normalize` gives the zero vector. -/
theorem C142_large (g : Nearest) (v : Fin n → ℝ) (k : Fin n) (hk : 2 ^ (512 : ℤ) ≤ |v k|) (norm : ℝ) (i : Fin n) :
    Ie.mag g (fun i => .num (v i)) = .inf false ∧ Ie.normalize g (fun i => .num (v i)) (.num norm) i = .num 0 := by
  have h : Ie.mag g (fun i => .num (v i)) = .inf false := by
    unfold Ie.mag; rw [Ie.sqrMag_large v hk]; rfl
  refine ⟨h, ?_⟩
  unfold Ie.normalize
  rw [h]
  simp only [Dbl.div, Dbl.mul, mul_zero]
  exact Ie.round_dbl IsDbl.zero (by rw [abs_zero]; positivity)

example : (2 : ℝ) ^ (512 : ℤ) ≤ |(![0, 2 ^ (600 : ℤ)] : Fin 2 → ℝ) 1| := by
  simp only [Matrix.cons_val_one, Matrix.cons_val_zero]
  rw [abs_of_pos (by positivity)]
  exact zpow_le_zpow_right₀ one_le_two (by norm_num)

/-- C142, small vectors: if every component is less than 2^-538 in absolute value, the length is computed as 0, and `normalize` to a positive length turns the
components other than 0 into infinities of their sign and the components 0 into NaN. In particular it turns the zero vector into NaNs. -/
theorem C142_small (g : Nearest) (v : Fin n → ℝ) (hv : ∀ i, |v i| < 2 ^ (-538 : ℤ)) (norm : ℝ) (hN : 0 < norm) (i : Fin n) :
    Ie.mag g (fun i => .num (v i)) = .num 0 ∧
    Ie.normalize g (fun i => .num (v i)) (.num norm) i = if v i = 0 then .nan else .inf (decide (v i < 0)) := by
  have h : Ie.mag g (fun i => .num (v i)) = .num 0 := by
    unfold Ie.mag; rw [Ie.sqrMag_small v hv]; exact Ie.sqrt_zero
  refine ⟨h, ?_⟩
  unfold Ie.normalize
  rw [h]
  simp [Dbl.div, Dbl.mul, hN.ne', not_lt.2 hN.le]

example : ∀ i, |(![0, -2 ^ (-600 : ℤ)] : Fin 2 → ℝ) i| < 2 ^ (-538 : ℤ) := by
  intro i
  fin_cases i
  · simp only [Fin.zero_eta, Matrix.cons_val_zero, abs_zero]; positivity
  · simp only [Fin.mk_one, Matrix.cons_val_one, Matrix.cons_val_zero, abs_neg]
    rw [abs_of_pos (by positivity)]
    exact zpow_lt_zpow_right₀ one_lt_two (by norm_num)

/-- C142, distant points: if two finite points are at least 2^512 apart in some coordinate, their distance is computed as infinity. -/
theorem C142_distant (g : Nearest) (fe : ℤ) (p q : Fin n → ℝ) (k : Fin n) (hk : 2 ^ (512 : ℤ) ≤ |p k - q k|) :
    Ie.dist g fe (fun i => .num (p i)) (fun i => .num (q i)) = .inf false := by
  have hs : ∀ x y : ℝ, Ie.NonnegD (Dbl.mul g (Dbl.sub g (.num x) (.num y)) (Dbl.sub g (.num x) (.num y))) := by
    intro x y
    rw [Ie.sub_num]
    unfold Dbl.round
    split_ifs
    · exact Ie.nonneg_round (mul_self_nonneg _)
    · simp [Dbl.mul, Ie.NonnegD]
  have hinf : Dbl.mul g (Dbl.sub g (.num (p k)) (.num (q k))) (Dbl.sub g (.num (p k)) (.num (q k))) = .inf false := by
    rw [Ie.sub_num]
    have h1 : (2 : ℝ) ^ (512 : ℤ) ≤ |g (p k - q k)| := by
      rw [g.abs_eq]; exact g.dbl_le (IsDbl.zpow (by norm_num)) hk
    unfold Dbl.round
    split_ifs
    · simp only [Dbl.mul]
      rw [Ie.round_inf]
      · simp [not_lt.2 (mul_self_nonneg (g (p k - q k)))]
      · rw [abs_mul, show (1024 : ℤ) = 512 + 512 by norm_num, zpow_add₀ two_ne_zero]
        exact mul_le_mul h1 h1 (by positivity) (abs_nonneg _)
    · simp [Dbl.mul]
  have hsum := Ie.sum_inf (g := g) (fun i => Dbl.mul g (Dbl.sub g (.num (p i)) (.num (q i))) (Dbl.sub g (.num (p i)) (.num (q i)))) (fun i => hs _ _) hinf
  unfold Ie.dist Ie.sqDist
  simp only [hsum, Dbl.abs, Ie.le_inf (Ie.scale_cases fe p q), if_true]
  rfl

/-- C142, large balls: if the radius is at least 2^512, the tolerant test puts every finite point into the ball, however far away it is. -/
theorem C142_large_ball (g : Nearest) (fe : ℤ) (c p : Fin n → ℝ) (R : ℝ) (hR : 2 ^ (512 : ℤ) ≤ R) :
    Ie.interBallP g fe (fun i => .num (c i)) (.num R) (fun i => .num (p i)) false = true := by
  have h0 : 0 ≤ R := le_trans (by positivity) hR
  have he0 := epsilon_pos
  have e1 : Dbl.mul g (.num R) (.num R) = .inf false := by
    simp only [Dbl.mul]
    rw [Ie.round_inf]
    · simp [not_lt.2 (mul_self_nonneg R)]
    · rw [abs_of_nonneg (mul_self_nonneg R), show (1024 : ℤ) = 512 + 512 by norm_num, zpow_add₀ two_ne_zero]
      exact mul_le_mul hR hR (by positivity) h0
  have e2 : Dbl.mul g (.inf false) (Dbl.round g (1 + epsilon)) = .inf false := by
    have h1 : (1 : ℝ) ≤ g (1 + epsilon) := g.dbl_le (by have := IsDbl.zpow (e := 0) (by norm_num); simpa using this) (by linarith)
    unfold Dbl.round
    split_ifs
    · simp [Dbl.mul, (by linarith : g (1 + epsilon) ≠ 0), not_lt.2 (by linarith : 0 ≤ g (1 + epsilon))]
    · simp [Dbl.mul, not_lt.2 (by linarith : 0 ≤ 1 + epsilon)]
  unfold Ie.interBallP Ie.lessEq
  rw [e1, e2]
  simp only [Bool.false_eq_true, if_false]
  exact Ie.le_inf (Ie.sqDist_nonneg fe c p)

/-- C142, refuted in general: it is not true that `normalize` gives every vector of finite doubles other than 0 a length of about 1. Both directions of failure are
shown: a large vector becomes 0, and for a small one a component is not a number at all. -/
theorem C142_false (g : Nearest) :
    (¬ ∀ v : Fin 2 → ℝ, (∀ i, IsFinite (v i)) → v ≠ 0 → ∀ w : Fin 2 → ℝ, (∀ i, Ie.normalize g (fun i => .num (v i)) (.num 1) i = .num (w i)) →
      |Real.sqrt (∑ i, w i ^ 2) - 1| ≤ 1 / 2) ∧
    ¬ ∀ v : Fin 2 → ℝ, (∀ i, IsFinite (v i)) → v ≠ 0 → ∃ w : Fin 2 → ℝ, ∀ i, Ie.normalize g (fun i => .num (v i)) (.num 1) i = .num (w i) := by
  constructor
  · intro h
    have hfin : IsFinite ((2 : ℝ) ^ (512 : ℤ)) :=
      ⟨IsDbl.zpow (by norm_num), by rw [abs_of_pos (by positivity)]; exact zpow_lt_zpow_right₀ one_lt_two (by norm_num)⟩
    have hne : (fun _ => 2 ^ (512 : ℤ) : Fin 2 → ℝ) ≠ 0 := fun h => (by positivity : (2 : ℝ) ^ (512 : ℤ) ≠ 0) (congrFun h 0)
    have := h (fun _ => 2 ^ (512 : ℤ)) (fun _ => hfin) hne 0 fun i => (C142_large g _ 0 (le_abs_self _) 1 i).2
    norm_num at this
  · intro h
    have hfin : IsFinite ((2 : ℝ) ^ (-600 : ℤ)) :=
      ⟨IsDbl.zpow (by norm_num), by rw [abs_of_pos (by positivity)]; exact zpow_lt_zpow_right₀ one_lt_two (by norm_num)⟩
    have hne : (fun _ => 2 ^ (-600 : ℤ) : Fin 2 → ℝ) ≠ 0 := fun h => (by positivity : (2 : ℝ) ^ (-600 : ℤ) ≠ 0) (congrFun h 0)
    obtain ⟨w, hw⟩ := h (fun _ => 2 ^ (-600 : ℤ)) (fun _ => hfin) hne
    have h1 := (C142_small g (fun _ : Fin 2 => 2 ^ (-600 : ℤ))
      (fun _ => by rw [abs_of_pos (by positivity)]; exact zpow_lt_zpow_right₀ one_lt_two (by norm_num)) 1 one_pos 0).2
    rw [hw 0, if_neg (by positivity)] at h1
    cases h1

/-- Such a rounding exists. -/
example : Nonempty Nearest := ⟨someNearest⟩

end WFMath
