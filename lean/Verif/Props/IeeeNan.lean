/- Property theorems C143: NaN coordinates. -/
import Verif.Lemmas.Ieee

namespace WFMath
open Spec
variable {n : Nat}

/-- C143, numbers: `Equal` accepts no pair one of which is NaN, not even NaN and NaN, and it does not accept two equal infinities either, whatever the tolerance. Missing: the other comparisons, which fail, see below. -/
theorem C143_equal_partial (g : Nearest) (fe : ℤ) (x eps : Dbl) :
    Ie.equal g fe .nan x eps = false ∧ Ie.equal g fe x .nan eps = false ∧ ∀ s, Ie.equal g fe (.inf s) (.inf s) eps = false := by
  refine ⟨?_, ?_, fun s => ?_⟩
  · unfold Ie.equal; rw [Ie.sub_nan_left]; exact Ie.le_nan_left _
  · unfold Ie.equal; rw [Ie.sub_nan_right]; exact Ie.le_nan_left _
  · have : Dbl.sub g (.inf s) (.inf s) = .nan := by cases s <;> rfl
    unfold Ie.equal; rw [this]; exact Ie.le_nan_left _

/-- C143, vectors and points: `isEqualTo` does the opposite. Coordinates of which one is NaN do not count, so a valid vector of NaNs is equal to every valid vector,
whatever the tolerance. -/
theorem C143_vector (g : Nearest) (fe : ℤ) (u v : Ie.DVec n) (eps : Dbl) (hu : u.valid = true) (hv : v.valid = true) (h : ∀ i, u.elem i = .nan ∨ v.elem i = .nan) :
    Ie.vecEqual g fe u v eps = true ∧ Ie.vecEqual g fe v u eps = true := by
  unfold Ie.vecEqual
  simp only [hu, hv, Bool.not_true, Bool.or_self, Bool.false_eq_true, if_false, List.all_eq_true, List.mem_finRange, true_implies, Bool.not_eq_true']
  constructor <;> intro i
  · rcases h i with h | h <;> rw [h]
    · rw [Ie.sub_nan_left]; exact Ie.lt_nan_right _
    · rw [Ie.sub_nan_right]; exact Ie.lt_nan_right _
  · rcases h i with h | h <;> rw [h]
    · rw [Ie.sub_nan_right]; exact Ie.lt_nan_right _
    · rw [Ie.sub_nan_left]; exact Ie.lt_nan_right _

example : ∀ i : Fin 3, (⟨fun _ => .nan, true⟩ : Ie.DVec 3).elem i = .nan ∨ (⟨fun _ => .num 1, true⟩ : Ie.DVec 3).elem i = .nan := fun _ => Or.inl rfl

/-- C143, matrices: a valid matrix of NaNs is equal to every valid matrix of the same parity, and the comparison with one of the other parity is a failed assertion. -/
theorem C143_matrix (g : Nearest) (a b : Ie.DMat n) (eps : Dbl) (he : Dbl.lt (.num 0) eps = true) (ha : a.valid = true) (hb : b.valid = true)
    (h : ∀ i j, a.elem i j = .nan) : Ie.matEqual g a b eps = if a.flip = b.flip then some true else none := by
  unfold Ie.matEqual
  have hall : ((List.finRange n).all fun i => (List.finRange n).all fun j => !Dbl.lt eps (Dbl.sub g (a.elem i j) (b.elem i j)).abs) = true := by
    simp only [List.all_eq_true, List.mem_finRange, true_implies, Bool.not_eq_true']
    intro i j
    rw [h, Ie.sub_nan_left]; exact Ie.lt_nan_right _
  simp only [he, ha, hb, hall, Bool.not_true, Bool.or_self, Bool.false_eq_true, if_false, if_true, reduceCtorEq]

example : Dbl.lt (.num 0) (.num epsilon) = true := by simp [Dbl.lt, epsilon_pos]

/-- C143, quaternions: a quaternion whose scalar part is NaN is equal to nothing, not even to itself. If only the vector part is NaN, it is equal to every valid quaternion
with the same finite scalar part. -/
theorem C143_quaternion (g : Nearest) (p q : Ie.DQuat) (eps : Dbl) (he : Dbl.lt (.num 0) eps = true) :
    (p.w = .nan → Ie.quatEqual g p q eps = some false ∧ Ie.quatEqual g q p eps = some false) ∧
    (∀ w : ℝ, p.w = .num w → q.w = .num w → (∀ i, p.vec i = .nan) → p.valid = true → q.valid = true → Ie.quatEqual g p q eps = some true) := by
  constructor
  · intro h
    unfold Ie.quatEqual
    simp only [he, h, Ie.sub_nan_left, Ie.sub_nan_right, Ie.add_nan_left, Ie.add_nan_right, Dbl.abs, Ie.le_nan_left, Bool.false_and, Bool.false_eq_true, if_false,
      ite_self, and_self, Bool.true_eq_false]
  · intro w h1 h2 h3 h4 h5
    unfold Ie.quatEqual
    have hw : Dbl.le (Dbl.sub g (.num w) (.num w)).abs eps = true := by
      have e : Dbl.sub g (.num w) (.num w) = .num 0 := by
        rw [Ie.sub_num, sub_self]; exact Ie.round_dbl IsDbl.zero (by rw [abs_zero]; positivity)
      rw [e]
      rcases eps with x | s | _ <;> simp_all [Dbl.lt, Dbl.le, Dbl.abs]
      exact he.le
    have hall : ((List.finRange 3).all fun i => !Dbl.lt eps (Dbl.sub g (p.vec i) (q.vec i)).abs) = true := by
      simp only [List.all_eq_true, List.mem_finRange, true_implies, Bool.not_eq_true']
      intro i
      rw [h3, Ie.sub_nan_left]; exact Ie.lt_nan_right _
    simp only [he, h1, h2, h4, h5, hw, hall, Bool.and_self, if_true, Bool.not_true, Bool.or_self, Bool.false_eq_true, if_false, Bool.true_eq_false]

/-- C143, lengths: a NaN component makes `mag` and every component of `normalize` NaN. -/
theorem C143_mag_partial (g : Nearest) (v : Fin n → Dbl) (norm : Dbl) (k : Fin n) (hk : v k = .nan) (i : Fin n) :
    Ie.mag g v = .nan ∧ Ie.normalize g v norm i = .nan := by
  have h : Ie.mag g v = .nan := by
    unfold Ie.mag Ie.sqrMag
    rw [Ie.sum_nan _ (k := k) (by rw [hk]; rfl)]; rfl
  refine ⟨h, ?_⟩
  unfold Ie.normalize
  rw [h]
  have : Dbl.div g norm .nan = .nan := by cases norm <;> rfl
  rw [this, Ie.mul_nan_right]

/-- C143, distances and products: the cut-off of small values swallows NaN. The distance to or from a point with a NaN coordinate is 0, and so is the scalar product with
a vector with a NaN component. -/
theorem C143_distance (g : Nearest) (fe : ℤ) (p q : Fin n → Dbl) (k : Fin n) (hk : p k = .nan) :
    Ie.sqDist g fe p q = .num 0 ∧ Ie.sqDist g fe q p = .num 0 ∧ Ie.dist g fe p q = .num 0 ∧ Ie.dist g fe q p = .num 0 ∧
    Ie.dot g fe p q = .num 0 ∧ Ie.dot g fe q p = .num 0 := by
  have h1 : Ie.sqDist g fe p q = .num 0 := by
    unfold Ie.sqDist
    simp only
    rw [Ie.sum_nan _ (k := k) (by rw [hk, Ie.sub_nan_left]; rfl)]
    simp [Dbl.abs, Ie.le_nan_right]
  have h2 : Ie.sqDist g fe q p = .num 0 := by
    unfold Ie.sqDist
    simp only
    rw [Ie.sum_nan _ (k := k) (by rw [hk, Ie.sub_nan_right]; rfl)]
    simp [Dbl.abs, Ie.le_nan_right]
  refine ⟨h1, h2, ?_, ?_, ?_, ?_⟩
  · unfold Ie.dist; rw [h1]; exact Ie.sqrt_zero
  · unfold Ie.dist; rw [h2]; exact Ie.sqrt_zero
  · unfold Ie.dot
    simp only
    rw [Ie.sum_nan _ (k := k) (by rw [hk, Ie.mul_nan_left])]
    simp [Dbl.abs, Ie.le_nan_right]
  · unfold Ie.dot
    simp only
    rw [Ie.sum_nan _ (k := k) (by rw [hk, Ie.mul_nan_right])]
    simp [Dbl.abs, Ie.le_nan_right]

example : (![.num 1, .nan] : Fin 2 → Dbl) 1 = .nan := rfl

/-- C143, shapes: a point with a NaN coordinate lies in every ball of finite radius, and a point of NaNs lies in every box; even the proper box test says so. -/
theorem C143_shapes (g : Nearest) (fe : ℤ) (p : Fin n → Dbl) (k : Fin n) (hk : p k = .nan) (c : Fin n → Dbl) (R : ℝ) (lo hi : Fin n → Dbl) (proper : Bool) :
    Ie.interBallP g fe c (.num R) p false = true ∧ ((∀ i, p i = .nan) → Ie.interBP g lo hi p proper = true) := by
  constructor
  · unfold Ie.interBallP Ie.lessEq
    rw [(C143_distance g fe p c k hk).2.1]
    have he := epsilon_pos
    have h1 : Ie.NonnegD (Dbl.mul g (.num R) (.num R)) := Ie.nonneg_round (mul_self_nonneg R)
    have h2 : (1 : ℝ) ≤ g (1 + epsilon) := g.dbl_le (by have := IsDbl.zpow (e := 0) (by norm_num); simpa using this) (by linarith)
    have h3 : g (1 + epsilon) ≤ 2 := g.le_dbl (by have := IsDbl.zpow (e := 1) (by norm_num); simpa using this) (by have := epsilon_lt; norm_num at this; linarith)
    have h4 : Dbl.round g (1 + epsilon) = .num (g (1 + epsilon)) := by
      refine Ie.round_of_le ?_
      have h5 : (2 : ℝ) ^ (1 : ℤ) ≤ 2 ^ (1023 : ℤ) := zpow_le_zpow_right₀ one_le_two (by norm_num)
      have := epsilon_lt
      norm_num at this
      rw [zpow_one] at h5
      rw [abs_of_pos (by linarith)]; exact le_trans (by linarith) h5
    rw [h4]
    generalize Dbl.mul g (.num R) (.num R) = a at h1
    have h5 : Ie.NonnegD (Dbl.mul g a (.num (g (1 + epsilon)))) := by
      rcases a with x | s | _
      · exact Ie.nonneg_round (mul_nonneg h1 (by linarith))
      · simp only [Ie.NonnegD] at h1
        simp [Dbl.mul, h1, (by linarith : g (1 + epsilon) ≠ 0), Ie.NonnegD]
        linarith
      · exact h1.elim
    generalize Dbl.mul g a (.num (g (1 + epsilon))) = b at h5
    rcases b with x | s | _ <;> simp_all [Dbl.le, Ie.NonnegD]
  · intro h
    unfold Ie.interBP Ie.greater Ie.less
    simp only [List.all_eq_true, List.mem_finRange, true_implies]
    intro i
    cases proper <;> simp [h i, Ie.le_nan_left, Ie.le_nan_right, Ie.sub_nan_left, Ie.sub_nan_right, Ie.lt_nan_right]

/-- C143, refuted: with NaN among the coordinates it is not true that two valid vectors equal to a third (with tolerance `epsilon`) are at most twice the tolerance apart,
nor that the distance from a point to a point of NaNs shows that something is wrong. The vectors are (0) and (1), the third is (NaN). -/
theorem C143_false (g : Nearest) (fe : ℤ) :
    ∃ u v w : Ie.DVec 1, u.valid = true ∧ v.valid = true ∧ w.valid = true ∧
      Ie.vecEqual g fe u w (.num epsilon) = true ∧ Ie.vecEqual g fe w v (.num epsilon) = true ∧ Ie.vecEqual g fe u v (.num epsilon) = false ∧
      Ie.dist g fe u.elem w.elem = .num 0 ∧ Ie.dist g fe w.elem v.elem = .num 0 ∧ Ie.dist g fe u.elem v.elem = .num 1 := by
  obtain ⟨r, hr⟩ := g.extends_
  have hd1 : IsDbl 1 := by have := IsDbl.zpow (e := 0) (by norm_num); simpa using this
  have n1 : Nrm (-440) 499 1 := Nrm.simple (by norm_num) (by norm_num) (by norm_num) (by norm_num)
  have he2 := epsilon_lt
  norm_num at he2
  have he0 := epsilon_pos
  have hsc : WFMath.scaleEpsilonArr (fun _ : Fin 1 => (0 : ℝ)) (fun _ => 1) epsilon = epsilon := by
    simp [WFMath.scaleEpsilonArr, WFMath.scaleEpsilon, WFMath.maxAbs, WFMath.ldexp, List.finRange_succ, frexpExp_zero]
  have hneg : r (-1) = -1 := r.of_fl (IsFl.one Fl.pos53).neg
  have hone : r 1 = 1 := r.of_fl (IsFl.one Fl.pos53)
  refine ⟨⟨fun _ => .num 0, true⟩, ⟨fun _ => .num 1, true⟩, ⟨fun _ => .nan, true⟩, rfl, rfl, rfl,
    (C143_vector g fe ⟨fun _ => .nan, true⟩ _ _ rfl rfl fun _ => Or.inl rfl).2, (C143_vector g fe ⟨fun _ => .nan, true⟩ _ _ rfl rfl fun _ => Or.inl rfl).1, ?_,
    (C143_distance g fe (fun _ : Fin 1 => .nan) _ 0 rfl).2.2.2.1, (C143_distance g fe (fun _ : Fin 1 => .nan) _ 0 rfl).2.2.1, ?_⟩
  · rw [Ie.vecEqual_num hr fe (x := fun _ => 0) (y := fun _ => 1) (fun _ => IsDbl.zero) (fun _ => hd1) (fun _ => Nrm.zero) (fun _ => n1) Ie.eps_nrm Ie.eps_dbl]
    simp only [Fl.vecEqual, Fl.arrEqual, hsc, zero_sub, hneg]
    simp [List.finRange_succ]
    linarith
  · simp only
    rw [Ie.dist_num hr fe (p := fun _ => 0) (q := fun _ => 1) (by norm_num) (fun _ => IsDbl.zero) (fun _ => hd1) (fun _ => Nrm.zero) (fun _ => n1)]
    have : Fl.sqDist r ⟨fun _ : Fin 1 => (0 : ℝ), true⟩ ⟨fun _ => 1, true⟩ = 1 := by
      simp only [Fl.sqDist, Fl.sum, hsc, zero_sub, hneg]
      simp [List.finRange_succ, hone]
      linarith
    rw [Fl.dist, this, Real.sqrt_one, hone]

end WFMath
