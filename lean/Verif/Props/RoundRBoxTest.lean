/- Property theorems C135, continued: rotated boxes against balls, segments and boxes computed in doubles. -/
import Verif.Props.RoundRBoxBound

namespace WFMath
open Spec Matrix Rounding
variable {n : Nat}

namespace Fl

/-- A point of the computed box in the coordinates of the box has a partner in the exact one. -/
theorem turned_of_flat (r : Rounding 53) (b : RBox n) {R : Matrix (Fin n) (Fin n) ℝ} (hR : Rᵀ * R = 1) {y : Fin n → ℝ} (hy : y ∈ boxSet (rbFlat r b)) :
    ∃ x ∈ turnedBox b.corner.elem b.size.elem R 0,
      len (b.corner.elem + R *ᵥ (x - b.corner.elem) - y) ≤ 2 ^ (-53 : ℤ) * len (b.corner.elem + b.size.elem) := by
  have hR' : R * Rᵀ = 1 := mul_eq_one_comm.1 hR
  obtain ⟨y', h1, h2⟩ := flat_near r b hy
  have e : R *ᵥ (b.corner.elem + Rᵀ *ᵥ (y' - b.corner.elem) - b.corner.elem) = y' - b.corner.elem := by
    rw [add_sub_cancel_left, mulVec_mulVec, hR', one_mulVec]
  refine ⟨b.corner.elem + Rᵀ *ᵥ (y' - b.corner.elem), fun i => ?_, ?_⟩
  · rw [e, sub_zero, add_zero]; exact h1 i
  · rw [e, add_sub_cancel, ← eucl_eq_len, eucl_comm, eucl_eq_len]; exact h2

theorem flat_of_turned (r : Rounding 53) (b : RBox n) {R : Matrix (Fin n) (Fin n) ℝ} {x : Fin n → ℝ} (hx : x ∈ turnedBox b.corner.elem b.size.elem R 0) :
    ∃ y ∈ boxSet (rbFlat r b), len (b.corner.elem + R *ᵥ (x - b.corner.elem) - y) ≤ 2 ^ (-53 : ℤ) * len (b.corner.elem + b.size.elem) := by
  refine flat_near' r b fun i => ?_
  have := hx i
  rw [sub_zero, add_zero] at this
  rwa [Pi.add_apply, add_sub_cancel_left]

/-- Distances before and after turning, with errors. -/
theorem turn_dist {R : Matrix (Fin n) (Fin n) ℝ} (hR : Rᵀ * R = 1) {c x p y q : Fin n → ℝ} {w M : ℝ} (h1 : len (c + R *ᵥ (x - c) - y) ≤ w)
    (h2 : len (q - (c + R *ᵥ (p - c))) ≤ M) : eucl x p ≤ eucl y q + (M + w) ∧ eucl y q ≤ eucl x p + (M + w) := by
  have e : eucl x p = len (c + R *ᵥ (x - c) - (c + R *ᵥ (p - c))) := by
    rw [add_sub_add_left_eq_sub, ← mulVec_sub, sub_sub_sub_cancel_right, len_orth hR, eucl_eq_len]
  have sw : ∀ a b : Fin n → ℝ, len (a - b) = len (b - a) := fun a b => by rw [← eucl_eq_len, eucl_comm, eucl_eq_len]
  rw [e, eucl_eq_len]
  have t1 := len_triangle (c + R *ᵥ (x - c)) y (c + R *ᵥ (p - c))
  have t2 := len_triangle y q (c + R *ᵥ (p - c))
  have t3 := len_triangle y (c + R *ᵥ (x - c)) q
  have t4 := len_triangle (c + R *ᵥ (x - c)) (c + R *ᵥ (p - c)) q
  have s1 := sw y (c + R *ᵥ (x - c))
  have s2 := sw (c + R *ᵥ (p - c)) q
  constructor <;> linarith

theorem mk'_elem (c : Pt n) (ρ : ℝ) : (Ball.mk' c ρ).center.elem = c.elem := by
  show (if _ then _ else _ : Pt n).elem = _
  split_ifs <;> rfl

end Fl

/-- C135, rotated box and ball. Computed in doubles, when the test accepts, the box has a point in the ball with its radius enlarged by a factor `1 + epsilon` and by
the stated margin; when the box has a point in the ball by that margin, the test accepts. -/
theorem C135_ball (r : Rounding 53) (b : RBox n) (R : Matrix (Fin n) (Fin n) ℝ) (E : ℝ) (hn : n ≤ 50) (hR : Rᵀ * R = 1)
    (h0 : 2 * n * (n + 1) * 2 ^ (-52 : ℤ) ≤ E) (h1 : E ≤ 1 / 4) (hm : Stands b.orient.elem R (E - 2 * n * (n + 1) * 2 ^ (-52 : ℤ)))
    (a : Ball n) (hr : 0 ≤ a.radius) (M : ℝ)
    (hM : M = (E + 2 ^ (-51 : ℤ)) * eucl a.center.elem b.corner.elem + 2 ^ (-53 : ℤ) * len b.corner.elem + 2 ^ (-53 : ℤ) * len (b.corner.elem + b.size.elem)) :
    (∀ proper, Fl.interRBall r b a proper = true → ∃ x ∈ turnedBox b.corner.elem b.size.elem R 0, eucl x a.center.elem ≤ a.radius * (1 + epsilon) + M) ∧
    (∀ proper, 0 < a.radius ∨ proper = false → (∃ x ∈ turnedBox b.corner.elem b.size.elem R 0, (eucl x a.center.elem + M) * (1 + epsilon) ≤ a.radius) →
      Fl.interRBall r b a proper = true) := by
  have he := epsilon_pos
  have hq := Fl.unrotate_err r b R E (by omega) hR h0 h1 hm a.center
  refine ⟨fun proper h => ?_, fun proper hp h => ?_⟩
  · obtain ⟨y, hy1, hy2⟩ := (C119_box r (Ball.mk' (Fl.rbUnrotate r b a.center) a.radius) _ hn hr (Fl.flat_ordered r b) proper).2 h
    obtain ⟨x, hx, hd⟩ := Fl.turned_of_flat r b hR hy2
    refine ⟨x, hx, ?_⟩
    have := (Fl.turn_dist hR hd hq).1
    have hy1' : eucl y (Ball.mk' (Fl.rbUnrotate r b a.center) a.radius).center.elem ≤ a.radius * (1 + epsilon) := hy1
    rw [Fl.mk'_elem] at hy1'
    linarith
  · obtain ⟨x, hx, h⟩ := h
    obtain ⟨y, hy, hd⟩ := Fl.flat_of_turned r b hx
    refine (C119_box r (Ball.mk' (Fl.rbUnrotate r b a.center) a.radius) _ hn hr (Fl.flat_ordered r b) proper).1 ⟨y, ?_, hy⟩ hp
    show eucl y (Ball.mk' (Fl.rbUnrotate r b a.center) a.radius).center.elem ≤ a.radius / (1 + epsilon)
    rw [Fl.mk'_elem, le_div_iff₀ (by linarith)]
    have := (Fl.turn_dist hR hd hq).2
    refine le_trans (mul_le_mul_of_nonneg_right ?_ (by linarith)) h
    linarith

/-- C135, ball containing a rotated box: computed in doubles the test accepts when every point of the box is in the ball by the stated margin, and when it accepts, every
point of the box is in the ball with its radius enlarged by a factor `1 + epsilon` and by that margin. -/
theorem C135_ball_contains (r : Rounding 53) (b : RBox n) (R : Matrix (Fin n) (Fin n) ℝ) (E : ℝ) (hn : n ≤ 50) (hR : Rᵀ * R = 1)
    (h0 : 2 * n * (n + 1) * 2 ^ (-52 : ℤ) ≤ E) (h1 : E ≤ 1 / 4) (hm : Stands b.orient.elem R (E - 2 * n * (n + 1) * 2 ^ (-52 : ℤ)))
    (a : Ball n) (hr : 0 ≤ a.radius) (M : ℝ)
    (hM : M = (E + 2 ^ (-51 : ℤ)) * eucl a.center.elem b.corner.elem + 2 ^ (-53 : ℤ) * len b.corner.elem + 2 ^ (-53 : ℤ) * len (b.corner.elem + b.size.elem)) :
    ((∀ x ∈ turnedBox b.corner.elem b.size.elem R 0, eucl x a.center.elem + M ≤ a.radius) → Fl.containsBallR r a b false = true) ∧
    ((∀ x ∈ turnedBox b.corner.elem b.size.elem R 0, eucl x a.center.elem + M < a.radius) → Fl.containsBallR r a b true = true) ∧
    (∀ proper, Fl.containsBallR r a b proper = true → ∀ x ∈ turnedBox b.corner.elem b.size.elem R 0, eucl x a.center.elem ≤ a.radius * (1 + epsilon) + M) := by
  have hq := Fl.unrotate_err r b R E (by omega) hR h0 h1 hm a.center
  have c := C119_contains_box r (Ball.mk' (Fl.rbUnrotate r b a.center) a.radius) (Fl.rbFlat r b) hn hr (Fl.flat_ordered r b)
  refine ⟨fun h => c.1 fun y hy => ?_, fun h => c.2.1 fun y hy => ?_, fun proper h x hx => ?_⟩
  · obtain ⟨x, hx, hd⟩ := Fl.turned_of_flat r b hR hy
    show eucl y (Ball.mk' (Fl.rbUnrotate r b a.center) a.radius).center.elem ≤ a.radius
    rw [Fl.mk'_elem]
    have := (Fl.turn_dist hR hd hq).2
    linarith [h x hx]
  · obtain ⟨x, hx, hd⟩ := Fl.turned_of_flat r b hR hy
    show eucl y (Ball.mk' (Fl.rbUnrotate r b a.center) a.radius).center.elem < a.radius
    rw [Fl.mk'_elem]
    have := (Fl.turn_dist hR hd hq).2
    linarith [h x hx]
  · obtain ⟨y, hy, hd⟩ := Fl.flat_of_turned r b hx
    have h2 : eucl y (Ball.mk' (Fl.rbUnrotate r b a.center) a.radius).center.elem ≤ a.radius * (1 + epsilon) := c.2.2 proper h hy
    rw [Fl.mk'_elem] at h2
    have := (Fl.turn_dist hR hd hq).1
    linarith

namespace Fl

theorem isFl_flat (r : Rounding 53) (b : RBox n) (hc : ∀ i, IsFl 53 (b.corner.elem i)) (i : Fin n) :
    IsFl 53 ((rbFlat r b).low.elem i) ∧ IsFl 53 ((rbFlat r b).high.elem i) := by
  rw [flat_low, flat_high]
  constructor
  · rcases min_choice (b.corner.elem i) (r (b.corner.elem i + b.size.elem i)) with h | h <;> rw [h]
    exacts [hc i, r.isFl _]
  · rcases max_choice (b.corner.elem i) (r (b.corner.elem i + b.size.elem i)) with h | h <;> rw [h]
    exacts [hc i, r.isFl _]

/-- Where the computed faces are. -/
theorem flat_face (r : Rounding 53) (b : RBox n) (i : Fin n) :
    |(rbFlat r b).low.elem i - (b.corner.elem i + min 0 (b.size.elem i))| ≤ 2 ^ (-53 : ℤ) * len (b.corner.elem + b.size.elem) ∧
    |(rbFlat r b).high.elem i - (b.corner.elem i + max 0 (b.size.elem i))| ≤ 2 ^ (-53 : ℤ) * len (b.corner.elem + b.size.elem) := by
  have h := (end_err r b i).trans (mul_le_mul_of_nonneg_left (abs_le_len _ i) (by positivity))
  have h1 : |(r (b.corner.elem i + b.size.elem i) - b.corner.elem i) - b.size.elem i| ≤ 2 ^ (-53 : ℤ) * len (b.corner.elem + b.size.elem) := by
    rwa [sub_sub]
  rw [flat_low, flat_high]
  have e1 : min (b.corner.elem i) (r (b.corner.elem i + b.size.elem i)) = b.corner.elem i + min 0 (r (b.corner.elem i + b.size.elem i) - b.corner.elem i) := by
    rw [← min_add_add_left, add_zero, add_sub_cancel]
  have e2 : max (b.corner.elem i) (r (b.corner.elem i + b.size.elem i)) = b.corner.elem i + max 0 (r (b.corner.elem i + b.size.elem i) - b.corner.elem i) := by
    rw [← max_add_add_left, add_zero, add_sub_cancel]
  rw [e1, e2, add_sub_add_left_eq_sub, add_sub_add_left_eq_sub]
  exact ⟨(min_lip _ _).trans h1, (max_lip _ _).trans h1⟩

end Fl

/-- C135, rotated box containing a ball, for a box whose corner consists of doubles. Computed in doubles, what the proper test accepts is inside the exact box up to the
stated margin; the tolerant test accepts a ball that is in the box by that margin, and what it accepts is in the box up to little more than epsilon and twice the margin. -/
theorem C135_contains_ball (r : Rounding 53) (b : RBox n) (R : Matrix (Fin n) (Fin n) ℝ) (E : ℝ) (hn : n ≤ 50) (hR : Rᵀ * R = 1)
    (h0 : 2 * n * (n + 1) * 2 ^ (-52 : ℤ) ≤ E) (h1 : E ≤ 1 / 4) (hm : Stands b.orient.elem R (E - 2 * n * (n + 1) * 2 ^ (-52 : ℤ)))
    (hc : ∀ i, IsFl 53 (b.corner.elem i)) (a : Ball n) (hr : 0 ≤ a.radius) (M : ℝ)
    (hM : M = (E + 2 ^ (-51 : ℤ)) * eucl a.center.elem b.corner.elem + 2 ^ (-53 : ℤ) * len b.corner.elem + 2 ^ (-53 : ℤ) * len (b.corner.elem + b.size.elem)) :
    (Fl.containsRBall r b a true = true → ballSet a ⊆ turnedInterior b.corner.elem b.size.elem R M) ∧
    (ballSet a ⊆ turnedBox b.corner.elem b.size.elem R (-M) → Fl.containsRBall r b a false = true) ∧
    (Fl.containsRBall r b a false = true → ballSet a ⊆ turnedBox b.corner.elem b.size.elem R
      (epsilon * (1 + 2 ^ (-52 : ℤ)) + 2 ^ (-53 : ℤ) * (2 * len b.corner.elem + 2 * eucl a.center.elem b.corner.elem + a.radius) + M)) := by
  have hR' : R * Rᵀ = 1 := mul_eq_one_comm.1 hR
  have hq := Fl.unrotate_err r b R E (by omega) hR h0 h1 hm a.center
  have c := C119_box_contains r (Fl.rbFlat r b) (Ball.mk' (Fl.rbUnrotate r b a.center) a.radius) hr (Fl.flat_ordered r b)
    (fun i => (Fl.isFl_flat r b hc i).1) (fun i => (Fl.isFl_flat r b hc i).2)
  have face := Fl.flat_face r b
  have sw : ∀ a b : Fin n → ℝ, len (a - b) = len (b - a) := fun a b => by rw [← eucl_eq_len, eucl_comm, eucl_eq_len]
  -- the point of the computed ball that corresponds to a point of the exact one
  have corr : ∀ x ∈ ballSet a, ∃ y ∈ ballSet (Ball.mk' (Fl.rbUnrotate r b a.center) a.radius), ∀ i,
      |y i - b.corner.elem i - (R *ᵥ (x - b.corner.elem)) i| ≤ (E + 2 ^ (-51 : ℤ)) * eucl a.center.elem b.corner.elem + 2 ^ (-53 : ℤ) * len b.corner.elem := by
    intro x hx
    refine ⟨(Fl.rbUnrotate r b a.center).elem + R *ᵥ (x - a.center.elem), ?_, fun i => ?_⟩
    · show eucl _ (Ball.mk' (Fl.rbUnrotate r b a.center) a.radius).center.elem ≤ a.radius
      rw [Fl.mk'_elem, eucl_eq_len, add_sub_cancel_left, Fl.len_orth hR, ← eucl_eq_len]; exact hx
    · refine le_trans ?_ ((abs_le_len _ i).trans hq)
      refine le_of_eq (congrArg _ ?_)
      have e : R *ᵥ (x - a.center.elem) = R *ᵥ (x - b.corner.elem) - R *ᵥ (a.center.elem - b.corner.elem) := by
        rw [← mulVec_sub, sub_sub_sub_cancel_right]
      rw [e]; simp only [Pi.add_apply, Pi.sub_apply]; ring
  refine ⟨fun h x hx i => ?_, fun h => c.2.1 fun y hy i => ?_, fun h x hx i => ?_⟩
  · obtain ⟨y, hy, hd⟩ := corr x hx
    have h2 := c.1 h hy i
    have d := _root_.abs_le.1 (hd i)
    have f1 := _root_.abs_le.1 (face i).1
    have f2 := _root_.abs_le.1 (face i).2
    constructor <;> linarith
  · -- the point of the exact ball that corresponds to a point of the computed one
    have hy' : eucl y (Fl.rbUnrotate r b a.center).elem ≤ a.radius := by
      have : eucl y (Ball.mk' (Fl.rbUnrotate r b a.center) a.radius).center.elem ≤ a.radius := hy
      rwa [Fl.mk'_elem] at this
    have hx : a.center.elem + Rᵀ *ᵥ (y - (Fl.rbUnrotate r b a.center).elem) ∈ ballSet a := by
      show eucl _ _ ≤ _
      rw [eucl_eq_len, add_sub_cancel_left, Fl.len_orth (by rwa [transpose_transpose]), ← eucl_eq_len]; exact hy'
    have h2 := h hx i
    have e : R *ᵥ (a.center.elem + Rᵀ *ᵥ (y - (Fl.rbUnrotate r b a.center).elem) - b.corner.elem) =
        R *ᵥ (a.center.elem - b.corner.elem) + (y - (Fl.rbUnrotate r b a.center).elem) := by
      rw [add_sub_right_comm, mulVec_add, mulVec_mulVec, hR', one_mulVec]
    rw [e] at h2
    have d := _root_.abs_le.1 ((abs_le_len _ i).trans hq)
    have f1 := _root_.abs_le.1 (face i).1
    have f2 := _root_.abs_le.1 (face i).2
    simp only [Pi.add_apply, Pi.sub_apply] at h2 d
    constructor <;> linarith
  · obtain ⟨y, hy, hd⟩ := corr x hx
    have hD := eucl_nonneg a.center.elem b.corner.elem
    have hC := len_nonneg b.corner.elem
    have bnd : ∀ i, |(Ball.mk' (Fl.rbUnrotate r b a.center) a.radius).center.elem i| + a.radius ≤
        2 * len b.corner.elem + 2 * eucl a.center.elem b.corner.elem + a.radius := by
      intro i
      rw [Fl.mk'_elem]
      refine add_le_add_left ?_ _
      refine (abs_le_len _ i).trans ?_
      have t1 := len_add_le ((Fl.rbUnrotate r b a.center).elem - (b.corner.elem + R *ᵥ (a.center.elem - b.corner.elem)))
        (b.corner.elem + R *ᵥ (a.center.elem - b.corner.elem))
      rw [sub_add_cancel] at t1
      have t2 := len_add_le b.corner.elem (R *ᵥ (a.center.elem - b.corner.elem))
      rw [Fl.len_orth hR, ← eucl_eq_len] at t2
      have u51 : (2 : ℝ) ^ (-51 : ℤ) ≤ 1 / 4 := by norm_num
      have u53 : (2 : ℝ) ^ (-53 : ℤ) ≤ 1 / 4 := by norm_num
      generalize (2 : ℝ) ^ (-51 : ℤ) = v at *
      generalize (2 : ℝ) ^ (-53 : ℤ) = u at *
      have m1 := mul_le_mul_of_nonneg_right (show E + v ≤ 1 by linarith) hD
      have m2 := mul_le_mul_of_nonneg_right u53 hC
      linarith
    obtain ⟨z, hz, hyz⟩ := c.2.2 _ bnd h hy
    have g := _root_.abs_le.1 (hyz i)
    have d := _root_.abs_le.1 (hd i)
    have f1 := _root_.abs_le.1 (face i).1
    have f2 := _root_.abs_le.1 (face i).2
    have hz' := hz i
    generalize (2 : ℝ) ^ (-53 : ℤ) * (2 * len b.corner.elem + 2 * eucl a.center.elem b.corner.elem + a.radius) = W at *
    constructor <;> linarith

end WFMath
