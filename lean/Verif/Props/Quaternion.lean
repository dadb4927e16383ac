/- Property theorems C33-C35, C37-C39, C83 about quaternions. -/
import Verif.Lemmas.QuatError

namespace WFMath
open Matrix Gauss Spec Quaternion

/-! ### C33 the norm -/

private theorem bind_some {α β : Type} {x : Option α} {f : α → Option β} {b : β} (h : x.bind f = some b) :
    ∃ a, x = some a ∧ f a = some b := by cases x <;> simp_all

/-- C33, without cut-offs: a valid quaternion obtained by any history of public operations in which no inner
or cross product is flushed to 0 has norm exactly 1. (The property asks for all histories; see
`C33_false` and `C33_drift_partial`.) -/
theorem C33_exact_partial (L : Limits) (t : QTerm) (q : Quat) (hs : t.Sound) (he : t.Exact L) (h : t.eval L = some q)
    (hv : q.valid = true) : ‖toH q‖ = 1 := by
  induction t generalizing q with
  | identity => rw [← Option.some.inj h]; exact norm_identity
  | ofComponents w x y z => rw [← Option.some.inj h]; exact norm_ofComponents hs
  | rotationIdx i a => rw [← Option.some.inj h] at hv ⊢; exact norm_rotationIdx rfl hv
  | rotationAxis i a => rw [← Option.some.inj h] at hv ⊢; exact norm_rotationAxis rfl hv
  | rotationMag i => rw [← Option.some.inj h] at hv ⊢; exact norm_rotationMag rfl hv
  | rotationFromTo a b =>
    simp only [QTerm.eval] at h
    cases hr : Quat.default.rotationFromTo a b with
    | error e => rw [hr] at h; cases h
    | ok r =>
      rw [hr] at h
      obtain rfl : r = q := Option.some.inj h
      exact norm_rotationFromTo hs.1 hs.2 rfl hr hv
  | rotationFromToOr a b c => rw [← Option.some.inj h] at hv ⊢; exact norm_rotationFromToOr hs.1 hs.2 rfl hv
  | fromRotMatrix m => rw [← Option.some.inj h]; exact norm_fromRotMatrix hs
  | mul s t ihs iht =>
    obtain ⟨p, hp, h⟩ := bind_some h
    obtain ⟨r, hr, h⟩ := bind_some h
    rw [← Option.some.inj h] at hv ⊢
    simp only [mul_valid, Bool.and_eq_true] at hv
    have hx := he.2.2 p r hp hr
    have h1 := ihs p hs.1 he.1 hp hv.1
    rw [toH_mul_exact h1 hx.1 hx.2, norm_mul, h1, iht r hs.2 he.2.1 hr hv.2, one_mul]
  | div s t ihs iht =>
    obtain ⟨p, hp, h⟩ := bind_some h
    obtain ⟨r, hr, h⟩ := bind_some h
    rw [← Option.some.inj h] at hv ⊢
    simp only [div_valid, Bool.and_eq_true] at hv
    have hx := he.2.2 p r hp hr
    have h1 := ihs p hs.1 he.1 hp hv.1
    rw [toH_div_exact h1 hx.1 hx.2, norm_mul, norm_star, h1, iht r hs.2 he.2.1 hr hv.2, one_mul]
  | inverse s ih =>
    obtain ⟨p, hp, h⟩ := bind_some h
    rw [← Option.some.inj h] at hv ⊢
    rw [toH_inverse, norm_star]; exact ih p hs he hp hv
  | normalize s ih =>
    obtain ⟨p, hp, h⟩ := bind_some h
    rw [← Option.some.inj h] at hv ⊢
    have h1 := ih p hs he hp hv
    rw [toH_normalize_unit h1, h1]

private theorem drift_of_one {n : ℝ} (h : n = 1) : Drift 0 n := by rw [h]; exact drift_zero

/-- C33, general: in any history of public operations the norm of a valid quaternion stays within `8 ε k` of 1,
where `k` is the number of multiplications and divisions (for `k` up to `1/(16 ε)`, about `10^13`). Missing
compared to the property: the norm need not be exactly 1 when a product is flushed to 0. -/
theorem C33_drift_partial (L : Limits) (t : QTerm) (q : Quat) (hs : t.Sound) (h : t.eval L = some q)
    (hv : q.valid = true) (hk : 16 * epsilon * t.products ≤ 1) : |‖toH q‖ - 1| ≤ 8 * epsilon * t.products := by
  refine drift_linear ?_ hk
  have he := epsilon_pos
  induction t generalizing q with
  | identity => rw [← Option.some.inj h]; exact drift_of_one norm_identity
  | ofComponents w x y z => rw [← Option.some.inj h]; exact drift_of_one (norm_ofComponents hs)
  | rotationIdx i a => rw [← Option.some.inj h] at hv ⊢; exact drift_of_one (norm_rotationIdx rfl hv)
  | rotationAxis i a => rw [← Option.some.inj h] at hv ⊢; exact drift_of_one (norm_rotationAxis rfl hv)
  | rotationMag i => rw [← Option.some.inj h] at hv ⊢; exact drift_of_one (norm_rotationMag rfl hv)
  | rotationFromTo a b =>
    simp only [QTerm.eval] at h
    cases hr : Quat.default.rotationFromTo a b with
    | error e => rw [hr] at h; cases h
    | ok r =>
      rw [hr] at h
      obtain rfl : r = q := Option.some.inj h
      exact drift_of_one (norm_rotationFromTo hs.1 hs.2 rfl hr hv)
  | rotationFromToOr a b c => rw [← Option.some.inj h] at hv ⊢; exact drift_of_one (norm_rotationFromToOr hs.1 hs.2 rfl hv)
  | fromRotMatrix m => rw [← Option.some.inj h]; exact drift_of_one (norm_fromRotMatrix hs)
  | mul s t ihs iht =>
    obtain ⟨p, hp, h⟩ := bind_some h
    obtain ⟨r, hr, h⟩ := bind_some h
    rw [← Option.some.inj h] at hv ⊢
    simp only [mul_valid, Bool.and_eq_true] at hv
    simp only [QTerm.products, Nat.cast_add, Nat.cast_one] at hk
    have h1 : 0 ≤ epsilon * (s.products : ℝ) := by positivity
    have h2 : 0 ≤ epsilon * (t.products : ℝ) := by positivity
    have hl : 16 * epsilon * (t.products : ℝ) ≤ 1 := by linarith
    exact drift_mul (ihs p hs.1 hp hv.1 (by linarith)) (iht r hs.2 hr hv.2 hl) hl
  | div s t ihs iht =>
    obtain ⟨p, hp, h⟩ := bind_some h
    obtain ⟨r, hr, h⟩ := bind_some h
    rw [← Option.some.inj h] at hv ⊢
    simp only [div_valid, Bool.and_eq_true] at hv
    simp only [QTerm.products, Nat.cast_add, Nat.cast_one] at hk
    have h1 : 0 ≤ epsilon * (s.products : ℝ) := by positivity
    have h2 : 0 ≤ epsilon * (t.products : ℝ) := by positivity
    have hl : 16 * epsilon * (t.products : ℝ) ≤ 1 := by linarith
    exact drift_div (ihs p hs.1 hp hv.1 (by linarith)) (iht r hs.2 hr hv.2 hl) hl
  | inverse s ih =>
    obtain ⟨p, hp, h⟩ := bind_some h
    rw [← Option.some.inj h] at hv ⊢
    rw [toH_inverse, norm_star]; exact ih p hs hp hv hk
  | normalize s ih =>
    obtain ⟨p, hp, h⟩ := bind_some h
    rw [← Option.some.inj h] at hv ⊢
    rw [norm_normalize]
    exact drift_normalize (ih p hs hp hv hk)

private theorem vec_x_maxAbs (x : ℝ) : maxAbs ![x, 0, 0] = |x| := by
  refine le_antisymm (maxAbs_le (abs_nonneg x) fun i => ?_) (le_maxAbs ![x, 0, 0] (0 : Fin 3))
  fin_cases i <;> simp

/-- C33 fails as stated: squaring a quaternion that rotates by a tiny angle gives a quaternion whose norm is
not 1, because the inner product of the vector parts is flushed to 0. -/
theorem C33_false (L : Limits) : ∃ (t : QTerm) (q : Quat), t.Sound ∧ t.eval L = some q ∧ q.valid = true ∧ ‖toH q‖ ≠ 1 := by
  let leaf : QTerm := .ofComponents 1 (epsilon / 4) 0 0
  have he := epsilon_pos
  have he2 := epsilon_lt
  have hsound : leaf.Sound := fun h => one_ne_zero h.1
  refine ⟨.mul leaf leaf, _, ⟨hsound, hsound⟩, rfl, by simp [Quat.ofComponents], ?_⟩
  set p := Quat.ofComponents 1 (epsilon / 4) 0 0 with hp
  have hn : ‖toH p‖ = 1 := norm_ofComponents (fun h => one_ne_zero h.1)
  obtain ⟨w, x, hpe, hx0, hx1⟩ : ∃ w x, p = ⟨w, ⟨![x, 0, 0], true⟩, true, 1⟩ ∧ 0 < x ∧ x ≤ epsilon / 4 := by
    refine ⟨1 / √(1 * 1 + epsilon / 4 * (epsilon / 4) + 0 * 0 + 0 * 0),
      epsilon / 4 / √(1 * 1 + epsilon / 4 * (epsilon / 4) + 0 * 0 + 0 * 0),
      by rw [hp, Quat.ofComponents]; simp only [zero_div], ?_, ?_⟩
    · exact div_pos (by linarith) (Real.sqrt_pos.2 (by positivity))
    · refine div_le_self (by linarith) ?_
      rw [Real.one_le_sqrt]; nlinarith [sq_nonneg epsilon]
  have hw : w ^ 2 + x ^ 2 = 1 := by
    have := sq_of_norm hn
    rw [hpe] at this; simpa using this
  have hdot : p.vec.dot p.vec = 0 := by
    rw [hpe]
    simp only [Vec.dot]
    have hd : epsilon * |x| ≤ scaleEpsilonArr ![x, 0, 0] ![x, 0, 0] epsilon := by
      have h := le_scaleEpsilonArr (x := ![x, 0, 0]) (y := ![x, 0, 0]) (e := epsilon) he.le
      rw [vec_x_maxAbs, min_self] at h
      linarith
    rw [if_neg]
    rw [Fin.sum_univ_three]
    simp only [Matrix.cons_val_zero, Matrix.cons_val_one, Matrix.cons_val, mul_zero, add_zero, ge_iff_le, not_le]
    refine lt_of_lt_of_le ?_ hd
    rw [abs_mul, abs_of_pos hx0]
    nlinarith
  have hcross : (cross3 p.vec p.vec).elem = 0 := by
    funext i; fin_cases i <;> simp [cross3] <;> (intro; ring)
  have hprep : p.prepare p = ⟨w, p.vec, true, 2⟩ := by
    rw [hpe]; simp [Quat.prepare, Quat.checkNormalization, maxNormAge]
  have hmul : toH (p.mul p) = ⟨w * w, 2 * (w * x), 0, 0⟩ := by
    rw [toH_mul, hprep]
    unfold rawMul
    have hw' : p.w = w := by rw [hpe]
    have hv' : p.vec.elem = ![x, 0, 0] := by rw [hpe]
    ext
    · simp [hdot, hw']
    · simp [hcross, hw', hv']; ring
    · simp [hcross, hw', hv']
    · simp [hcross, hw', hv']
  intro hc
  rw [← normSq_eq_one, normSq_def'] at hc
  have e : toH (p.mul p) = _ := hmul
  rw [e] at hc
  simp at hc
  have h1 : w ^ 2 = 1 - x ^ 2 := by linarith
  have h2 : x ^ 2 * (2 - 3 * x ^ 2) = 0 := by nlinarith
  rcases mul_eq_zero.1 h2 with h | h
  · exact hx0.ne' (pow_eq_zero_iff two_ne_zero |>.1 h)
  · nlinarith

/-- A history to which C33 applies. -/
example (L : Limits) : ∃ q, (QTerm.mul (.rotationIdx 2 1) (.inverse (.ofComponents 1 2 3 4))).eval L = some q ∧
    q.valid = true ∧ (QTerm.mul (.rotationIdx 2 1) (.inverse (.ofComponents 1 2 3 4))).Sound :=
  ⟨_, rfl, by simp [Quat.rotationIdx, Quat.ofComponents], trivial, fun h => one_ne_zero h.1⟩

/-! ### C34 composition -/

/-- C34, multiplication: when no inner or cross product is flushed to 0, rotating by `q1*q2` is rotating by `q1` and
then by `q2`. -/
theorem C34_mul (v : Vec 3) (q1 q2 : Quat) (h1 : ‖toH q1‖ = 1) (h2 : ‖toH q2‖ = 1)
    (hd : DotExact q1.vec q2.vec) (hc : CrossExact q1.vec q2.vec)
    (hr : RotExact v (q1.mul q2)) (hr1 : RotExact v q1) (hr2 : RotExact (v.rotateQ q1) q2) :
    v.rotateQ (q1.mul q2) = (v.rotateQ q1).rotateQ q2 := by
  have hm := toH_mul_exact h1 hd hc
  have hn : ‖toH (q1.mul q2)‖ = 1 := by rw [hm, norm_mul, h1, h2, one_mul]
  apply Vec.ext
  · rw [rotateQ_exact hn hr, rotateQ_exact h2 hr2, rotateQ_exact h1 hr1, hm,
      act_mul (normSq_eq_one.2 h2) (normSq_eq_one.2 h1)]
  · have : ∀ (v : Vec 3) (q : Quat), (v.rotateQ q).valid = (v.valid && q.vec.valid) := by
      intro v q; simp [Vec.rotateQ, cross3]; cases v.valid <;> cases q.vec.valid <;> simp
    have hv : (q1.mul q2).vec.valid = (q1.vec.valid && q2.vec.valid) := by
      have hp : (q1.prepare q2).vec.valid = q1.vec.valid := by
        unfold Quat.prepare Quat.checkNormalization; split <;> rfl
      simp only [Quat.mul, cross3, Vec.sub_valid, Vec.add_valid, Vec.scale_valid, hp]
      cases q1.vec.valid <;> cases q2.vec.valid <;> rfl
    rw [this, this, this, hv, Bool.and_assoc]

/-- C34, multiplication in general: the two results differ by at most `110 ε |v|`. -/
theorem C34_mul_error (v : Vec 3) (q1 q2 : Quat) (h1 : ‖toH q1‖ = 1) (h2 : ‖toH q2‖ = 1) :
    (v.rotateQ (q1.mul q2) - (v.rotateQ q1).rotateQ q2).mag ≤ 110 * epsilon * v.mag := by
  have he := epsilon_pos
  have he2 := epsilon_lt
  have hM := Vec.mag_nonneg v
  have hu : ‖toH q2 * toH q1‖ = 1 := by rw [norm_mul, h1, h2, one_mul]
  have hn : ‖toH (q1.mul q2) - toH q2 * toH q1‖ ≤ 4 * epsilon := by
    have := toH_mul_err (q := q2) h1; rwa [h2, min_self, mul_one] at this
  have e1 := rotateQ_near (v := v) hu hn (by norm_num at he2 ⊢; linarith)
  have e2 := rotateQ_twice (v := v) h1 h2
  have e3 := len_triangle (v.rotateQ (q1.mul q2)).elem (act (toH q2 * toH q1) v.elem) ((v.rotateQ q1).rotateQ q2).elem
  rw [len_sub_comm (act (toH q2 * toH q1) v.elem)] at e3
  rw [mag_eq_len, Vec.sub_elem]
  have : 0 ≤ epsilon * v.mag := by positivity
  nlinarith

/-- C34, division, without flushed products: rotating by `q1/q2` is rotating by `q1` and then by the inverse of `q2`. -/
theorem C34_div (v : Vec 3) (q1 q2 : Quat) (h1 : ‖toH q1‖ = 1) (h2 : ‖toH q2‖ = 1)
    (hd : DotExact q1.vec q2.vec) (hc : CrossExact q1.vec q2.vec)
    (hr : RotExact v (q1.div q2)) (hr1 : RotExact v q1) (hr2 : RotExact (v.rotateQ q1) q2.inverse) :
    (v.rotateQ (q1.div q2)).elem = ((v.rotateQ q1).rotateQ q2.inverse).elem := by
  have hm := toH_div_exact h1 hd hc
  have hi : ‖toH q2.inverse‖ = 1 := by rw [toH_inverse, norm_star, h2]
  have hn : ‖toH (q1.div q2)‖ = 1 := by rw [hm, norm_mul, norm_star, h1, h2, one_mul]
  rw [rotateQ_exact hn hr, rotateQ_exact hi hr2, rotateQ_exact h1 hr1, hm, toH_inverse,
      act_mul (star_unit (normSq_eq_one.2 h2)) (normSq_eq_one.2 h1)]

/-- C34, division in general. -/
theorem C34_div_error (v : Vec 3) (q1 q2 : Quat) (h1 : ‖toH q1‖ = 1) (h2 : ‖toH q2‖ = 1) :
    (v.rotateQ (q1.div q2) - (v.rotateQ q1).rotateQ q2.inverse).mag ≤ 110 * epsilon * v.mag := by
  have he := epsilon_pos
  have he2 := epsilon_lt
  have hM := Vec.mag_nonneg v
  have hi : ‖toH q2.inverse‖ = 1 := by rw [toH_inverse, norm_star, h2]
  have hu : ‖star (toH q2) * toH q1‖ = 1 := by rw [norm_mul, norm_star, h1, h2, one_mul]
  have hn : ‖toH (q1.div q2) - star (toH q2) * toH q1‖ ≤ 4 * epsilon := by
    have := toH_div_err (q := q2) h1; rwa [h2, min_self, mul_one] at this
  have e1 := rotateQ_near (v := v) hu hn (by norm_num at he2 ⊢; linarith)
  have e2 := rotateQ_twice (v := v) h1 hi
  rw [toH_inverse] at e2
  have e3 := len_triangle (v.rotateQ (q1.div q2)).elem (act (star (toH q2) * toH q1) v.elem)
    ((v.rotateQ q1).rotateQ q2.inverse).elem
  rw [len_sub_comm (act (star (toH q2) * toH q1) v.elem)] at e3
  rw [mag_eq_len, Vec.sub_elem]
  have : 0 ≤ epsilon * v.mag := by positivity
  nlinarith

/-- C34, identity: it rotates nothing, exactly. -/
theorem C34_identity (v : Vec 3) : v.rotateQ Quat.identity = v := by
  apply Vec.ext
  · rw [rotateQ_elem]
    have hd : Quat.identity.vec.dot v = 0 := Vec.dot_of_zero_left rfl
    have hc : (cross3 Quat.identity.vec v).elem = 0 := by
      funext i; fin_cases i <;> simp [cross3, Quat.identity, Vec.zero]
    rw [hd, hc]
    simp only [Quat.identity]
    module
  · simp [Vec.rotateQ, cross3, Quat.identity]

/-- C34, associativity without flushed products. -/
theorem C34_assoc (a b c : Quat) (ha : ‖toH a‖ = 1) (hb : ‖toH b‖ = 1)
    (hab : DotExact a.vec b.vec ∧ CrossExact a.vec b.vec) (hbc : DotExact b.vec c.vec ∧ CrossExact b.vec c.vec)
    (hl : DotExact (a.mul b).vec c.vec ∧ CrossExact (a.mul b).vec c.vec)
    (hr : DotExact a.vec (b.mul c).vec ∧ CrossExact a.vec (b.mul c).vec) :
    ((a.mul b).mul c).w = (a.mul (b.mul c)).w ∧ ((a.mul b).mul c).vec.elem = (a.mul (b.mul c)).vec.elem := by
  have h1 := toH_mul_exact ha hab.1 hab.2
  have hn : ‖toH (a.mul b)‖ = 1 := by rw [h1, norm_mul, ha, hb, one_mul]
  refine vec_of_toH ?_
  rw [toH_mul_exact hn hl.1 hl.2, h1, toH_mul_exact ha hr.1 hr.2, toH_mul_exact hb hbc.1 hbc.2, mul_assoc]

/-- C34, associativity in general: the components of the two products differ by at most `30 ε`. -/
theorem C34_assoc_error (a b c : Quat) (ha : ‖toH a‖ = 1) (hb : ‖toH b‖ = 1) (hc : ‖toH c‖ = 1) :
    ‖toH ((a.mul b).mul c) - toH (a.mul (b.mul c))‖ ≤ 30 * epsilon := by
  have he := epsilon_pos
  have he2 := epsilon_lt
  norm_num at he2
  have e1 := toH_mul_err (q := b) ha
  have e2 := toH_mul_err (q := c) hb
  rw [hb, min_self, mul_one] at e1
  rw [hc, min_self, mul_one] at e2
  have n1 : |‖toH (a.mul b)‖ - 1| ≤ 4 * epsilon := by
    have := abs_norm_sub_norm_le (toH (a.mul b)) (toH b * toH a)
    rw [norm_mul, ha, hb, one_mul] at this
    exact this.trans e1
  have e3 := prepare_near (a.mul b) c
  have e4 := rawMul_err ((a.mul b).prepare c) c
  rw [← toH_mul, hc] at e4
  have e4' : ‖toH ((a.mul b).mul c) - toH c * toH ((a.mul b).prepare c)‖ ≤ 4 * epsilon := by
    refine e4.trans ?_
    have := min_le_right ‖toH ((a.mul b).prepare c)‖ 1
    nlinarith
  have e5 := toH_mul_err (q := b.mul c) ha
  have e5' : ‖toH (a.mul (b.mul c)) - toH (b.mul c) * toH a‖ ≤ 4 * epsilon := by
    refine e5.trans ?_
    have := min_le_left 1 ‖toH (b.mul c)‖
    nlinarith
  have d : toH ((a.mul b).mul c) - toH (a.mul (b.mul c)) =
      (toH ((a.mul b).mul c) - toH c * toH ((a.mul b).prepare c))
      + (toH c * (toH ((a.mul b).prepare c) - toH (a.mul b))
      + (toH c * (toH (a.mul b) - toH b * toH a)
      + (-((toH (b.mul c) - toH c * toH b) * toH a) - (toH (a.mul (b.mul c)) - toH (b.mul c) * toH a)))) := by
    noncomm_ring
  have m1 : ‖toH c * (toH ((a.mul b).prepare c) - toH (a.mul b))‖ ≤ 2 * (4 * epsilon) := by
    rw [norm_mul, hc, one_mul]; linarith
  have m2 : ‖toH c * (toH (a.mul b) - toH b * toH a)‖ ≤ 4 * epsilon := by rw [norm_mul, hc, one_mul]; exact e1
  have m3 : ‖-((toH (b.mul c) - toH c * toH b) * toH a)‖ ≤ 4 * epsilon := by
    rw [norm_neg, norm_mul, ha, mul_one]; exact e2
  rw [d]
  have s4 := (norm_sub_le _ _).trans (add_le_add m3 e5')
  have s3 := (norm_add_le _ _).trans (add_le_add m2 s4)
  have s2 := (norm_add_le _ _).trans (add_le_add m1 s3)
  refine ((norm_add_le _ _).trans (add_le_add e4' s2)).trans (by linarith)

/-- Unit quaternions to which C34 applies: a half turn about x and a rotation with rational components. -/
example : ‖toH (Quat.ofComponents 0 1 0 0)‖ = 1 ∧ ‖toH (Quat.ofComponents 1 2 3 4)‖ = 1 :=
  ⟨norm_ofComponents (fun h => one_ne_zero h.2.1), norm_ofComponents (fun h => one_ne_zero h.1)⟩

/-! ### C35 isometry -/

/-- C35, inner products without flushed products. -/
theorem C35_dot (u v : Vec 3) (q : Quat) (hq : ‖toH q‖ = 1) (hu : RotExact u q) (hv : RotExact v q) :
    (u.rotateQ q).elem ⬝ᵥ (v.rotateQ q).elem = u.elem ⬝ᵥ v.elem := by
  rw [rotateQ_exact hq hu, rotateQ_exact hq hv, act_dot (normSq_eq_one.2 hq)]

/-- C35, cross products without flushed products. -/
theorem C35_cross (u v c : Vec 3) (q : Quat) (hq : ‖toH q‖ = 1) (hu : RotExact u q) (hv : RotExact v q)
    (hc : c.elem = u.elem ⨯₃ v.elem) (hc' : RotExact c q) :
    (u.rotateQ q).elem ⨯₃ (v.rotateQ q).elem = (c.rotateQ q).elem := by
  rw [rotateQ_exact hq hu, rotateQ_exact hq hv, rotateQ_exact hq hc', act_cross (normSq_eq_one.2 hq), hc]

/-- C35, inverse without flushed products. -/
theorem C35_inverse (v : Vec 3) (q : Quat) (hq : ‖toH q‖ = 1) (hv : RotExact v q) (hw : RotExact (v.rotateQ q) q.inverse) :
    ((v.rotateQ q).rotateQ q.inverse).elem = v.elem := by
  have hi : ‖toH q.inverse‖ = 1 := by rw [toH_inverse, norm_star, hq]
  rw [rotateQ_exact hi hw, rotateQ_exact hq hv, toH_inverse, act_star_act (normSq_eq_one.2 hq)]

/-- C35, inner products in general. -/
theorem C35_dot_error (u v : Vec 3) (q : Quat) (hq : ‖toH q‖ = 1) :
    |(u.rotateQ q).elem ⬝ᵥ (v.rotateQ q).elem - u.elem ⬝ᵥ v.elem| ≤ 33 * epsilon * (u.mag * v.mag) := by
  have he := epsilon_pos
  have he2 := epsilon_lt
  norm_num at he2
  have hq' := normSq_eq_one.2 hq
  have e1 := rotateQ_len (v := u) hq
  have e2 := rotateQ_len (v := v) hq
  have hU := Vec.mag_nonneg u
  have hV := Vec.mag_nonneg v
  have d : (u.rotateQ q).elem ⬝ᵥ (v.rotateQ q).elem - u.elem ⬝ᵥ v.elem =
      ((u.rotateQ q).elem - act (toH q) u.elem) ⬝ᵥ (v.rotateQ q).elem
      + act (toH q) u.elem ⬝ᵥ ((v.rotateQ q).elem - act (toH q) v.elem) := by
    rw [sub_dotProduct, dotProduct_sub, act_dot hq']; ring
  have a1 := abs_dot_le_len ((u.rotateQ q).elem - act (toH q) u.elem) (v.rotateQ q).elem
  have a2 := abs_dot_le_len (act (toH q) u.elem) ((v.rotateQ q).elem - act (toH q) v.elem)
  have b1 := mul_le_mul e1 (mag_rotateQ_le (v := v) hq) (Vec.mag_nonneg _) (by positivity)
  rw [mag_eq_len (v.rotateQ q)] at b1
  have b2 := mul_le_mul_of_nonneg_left e2 hU
  rw [len_act hq', ← mag_eq_len] at a2
  rw [d]
  refine (abs_add_le _ _).trans ((add_le_add (a1.trans b1) (a2.trans b2)).trans ?_)
  have h7 : 0 ≤ epsilon * (u.mag * v.mag) := by positivity
  have h6 : epsilon * (epsilon * (u.mag * v.mag)) ≤ 1 / 10 ^ 14 * (epsilon * (u.mag * v.mag)) := by
    refine mul_le_mul_of_nonneg_right ?_ h7
    norm_num; linarith
  norm_num at h6
  nlinarith

/-- C35, cross products in general: `c` is the mathematical cross product of `u` and `v`. -/
theorem C35_cross_error (u v c : Vec 3) (q : Quat) (hq : ‖toH q‖ = 1) (hc : c.elem = u.elem ⨯₃ v.elem) :
    len ((u.rotateQ q).elem ⨯₃ (v.rotateQ q).elem - (c.rotateQ q).elem) ≤ 49 * epsilon * (u.mag * v.mag) := by
  have he := epsilon_pos
  have he2 := epsilon_lt
  norm_num at he2
  have hq' := normSq_eq_one.2 hq
  have e1 := rotateQ_len (v := u) hq
  have e2 := rotateQ_len (v := v) hq
  have e3 := rotateQ_len (v := c) hq
  have hcm : c.mag ≤ u.mag * v.mag := by rw [mag_eq_len, hc]; exact len_cross_le _ _
  have hU := Vec.mag_nonneg u
  have hV := Vec.mag_nonneg v
  have d : (u.rotateQ q).elem ⨯₃ (v.rotateQ q).elem - (c.rotateQ q).elem =
      ((u.rotateQ q).elem - act (toH q) u.elem) ⨯₃ (v.rotateQ q).elem
      + (act (toH q) u.elem ⨯₃ ((v.rotateQ q).elem - act (toH q) v.elem) - ((c.rotateQ q).elem - act (toH q) c.elem)) := by
    have h := act_cross hq' u.elem v.elem
    rw [← hc] at h
    rw [map_sub, LinearMap.sub_apply, map_sub, h]; abel
  have a1 := len_cross_le ((u.rotateQ q).elem - act (toH q) u.elem) (v.rotateQ q).elem
  have a2 := len_cross_le (act (toH q) u.elem) ((v.rotateQ q).elem - act (toH q) v.elem)
  have b1 := mul_le_mul e1 (mag_rotateQ_le (v := v) hq) (Vec.mag_nonneg _) (by positivity)
  rw [mag_eq_len (v.rotateQ q)] at b1
  have b2 := mul_le_mul_of_nonneg_left e2 hU
  rw [len_act hq', ← mag_eq_len] at a2
  have b3 : 16 * epsilon * c.mag ≤ 16 * epsilon * (u.mag * v.mag) := mul_le_mul_of_nonneg_left hcm (by linarith)
  rw [d]
  have s2 := (len_sub_le _ _).trans (add_le_add (a2.trans b2) (e3.trans b3))
  refine ((len_add_le _ _).trans (add_le_add (a1.trans b1) s2)).trans ?_
  have h7 : 0 ≤ epsilon * (u.mag * v.mag) := by positivity
  have h6 : epsilon * (epsilon * (u.mag * v.mag)) ≤ 1 / 10 ^ 14 * (epsilon * (u.mag * v.mag)) := by
    refine mul_le_mul_of_nonneg_right ?_ h7
    norm_num; linarith
  norm_num at h6
  nlinarith

/-- C35, inverse in general. -/
theorem C35_inverse_error (v : Vec 3) (q : Quat) (hq : ‖toH q‖ = 1) :
    ((v.rotateQ q).rotateQ q.inverse - v).mag ≤ 33 * epsilon * v.mag := by
  have hi : ‖toH q.inverse‖ = 1 := by rw [toH_inverse, norm_star, hq]
  have h := rotateQ_twice (v := v) hq hi
  rw [toH_inverse, star_mul_unit (normSq_eq_one.2 hq), act_one] at h
  exact h

/-- Cases meeting the hypotheses of the exact versions: half turns about the axes acting on a basis vector. -/
example : let i : Quat := ⟨0, ⟨![1, 0, 0], true⟩, true, 1⟩
    let j : Quat := ⟨0, ⟨![0, 1, 0], true⟩, true, 1⟩
    let v : Vec 3 := ⟨![0, 3, 0], true⟩
    ‖toH i‖ = 1 ∧ ‖toH j‖ = 1 ∧ DotExact i.vec j.vec ∧ CrossExact i.vec j.vec ∧ RotExact v i ∧
      RotExact (v.rotateQ i) j ∧ v.elem ≠ 0 := by
  intro i j v
  have hi : ‖toH i‖ = 1 := norm_of_sq (by simp [i])
  have hj : ‖toH j‖ = 1 := norm_of_sq (by simp [j])
  have he := epsilon_pos
  have he2 := epsilon_lt
  norm_num at he2
  have m1 : ∀ u v : Vec 3, maxAbs u.elem ≤ 1 → 2 * epsilon * min (maxAbs u.elem) (maxAbs v.elem) ≤ 1 := by
    intro u v h
    have := min_le_left (maxAbs u.elem) (maxAbs v.elem)
    nlinarith
  have mi : maxAbs i.vec.elem ≤ 1 := maxAbs_le one_pos.le (fun k => by fin_cases k <;> simp [i])
  have mj : maxAbs j.vec.elem ≤ 1 := maxAbs_le one_pos.le (fun k => by fin_cases k <;> simp [j])
  have rv : RotExact v i := by
    refine ⟨dotExact_of (Or.inl (by simp [i, v, dot3])), crossExact_of fun k => ?_⟩
    fin_cases k
    · left; simp [cross0, i, v]
    · left; simp [cross1, i, v]
    · right; refine (m1 _ _ mi).trans ?_; simp [cross2', i, v]
  have ev : (v.rotateQ i).elem = ![0, -3, 0] := by
    rw [rotateQ_elem, rv.1, rv.2]
    apply ext3 <;> simp [i, v, dot3, cross0, cross1, cross2']
  refine ⟨hi, hj, dotExact_of (Or.inl (by simp [i, j, dot3])), crossExact_of fun k => ?_, rv,
    ⟨dotExact_of (Or.inr ?_), crossExact_of fun k => Or.inl ?_⟩, fun h => ?_⟩
  · fin_cases k
    · left; simp [cross0, i, j]
    · left; simp [cross1, i, j]
    · right; refine (m1 _ _ mi).trans ?_; simp [cross2', i, j]
  · refine (m1 _ _ mj).trans ?_
    rw [ev]; simp [j, dot3]
  · rw [ev]; fin_cases k <;> simp [j, cross0, cross1, cross2']
  · have := congrFun h 1; simp [v] at this

/-! ### C37 equality -/

/-- C37: for a positive tolerance the answer is `true` exactly when both are valid and the quaternions, or one and the
negation of the other, agree in every component up to the tolerance. -/
theorem C37_iff (p q : Quat) (eps : ℝ) (he : 0 < eps) : ∃ b, p.isEqualTo q eps = some b ∧
    (b = true ↔ p.valid = true ∧ q.valid = true ∧
      ((|p.w - q.w| ≤ eps ∧ ∀ i, |p.vec.elem i - q.vec.elem i| ≤ eps) ∨
       (|p.w + q.w| ≤ eps ∧ ∀ i, |p.vec.elem i + q.vec.elem i| ≤ eps))) := by
  unfold Quat.isEqualTo
  rw [if_neg (not_not.2 he)]
  by_cases hv : (!q.valid || !p.valid) = true
  · rw [if_pos hv]
    refine ⟨false, rfl, ?_⟩
    simp only [Bool.or_eq_true, Bool.not_eq_true'] at hv
    constructor
    · intro h; cases h
    · rintro ⟨h1, h2, -⟩
      rcases hv with h | h
      · rw [h] at h2; cases h2
      · rw [h] at h1; cases h1
  rw [if_neg hv]
  have hv' : p.valid = true ∧ q.valid = true := by
    simp only [Bool.or_eq_true, Bool.not_eq_true', not_or, Bool.not_eq_false] at hv
    exact ⟨hv.2, hv.1⟩
  have e1 : ((List.finRange 3).all fun i => !decide (|p.vec.elem i - q.vec.elem i| > eps)) = true ↔
      ∀ i, |p.vec.elem i - q.vec.elem i| ≤ eps := by simp
  have e2 : ((List.finRange 3).all fun i => !decide (|p.vec.elem i + q.vec.elem i| > eps)) = true ↔
      ∀ i, |p.vec.elem i + q.vec.elem i| ≤ eps := by simp
  by_cases h1 : |p.w - q.w| ≤ eps ∧ ∀ i, |p.vec.elem i - q.vec.elem i| ≤ eps
  · rw [if_pos ⟨h1.1, e1.2 h1.2⟩]
    exact ⟨true, rfl, by simp [hv', h1]⟩
  rw [if_neg fun h => h1 ⟨h.1, e1.1 h.2⟩]
  by_cases h2 : |p.w + q.w| ≤ eps
  · rw [if_pos h2]
    refine ⟨_, rfl, ?_⟩
    rw [e2]
    constructor
    · exact fun h => ⟨hv'.1, hv'.2, Or.inr ⟨h2, h⟩⟩
    · rintro ⟨-, -, h | h⟩
      · exact absurd h h1
      · exact h.2
  · rw [if_neg h2]
    refine ⟨false, rfl, ?_⟩
    constructor
    · intro h; cases h
    · rintro ⟨-, -, h | h⟩
      · exact absurd h h1
      · exact absurd h.1 h2

/-- C37: reflexive on valid quaternions, accepts the negation, symmetric, false on invalid ones. -/
theorem C37_laws (p q : Quat) (eps : ℝ) (he : 0 < eps) :
    (p.valid = true → p.isEqualTo p eps = some true) ∧
    (p.valid = true → q.valid = true → toH q = -toH p → p.isEqualTo q eps = some true) ∧
    p.isEqualTo q eps = q.isEqualTo p eps ∧
    (p.valid = false ∨ q.valid = false → p.isEqualTo q eps = some false) := by
  refine ⟨fun h => ?_, fun hp hq h => ?_, ?_, fun h => ?_⟩
  · obtain ⟨b, hb, hi⟩ := C37_iff p p eps he
    rw [hb, hi.2 ⟨h, h, Or.inl ⟨by simpa using he.le, fun i => by simpa using he.le⟩⟩]
  · obtain ⟨b, hb, hi⟩ := C37_iff p q eps he
    have hw : q.w = -p.w := by have := congrArg QuaternionAlgebra.re h; simpa using this
    have hv : q.vec.elem = -p.vec.elem := by
      rw [← vecOf_toH, h, ← vecOf_toH]; apply ext3 <;> simp
    rw [hb, hi.2 ⟨hp, hq, Or.inr ⟨by rw [hw]; simpa using he.le, fun i => by rw [hv]; simpa using he.le⟩⟩]
  · obtain ⟨b, hb, hi⟩ := C37_iff p q eps he
    obtain ⟨c, hc, hj⟩ := C37_iff q p eps he
    rw [hb, hc]
    congr 1
    rw [Bool.eq_iff_iff, hi, hj]
    simp only [abs_sub_comm q.w, abs_sub_comm (q.vec.elem _), add_comm q.w, add_comm (q.vec.elem _)]
    tauto
  · obtain ⟨b, hb, hi⟩ := C37_iff p q eps he
    rw [hb]
    congr 1
    cases b
    · rfl
    · obtain ⟨h1, h2, -⟩ := hi.1 rfl
      rcases h with h | h
      · rw [h] at h1; cases h1
      · rw [h] at h2; cases h2

/-- C37 in particular: a quaternion equals its negation although they differ. -/
example : (⟨0, ⟨![1, 0, 0], true⟩, true, 1⟩ : Quat).isEqualTo ⟨0, ⟨![-1, 0, 0], true⟩, true, 1⟩ epsilon = some true :=
  (C37_laws _ _ _ epsilon_pos).2.1 rfl rfl (by ext <;> simp)

/-! ### C38 from one direction to another -/

/-- C38: the quaternion built from two vectors (whose inner and cross products are not flushed to 0) rotates the first
onto the direction of the second. -/
theorem C38_direction (q r : Quat) (a b : Vec 3) (hd : DotExact a b) (hc : CrossExact a b)
    (h : q.rotationFromTo a b = .ok r) (hr : r.valid = true) :
    ‖toH r‖ = 1 ∧ act (toH r) a.elem = (a.mag / b.mag) • b.elem := by
  unfold Quat.rotationFromTo at h
  simp only at h
  split at h
  · rw [← Except.ok.inj h] at hr; simp at hr
  · split at h
    · cases h
    · rename_i hm hp
      rw [← Except.ok.inj h]
      exact ⟨norm_fromTo hd hc hm hp _ _, act_fromTo hd hc hm hp _ _⟩

/-- C38 for the library's rotation of vectors: `from.rotate(q)` is `to` scaled to the length of `from`, up to the
cut-offs of the inner and cross products (at most `16 ε |from|`). -/
theorem C38_rotate (q r : Quat) (a b : Vec 3) (hd : DotExact a b) (hc : CrossExact a b)
    (h : q.rotationFromTo a b = .ok r) (hr : r.valid = true) :
    (a.rotateQ r - b.scale (a.mag / b.mag)).mag ≤ 16 * epsilon * a.mag ∧
    (RotExact a r → (a.rotateQ r).elem = (b.scale (a.mag / b.mag)).elem) := by
  obtain ⟨h1, h2⟩ := C38_direction q r a b hd hc h hr
  constructor
  · have := rotateQ_len (v := a) h1
    rw [h2] at this
    rw [mag_eq_len, Vec.sub_elem, Vec.scale_elem]
    exact this
  · intro he
    rw [rotateQ_exact h1 he, h2, Vec.scale_elem]

/-- C38: a valid quaternion is returned for valid vectors unless they are too short or opposite up to tolerance, and
the error is reported only for (long enough) vectors whose cosine is below `ε - 1`. No exactness is assumed. -/
theorem C38_outcome (q : Quat) (a b : Vec 3) :
    (∀ e, q.rotationFromTo a b = .error e →
      e = .colinear ∧ epsilon ≤ a.mag * b.mag ∧ (a.elem ⬝ᵥ b.elem) / (a.mag * b.mag) < -1 + epsilon) ∧
    (∀ r, q.rotationFromTo a b = .ok r →
      (r.valid = true ↔ a.valid = true ∧ b.valid = true ∧ epsilon ≤ a.mag * b.mag)) ∧
    (DotExact a b → epsilon ≤ a.mag * b.mag → (a.elem ⬝ᵥ b.elem) / (a.mag * b.mag) < -1 + epsilon →
      q.rotationFromTo a b = .error .colinear) := by
  have hmp : Real.sqrt (a.sqrMag * b.sqrMag) = a.mag * b.mag := by
    rw [Vec.mag, Vec.mag, Real.sqrt_mul (Vec.sqrMag_nonneg a)]
  unfold Quat.rotationFromTo
  simp only [hmp]
  refine ⟨fun e h => ?_, fun r h => ?_, fun hd hm hc => ?_⟩
  · split at h
    · cases h
    · split at h
      · rename_i hm hp
        refine ⟨(Except.error.inj h).symm, not_lt.1 hm, ?_⟩
        have he2 := epsilon_lt
        norm_num at he2
        rcases Vec.dot_cases a b with h' | h'
        · rw [← h']; linarith
        · rw [h'.1] at hp; simp at hp; linarith
      · cases h
  · split at h
    · rename_i hm
      rw [← Except.ok.inj h]
      simp only [Bool.false_eq_true, false_iff, not_and]
      intro _ _; exact not_le.2 hm
    · rename_i hm
      split at h
      · cases h
      · rw [← Except.ok.inj h]
        simp only [Bool.and_eq_true]
        exact ⟨fun hh => ⟨hh.1, hh.2, not_lt.1 hm⟩, fun hh => ⟨hh.1, hh.2.1⟩⟩
  · rw [if_neg (not_lt.2 hm), if_pos]
    rw [show a.dot b = a.elem ⬝ᵥ b.elem from hd]
    linarith

/-- C38 for the version with a fallback axis: opposite vectors are handled by a half turn about the axis, which takes
`from` to its opposite when the axis is perpendicular to it; otherwise the result is the same as without fallback. -/
theorem C38_fallback (q r : Quat) (a b f : Vec 3) :
    (q.rotationFromTo a b = .ok r → q.rotationFromToOr a b f = r) ∧
    (q.rotationFromTo a b = .error .colinear → epsilon ≤ f.mag → f.elem ⬝ᵥ a.elem = 0 →
      ‖toH (q.rotationFromToOr a b f)‖ = 1 ∧ act (toH (q.rotationFromToOr a b f)) a.elem = -a.elem) := by
  unfold Quat.rotationFromTo Quat.rotationFromToOr
  simp only
  constructor
  · intro h
    split at h
    · rw [if_pos (by assumption)]; exact Except.ok.inj h
    · split at h
      · cases h
      · rw [if_neg (by assumption), if_neg (by assumption)]; exact Except.ok.inj h
  · intro h hf h0
    split at h
    · cases h
    · split at h
      · rw [if_neg (by assumption), if_pos (by assumption)]
        unfold Quat.rotationAxis
        rw [if_neg (not_lt.2 hf)]
        have hn := norm_axisAngle (axis := f) (a := Real.pi) (not_lt.2 hf) f.valid 1
        refine ⟨hn, ?_⟩
        rw [act_formula (normSq_eq_one.2 hn), vecOf_toH]
        simp only [toH_re, Real.cos_pi_div_two, Vec.scale_elem, smul_dotProduct, h0, smul_zero, mul_zero, zero_smul, add_zero]
        module
      · cases h

/-- C38 applies to two perpendicular vectors of different lengths. -/
example : ∃ r, Quat.default.rotationFromTo ⟨![2, 0, 0], true⟩ ⟨![0, 3, 0], true⟩ = .ok r ∧ r.valid = true ∧
    DotExact ⟨![2, 0, 0], true⟩ ⟨![0, 3, 0], true⟩ ∧ CrossExact ⟨![2, 0, 0], true⟩ ⟨![0, 3, 0], true⟩ := by
  have he := epsilon_pos
  have he2 := epsilon_lt
  norm_num at he2
  have hd : DotExact (⟨![2, 0, 0], true⟩ : Vec 3) ⟨![0, 3, 0], true⟩ := dotExact_of (Or.inl (by simp [dot3]))
  have hm : (⟨![2, 0, 0], true⟩ : Vec 3).mag * (⟨![0, 3, 0], true⟩ : Vec 3).mag = 6 := by
    have h1 : (⟨![2, 0, 0], true⟩ : Vec 3).mag = 2 := by
      rw [Vec.mag, sqrMag3, Real.sqrt_eq_iff_mul_self_eq] <;> simp <;> norm_num
    have h2 : (⟨![0, 3, 0], true⟩ : Vec 3).mag = 3 := by
      rw [Vec.mag, sqrMag3, Real.sqrt_eq_iff_mul_self_eq] <;> simp <;> norm_num
    rw [h1, h2]; norm_num
  obtain ⟨o1, o2, -⟩ := C38_outcome Quat.default ⟨![2, 0, 0], true⟩ ⟨![0, 3, 0], true⟩
  cases hr : Quat.default.rotationFromTo ⟨![2, 0, 0], true⟩ ⟨![0, 3, 0], true⟩ with
  | error e =>
    obtain ⟨-, -, h⟩ := o1 e hr
    rw [hm] at h
    simp [dot3] at h; linarith
  | ok r =>
    refine ⟨r, rfl, (o2 r hr).2 ⟨rfl, rfl, by rw [hm]; linarith⟩, hd, crossExact_of fun k => ?_⟩
    fin_cases k
    · left; simp [cross0]
    · left; simp [cross1]
    · right
      have : maxAbs (![2, 0, 0] : Fin 3 → ℝ) ≤ 2 := maxAbs_le (by norm_num) (fun k => by fin_cases k <;> simp)
      have := min_le_left (maxAbs (![2, 0, 0] : Fin 3 → ℝ)) (maxAbs (![0, 3, 0] : Fin 3 → ℝ))
      simp [cross2']; nlinarith

/-! ### C39 renormalisation -/

/-- C39: one renormalisation keeps the direction and brings the norm strictly closer to 1 (unless it is 1). -/
theorem C39_step (q : Quat) (hq : toH q ≠ 0) :
    (∃ c : ℝ, 0 < c ∧ toH q.normalize = c • toH q) ∧ toH q.normalize ≠ 0 ∧
    (‖toH q‖ ≠ 1 → |‖toH q.normalize‖ - 1| < |‖toH q‖ - 1|) ∧ (‖toH q‖ = 1 → toH q.normalize = toH q) := by
  have hn : 0 < ‖toH q‖ := norm_pos_iff.2 hq
  refine ⟨⟨_, by positivity, toH_normalize q⟩, ?_, fun h1 => ?_, toH_normalize_unit⟩
  · rw [toH_normalize, smul_ne_zero_iff]; exact ⟨by positivity, hq⟩
  · rw [norm_normalize]
    generalize ‖toH q‖ = n at *
    have hd : 0 < n ^ 2 + 1 := by positivity
    rw [show 2 * n / (n ^ 2 + 1) - 1 = (n - 1) * (-((n - 1) / (n ^ 2 + 1))) by field_simp; ring, abs_mul]
    have h2 : |-((n - 1) / (n ^ 2 + 1))| < 1 := by
      rw [abs_neg, abs_div, abs_of_pos hd, div_lt_one hd, abs_lt]
      constructor <;> nlinarith [sq_nonneg (n - 1)]
    have h3 : 0 < |n - 1| := abs_pos.2 (sub_ne_zero.2 h1)
    nlinarith

/-- C39: repeated renormalisation of a nonzero quaternion converges to norm 1. -/
theorem C39_limit (q : Quat) (hq : toH q ≠ 0) :
    Filter.Tendsto (fun k => ‖toH (Quat.normalize^[k] q)‖) Filter.atTop (nhds 1) := by
  let n : Nat → ℝ := fun k => ‖toH (Quat.normalize^[k] q)‖
  have hstep : ∀ k, n (k + 1) = 2 * n k / (n k ^ 2 + 1) := by
    intro k; simp only [n]; rw [Function.iterate_succ_apply', norm_normalize]
  have hpos : ∀ k, 0 < n k := by
    intro k
    induction k with
    | zero => exact norm_pos_iff.2 hq
    | succ k ih => rw [hstep]; positivity
  have hle : ∀ k, n (k + 1) ≤ 1 := by
    intro k
    rw [hstep, div_le_one (by positivity)]; nlinarith [sq_nonneg (n k - 1)]
  have hsq : ∀ k, 1 - n (k + 1) ≤ (1 - n k) ^ 2 := by
    intro k
    rw [hstep]
    have hd : 0 < n k ^ 2 + 1 := by positivity
    rw [show 1 - 2 * n k / (n k ^ 2 + 1) = (1 - n k) ^ 2 / (n k ^ 2 + 1) by field_simp; ring]
    exact div_le_self (sq_nonneg _) (by nlinarith [sq_nonneg (n k)])
  have hgeo : ∀ k, 1 - n (k + 1) ≤ (1 - n 1) ^ (k + 1) := by
    intro k
    induction k with
    | zero => simp
    | succ k ih =>
      have h0 : 0 ≤ 1 - n (k + 1) := by linarith [hle k]
      have hr1 : 1 - n 1 < 1 := by linarith [hpos 1]
      have hr0 : 0 ≤ 1 - n 1 := by linarith [hle 0]
      calc 1 - n (k + 1 + 1) ≤ (1 - n (k + 1)) ^ 2 := hsq (k + 1)
        _ = (1 - n (k + 1)) * (1 - n (k + 1)) := pow_two _
        _ ≤ (1 - n 1) ^ (k + 1) * (1 - n 1) := by
            refine mul_le_mul ih (ih.trans ?_) h0 (pow_nonneg hr0 _)
            exact pow_le_of_le_one hr0 hr1.le (Nat.succ_ne_zero k)
        _ = (1 - n 1) ^ (k + 1 + 1) := by ring
  have hlim : Filter.Tendsto (fun k => (1 - n 1) ^ (k + 1)) Filter.atTop (nhds 0) := by
    refine (tendsto_pow_atTop_nhds_zero_of_lt_one (by linarith [hle 0]) (by linarith [hpos 1])).comp (Filter.tendsto_add_atTop_nat 1)
  have h1 : Filter.Tendsto (fun k => 1 - n (k + 1)) Filter.atTop (nhds 0) :=
    squeeze_zero (fun k => by linarith [hle k]) hgeo hlim
  have h2 : Filter.Tendsto (fun k => n (k + 1)) Filter.atTop (nhds 1) := by
    have := h1.const_sub 1
    simpa using this
  exact (Filter.tendsto_add_atTop_iff_nat 1).1 h2

/-- C39 applies to a quaternion far from unit norm. -/
example : toH ⟨3, ⟨![4, 0, 0], true⟩, true, 25⟩ ≠ 0 := by
  intro h; have := congrArg QuaternionAlgebra.re h; simp at this

/-! ### C83 a quaternion multiplied or divided by itself in place -/

/-- C83 fails: `q *= q` does not give `q*q`, and `q /= q` does not give `q/q` (which is the identity rotation). -/
theorem C83_false : ∃ q : Quat, q.valid = true ∧ ‖toH q‖ = 1 ∧ toH q.mulSelf ≠ toH (q.mul q) ∧
    toH (q.div q) = 1 ∧ toH q.divSelf ≠ 1 := by
  let q : Quat := ⟨3 / 5, ⟨![4 / 5, 0, 0], true⟩, true, 1⟩
  have he := epsilon_pos
  have he2 := epsilon_lt
  norm_num at he2
  have hn : ‖toH q‖ = 1 := norm_of_sq (by simp [q]; norm_num)
  have hm : maxAbs q.vec.elem ≤ 1 := maxAbs_le one_pos.le (fun k => by fin_cases k <;> simp [q]; norm_num [abs_of_pos])
  have hd : DotExact q.vec q.vec := dotExact_of (Or.inr (by
    rw [min_self]
    have : q.vec.elem ⬝ᵥ q.vec.elem = 16 / 25 := by simp [q, dot3]; norm_num
    rw [this, abs_of_pos (by norm_num)]; nlinarith))
  have hc : CrossExact q.vec q.vec := crossExact_of (fun k => Or.inl (by
    rw [cross_self]; rfl))
  have hp : q.prepare q = ⟨3 / 5, ⟨![4 / 5, 0, 0], true⟩, true, 2⟩ := by
    simp [Quat.prepare, Quat.checkNormalization, q, maxNormAge]
  have hdv : q.vec.dot q.vec = 16 / 25 := by rw [hd]; simp [q, dot3]; norm_num
  refine ⟨q, rfl, hn, fun h => ?_, ?_, fun h => ?_⟩
  · rw [toH_mul_exact hn hd hc] at h
    have h1 := congrArg QuaternionAlgebra.imI h
    have hce : (cross3 q.vec q.vec).elem 0 = 0 := by rw [hc, cross_self]; rfl
    have e : (q.mulSelf).vec.elem 0 = 4 / 5 * (3 / 5) + 4 / 5 * (3 / 5 * (3 / 5) - 16 / 25) := by
      unfold Quat.mulSelf
      simp only [hp]
      change 4 / 5 * (3 / 5) + 4 / 5 * (3 / 5 * (3 / 5) - q.vec.dot q.vec) - (cross3 q.vec q.vec).elem 0 = _
      rw [hdv, hce, sub_zero]
    rw [toH_imI, e] at h1
    simp [q] at h1
    norm_num at h1
  · rw [toH_div_exact hn hd hc, star_mul_unit (normSq_eq_one.2 hn)]
  · have h1 := congrArg QuaternionAlgebra.imI h
    have hce : (cross3 q.vec q.vec).elem 0 = 0 := by rw [hc, cross_self]; rfl
    have e : (q.divSelf).vec.elem 0 = 4 / 5 * (3 / 5 * (3 / 5) + 16 / 25) - 4 / 5 * (3 / 5) := by
      unfold Quat.divSelf
      simp only [hp]
      change 4 / 5 * (3 / 5 * (3 / 5) + q.vec.dot q.vec) - 4 / 5 * (3 / 5) + (cross3 q.vec q.vec).elem 0 = _
      rw [hdv, hce, add_zero]
    rw [toH_imI, e] at h1
    norm_num at h1

/-- C83, the part that holds: for a unit quaternion the scalar part, the validity and the age are those of `q*q`
(`q/q`). The vector part is wrong in general. -/
theorem C83_partial (q : Quat) (hq : ‖toH q‖ = 1) :
    q.mulSelf.w = (q.mul q).w ∧ q.mulSelf.valid = (q.mul q).valid ∧ q.mulSelf.age = (q.mul q).age ∧
    q.divSelf.w = (q.div q).w ∧ q.divSelf.valid = (q.div q).valid ∧ q.divSelf.age = (q.div q).age := by
  obtain ⟨h1, h2⟩ := prepare_unit (rhs := q) hq
  have h3 := dot_congr (u := (q.prepare q).vec) (v := (q.prepare q).vec) (u' := (q.prepare q).vec) (v' := q.vec) rfl h2
  refine ⟨?_, rfl, rfl, ?_, rfl, rfl⟩
  · simp only [Quat.mulSelf, Quat.mul, h1, h3]
  · simp only [Quat.divSelf, Quat.div, h1, h3]

end WFMath
