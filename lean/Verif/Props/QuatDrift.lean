/- Property theorem C113: what renormalisation does for the norm of quaternions in long computations. -/
import Verif.Props.Quaternion

namespace WFMath
open Spec Matrix Gauss Quaternion
open scoped Quaternion

/-! ### A history that defeats the age counter -/

/-- A quaternion without vector part. -/
def scalarQ (w : ℝ) (a : Nat) : Quat := ⟨w, ⟨0, true⟩, true, a⟩

theorem cross3_zero_vec : cross3 (⟨0, true⟩ : Vec 3) ⟨0, true⟩ = ⟨0, true⟩ := by
  have : (cross3 (⟨0, true⟩ : Vec 3) ⟨0, true⟩).elem = 0 := by funext i; fin_cases i <;> simp [cross3]
  exact Vec.ext this (by simp [cross3])

theorem scalarQ_raw (w w' : ℝ) (a : Nat) :
    (⟨w * w' - (⟨0, true⟩ : Vec 3).dot ⟨0, true⟩,
      (⟨0, true⟩ : Vec 3).scale w + (⟨0, true⟩ : Vec 3).scale w' - cross3 ⟨0, true⟩ ⟨0, true⟩, true, a⟩ : Quat) = scalarQ (w * w') a := by
  rw [Vec.dot_of_zero_left rfl, cross3_zero_vec]
  unfold scalarQ
  congr 1
  · ring
  · apply Vec.ext
    · funext i; simp
    · simp

theorem scalarQ_mul {a b : Nat} (h : a + b < 20) (w w' : ℝ) : (scalarQ w a).mul (scalarQ w' b) = scalarQ (w * w') (a + b) := by
  have hp : (scalarQ w a).prepare (scalarQ w' b) = scalarQ w (a + b) := by
    unfold Quat.prepare Quat.checkNormalization scalarQ
    rw [if_neg]; · rfl
    · simp [maxNormAge]; omega
  unfold Quat.mul
  rw [hp]
  exact scalarQ_raw w w' (a + b)

theorem scalarQ_fresh {a b : Nat} (h : 20 ≤ a + b) (w' : ℝ) : (scalarQ 1 a).mul (scalarQ w' b) = scalarQ w' 1 := by
  have hp : (scalarQ 1 a).prepare (scalarQ w' b) = scalarQ 1 1 := by
    unfold Quat.prepare Quat.checkNormalization scalarQ
    rw [if_pos ⟨by simp [maxNormAge]; omega, rfl⟩]
    unfold Quat.normalize
    have hs : (⟨0, true⟩ : Vec 3).sqrMag = 0 := by simp [Vec.sqrMag]
    simp only [hs]
    congr 1
    · norm_num
    · apply Vec.ext
      · funext i; simp [Vec.divBy]
      · simp [Vec.divBy]
  unfold Quat.mul
  rw [hp]
  have := scalarQ_raw 1 w' 1
  rw [show scalarQ (1 * w') 1 = scalarQ w' 1 by rw [one_mul]] at this
  exact this

theorem eval_mul (L : Limits) {s t : QTerm} {p q : Quat} (hs : s.eval L = some p) (ht : t.eval L = some q) :
    (QTerm.mul s t).eval L = some (p.mul q) := by
  simp [QTerm.eval, hs, ht]

/-- The product of `k` copies. -/
def timesQ (t : QTerm) : Nat → QTerm
  | 0 => .identity
  | k + 1 => .mul (timesQ t k) t

theorem times_eval (L : Limits) {t : QTerm} {w : ℝ} {a : Nat} (ht : t.eval L = some (scalarQ w a)) :
    ∀ k, a * k < 20 → (timesQ t k).eval L = some (scalarQ (w ^ k) (a * k))
  | 0, _ => by
    show some Quat.identity = _
    rw [pow_zero, mul_zero]; rfl
  | k + 1, h => by
    have hk : a * k < 20 := lt_of_le_of_lt (Nat.mul_le_mul_left a (Nat.le_succ k)) h
    have := times_eval L ht k hk
    refine (eval_mul L this ht).trans ?_
    rw [scalarQ_mul (by rw [← Nat.mul_succ]; exact h), ← pow_succ, ← Nat.mul_succ]

theorem times_sound {t : QTerm} (ht : t.Sound) : ∀ k, (timesQ t k).Sound
  | 0 => trivial
  | k + 1 => ⟨times_sound ht k, ht⟩

/-- The turn by no angle, with age 1. -/
def still : QTerm := .rotationIdx 0 0

theorem still_eval (L : Limits) : still.eval L = some (scalarQ 1 1) := by
  show some (Quat.default.rotationIdx 0 0) = _
  unfold Quat.rotationIdx scalarQ
  simp
  rfl

/-- Dividing a tiny turn by itself gives a quaternion without vector part of norm less than 1. -/
theorem tiny_quotient (L : Limits) : ∃ (t : QTerm) (c : ℝ), t.Sound ∧ 0 < c ∧ c < 1 ∧ t.eval L = some (scalarQ c 2) := by
  have he := epsilon_pos
  have he2 := epsilon_lt
  norm_num at he2
  let leaf : QTerm := .ofComponents 1 (epsilon / 4) 0 0
  have hsound : leaf.Sound := fun h => one_ne_zero h.1
  have hn : ‖toH (Quat.ofComponents 1 (epsilon / 4) 0 0)‖ = 1 := norm_ofComponents (fun h => one_ne_zero h.1)
  obtain ⟨w, x, hpe, hw0, hx0, hx1⟩ : ∃ w x, Quat.ofComponents 1 (epsilon / 4) 0 0 = ⟨w, ⟨![x, 0, 0], true⟩, true, 1⟩ ∧ 0 < w ∧ 0 < x ∧ x ≤ epsilon / 4 := by
    refine ⟨1 / √(1 * 1 + epsilon / 4 * (epsilon / 4) + 0 * 0 + 0 * 0),
      epsilon / 4 / √(1 * 1 + epsilon / 4 * (epsilon / 4) + 0 * 0 + 0 * 0),
      by rw [Quat.ofComponents]; simp only [zero_div], ?_, ?_, ?_⟩
    · exact div_pos one_pos (Real.sqrt_pos.2 (by positivity))
    · exact div_pos (by linarith) (Real.sqrt_pos.2 (by positivity))
    · refine div_le_self (by linarith) ?_
      rw [Real.one_le_sqrt]; nlinarith [sq_nonneg epsilon]
  have hw : w ^ 2 + x ^ 2 = 1 := by
    have := sq_of_norm hn
    rw [hpe] at this; simpa using this
  have hmax : maxAbs ![x, 0, 0] = |x| := by
    refine le_antisymm (maxAbs_le (abs_nonneg x) fun i => ?_) (le_maxAbs ![x, 0, 0] (0 : Fin 3))
    fin_cases i <;> simp
  have hdot : (⟨![x, 0, 0], true⟩ : Vec 3).dot ⟨![x, 0, 0], true⟩ = 0 := by
    simp only [Vec.dot]
    have hd : epsilon * |x| ≤ scaleEpsilonArr ![x, 0, 0] ![x, 0, 0] epsilon := by
      have h := le_scaleEpsilonArr (x := ![x, 0, 0]) (y := ![x, 0, 0]) (e := epsilon) he.le
      rw [hmax, min_self] at h
      linarith
    rw [if_neg]
    rw [Fin.sum_univ_three]
    simp only [Matrix.cons_val_zero, Matrix.cons_val_one, Matrix.cons_val, mul_zero, add_zero, ge_iff_le, not_le]
    refine lt_of_lt_of_le ?_ hd
    rw [abs_mul, abs_of_pos hx0]
    nlinarith
  have hcross : (cross3 (⟨![x, 0, 0], true⟩ : Vec 3) ⟨![x, 0, 0], true⟩).elem = 0 := by
    funext i; fin_cases i <;> simp [cross3] <;> (intro; ring)
  refine ⟨.div leaf leaf, w * w, ⟨hsound, hsound⟩, mul_pos hw0 hw0, by nlinarith [sq_pos_of_pos hx0], ?_⟩
  show some ((Quat.ofComponents 1 (epsilon / 4) 0 0).div (Quat.ofComponents 1 (epsilon / 4) 0 0)) = _
  rw [hpe]
  have hprep : (⟨w, ⟨![x, 0, 0], true⟩, true, 1⟩ : Quat).prepare ⟨w, ⟨![x, 0, 0], true⟩, true, 1⟩ = ⟨w, ⟨![x, 0, 0], true⟩, true, 2⟩ := by
    simp [Quat.prepare, Quat.checkNormalization, maxNormAge]
  unfold Quat.div
  rw [hprep]
  unfold scalarQ
  simp only [hdot, add_zero]
  congr 2
  apply Vec.ext
  · funext i; simp [hcross]
  · simp [cross3]

/-- Multiplying a fresh quaternion by an old one gives a quaternion that counts as fresh but has the norm of the old one: the age counter starts anew
while the error of the right operand stays. Nineteen factors per round make any error grow without bound. -/
theorem laundered (L : Limits) : ∃ c : ℝ, 0 < c ∧ c < 1 ∧ ∀ k : Nat, ∃ t : QTerm, t.Sound ∧ t.eval L = some (scalarQ (c ^ 19 ^ k) 1) := by
  obtain ⟨t, c, hs, c0, c1, ht⟩ := tiny_quotient L
  refine ⟨c ^ 9, pow_pos c0 _, pow_lt_one₀ c0.le c1 (by norm_num), fun k => ?_⟩
  have hstill : still.Sound := trivial
  induction k with
  | zero =>
    refine ⟨.mul still (.mul still (timesQ t 9)), ⟨hstill, hstill, times_sound hs 9⟩, ?_⟩
    refine (eval_mul L (still_eval L) (eval_mul L (still_eval L) (times_eval L ht 9 (by norm_num)))).trans ?_
    rw [scalarQ_mul (by norm_num), scalarQ_fresh (by norm_num), one_mul, pow_zero, pow_one]
  | succ k ih =>
    obtain ⟨u, hu, hue⟩ := ih
    refine ⟨.mul still (timesQ u 19), ⟨hstill, times_sound hu 19⟩, ?_⟩
    refine (eval_mul L (still_eval L) (times_eval L hue 19 (by norm_num))).trans ?_
    rw [scalarQ_fresh (by norm_num), ← pow_mul, ← pow_succ]

/-- C113 is false in general: for every bound there is a history of multiplications, starting from unit quaternions, whose result is valid, has age 1 and a norm below the bound. -/
theorem C113_false (L : Limits) (δ : ℝ) (hδ : 0 < δ) : ∃ (t : QTerm) (q : Quat), t.Sound ∧ t.eval L = some q ∧ q.valid = true ∧ q.age = 1 ∧ ‖toH q‖ < δ := by
  obtain ⟨c, c0, c1, h⟩ := laundered L
  obtain ⟨n, hn⟩ := exists_pow_lt_of_lt_one hδ c1
  obtain ⟨t, hs, ht⟩ := h n
  refine ⟨t, _, hs, ht, rfl, rfl, ?_⟩
  have e : ∀ x : ℝ, toH (scalarQ x 1) = (x : ℍ[ℝ]) := by intro x; ext <;> simp [toH, scalarQ]
  rw [e, Quaternion.norm_coe, Real.norm_eq_abs, abs_of_pos (pow_pos c0 _)]
  exact lt_of_le_of_lt (pow_le_pow_of_le_one c0.le c1.le (Nat.lt_pow_self (by norm_num)).le) hn

/-! ### Running products -/

/-- The quaternions that a program can hold which starts from a unit quaternion and multiplies or divides it, again and again, by quaternions of norm at least `1 - η` and at most
`1 + η` and age at least 1 (that is any but the identity, which changes nothing), with calls of `inverse()` and `normalize()` in between. -/
inductive Running (η : ℝ) : Quat → Prop
  | start (q : Quat) : q.valid = true → ‖toH q‖ = 1 → q.age ≤ 1 → Running η q
  | mul (q r : Quat) : Running η q → r.valid = true → |‖toH r‖ - 1| ≤ η → 1 ≤ r.age → Running η (q.mul r)
  | div (q r : Quat) : Running η q → r.valid = true → |‖toH r‖ - 1| ≤ η → 1 ≤ r.age → Running η (q.div r)
  | mulIdentity (q : Quat) : Running η q → Running η (q.mul Quat.identity)
  | inverse (q : Quat) : Running η q → Running η q.inverse
  | normalize (q : Quat) : Running η q → Running η q.normalize

theorem normalize_near {n e : ℝ} (h0 : 0 ≤ n) (h : |n - 1| ≤ e) : |2 * n / (n ^ 2 + 1) - 1| ≤ e ^ 2 := by
  have hd : 0 < n ^ 2 + 1 := by positivity
  have hq : 2 * n / (n ^ 2 + 1) - 1 = -((n - 1) ^ 2 / (n ^ 2 + 1)) := by field_simp; ring
  rw [hq, abs_neg, abs_of_nonneg (by positivity)]
  refine (div_le_self (sq_nonneg _) (by nlinarith)).trans ?_
  rw [← sq_abs]
  exact pow_le_pow_left₀ (abs_nonneg _) h 2

/-- The norm of a product against the norm of the left operand as it was just before the multiplication. -/
theorem mul_norm_near {η : ℝ} (p r : Quat) (hr : |‖toH r‖ - 1| ≤ η) :
    |‖toH (p.mul r)‖ - ‖toH (p.prepare r)‖| ≤ (η + 4 * epsilon) * ‖toH (p.prepare r)‖ ∧
    |‖toH (p.div r)‖ - ‖toH (p.prepare r)‖| ≤ (η + 4 * epsilon) * ‖toH (p.prepare r)‖ := by
  have he := epsilon_pos
  have hn := norm_nonneg (toH (p.prepare r))
  have hmin : 4 * epsilon * min ‖toH (p.prepare r)‖ ‖toH r‖ ≤ 4 * epsilon * ‖toH (p.prepare r)‖ :=
    mul_le_mul_of_nonneg_left (min_le_left _ _) (by linarith)
  have h3 : |‖toH r‖ * ‖toH (p.prepare r)‖ - ‖toH (p.prepare r)‖| ≤ η * ‖toH (p.prepare r)‖ := by
    rw [show ‖toH r‖ * ‖toH (p.prepare r)‖ - ‖toH (p.prepare r)‖ = (‖toH r‖ - 1) * ‖toH (p.prepare r)‖ by ring, abs_mul, abs_of_nonneg hn]
    exact mul_le_mul_of_nonneg_right hr hn
  have h1 := (abs_norm_sub_norm_le _ _).trans (rawMul_err (p.prepare r) r)
  have h2 := (abs_norm_sub_norm_le _ _).trans (rawDiv_err (p.prepare r) r)
  rw [norm_mul] at h1 h2
  rw [norm_star] at h2
  rw [toH_mul, toH_div]
  constructor
  · have := abs_sub_le ‖rawMul (p.prepare r) r‖ (‖toH r‖ * ‖toH (p.prepare r)‖) ‖toH (p.prepare r)‖
    linarith
  · have := abs_sub_le ‖rawDiv (p.prepare r) r‖ (‖toH r‖ * ‖toH (p.prepare r)‖) ‖toH (p.prepare r)‖
    linarith

/-- One product of a running computation. -/
theorem running_step {e n' : ℝ} {q r : Quat} (he : 0 ≤ e) (he1 : 2000 * e ≤ 1) (hv : q.valid = true) (hrv : r.valid = true) (ha : q.age ≤ 19) (hb : 1 ≤ r.age)
    (hn : |‖toH q‖ - 1| ≤ 2 * e * q.age) (hn' : |n' - ‖toH (q.prepare r)‖| ≤ e * ‖toH (q.prepare r)‖) :
    (q.prepare r).valid = true ∧ (q.prepare r).age ≤ 19 ∧ |n' - 1| ≤ 2 * e * (q.prepare r).age := by
  have ha' : (q.age : ℝ) ≤ 19 := by exact_mod_cast ha
  have hb' : (1 : ℝ) ≤ r.age := by exact_mod_cast hb
  have hq0 := norm_nonneg (toH q)
  have h38 : |‖toH q‖ - 1| ≤ 38 * e := hn.trans (by nlinarith)
  by_cases hs : q.age + r.age ≥ maxNormAge
  · have hp : q.prepare r = (⟨q.w, q.vec, true, q.age + r.age⟩ : Quat).normalize := by
      unfold Quat.prepare Quat.checkNormalization
      rw [hv, hrv, if_pos ⟨hs, rfl⟩]; rfl
    have hN : ‖toH (q.prepare r)‖ = 2 * ‖toH q‖ / (‖toH q‖ ^ 2 + 1) := by
      rw [hp, norm_normalize]; rfl
    have h1 := normalize_near hq0 h38
    rw [← hN] at h1
    have hpa : (q.prepare r).age = 1 := by rw [hp]; rfl
    refine ⟨by rw [hp]; rfl, by omega, ?_⟩
    rw [hpa]
    generalize ‖toH (q.prepare r)‖ = m at *
    have h2 := abs_le.1 h1
    have h3 := abs_sub_le n' m 1
    have h4 : m ≤ 1 + (38 * e) ^ 2 := by linarith
    have h5 : (38 * e) ^ 2 ≤ 1444 / 2000 * e := by nlinarith
    have h6 : e * m ≤ e * (1 + 1444 / 2000 * e) := mul_le_mul_of_nonneg_left (by linarith) he
    have h7 : e * e ≤ e / 2000 := by nlinarith
    have h8 : e * (1 + 1444 / 2000 * e) = e + 1444 / 2000 * (e * e) := by ring
    rw [h8] at h6
    push_cast
    linarith
  · have hp : q.prepare r = ⟨q.w, q.vec, true, q.age + r.age⟩ := by
      unfold Quat.prepare Quat.checkNormalization
      rw [hv, hrv, if_neg (fun h => hs h.1)]; rfl
    have hN : ‖toH (q.prepare r)‖ = ‖toH q‖ := by rw [hp]; rfl
    rw [hN] at hn'
    rw [hp]
    have hs' : q.age + r.age ≤ 19 := by unfold maxNormAge at hs; omega
    refine ⟨rfl, hs', ?_⟩
    show |n' - 1| ≤ 2 * e * ((q.age + r.age : Nat) : ℝ)
    push_cast
    generalize ‖toH q‖ = m at *
    have h2 := abs_le.1 h38
    have h3 := abs_sub_le n' m 1
    have h6 : e * m ≤ e * (1 + 38 * e) := mul_le_mul_of_nonneg_left (by linarith) he
    nlinarith

/-- C113, running products: when a quaternion of norm 1 is multiplied or divided, any number of times, by quaternions whose norm is within `η` of 1, its norm stays within
`38 (η + 4 ε)` of 1: the number of steps does not matter. Missing compared to the property: right operands that are themselves results of long computations (`C113_false`). -/
theorem C113_running_partial (η : ℝ) (h0 : 0 ≤ η) (h1 : 2000 * (η + 4 * epsilon) ≤ 1) (q : Quat) (h : Running η q) :
    q.valid = true ∧ |‖toH q‖ - 1| ≤ 38 * (η + 4 * epsilon) := by
  have hpos := epsilon_pos
  have he : 0 ≤ η + 4 * epsilon := by linarith
  suffices hI : q.valid = true ∧ q.age ≤ 19 ∧ |‖toH q‖ - 1| ≤ 2 * (η + 4 * epsilon) * q.age by
    refine ⟨hI.1, hI.2.2.trans ?_⟩
    have : (q.age : ℝ) ≤ 19 := by exact_mod_cast hI.2.1
    nlinarith
  induction h with
  | start q hv hn ha =>
    refine ⟨hv, by omega, ?_⟩
    rw [hn, sub_self, abs_zero]; positivity
  | mul q r _ hrv hr hb ih =>
    exact running_step he h1 ih.1 hrv ih.2.1 hb ih.2.2 (mul_norm_near q r hr).1
  | div q r _ hrv hr hb ih =>
    exact running_step he h1 ih.1 hrv ih.2.1 hb ih.2.2 (mul_norm_near q r hr).2
  | mulIdentity q _ ih =>
    obtain ⟨hv, ha, hn⟩ := ih
    have hp : q.prepare Quat.identity = q := by
      unfold Quat.prepare Quat.checkNormalization
      rw [if_neg]
      · show (⟨q.w, q.vec, q.valid && true, q.age + 0⟩ : Quat) = q
        rw [Bool.and_true]; rfl
      · rintro ⟨h, -⟩
        have : maxNormAge ≤ q.age := h
        unfold maxNormAge at this; omega
    have hd : q.vec.dot Quat.identity.vec = 0 := Vec.dot_of_zero_right rfl
    have hc : (cross3 q.vec Quat.identity.vec).elem = 0 := by
      funext i; fin_cases i <;> simp [cross3, Quat.identity, Vec.zero]
    have hm : toH (q.mul Quat.identity) = toH q := by
      rw [toH_mul, hp]
      unfold rawMul
      rw [hd]
      have h0 := congrFun hc 0
      have h1 := congrFun hc 1
      have h2 := congrFun hc 2
      have hz : Quat.identity.vec.elem = 0 := rfl
      have hw : Quat.identity.w = 1 := rfl
      ext <;> simp [toH, hz, hw, h0, h1, h2]
    have ha' : (q.mul Quat.identity).age = q.age := by
      show (q.prepare Quat.identity).age = _
      rw [hp]
    have hv' : (q.mul Quat.identity).valid = q.valid := by
      show (q.prepare Quat.identity).valid = _
      rw [hp]
    rw [hm, ha', hv']
    exact ⟨hv, ha, hn⟩
  | inverse q _ ih =>
    rw [toH_inverse, _root_.norm_star]
    exact ih
  | normalize q _ ih =>
    obtain ⟨hv, ha, hn⟩ := ih
    have ha' : (q.age : ℝ) ≤ 19 := by exact_mod_cast ha
    refine ⟨hv, by show 1 ≤ 19; norm_num, ?_⟩
    rw [norm_normalize]
    have := normalize_near (e := 38 * (η + 4 * epsilon)) (norm_nonneg (toH q)) (hn.trans (by nlinarith))
    show _ ≤ 2 * (η + 4 * epsilon) * ((1 : Nat) : ℝ)
    push_cast
    nlinarith

/-- A computation that turns by one radian about the third axis, again and again: at every step its norm is within `152 ε` of 1. -/
example (k : Nat) : |‖toH ((fun q => Quat.mul q (Quat.default.rotationIdx 2 1))^[k] Quat.identity)‖ - 1| ≤ 152 * epsilon := by
  have he2 := epsilon_lt
  norm_num at he2
  have hr : ‖toH (Quat.default.rotationIdx 2 1)‖ = 1 := norm_rotationIdx rfl (by simp [Quat.rotationIdx])
  have hrun : ∀ k, Running 0 ((fun q => Quat.mul q (Quat.default.rotationIdx 2 1))^[k] Quat.identity) := by
    intro k
    induction k with
    | zero => exact Running.start _ rfl norm_identity (by simp [Quat.identity])
    | succ k ih =>
      rw [Function.iterate_succ_apply']
      exact Running.mul _ _ ih (by simp [Quat.rotationIdx]) (by rw [hr]; simp) (by simp [Quat.rotationIdx])
  have := (C113_running_partial 0 le_rfl (by linarith) _ (hrun k)).2
  linarith

end WFMath
