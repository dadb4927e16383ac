/- Property theorems C122: products of quaternions in floating point arithmetic. -/
import Verif.Props.RoundVector
import Verif.Props.QuatDrift

namespace WFMath
open Spec Matrix Gauss Quaternion
open WFMath.Spec.Rounding (u)

namespace Fl

/-- A rounded sum of two numbers that are off. -/
theorem err_add (r : Rounding 53) {a' a b' b α β A B : ℝ} (ha : |a' - a| ≤ α) (hb : |b' - b| ≤ β) (hA : |a| ≤ A) (hB : |b| ≤ B) :
    |r (a' + b') - (a + b)| ≤ α + β + 2 ^ (-53 : ℤ) * (A + B + α + β) := by
  have h := r.err pos53 (a' + b')
  rw [u53] at h
  have h1 : |a' + b' - (a + b)| ≤ α + β := by
    rw [show a' + b' - (a + b) = (a' - a) + (b' - b) by ring]; exact (abs_add_le _ _).trans (add_le_add ha hb)
  have h2 : |a' + b'| ≤ A + B + α + β := by
    have := abs_sub_abs_le_abs_sub (a' + b') (a + b)
    have := abs_add_le a b
    linarith
  have h3 := abs_sub_le (r (a' + b')) (a' + b') (a + b)
  have h4 := mul_le_mul_of_nonneg_left h2 (by positivity : (0 : ℝ) ≤ 2 ^ (-53 : ℤ))
  linarith

theorem err_sub (r : Rounding 53) {a' a b' b α β A B : ℝ} (ha : |a' - a| ≤ α) (hb : |b' - b| ≤ β) (hA : |a| ≤ A) (hB : |b| ≤ B) :
    |r (a' - b') - (a - b)| ≤ α + β + 2 ^ (-53 : ℤ) * (A + B + α + β) := by
  have := err_add r ha (b' := -b') (b := -b) (β := β) (by rwa [neg_sub_neg, abs_sub_comm]) hA (B := B) (by rwa [abs_neg])
  rwa [← sub_eq_add_neg, ← sub_eq_add_neg] at this

/-- A rounded product of two numbers that are off. -/
theorem err_mul (r : Rounding 53) {a' a b' b α β A B : ℝ} (ha : |a' - a| ≤ α) (hb : |b' - b| ≤ β) (hA : |a| ≤ A) (hB : |b| ≤ B) :
    |r (a' * b') - a * b| ≤ (α * B + A * β + α * β) + 2 ^ (-53 : ℤ) * (A * B + (α * B + A * β + α * β)) := by
  have h := r.err pos53 (a' * b')
  rw [u53] at h
  have hα := (abs_nonneg _).trans ha
  have hβ := (abs_nonneg _).trans hb
  have hA0 := (abs_nonneg _).trans hA
  have hB0 := (abs_nonneg _).trans hB
  have h1 : |a' * b' - a * b| ≤ α * B + A * β + α * β := by
    rw [show a' * b' - a * b = (a' - a) * b + a * (b' - b) + (a' - a) * (b' - b) by ring]
    refine (abs_add_le _ _).trans (add_le_add ((abs_add_le _ _).trans (add_le_add ?_ ?_)) ?_)
    · rw [abs_mul]; exact mul_le_mul ha hB (abs_nonneg _) hα
    · rw [abs_mul]; exact mul_le_mul hA hb (abs_nonneg _) hA0
    · rw [abs_mul]; exact mul_le_mul ha hb (abs_nonneg _) hα
  have h2 : |a' * b'| ≤ A * B + (α * B + A * β + α * β) := by
    have h3 := abs_sub_abs_le_abs_sub (a' * b') (a * b)
    have h4 : |a * b| ≤ A * B := by rw [abs_mul]; exact mul_le_mul hA hB (abs_nonneg _) hA0
    linarith
  have h3 := abs_sub_le (r (a' * b')) (a' * b') (a * b)
  have h4 := mul_le_mul_of_nonneg_left h2 (by positivity : (0 : ℝ) ≤ 2 ^ (-53 : ℤ))
  linarith

/-- A rounded product of two numbers. -/
theorem err_mul' (r : Rounding 53) {a b M : ℝ} (h : |a| * |b| ≤ M) : |r (a * b) - a * b| ≤ 2 ^ (-53 : ℤ) * M := by
  have := r.err pos53 (a * b)
  rw [u53, abs_mul] at this
  exact this.trans (mul_le_mul_of_nonneg_left h (by positivity))

/-- The computed inner product of the vector parts. -/
theorem dot_off (r : Rounding 53) (a b : Vec 3) {P Q : ℝ} (ha : len a.elem ≤ P) (hb : len b.elem ≤ Q) :
    |dot r a b - a.elem ⬝ᵥ b.elem| ≤ 4 * 2 ^ (-52 : ℤ) * (P * Q) + 2 * epsilon * min P Q := by
  have hP := (len_nonneg _).trans ha
  have hQ := (len_nonneg _).trans hb
  have hz : (0 : ℝ) ≤ 2 ^ (-52 : ℤ) := by positivity
  have hs : ∑ i, |a.elem i * b.elem i| ≤ P * Q := by
    have h1 : ∑ i, |a.elem i * b.elem i| = (fun i => |a.elem i|) ⬝ᵥ fun i => |b.elem i| := by
      unfold dotProduct; exact Finset.sum_congr rfl fun i _ => abs_mul _ _
    have h2 := abs_dot_le_len (fun i => |a.elem i|) fun i => |b.elem i|
    have h3 : ∀ x : Fin 3 → ℝ, len (fun i => |x i|) = len x := fun x => by
      unfold len dotProduct; congr 1; exact Finset.sum_congr rfl fun i _ => abs_mul_abs_self _
    rw [h3, h3] at h2
    rw [h1]
    exact (le_abs_self _).trans (h2.trans (mul_le_mul ha hb (len_nonneg _) hP))
  have hm : min (maxAbs a.elem) (maxAbs b.elem) ≤ min P Q := by
    refine min_le_min ?_ ?_
    · exact (maxAbs_le (len_nonneg _) fun i => abs_le_len _ i).trans ha
    · exact (maxAbs_le (len_nonneg _) fun i => abs_le_len _ i).trans hb
  have he := epsilon_pos
  have hm0 : 0 ≤ min P Q := le_min hP hQ
  have h4 : ((3 : ℕ) + 1 : ℝ) * 2 ^ (-52 : ℤ) * ∑ i, |a.elem i * b.elem i| ≤ 4 * 2 ^ (-52 : ℤ) * (P * Q) := by
    refine mul_le_mul (by norm_num) hs (Finset.sum_nonneg fun i _ => abs_nonneg _) (by positivity)
  have h5 := mul_le_mul_of_nonneg_left hm (by linarith : 0 ≤ 2 * epsilon)
  rcases C118_dot r a b (by norm_num) with h | ⟨h, h'⟩
  · have : 0 ≤ 2 * epsilon * min P Q := by positivity
    linarith
  · rw [h, zero_sub, abs_neg]; linarith

theorem cross_off (r : Rounding 53) (a b : Vec 3) {P Q : ℝ} (ha : len a.elem ≤ P) (hb : len b.elem ≤ Q) (i : Fin 3) :
    |(cross3 r a b).elem i - (a.elem ⨯₃ b.elem) i| ≤ 4 * 2 ^ (-52 : ℤ) * (P * Q) + 2 * epsilon * min P Q := by
  have hP := (len_nonneg _).trans ha
  have hQ := (len_nonneg _).trans hb
  have ha' : maxAbs a.elem ≤ P := (maxAbs_le (len_nonneg _) fun i => abs_le_len _ i).trans ha
  have hb' : maxAbs b.elem ≤ Q := (maxAbs_le (len_nonneg _) fun i => abs_le_len _ i).trans hb
  have hm := min_le_min ha' hb'
  have he := epsilon_pos
  have h5 := mul_le_mul_of_nonneg_left hm (by linarith : 0 ≤ 2 * epsilon)
  have h6 := mul_le_mul ha' hb' (maxAbs_nonneg _) hP
  have h7 : (2 : ℝ) ^ (-50 : ℤ) * (maxAbs a.elem * maxAbs b.elem) ≤ 4 * 2 ^ (-52 : ℤ) * (P * Q) :=
    mul_le_mul (by norm_num) h6 (mul_nonneg (maxAbs_nonneg _) (maxAbs_nonneg _)) (by positivity)
  have hm0 : 0 ≤ min P Q := le_min hP hQ
  rcases C118_cross r a b i with h | ⟨h, h'⟩
  · have : 0 ≤ 2 * epsilon * min P Q := by positivity
    linarith
  · rw [h, zero_sub, abs_neg]; linarith

theorem len_vec_le (q : Quat) : len q.vec.elem ≤ ‖toH q‖ := by
  have := len_vecOf_le (toH q); rwa [vecOf_toH] at this

/-- The products `p * q` and `p / q` of prepared quaternions, as computed. -/
noncomputable def rawMul (r : Rounding 53) (p q : Quat) : ℍ[ℝ] :=
  toH ⟨r (r (p.w * q.w) - dot r p.vec q.vec), sub r (add r (scale r q.vec p.w) (scale r p.vec q.w)) (cross3 r p.vec q.vec), true, 0⟩
noncomputable def rawDiv (r : Rounding 53) (p q : Quat) : ℍ[ℝ] :=
  toH ⟨r (r (p.w * q.w) + dot r p.vec q.vec), add r (sub r (scale r p.vec q.w) (scale r q.vec p.w)) (cross3 r p.vec q.vec), true, 0⟩

theorem toH_qMul (r : Rounding 53) (p q : Quat) : toH (qMul r p q) = rawMul r (qPrepare r p q) q := rfl
theorem toH_qDiv (r : Rounding 53) (p q : Quat) : toH (qDiv r p q) = rawDiv r (qPrepare r p q) q := rfl

theorem raw_err (r : Rounding 53) (p q : Quat) :
    ‖rawMul r p q - toH q * toH p‖ ≤ epsilon * (‖toH p‖ * ‖toH q‖ + 5 * min ‖toH p‖ ‖toH q‖) ∧
    ‖rawDiv r p q - star (toH q) * toH p‖ ≤ epsilon * (‖toH p‖ * ‖toH q‖ + 5 * min ‖toH p‖ ‖toH q‖) := by
  have hpv := len_vec_le p
  have hqv := len_vec_le q
  have hd := dot_off r p.vec q.vec hpv hqv
  have hc := cross_off r p.vec q.vec hpv hqv
  have hdB : |p.vec.elem ⬝ᵥ q.vec.elem| ≤ ‖toH p‖ * ‖toH q‖ :=
    (abs_dot_le_len _ _).trans (mul_le_mul hpv hqv (len_nonneg _) (norm_nonneg _))
  have hcB : ∀ i, |(p.vec.elem ⨯₃ q.vec.elem) i| ≤ ‖toH p‖ * ‖toH q‖ := fun i =>
    (abs_le_len _ i).trans ((len_cross_le _ _).trans (mul_le_mul hpv hqv (len_nonneg _) (norm_nonneg _)))
  have hp := abs_le_norm p
  have hq := abs_le_norm q
  have hmul : ∀ x y : ℝ, |x| ≤ ‖toH p‖ → |y| ≤ ‖toH q‖ → |x| * |y| ≤ ‖toH p‖ * ‖toH q‖ := fun x y hx hy =>
    mul_le_mul hx hy (abs_nonneg _) (norm_nonneg _)
  have hM0 : 0 ≤ ‖toH p‖ * ‖toH q‖ := by positivity
  have hm0 : 0 ≤ min ‖toH p‖ ‖toH q‖ := le_min (norm_nonneg _) (norm_nonneg _)
  generalize ‖toH p‖ * ‖toH q‖ = M at *
  generalize min ‖toH p‖ ‖toH q‖ = m at *
  have he : epsilon = 30 * 2 ^ (-52 : ℤ) := by unfold epsilon; norm_num
  have hww := err_mul' r (hmul _ _ hp.1 hq.1)
  have hwwB : |p.w * q.w| ≤ M := by rw [abs_mul]; exact hmul _ _ hp.1 hq.1
  have hA : ∀ i, |r (q.vec.elem i * p.w) - q.vec.elem i * p.w| ≤ 2 ^ (-53 : ℤ) * M := fun i =>
    err_mul' r (by rw [mul_comm]; exact hmul _ _ hp.1 (hq.2 i))
  have hAB : ∀ i, |q.vec.elem i * p.w| ≤ M := fun i => by rw [abs_mul, mul_comm]; exact hmul _ _ hp.1 (hq.2 i)
  have hB : ∀ i, |r (p.vec.elem i * q.w) - p.vec.elem i * q.w| ≤ 2 ^ (-53 : ℤ) * M := fun i => err_mul' r (hmul _ _ (hp.2 i) hq.1)
  have hBB : ∀ i, |p.vec.elem i * q.w| ≤ M := fun i => by rw [abs_mul]; exact hmul _ _ (hp.2 i) hq.1
  have h0 : 0 ≤ epsilon / 2 * (M + 5 * m) := by have := epsilon_pos; positivity
  have w1 : |r (r (p.w * q.w) - dot r p.vec q.vec) - (p.w * q.w - p.vec.elem ⬝ᵥ q.vec.elem)| ≤ epsilon / 2 * (M + 5 * m) := by
    refine (err_sub r hww hd hwwB hdB).trans ?_
    rw [he]; norm_num; linarith
  have w2 : |r (r (p.w * q.w) + dot r p.vec q.vec) - (p.w * q.w + p.vec.elem ⬝ᵥ q.vec.elem)| ≤ epsilon / 2 * (M + 5 * m) := by
    refine (err_add r hww hd hwwB hdB).trans ?_
    rw [he]; norm_num; linarith
  have s1 : ∀ i, |q.vec.elem i * p.w + p.vec.elem i * q.w| ≤ M + M := fun i => (abs_add_le _ _).trans (add_le_add (hAB i) (hBB i))
  have s2 : ∀ i, |p.vec.elem i * q.w - q.vec.elem i * p.w| ≤ M + M := fun i => (abs_sub _ _).trans (add_le_add (hBB i) (hAB i))
  have v1 : ∀ i, |r (r (r (q.vec.elem i * p.w) + r (p.vec.elem i * q.w)) - (cross3 r p.vec q.vec).elem i) -
      (q.vec.elem i * p.w + p.vec.elem i * q.w - (p.vec.elem ⨯₃ q.vec.elem) i)| ≤ epsilon / 2 * (M + 5 * m) := fun i => by
    refine (err_sub r (err_add r (hA i) (hB i) (hAB i) (hBB i)) (hc i) (s1 i) (hcB i)).trans ?_
    rw [he]; norm_num; linarith
  have v2 : ∀ i, |r (r (r (p.vec.elem i * q.w) - r (q.vec.elem i * p.w)) + (cross3 r p.vec q.vec).elem i) -
      (p.vec.elem i * q.w - q.vec.elem i * p.w + (p.vec.elem ⨯₃ q.vec.elem) i)| ≤ epsilon / 2 * (M + 5 * m) := fun i => by
    refine (err_add r (err_sub r (hB i) (hA i) (hBB i) (hAB i)) (hc i) (s2 i) (hcB i)).trans ?_
    rw [he]; norm_num; linarith
  constructor
  · refine (norm_le_of_comp h0 ?_ ?_ ?_ ?_).trans (le_of_eq (by ring))
    · refine le_trans (le_of_eq ?_) w1
      congr 1
      simp [rawMul, dot3]; ring
    · refine le_trans (le_of_eq ?_) (v1 0)
      congr 1
      simp [rawMul, cross0, sub, add, scale]; ring
    · refine le_trans (le_of_eq ?_) (v1 1)
      congr 1
      simp [rawMul, cross1, sub, add, scale]; ring
    · refine le_trans (le_of_eq ?_) (v1 2)
      congr 1
      simp [rawMul, cross2', sub, add, scale]; ring
  · refine (norm_le_of_comp h0 ?_ ?_ ?_ ?_).trans (le_of_eq (by ring))
    · refine le_trans (le_of_eq ?_) w2
      congr 1
      simp [rawDiv, dot3]; ring
    · refine le_trans (le_of_eq ?_) (v2 0)
      congr 1
      simp [rawDiv, cross0, sub, add, scale]; ring
    · refine le_trans (le_of_eq ?_) (v2 1)
      congr 1
      simp [rawDiv, cross1, sub, add, scale]; ring
    · refine le_trans (le_of_eq ?_) (v2 2)
      congr 1
      simp [rawDiv, cross2', sub, add, scale]; ring

/-- Components that are close make quaternions that are close. -/
theorem norm_close {k : Nat} (hk : k ≤ 2 ^ 50) {p q : Quat} (hw : Close 53 k p.w q.w) (hv : ∀ i, Close 53 k (p.vec.elem i) (q.vec.elem i)) :
    ‖toH p - toH q‖ ≤ k * 2 ^ (-52 : ℤ) * ‖toH q‖ := by
  have hz : (0 : ℝ) ≤ 2 ^ (-52 : ℤ) := by positivity
  have key : ∀ {x' x : ℝ}, Close 53 k x' x → (x' - x) ^ 2 ≤ (k * 2 ^ (-52 : ℤ)) ^ 2 * x ^ 2 := fun {x' x} h => by
    have := Close_err' h (by omega)
    rw [← mul_pow, sq_le_sq, abs_mul, abs_of_nonneg (by positivity : (0 : ℝ) ≤ k * 2 ^ (-52 : ℤ))]
    exact this
  have h1 := key hw
  have h2 := key (hv 0)
  have h3 := key (hv 1)
  have h4 := key (hv 2)
  refine le_of_sq_le_sq ?_ (by positivity)
  rw [mul_pow, sq ‖toH p - toH q‖, sq ‖toH q‖, ← normSq_eq_norm_mul_self, ← normSq_eq_norm_mul_self, normSq_def', normSq_def']
  simp only [re_sub, imI_sub, imJ_sub, imK_sub, toH_re, toH_imI, toH_imJ, toH_imK]
  linarith
where
  le_of_sq_le_sq {a b : ℝ} (h : a ^ 2 ≤ b ^ 2) (hb : 0 ≤ b) : a ≤ b := le_of_abs_le (abs_le_of_sq_le_sq' h hb |> fun h => abs_le.2 h)

theorem qNormalize_close (r : Rounding 53) (q : Quat) : ‖toH (qNormalize r q) - toH q.normalize‖ ≤ epsilon * ‖toH q.normalize‖ := by
  have h1 := Close.round_self pos53 r (q.w * q.w)
  have h2 := sqrMag_close r q.vec
  have h3 := (Close.add pos53 (h1.mono pos53 (show 1 ≤ 4 by norm_num)) (h2.mono pos53 (show 1 + 3 ≤ 4 by norm_num)) (mul_self_nonneg _) (Vec.sqrMag_nonneg _)).round pos53 r
  have h4 := (Close.add pos53 h3 (Close.refl pos53 (4 + 1) 1) (add_nonneg (mul_self_nonneg _) (Vec.sqrMag_nonneg _)) zero_le_one).round pos53 r
  have h5 := (h4.div pos53 (Close.refl pos53 0 2)).round pos53 r
  have key : ∀ x : ℝ, Close 53 8 (r (x / r (r (r (r (q.w * q.w) + sqrMag r q.vec) + 1) / 2))) (x / ((q.w * q.w + q.vec.sqrMag + 1) / 2)) := fun x =>
    (((Close.refl pos53 0 x).div pos53 h5).round pos53 r).mono pos53 (by norm_num)
  have h6 := norm_close (k := 8) (by norm_num) (p := qNormalize r q) (q := q.normalize) (key q.w) fun i => key (q.vec.elem i)
  refine h6.trans (mul_le_mul_of_nonneg_right ?_ (norm_nonneg _))
  unfold epsilon; norm_num

theorem qOfComponents_close (r : Rounding 53) (w x y z : ℝ) :
    ‖toH (qOfComponents r w x y z) - toH (Quat.ofComponents w x y z)‖ ≤ epsilon * ‖toH (Quat.ofComponents w x y z)‖ := by
  have c : ∀ x : ℝ, ∀ k : Nat, Close 53 (1 + k) (r (x * x)) (x * x) := fun x k => (Close.round_self pos53 r (x * x)).mono pos53 (by omega)
  have h1 := ((c w 0).add pos53 (c x 0) (mul_self_nonneg _) (mul_self_nonneg _)).round pos53 r
  have h2 := (h1.add pos53 (c y 1) (add_nonneg (mul_self_nonneg _) (mul_self_nonneg _)) (mul_self_nonneg _)).round pos53 r
  have h3 := (h2.add pos53 (c z 2) (add_nonneg (add_nonneg (mul_self_nonneg _) (mul_self_nonneg _)) (mul_self_nonneg _)) (mul_self_nonneg _)).round pos53 r
  have h4 := (h3.sqrt pos53).round pos53 r
  have key : ∀ a : ℝ, Close 53 8 (r (a / r (√(r (r (r (r (w * w) + r (x * x)) + r (y * y)) + r (z * z))))))
      (a / √(w * w + x * x + y * y + z * z)) := fun a =>
    (((Close.refl pos53 0 a).div pos53 h4).round pos53 r).mono pos53 (by norm_num)
  have h6 := norm_close (k := 8) (by norm_num) (p := qOfComponents r w x y z) (q := Quat.ofComponents w x y z) (key w) fun i => by
    fin_cases i
    · exact key x
    · exact key y
    · exact key z
  refine h6.trans (mul_le_mul_of_nonneg_right ?_ (norm_nonneg _))
  unfold epsilon; norm_num

theorem norm_normalize_le (q : Quat) : ‖toH q.normalize‖ ≤ 1 := by
  rw [norm_normalize, div_le_one (by positivity)]
  nlinarith [sq_nonneg (‖toH q‖ - 1)]

theorem qPrepare_near (r : Rounding 53) (p q : Quat) : ‖toH (qPrepare r p q) - toH p‖ ≤ 2 * |‖toH p‖ - 1| + epsilon ∧
    (p.age + q.age < maxNormAge → toH (qPrepare r p q) = toH p) := by
  have he := epsilon_pos
  unfold qPrepare
  split
  · rename_i hc
    refine ⟨?_, fun h => absurd hc.1 (by omega)⟩
    have h1 := qNormalize_close r ⟨p.w, p.vec, p.valid && q.valid, p.age + q.age⟩
    have h2 := norm_normalize_le ⟨p.w, p.vec, p.valid && q.valid, p.age + q.age⟩
    have h3 : ‖toH (⟨p.w, p.vec, p.valid && q.valid, p.age + q.age⟩ : Quat).normalize - toH p‖ ≤ 2 * |‖toH p‖ - 1| := by
      have := prepare_near p q
      unfold Quat.prepare Quat.checkNormalization at this
      rwa [if_pos hc] at this
    have h4 := norm_sub_le_norm_sub_add_norm_sub (toH (qNormalize r ⟨p.w, p.vec, p.valid && q.valid, p.age + q.age⟩))
      (toH (⟨p.w, p.vec, p.valid && q.valid, p.age + q.age⟩ : Quat).normalize) (toH p)
    have h5 := mul_le_mul_of_nonneg_left h2 he.le
    linarith
  · refine ⟨?_, fun _ => rfl⟩
    change ‖toH p - toH p‖ ≤ _
    rw [sub_self, norm_zero]; positivity

/-- A product of quaternions that are off. -/
theorem mul_off {a b u v : ℍ[ℝ]} {α β : ℝ} (hv : ‖v‖ = 1) (hu : ‖u‖ = 1) (ha : ‖a - u‖ ≤ α) (hb : ‖b - v‖ ≤ β) : ‖a * b - u * v‖ ≤ α + β + α * β := by
  have h1 := norm_nonneg (a - u)
  rw [show a * b - u * v = (a - u) * v + u * (b - v) + (a - u) * (b - v) by noncomm_ring]
  refine (norm_add₃_le).trans ?_
  rw [norm_mul, norm_mul, norm_mul, hv, hu, mul_one, one_mul]
  exact add_le_add (add_le_add ha hb) (mul_le_mul ha hb (norm_nonneg _) (h1.trans ha))

end Fl

/-! ### C122 -/

/-- C122, constructor and `normalize()`: a quaternion made from four components that are not all 0 is within `ε` of the quaternion of norm 1 in their direction, and `normalize` moves
a norm within `δ` of 1 to within `δ² + ε` of 1. -/
theorem C122_unit (r : Rounding 53) (h : ℍ[ℝ]) (h0 : h ≠ 0) :
    ‖toH (Fl.qOfComponents r h.re h.imI h.imJ h.imK) - ‖h‖⁻¹ • h‖ ≤ epsilon ∧
    ∀ (q : Quat) (δ : ℝ), |‖toH q‖ - 1| ≤ δ → |‖toH (Fl.qNormalize r q)‖ - 1| ≤ δ ^ 2 + epsilon := by
  constructor
  · have h1 := Fl.qOfComponents_close r h.re h.imI h.imJ h.imK
    rw [norm_ofComponents (fun hc => h0 (by ext <;> simp [hc])), mul_one] at h1
    have e : toH (Quat.ofComponents h.re h.imI h.imJ h.imK) = ‖h‖⁻¹ • h := by
      have hn : ‖h‖ = √(h.re * h.re + h.imI * h.imI + h.imJ * h.imJ + h.imK * h.imK) := by
        rw [← Real.sqrt_sq (norm_nonneg h), sq, ← normSq_eq_norm_mul_self, normSq_def']
        congr 1; ring
      rw [hn]
      ext <;> simp [Quat.ofComponents, div_eq_inv_mul]
    rwa [e] at h1
  · intro q δ hq
    have h1 := (abs_norm_sub_norm_le _ _).trans (Fl.qNormalize_close r q)
    have h2 := mul_le_mul_of_nonneg_left (Fl.norm_normalize_le q) epsilon_pos.le
    have h3 := normalize_near (norm_nonneg _) hq
    rw [← norm_normalize] at h3
    have h4 := abs_sub_le ‖toH (Fl.qNormalize r q)‖ ‖toH q.normalize‖ 1
    linarith

/-- C122, products and quotients: when `p` and `q` stand for the unit quaternions `a` and `b` with errors up to `α` and `β`, the computed product stands for their product with an error
up to `α + β + αβ + 7 ε` as long as the age counter does not overflow, and up to `3 α + 2 β + 9 ε` in any case. -/
theorem C122_product (r : Rounding 53) (p q : Quat) (a b : ℍ[ℝ]) (α β : ℝ) (ha : ‖a‖ = 1) (hb : ‖b‖ = 1) (hp : ‖toH p - a‖ ≤ α) (hq : ‖toH q - b‖ ≤ β)
    (h1 : α ≤ 1 / 100) (h2 : β ≤ 1 / 100) :
    (p.age + q.age < 20 → ‖toH (Fl.qMul r p q) - b * a‖ ≤ α + β + α * β + 7 * epsilon ∧ ‖toH (Fl.qDiv r p q) - b⁻¹ * a‖ ≤ α + β + α * β + 7 * epsilon) ∧
    ‖toH (Fl.qMul r p q) - b * a‖ ≤ 3 * α + 2 * β + 9 * epsilon ∧ ‖toH (Fl.qDiv r p q) - b⁻¹ * a‖ ≤ 3 * α + 2 * β + 9 * epsilon := by
  have he := epsilon_pos
  have he2 := epsilon_lt
  norm_num at he2
  have α0 := (norm_nonneg _).trans hp
  have β0 := (norm_nonneg _).trans hq
  have hinv : b⁻¹ = star b := by
    rw [Quaternion.inv_def, normSq_eq_norm_mul_self, hb]; simp
  have hsq : ‖star (toH q) - star b‖ ≤ β := by rw [← star_sub, _root_.norm_star]; exact hq
  have hsb : ‖star b‖ = 1 := by rw [_root_.norm_star, hb]
  have key : ∀ (p' : Quat) (γ : ℝ), ‖toH p' - a‖ ≤ γ → γ ≤ 1 / 20 →
      ‖Fl.rawMul r p' q - b * a‖ ≤ γ + β + γ * β + 7 * epsilon ∧ ‖Fl.rawDiv r p' q - star b * a‖ ≤ γ + β + γ * β + 7 * epsilon := by
    intro p' γ hγ hγ1
    obtain ⟨e1, e2⟩ := Fl.raw_err r p' q
    have n1 : ‖toH p'‖ ≤ 21 / 20 := by
      have := norm_sub_norm_le (toH p') a
      linarith
    have n2 : ‖toH q‖ ≤ 101 / 100 := by
      have := norm_sub_norm_le (toH q) b
      linarith
    have n3 : ‖toH p'‖ * ‖toH q‖ ≤ 21 / 20 * (101 / 100) := mul_le_mul n1 n2 (norm_nonneg _) (by norm_num)
    have n4 : min ‖toH p'‖ ‖toH q‖ ≤ 101 / 100 := (min_le_right _ _).trans n2
    have n5 := mul_le_mul_of_nonneg_left (show ‖toH p'‖ * ‖toH q‖ + 5 * min ‖toH p'‖ ‖toH q‖ ≤ 7 by linarith) he.le
    have m1 := Fl.mul_off ha hb hq hγ
    have m2 := Fl.mul_off ha hsb hsq hγ
    have t1 := norm_sub_le_norm_sub_add_norm_sub (Fl.rawMul r p' q) (toH q * toH p') (b * a)
    have t2 := norm_sub_le_norm_sub_add_norm_sub (Fl.rawDiv r p' q) (star (toH q) * toH p') (star b * a)
    constructor <;> linarith
  rw [hinv, Fl.toH_qMul, Fl.toH_qDiv]
  obtain ⟨q1, q2⟩ := Fl.qPrepare_near r p q
  constructor
  · intro hs
    exact key _ α (by rw [q2 hs]; exact hp) (by linarith)
  · have hn : |‖toH p‖ - 1| ≤ α := by
      have := abs_norm_sub_norm_le (toH p) a
      rw [ha] at this; exact this.trans hp
    have h3 := norm_sub_le_norm_sub_add_norm_sub (toH (Fl.qPrepare r p q)) (toH p) a
    have := key _ (3 * α + epsilon) (by linarith) (by linarith)
    have h4 : (3 * α + epsilon) * β ≤ 1 * β := mul_le_mul_of_nonneg_right (by linarith) β0
    constructor <;> linarith [this.1, this.2]

/-- The quaternions that a program can hold, in doubles, which starts from a quaternion whose norm is within `η` of 1 and multiplies or divides it, again and again, by such quaternions,
of age at least 1, with calls of `inverse()` and `normalize()` in between. -/
inductive Spec.RunningFl (r : Rounding 53) (η : ℝ) : Quat → Prop
  | start (q : Quat) : q.valid = true → |‖toH q‖ - 1| ≤ η → q.age ≤ 1 → RunningFl r η q
  | mul (p q : Quat) : RunningFl r η p → q.valid = true → |‖toH q‖ - 1| ≤ η → 1 ≤ q.age → RunningFl r η (Fl.qMul r p q)
  | div (p q : Quat) : RunningFl r η p → q.valid = true → |‖toH q‖ - 1| ≤ η → 1 ≤ q.age → RunningFl r η (Fl.qDiv r p q)
  | inverse (q : Quat) : RunningFl r η q → RunningFl r η q.inverse
  | normalize (q : Quat) : RunningFl r η q → RunningFl r η (Fl.qNormalize r q)

theorem Fl.mul_norm_near {η : ℝ} (r : Rounding 53) (p q : Quat) (h1 : η ≤ 1) (hq : |‖toH q‖ - 1| ≤ η) :
    |‖Fl.rawMul r p q‖ - ‖toH p‖| ≤ (η + 7 * epsilon) * ‖toH p‖ ∧ |‖Fl.rawDiv r p q‖ - ‖toH p‖| ≤ (η + 7 * epsilon) * ‖toH p‖ := by
  have he := epsilon_pos
  have hn := norm_nonneg (toH p)
  have h3 : |‖toH q‖ * ‖toH p‖ - ‖toH p‖| ≤ η * ‖toH p‖ := by
    rw [show ‖toH q‖ * ‖toH p‖ - ‖toH p‖ = (‖toH q‖ - 1) * ‖toH p‖ by ring, abs_mul, abs_of_nonneg hn]
    exact mul_le_mul_of_nonneg_right hq hn
  have hq2 : ‖toH q‖ ≤ 2 := by have := abs_le.1 hq; linarith
  have hb : epsilon * (‖toH p‖ * ‖toH q‖ + 5 * min ‖toH p‖ ‖toH q‖) ≤ 7 * epsilon * ‖toH p‖ := by
    have h4 := min_le_left ‖toH p‖ ‖toH q‖
    have h5 := mul_le_mul_of_nonneg_left hq2 hn
    have h6 := mul_le_mul_of_nonneg_left (show ‖toH p‖ * ‖toH q‖ + 5 * min ‖toH p‖ ‖toH q‖ ≤ 7 * ‖toH p‖ by linarith) he.le
    linarith
  have e1 := (abs_norm_sub_norm_le _ _).trans (Fl.raw_err r p q).1
  have e2 := (abs_norm_sub_norm_le _ _).trans (Fl.raw_err r p q).2
  rw [norm_mul] at e1 e2
  rw [_root_.norm_star] at e2
  have t1 := abs_sub_le ‖Fl.rawMul r p q‖ (‖toH q‖ * ‖toH p‖) ‖toH p‖
  have t2 := abs_sub_le ‖Fl.rawDiv r p q‖ (‖toH q‖ * ‖toH p‖) ‖toH p‖
  constructor <;> linarith

theorem Fl.running_step {e n' : ℝ} (r : Rounding 53) {p q : Quat} (he : 7 * epsilon ≤ e) (he1 : 4000 * e ≤ 1) (hv : p.valid = true) (hqv : q.valid = true) (ha : p.age ≤ 19)
    (hb : 1 ≤ q.age) (hn : |‖toH p‖ - 1| ≤ 2 * e * (p.age + 1)) (hn' : |n' - ‖toH (Fl.qPrepare r p q)‖| ≤ e * ‖toH (Fl.qPrepare r p q)‖) :
    (Fl.qPrepare r p q).valid = true ∧ (Fl.qPrepare r p q).age ≤ 19 ∧ |n' - 1| ≤ 2 * e * ((Fl.qPrepare r p q).age + 1) := by
  have hpos := epsilon_pos
  have he0 : 0 < e := by linarith
  have ha' : (p.age : ℝ) ≤ 19 := by exact_mod_cast ha
  have hb' : (1 : ℝ) ≤ q.age := by exact_mod_cast hb
  have hq0 := norm_nonneg (toH p)
  have h40 : |‖toH p‖ - 1| ≤ 40 * e := hn.trans (by nlinarith)
  have hee : e * e ≤ e / 4000 := by nlinarith
  by_cases hs : p.age + q.age ≥ maxNormAge
  · have hp : Fl.qPrepare r p q = Fl.qNormalize r ⟨p.w, p.vec, true, p.age + q.age⟩ := by
      unfold Fl.qPrepare
      rw [hv, hqv, if_pos ⟨hs, rfl⟩]; rfl
    have hN := (C122_unit r 1 one_ne_zero).2 ⟨p.w, p.vec, true, p.age + q.age⟩ (40 * e) h40
    rw [← hp] at hN
    have hpa : (Fl.qPrepare r p q).age = 1 := by rw [hp]; rfl
    refine ⟨by rw [hp]; rfl, by omega, ?_⟩
    rw [hpa]
    generalize ‖toH (Fl.qPrepare r p q)‖ = m at *
    have h2 := abs_le.1 hN
    have h3 := abs_sub_le n' m 1
    have h5 : (40 * e) ^ 2 ≤ 1600 / 4000 * e := by nlinarith
    have h4 : m ≤ 2 := by linarith
    have h6 : e * m ≤ e * 2 := mul_le_mul_of_nonneg_left h4 he0.le
    push_cast
    linarith
  · have hp : Fl.qPrepare r p q = ⟨p.w, p.vec, true, p.age + q.age⟩ := by
      unfold Fl.qPrepare
      rw [hv, hqv, if_neg (fun h => hs h.1)]; rfl
    have hN : ‖toH (Fl.qPrepare r p q)‖ = ‖toH p‖ := by rw [hp]; rfl
    rw [hN] at hn'
    rw [hp]
    have hs' : p.age + q.age ≤ 19 := by unfold maxNormAge at hs; omega
    refine ⟨rfl, hs', ?_⟩
    show |n' - 1| ≤ 2 * e * (((p.age + q.age : Nat) : ℝ) + 1)
    push_cast
    generalize ‖toH p‖ = m at *
    have h2 := abs_le.1 h40
    have h3 := abs_sub_le n' m 1
    have h6 : e * m ≤ e * (1 + 40 * e) := mul_le_mul_of_nonneg_left (by linarith) he0.le
    nlinarith

/-- C122, running products: when a quaternion of norm within `η` of 1 is multiplied or divided, any number of times, by quaternions whose norm is within `η` of 1, its norm stays within
`40 (η + 7 ε)` of 1, however many steps there are. (Right operands that are themselves results of long computations need not be that close to 1: `C113_false`.) -/
theorem C122_running (r : Rounding 53) (η : ℝ) (h0 : 0 ≤ η) (h1 : 4000 * (η + 7 * epsilon) ≤ 1) (q : Quat) (h : RunningFl r η q) :
    q.valid = true ∧ |‖toH q‖ - 1| ≤ 40 * (η + 7 * epsilon) := by
  have hpos := epsilon_pos
  have he : 0 ≤ η + 7 * epsilon := by linarith
  suffices hI : q.valid = true ∧ q.age ≤ 19 ∧ |‖toH q‖ - 1| ≤ 2 * (η + 7 * epsilon) * (q.age + 1) by
    refine ⟨hI.1, hI.2.2.trans ?_⟩
    have : (q.age : ℝ) ≤ 19 := by exact_mod_cast hI.2.1
    nlinarith
  induction h with
  | start q hv hn ha =>
    refine ⟨hv, by omega, hn.trans ?_⟩
    have : (0 : ℝ) ≤ q.age := by positivity
    nlinarith
  | mul p q _ hqv hq hb ih =>
    exact Fl.running_step r (by linarith) h1 ih.1 hqv ih.2.1 hb ih.2.2 (Fl.mul_norm_near r _ q (by linarith) hq).1
  | div p q _ hqv hq hb ih =>
    exact Fl.running_step r (by linarith) h1 ih.1 hqv ih.2.1 hb ih.2.2 (Fl.mul_norm_near r _ q (by linarith) hq).2
  | inverse q _ ih =>
    rw [toH_inverse, _root_.norm_star]
    exact ih
  | normalize q _ ih =>
    obtain ⟨hv, ha, hn⟩ := ih
    have ha' : (q.age : ℝ) ≤ 19 := by exact_mod_cast ha
    refine ⟨hv, by show 1 ≤ 19; norm_num, ?_⟩
    have := (C122_unit r 1 one_ne_zero).2 q (40 * (η + 7 * epsilon)) (hn.trans (by nlinarith))
    show _ ≤ 2 * (η + 7 * epsilon) * (((1 : Nat) : ℝ) + 1)
    push_cast
    nlinarith

/-- A quaternion made from the components 1, 2, 3, 4 and multiplied by another one, again and again: its norm stays within `320 ε` of 1. -/
example (r : Rounding 53) (k : Nat) :
    |‖toH ((fun q => Fl.qMul r q (Fl.qOfComponents r 1 2 3 4))^[k] (Fl.qOfComponents r 2 0 1 0))‖ - 1| ≤ 320 * epsilon := by
  have he := epsilon_pos
  have he2 := epsilon_lt
  norm_num at he2
  have key : ∀ w x y z : ℝ, ¬ (w = 0 ∧ x = 0 ∧ y = 0 ∧ z = 0) → |‖toH (Fl.qOfComponents r w x y z)‖ - 1| ≤ epsilon := by
    intro w x y z h
    have h1 := (abs_norm_sub_norm_le _ _).trans (Fl.qOfComponents_close r w x y z)
    rwa [norm_ofComponents h, mul_one] at h1
  have hrun : ∀ k, RunningFl r epsilon ((fun q => Fl.qMul r q (Fl.qOfComponents r 1 2 3 4))^[k] (Fl.qOfComponents r 2 0 1 0)) := by
    intro k
    induction k with
    | zero => exact .start _ rfl (key _ _ _ _ (by norm_num)) le_rfl
    | succ k ih =>
      rw [Function.iterate_succ_apply']
      exact .mul _ _ ih rfl (key _ _ _ _ (by norm_num)) le_rfl
  have := (C122_running r epsilon he.le (by linarith) _ (hrun k)).2
  linarith

/-! ### C123 -/

/-- The formula for the rotation, without rounding and cut-offs. -/
noncomputable def rotFormula (q : Quat) (v : Fin 3 → ℝ) : Fin 3 → ℝ :=
  (2 * q.w ^ 2 - 1) • v + (2 * (q.vec.elem ⬝ᵥ v)) • q.vec.elem + (2 * q.w) • (q.vec.elem ⨯₃ v)

theorem rotFormula_near {q : Quat} {u : ℍ[ℝ]} {δ : ℝ} (hu : ‖u‖ = 1) (hδ : ‖toH q - u‖ ≤ δ) (hδ1 : δ ≤ 1 / 100) (v : Fin 3 → ℝ) :
    len (rotFormula q v - act u v) ≤ 13 * δ * len v := by
  have hM := len_nonneg v
  have hδ0 : 0 ≤ δ := le_trans (norm_nonneg _) hδ
  have hqn : ‖toH q‖ ≤ 1 + δ := by
    have := norm_le_norm_add_norm_sub' (toH q) u
    linarith
  have hqw : |q.w| ≤ 1 + δ := by have := abs_re_le (toH q); rw [toH_re] at this; linarith
  have huw : |u.re| ≤ 1 := (abs_re_le u).trans hu.le
  have hdw : |q.w - u.re| ≤ δ := by
    have := abs_re_le (toH q - u)
    rw [re_sub, toH_re] at this; linarith
  have hqv : len q.vec.elem ≤ 1 + δ := by have := len_vecOf_le (toH q); rw [vecOf_toH] at this; linarith
  have huv : len (vecOf u) ≤ 1 := (len_vecOf_le u).trans hu.le
  have hdv : len (q.vec.elem - vecOf u) ≤ δ := by
    have := len_vecOf_le (toH q - u)
    rw [vecOf_sub, vecOf_toH] at this; linarith
  have hdec : rotFormula q v - act u v =
      (2 * (q.w - u.re) * (q.w + u.re)) • v
      + ((2 * ((q.vec.elem - vecOf u) ⬝ᵥ v)) • q.vec.elem
      + ((2 * (vecOf u ⬝ᵥ v)) • (q.vec.elem - vecOf u)
      + ((2 * (q.w - u.re)) • (q.vec.elem ⨯₃ v)
      + (2 * u.re) • ((q.vec.elem - vecOf u) ⨯₃ v)))) := by
    rw [rotFormula, act_formula (normSq_eq_one.2 hu), sub_dotProduct, map_sub, LinearMap.sub_apply]
    module
  have hdv' : |(q.vec.elem - vecOf u) ⬝ᵥ v| ≤ δ * len v := (abs_dot_le_len _ _).trans (mul_le_mul_of_nonneg_right hdv hM)
  have huv' : |vecOf u ⬝ᵥ v| ≤ len v :=
    (abs_dot_le_len _ _).trans (by have := mul_le_mul_of_nonneg_right huv hM; rwa [one_mul] at this)
  have hqc : len (q.vec.elem ⨯₃ v) ≤ (1 + δ) * len v := (len_cross_le _ _).trans (mul_le_mul_of_nonneg_right hqv hM)
  have hdc : len ((q.vec.elem - vecOf u) ⨯₃ v) ≤ δ * len v := (len_cross_le _ _).trans (mul_le_mul_of_nonneg_right hdv hM)
  have t1 : len ((2 * (q.w - u.re) * (q.w + u.re)) • v) ≤ 2 * δ * (2 + δ) * len v := by
    rw [len_smul]
    refine mul_le_mul_of_nonneg_right ?_ hM
    rw [abs_mul, abs_mul, abs_two]
    have : |q.w + u.re| ≤ 2 + δ := (abs_add_le _ _).trans (by linarith)
    exact mul_le_mul (by linarith) this (abs_nonneg _) (by linarith)
  have t3 : len ((2 * ((q.vec.elem - vecOf u) ⬝ᵥ v)) • q.vec.elem) ≤ 2 * (δ * len v) * (1 + δ) := by
    rw [len_smul, abs_mul, abs_two]
    exact mul_le_mul (by linarith) hqv (len_nonneg _) (by positivity)
  have t4 : len ((2 * (vecOf u ⬝ᵥ v)) • (q.vec.elem - vecOf u)) ≤ 2 * len v * δ := by
    rw [len_smul, abs_mul, abs_two]
    exact mul_le_mul (by linarith) hdv (len_nonneg _) (by positivity)
  have t6 : len ((2 * (q.w - u.re)) • (q.vec.elem ⨯₃ v)) ≤ 2 * δ * ((1 + δ) * len v) := by
    rw [len_smul, abs_mul, abs_two]
    exact mul_le_mul (by linarith) hqc (len_nonneg _) (by positivity)
  have t7 : len ((2 * u.re) • ((q.vec.elem - vecOf u) ⨯₃ v)) ≤ 2 * (δ * len v) := by
    rw [len_smul, abs_mul, abs_two]
    exact mul_le_mul (by linarith) hdc (len_nonneg _) (by positivity)
  rw [hdec]
  have s6 := (len_add_le _ _).trans (add_le_add t6 t7)
  have s4 := (len_add_le _ _).trans (add_le_add t4 s6)
  have s3 := (len_add_le _ _).trans (add_le_add t3 s4)
  refine ((len_add_le _ _).trans (add_le_add t1 s3)).trans ?_
  have hd2 : δ * δ ≤ δ / 100 := by nlinarith
  have h1 : δ * δ * len v ≤ δ / 100 * len v := mul_le_mul_of_nonneg_right hd2 hM
  have h4 : 0 ≤ δ * len v := by positivity
  nlinarith

theorem Fl.rotateQ_err (r : Rounding 53) (v : Vec 3) (q : Quat) (hq : ‖toH q‖ ≤ 51 / 50) :
    len ((Fl.rotateQ r v q).elem - rotFormula q v.elem) ≤ 20 * epsilon * len v.elem := by
  have hL := len_nonneg v.elem
  have he : epsilon = 30 * 2 ^ (-52 : ℤ) := by unfold epsilon; norm_num
  have hqv := (Fl.len_vec_le q).trans hq
  have hd := Fl.dot_off r q.vec v hqv le_rfl
  have hc := Fl.cross_off r q.vec v hqv le_rfl
  have hdB : |q.vec.elem ⬝ᵥ v.elem| ≤ 51 / 50 * len v.elem := (abs_dot_le_len _ _).trans (mul_le_mul_of_nonneg_right hqv hL)
  have hcB : ∀ i, |(q.vec.elem ⨯₃ v.elem) i| ≤ 51 / 50 * len v.elem := fun i =>
    (abs_le_len _ i).trans ((len_cross_le _ _).trans (mul_le_mul_of_nonneg_right hqv hL))
  have hm := mul_le_mul_of_nonneg_left (min_le_right (51 / 50) (len v.elem)) (show 0 ≤ 2 * epsilon by have := epsilon_pos; linarith)
  have hw := ((abs_le_norm q).1).trans hq
  have hqi : ∀ i, |q.vec.elem i| ≤ 51 / 50 := fun i => ((abs_le_norm q).2 i).trans hq
  have hvi : ∀ i, |v.elem i| ≤ len v.elem := fun i => abs_le_len _ i
  -- `2 w` and `2 w w - 1`
  have w1 : |r (2 * q.w) - 2 * q.w| ≤ 2 ^ (-53 : ℤ) * (102 / 50) := Fl.err_mul' r (by rw [abs_two]; linarith)
  have w1B : |2 * q.w| ≤ 102 / 50 := by rw [abs_mul, abs_two]; linarith
  have w2 := Fl.err_mul r (b' := q.w) w1 (show |q.w - q.w| ≤ 0 by simp) w1B hw
  have w2B : |2 * q.w * q.w| ≤ 102 / 50 * (51 / 50) := by rw [abs_mul]; exact mul_le_mul w1B hw (abs_nonneg _) (by norm_num)
  have w3 := Fl.err_sub r (b' := 1) (b := 1) w2 (show |(1 : ℝ) - 1| ≤ 0 by simp) w2B (show |(1 : ℝ)| ≤ 1 by simp)
  have w3B : |2 * q.w * q.w - 1| ≤ 102 / 50 * (51 / 50) + 1 := (abs_sub _ _).trans (add_le_add w2B (by simp))
  have hd' : |dot r q.vec v - q.vec.elem ⬝ᵥ v.elem| ≤ (4 * 2 ^ (-52 : ℤ) * (51 / 50) + 2 * epsilon) * len v.elem := by linarith
  have hc' : ∀ i, |(cross3 r q.vec v).elem i - (q.vec.elem ⨯₃ v.elem) i| ≤ (4 * 2 ^ (-52 : ℤ) * (51 / 50) + 2 * epsilon) * len v.elem := fun i => by linarith [hc i]
  rw [he] at hd' hc'
  refine (len3_le (b := 10 * epsilon * len v.elem) (by have := epsilon_pos; positivity) fun i => ?_).trans (le_of_eq (by ring))
  have a1 := Fl.err_mul r (show |v.elem i - v.elem i| ≤ 0 by simp) w3 (hvi i) w3B
  have a1B : |v.elem i * (2 * q.w * q.w - 1)| ≤ len v.elem * (102 / 50 * (51 / 50) + 1) := by
    rw [abs_mul]; exact mul_le_mul (hvi i) w3B (abs_nonneg _) hL
  have q1 : |r (q.vec.elem i * 2) - q.vec.elem i * 2| ≤ 2 ^ (-53 : ℤ) * (102 / 50) := Fl.err_mul' r (by rw [abs_two]; linarith [hqi i])
  have q1B : |q.vec.elem i * 2| ≤ 102 / 50 := by rw [abs_mul, abs_two]; linarith [hqi i]
  have a2 := Fl.err_mul r q1 hd' q1B hdB
  have a2B : |q.vec.elem i * 2 * (q.vec.elem ⬝ᵥ v.elem)| ≤ 102 / 50 * (51 / 50 * len v.elem) := by
    rw [abs_mul]; exact mul_le_mul q1B hdB (abs_nonneg _) (by norm_num)
  have a3 := Fl.err_mul r (hc' i) w1 (hcB i) w1B
  have a3B : |(q.vec.elem ⨯₃ v.elem) i * (2 * q.w)| ≤ 51 / 50 * len v.elem * (102 / 50) := by
    rw [abs_mul]; exact mul_le_mul (hcB i) w1B (abs_nonneg _) (by positivity)
  have a4 := Fl.err_add r a1 a2 a1B a2B
  have a4B := (abs_add_le (v.elem i * (2 * q.w * q.w - 1)) (q.vec.elem i * 2 * (q.vec.elem ⬝ᵥ v.elem))).trans (add_le_add a1B a2B)
  have a5 := Fl.err_add r a4 a3 a4B a3B
  refine le_trans (le_of_eq ?_) (a5.trans ?_)
  · congr 1
    show _ - rotFormula q v.elem i = _
    simp only [rotFormula, Fl.rotateQ, add, scale, Pi.add_apply, Pi.smul_apply, smul_eq_mul]
    ring
  · rw [he]
    generalize len v.elem = L at *
    norm_num
    linarith

/-- C123: rotating a vector, in doubles, by a quaternion that stands for the unit quaternion `u` with an error up to `δ` gives the vector turned by `u` with an error up to
`13 δ + 20 ε` times its length. -/
theorem C123_rotate (r : Rounding 53) (v : Vec 3) (q : Quat) (u : ℍ[ℝ]) (δ : ℝ) (hu : ‖u‖ = 1) (hq : ‖toH q - u‖ ≤ δ) (hδ : δ ≤ 1 / 100) :
    len ((Fl.rotateQ r v q).elem - act u v.elem) ≤ (13 * δ + 20 * epsilon) * len v.elem := by
  have hn : ‖toH q‖ ≤ 51 / 50 := by
    have := norm_sub_norm_le (toH q) u
    linarith
  have h1 := Fl.rotateQ_err r v q hn
  have h2 := rotFormula_near hu hq hδ v.elem
  have h3 := len_triangle (Fl.rotateQ r v q).elem (rotFormula q v.elem) (act u v.elem)
  linarith

/-- Two vectors that are turned with errors. -/
theorem turned_len {u : ℍ[ℝ]} (hu : ‖u‖ = 1) {x v : Fin 3 → ℝ} {E : ℝ} (h : len (x - act u v) ≤ E * len v) : |len x - len v| ≤ E * len v ∧ len x ≤ (1 + E) * len v := by
  have h1 := len_add_le (x - act u v) (act u v)
  have h2 := len_add_le (act u v - x) x
  rw [sub_add_cancel, len_act (normSq_eq_one.2 hu)] at h1 h2
  rw [show act u v - x = -(x - act u v) by module, len_neg] at h2
  exact ⟨abs_le.2 ⟨by linarith, by linarith⟩, by linarith⟩

/-- C123, lengths and inner products: up to a factor close to 1, rotating by a quaternion in doubles changes neither the lengths of vectors nor the angles between them. -/
theorem C123_isometry (r : Rounding 53) (v w : Vec 3) (q : Quat) (δ : ℝ) (hq : |‖toH q‖ - 1| ≤ δ) (hδ : δ ≤ 1 / 100) :
    |len (Fl.rotateQ r v q).elem - len v.elem| ≤ (13 * δ + 20 * epsilon) * len v.elem ∧
    |(Fl.rotateQ r v q).elem ⬝ᵥ (Fl.rotateQ r w q).elem - v.elem ⬝ᵥ w.elem| ≤ 3 * (13 * δ + 20 * epsilon) * (len v.elem * len w.elem) := by
  have he := epsilon_pos
  have he2 := epsilon_lt
  norm_num at he2
  have δ0 := (abs_nonneg _).trans hq
  have hq0 : ‖toH q‖ ≠ 0 := by intro h; rw [h] at hq; norm_num at hq; linarith
  obtain ⟨u, hu, huq⟩ : ∃ u : ℍ[ℝ], ‖u‖ = 1 ∧ ‖toH q - u‖ ≤ δ := by
    refine ⟨‖toH q‖⁻¹ • toH q, by rw [norm_smul, norm_inv, norm_norm, inv_mul_cancel₀ hq0], ?_⟩
    have : toH q - ‖toH q‖⁻¹ • toH q = (1 - ‖toH q‖⁻¹) • toH q := by rw [sub_smul, one_smul]
    rw [this, norm_smul, Real.norm_eq_abs, ← abs_of_nonneg (norm_nonneg (toH q)), ← abs_mul, abs_of_nonneg (norm_nonneg (toH q))]
    rw [sub_mul, inv_mul_cancel₀ hq0, one_mul]; exact hq
  have hv := C123_rotate r v q u δ hu huq hδ
  have hw := C123_rotate r w q u δ hu huq hδ
  have hE : 13 * δ + 20 * epsilon ≤ 1 := by linarith
  have hE0 : 0 ≤ 13 * δ + 20 * epsilon := by linarith
  refine ⟨(turned_len hu hv).1, ?_⟩
  have hw2 := (turned_len hu hw).2
  generalize 13 * δ + 20 * epsilon = E at *
  generalize (Fl.rotateQ r v q).elem = x at *
  generalize (Fl.rotateQ r w q).elem = y at *
  rw [← act_dot (normSq_eq_one.2 hu) v.elem w.elem]
  have e : x ⬝ᵥ y - act u v.elem ⬝ᵥ act u w.elem = (x - act u v.elem) ⬝ᵥ y + act u v.elem ⬝ᵥ (y - act u w.elem) := by
    rw [sub_dotProduct, dotProduct_sub]; ring
  rw [e]
  have h1 := (abs_dot_le_len (x - act u v.elem) y).trans (mul_le_mul hv hw2 (len_nonneg _) (mul_nonneg hE0 (len_nonneg _)))
  have h2 := (abs_dot_le_len (act u v.elem) (y - act u w.elem)).trans (mul_le_mul_of_nonneg_left hw (len_nonneg _))
  rw [len_act (normSq_eq_one.2 hu)] at h2
  have h3 : 0 ≤ len v.elem * len w.elem := mul_nonneg (len_nonneg _) (len_nonneg _)
  have h4 : E * E * (len v.elem * len w.elem) ≤ E * (len v.elem * len w.elem) := mul_le_mul_of_nonneg_right (by nlinarith) h3
  refine (abs_add_le _ _).trans ?_
  nlinarith

/-- Turning twice, with errors. -/
theorem turned_twice {a b : ℍ[ℝ]} (ha : ‖a‖ = 1) (hb : ‖b‖ = 1) {x y v : Fin 3 → ℝ} {E F : ℝ} (hF : 0 ≤ F) (hx : len (x - act a v) ≤ E * len v)
    (hy : len (y - act b x) ≤ F * len x) : len (y - act (b * a) v) ≤ (E + F + E * F) * len v := by
  have ha' := normSq_eq_one.2 ha
  have hb' := normSq_eq_one.2 hb
  have h1 := (turned_len ha hx).2
  have h2 := len_triangle y (act b x) (act (b * a) v)
  rw [act_mul hb' ha', ← act_sub hb', len_act hb'] at h2
  rw [act_mul hb' ha']
  have h3 := mul_le_mul_of_nonneg_left h1 hF
  nlinarith

/-- C123, composition: rotating by `p` and then by `q` gives what rotating by the computed product `p * q` gives, and rotating by `q` and then by its inverse gives the vector back,
up to errors in proportion to the length of the vector. -/
theorem C123_compose (r : Rounding 53) (v : Vec 3) (p q : Quat) (a b : ℍ[ℝ]) (α β : ℝ) (ha : ‖a‖ = 1) (hb : ‖b‖ = 1) (hp : ‖toH p - a‖ ≤ α)
    (hq : ‖toH q - b‖ ≤ β) (h1 : α ≤ 1 / 300) (h2 : β ≤ 1 / 300) :
    (p.age + q.age < 20 → len ((Fl.rotateQ r (Fl.rotateQ r v p) q).elem - (Fl.rotateQ r v (Fl.qMul r p q)).elem) ≤ (27 * (α + β) + 153 * epsilon) * len v.elem) ∧
    len ((Fl.rotateQ r (Fl.rotateQ r v q) q.inverse).elem - v.elem) ≤ (27 * β + 41 * epsilon) * len v.elem := by
  have he := epsilon_pos
  have he2 := epsilon_lt
  norm_num at he2
  have α0 := (norm_nonneg _).trans hp
  have β0 := (norm_nonneg _).trans hq
  have hL := len_nonneg v.elem
  have hβ : 13 * β + 20 * epsilon ≤ 1 / 20 := by linarith
  constructor
  · intro hs
    have h3 := ((C122_product r p q a b α β ha hb hp hq (by linarith) (by linarith)).1 hs).1
    have hαβ : α * β ≤ 1 / 300 * β := mul_le_mul_of_nonneg_right h1 β0
    have h4 := C123_rotate r v (Fl.qMul r p q) (b * a) _ (by rw [norm_mul, ha, hb, one_mul]) h3 (by linarith)
    have h5 := turned_twice ha hb (by positivity) (C123_rotate r v p a α ha hp (by linarith)) (C123_rotate r (Fl.rotateQ r v p) q b β hb hq (by linarith))
    have h6 := len_triangle (Fl.rotateQ r (Fl.rotateQ r v p) q).elem (act (b * a) v.elem) (Fl.rotateQ r v (Fl.qMul r p q)).elem
    rw [show act (b * a) v.elem - (Fl.rotateQ r v (Fl.qMul r p q)).elem = -((Fl.rotateQ r v (Fl.qMul r p q)).elem - act (b * a) v.elem) by module, len_neg] at h6
    have h7 : (13 * α + 20 * epsilon) * (13 * β + 20 * epsilon) ≤ (13 * α + 20 * epsilon) * (1 / 20) := mul_le_mul_of_nonneg_left hβ (by positivity)
    refine h6.trans ((add_le_add h5 h4).trans ?_)
    rw [← add_mul]
    exact mul_le_mul_of_nonneg_right (by linarith) hL
  · have hi : ‖toH q.inverse - star b‖ ≤ β := by rw [toH_inverse, ← star_sub, _root_.norm_star]; exact hq
    have hsb : ‖star b‖ = 1 := by rw [_root_.norm_star, hb]
    have h5 := turned_twice hb hsb (by positivity) (C123_rotate r v q b β hb hq (by linarith)) (C123_rotate r (Fl.rotateQ r v q) q.inverse (star b) β hsb hi (by linarith))
    have hone : star b * b = 1 := by rw [star_mul_self, normSq_eq_one.2 hb]; simp
    rw [hone] at h5
    rw [act_one] at h5
    refine h5.trans (mul_le_mul_of_nonneg_right ?_ hL)
    have h7 : (13 * β + 20 * epsilon) * (13 * β + 20 * epsilon) ≤ (13 * β + 20 * epsilon) * (1 / 20) := mul_le_mul_of_nonneg_left hβ (by positivity)
    linarith

/-- A quaternion made from components: rotating by it keeps the length of a vector up to `33 ε`, and by its inverse restores the vector up to `68 ε`, in proportion to its length. -/
example (r : Rounding 53) (v : Vec 3) (h : ℍ[ℝ]) (h0 : h ≠ 0) :
    len ((Fl.rotateQ r v (Fl.qOfComponents r h.re h.imI h.imJ h.imK)).elem - act (‖h‖⁻¹ • h) v.elem) ≤ 33 * epsilon * len v.elem ∧
    len ((Fl.rotateQ r (Fl.rotateQ r v (Fl.qOfComponents r h.re h.imI h.imJ h.imK)) (Fl.qOfComponents r h.re h.imI h.imJ h.imK).inverse).elem - v.elem) ≤
      68 * epsilon * len v.elem := by
  have he2 := epsilon_lt
  norm_num at he2
  have h1 := (C122_unit r h h0).1
  have hu : ‖‖h‖⁻¹ • h‖ = 1 := by rw [norm_smul, norm_inv, norm_norm, inv_mul_cancel₀ (norm_ne_zero_iff.2 h0)]
  refine ⟨(C123_rotate r v _ _ _ hu h1 (by linarith)).trans (le_of_eq (by ring)),
    ((C123_compose r v _ _ _ _ _ _ hu hu h1 h1 (by linarith) (by linarith)).2).trans (le_of_eq (by ring))⟩

end WFMath
