/- Property theorems C135: rotated boxes computed in doubles. -/
import Verif.Model.RoundedRBox
import Verif.Spec.TurnedBox
import Verif.Props.RoundSegIn

namespace WFMath
open Spec Matrix Rounding
variable {n : Nat}

namespace Fl

/-- The coordinates of a point along the edges of a box, as computed. -/
theorem shift_err (r : Rounding 53) (m : RotMat n) (R : Matrix (Fin n) (Fin n) ℝ) (E : ℝ) (hn : n < 2 ^ 52) (hR : Rᵀ * R = 1)
    (h0 : 2 * n * (n + 1) * 2 ^ (-52 : ℤ) ≤ E) (h1 : E ≤ 1 / 4) (hm : Stands m.elem R (E - 2 * n * (n + 1) * 2 ^ (-52 : ℤ))) (p c : Pt n) :
    len ((matVec r m (ptSub r p c)).elem - R *ᵥ (p.elem - c.elem)) ≤ (E + 2 ^ (-52 : ℤ)) * eucl p.elem c.elem := by
  rw [eucl_eq_len]
  have hκ : (0 : ℝ) ≤ 2 * n * (n + 1) * 2 ^ (-52 : ℤ) := by positivity
  have hV := (C124_vector r m R _ hn (sub_nonneg.2 h0) (by linarith) hR hm (ptSub r p c)).1
  simp only [sub_add_cancel] at hV
  have a1 : len ((ptSub r p c).elem - (p.elem - c.elem)) ≤ 2 ^ (-53 : ℤ) * len (p.elem - c.elem) := len_round r (p.elem - c.elem)
  have hE : 0 ≤ E := le_trans (by positivity) h0
  have hD := len_nonneg (p.elem - c.elem)
  rw [show (2 : ℝ) ^ (-52 : ℤ) = 2 * 2 ^ (-53 : ℤ) by norm_num]
  have u0 : (0 : ℝ) ≤ 2 ^ (-53 : ℤ) := by positivity
  generalize (matVec r m (ptSub r p c)).elem = y at *
  generalize (ptSub r p c).elem = a at *
  generalize p.elem - c.elem = d at *
  generalize (2 : ℝ) ^ (-53 : ℤ) = u at *
  have t := len_triangle y (R *ᵥ a) (R *ᵥ d)
  rw [← mulVec_sub, len_orth hR] at t
  have l1 : len a ≤ (1 + u) * len d := by
    have := len_add_le (a - d) d; rw [sub_add_cancel] at this; linarith
  have l2 := mul_le_mul_of_nonneg_left l1 hE
  have l3 := mul_le_mul_of_nonneg_right h1 (mul_nonneg u0 hD)
  nlinarith

/-- The point turned back about the corner of a box, as computed. -/
theorem unrotate_err (r : Rounding 53) (b : RBox n) (R : Matrix (Fin n) (Fin n) ℝ) (E : ℝ) (hn : n < 2 ^ 52) (hR : Rᵀ * R = 1)
    (h0 : 2 * n * (n + 1) * 2 ^ (-52 : ℤ) ≤ E) (h1 : E ≤ 1 / 4) (hm : Stands b.orient.elem R (E - 2 * n * (n + 1) * 2 ^ (-52 : ℤ))) (p : Pt n) :
    len ((rbUnrotate r b p).elem - (b.corner.elem + R *ᵥ (p.elem - b.corner.elem))) ≤
      (E + 2 ^ (-51 : ℤ)) * eucl p.elem b.corner.elem + 2 ^ (-53 : ℤ) * len b.corner.elem := by
  have h := shift_err r b.orient R E hn hR h0 h1 hm p b.corner
  have a3 : len ((rbUnrotate r b p).elem - (b.corner.elem + (matVec r b.orient (ptSub r p b.corner)).elem)) ≤
      2 ^ (-53 : ℤ) * len (b.corner.elem + (matVec r b.orient (ptSub r p b.corner)).elem) := len_round r _
  have hE : 0 ≤ E := le_trans (by positivity) h0
  rw [eucl_eq_len] at h ⊢
  have hD := len_nonneg (p.elem - b.corner.elem)
  have hr := len_orth hR (p.elem - b.corner.elem)
  rw [show (2 : ℝ) ^ (-52 : ℤ) = 2 * 2 ^ (-53 : ℤ) by norm_num] at h
  rw [show (2 : ℝ) ^ (-51 : ℤ) = 4 * 2 ^ (-53 : ℤ) by norm_num]
  have u0 : (0 : ℝ) ≤ 2 ^ (-53 : ℤ) := by positivity
  have u1 : (2 : ℝ) ^ (-53 : ℤ) ≤ 1 / 1000000 := by norm_num
  generalize (rbUnrotate r b p).elem = q at *
  generalize (matVec r b.orient (ptSub r p b.corner)).elem = y at *
  generalize p.elem - b.corner.elem = d at *
  generalize b.corner.elem = c at *
  generalize (2 : ℝ) ^ (-53 : ℤ) = u at *
  have t := len_triangle q (c + y) (c + R *ᵥ d)
  rw [add_sub_add_left_eq_sub] at t
  have l1 : len y ≤ 5 / 3 * len d := by
    have := len_add_le (y - R *ᵥ d) (R *ᵥ d); rw [sub_add_cancel, hr] at this
    have h3 := mul_le_mul_of_nonneg_right (show E + 2 * u ≤ 1 / 2 by linarith) hD
    linarith
  have l2 := len_add_le c y
  have l3 := mul_le_mul_of_nonneg_left (l2.trans (add_le_add_right l1 (len c))) u0
  nlinarith [mul_nonneg u0 hD]

theorem between {a e c s w : ℝ} (he : |e - (c + s)| ≤ w) (h1 : min c e ≤ a) (h2 : a ≤ max c e) : ∃ a', (min 0 s ≤ a' - c ∧ a' - c ≤ max 0 s) ∧ |a - a'| ≤ w := by
  have key : ∀ t : ℝ, 0 ≤ t → t ≤ 1 → a = c + t * (e - c) → ∃ a', (min 0 s ≤ a' - c ∧ a' - c ≤ max 0 s) ∧ |a - a'| ≤ w := by
    intro t t0 t1 ha
    refine ⟨c + t * s, ⟨?_, ?_⟩, ?_⟩
    · rw [add_sub_cancel_left]
      rcases le_total 0 s with h | h
      · rw [min_eq_left h]; positivity
      · rw [min_eq_right h]; nlinarith
    · rw [add_sub_cancel_left]
      rcases le_total 0 s with h | h
      · rw [max_eq_right h]; nlinarith
      · rw [max_eq_left h]; nlinarith
    · rw [ha, show c + t * (e - c) - (c + t * s) = t * (e - (c + s)) by ring, abs_mul, abs_of_nonneg t0]
      have := mul_le_mul_of_nonneg_right t1 (abs_nonneg (e - (c + s)))
      linarith
  rcases eq_or_ne e c with h | h
  · subst h
    rw [min_self] at h1
    rw [max_self] at h2
    exact key 0 le_rfl zero_le_one (by linarith)
  · have hne : e - c ≠ 0 := sub_ne_zero.2 h
    refine key ((a - c) / (e - c)) ?_ ?_ (by field_simp; ring)
    · rcases lt_or_gt_of_ne h with h | h
      · rw [max_eq_left h.le] at h2
        exact div_nonneg_of_nonpos (by linarith) (by linarith)
      · rw [min_eq_left h.le] at h1
        exact div_nonneg (by linarith) (by linarith)
    · rcases lt_or_gt_of_ne h with h | h
      · rw [min_eq_right h.le] at h1
        rw [div_le_one_of_neg (by linarith)]; linarith
      · rw [max_eq_right h.le] at h2
        rw [div_le_one (by linarith)]; linarith

theorem between' {a e c s w : ℝ} (he : |e - (c + s)| ≤ w) (h1 : min 0 s ≤ a - c) (h2 : a - c ≤ max 0 s) : ∃ a', (min c e ≤ a' ∧ a' ≤ max c e) ∧ |a - a'| ≤ w := by
  have h := between (a := a) (e := c + s) (c := c) (s := e - c) (w := w) (by rw [add_sub_cancel]; rwa [abs_sub_comm]) ?_ ?_
  · obtain ⟨a', ⟨h1, h2⟩, h3⟩ := h
    refine ⟨a', ⟨?_, ?_⟩, h3⟩
    · rcases le_total c e with h | h
      · rw [min_eq_left h]; rw [min_eq_left (by linarith)] at h1; linarith
      · rw [min_eq_right h]; rw [min_eq_right (by linarith)] at h1; linarith
    · rcases le_total c e with h | h
      · rw [max_eq_right h]; rw [max_eq_right (by linarith)] at h2; linarith
      · rw [max_eq_left h]; rw [max_eq_left (by linarith)] at h2; linarith
  · rcases le_total 0 s with h | h
    · rw [min_eq_left (by linarith)]; rw [min_eq_left h] at h1; linarith
    · rw [min_eq_right (by linarith)]; rw [min_eq_right h] at h1; linarith
  · rcases le_total 0 s with h | h
    · rw [max_eq_right (by linarith)]; rw [max_eq_right h] at h2; linarith
    · rw [max_eq_left (by linarith)]; rw [max_eq_left h] at h2; linarith

theorem flat_low (r : Rounding 53) (b : RBox n) (i : Fin n) : (rbFlat r b).low.elem i = min (b.corner.elem i) (r (b.corner.elem i + b.size.elem i)) := by
  show (if b.corner.elem i > r (b.corner.elem i + b.size.elem i) then r (b.corner.elem i + b.size.elem i) else b.corner.elem i) = _
  split_ifs with h
  · rw [min_eq_right h.le]
  · rw [min_eq_left (not_lt.1 h)]

theorem flat_high (r : Rounding 53) (b : RBox n) (i : Fin n) : (rbFlat r b).high.elem i = max (b.corner.elem i) (r (b.corner.elem i + b.size.elem i)) := by
  show (if b.corner.elem i > r (b.corner.elem i + b.size.elem i) then b.corner.elem i else r (b.corner.elem i + b.size.elem i)) = _
  split_ifs with h
  · rw [max_eq_left h.le]
  · rw [max_eq_right (not_lt.1 h)]

theorem flat_ordered (r : Rounding 53) (b : RBox n) : Ordered (rbFlat r b) := fun i => by rw [flat_low, flat_high]; exact min_le_max

theorem end_err (r : Rounding 53) (b : RBox n) (i : Fin n) :
    |r (b.corner.elem i + b.size.elem i) - (b.corner.elem i + b.size.elem i)| ≤ 2 ^ (-53 : ℤ) * |(b.corner.elem + b.size.elem) i| := by
  have := r.err pos53 (b.corner.elem i + b.size.elem i)
  rwa [u53] at this

/-- A point of the box as computed without the rotation is near a point of the exact one. -/
theorem flat_near (r : Rounding 53) (b : RBox n) {y : Fin n → ℝ} (hy : y ∈ boxSet (rbFlat r b)) :
    ∃ y', (∀ i, min 0 (b.size.elem i) ≤ y' i - b.corner.elem i ∧ y' i - b.corner.elem i ≤ max 0 (b.size.elem i)) ∧
      len (y - y') ≤ 2 ^ (-53 : ℤ) * len (b.corner.elem + b.size.elem) := by
  have h : ∀ i, ∃ a', (min 0 (b.size.elem i) ≤ a' - b.corner.elem i ∧ a' - b.corner.elem i ≤ max 0 (b.size.elem i)) ∧ |y i - a'| ≤ 2 ^ (-53 : ℤ) * |(b.corner.elem + b.size.elem) i| := by
    intro i
    have := hy i
    rw [flat_low, flat_high] at this
    exact between (end_err r b i) this.1 this.2
  choose y' h1 h2 using h
  exact ⟨y', h1, len_mono (by positivity) h2⟩

theorem flat_near' (r : Rounding 53) (b : RBox n) {y : Fin n → ℝ} (hy : ∀ i, min 0 (b.size.elem i) ≤ y i - b.corner.elem i ∧ y i - b.corner.elem i ≤ max 0 (b.size.elem i)) :
    ∃ y' ∈ boxSet (rbFlat r b), len (y - y') ≤ 2 ^ (-53 : ℤ) * len (b.corner.elem + b.size.elem) := by
  have h : ∀ i, ∃ a', (min (b.corner.elem i) (r (b.corner.elem i + b.size.elem i)) ≤ a' ∧ a' ≤ max (b.corner.elem i) (r (b.corner.elem i + b.size.elem i))) ∧
      |y i - a'| ≤ 2 ^ (-53 : ℤ) * |(b.corner.elem + b.size.elem) i| := fun i => between' (end_err r b i) (hy i).1 (hy i).2
  choose y' h1 h2 using h
  refine ⟨y', fun i => ?_, len_mono (by positivity) h2⟩
  rw [flat_low, flat_high]
  exact h1 i

end Fl

/-- The box turned by an exact rotation is the set of points of the rotated box used elsewhere. -/
theorem turnedBox_zero (c : Pt n) (s : Vec n) (R : Matrix (Fin n) (Fin n) ℝ) (hR : Rᵀ * R = 1) : turnedBox c.elem s.elem R 0 = rboxSet ⟨c, s, ⟨R, false, true, 1⟩⟩ := by
  have hR' : R * Rᵀ = 1 := mul_eq_one_comm.1 hR
  ext x
  constructor
  · intro h
    have hs : ∀ i, ∃ t : ℝ, (0 ≤ t ∧ t ≤ 1) ∧ t * s.elem i = (R *ᵥ (x - c.elem)) i := by
      intro i
      obtain ⟨h1, h2⟩ := h i
      generalize (R *ᵥ (x - c.elem)) i = a at *
      generalize s.elem i = s at *
      rcases lt_trichotomy s 0 with h | h | h
      · rw [min_eq_right h.le] at h1; rw [max_eq_left h.le] at h2
        exact ⟨a / s, ⟨div_nonneg_of_nonpos (by linarith) h.le, by rw [div_le_one_of_neg h]; linarith⟩, div_mul_cancel₀ _ h.ne⟩
      · subst h; simp at h1 h2; exact ⟨0, by norm_num, by linarith⟩
      · rw [min_eq_left h.le] at h1; rw [max_eq_right h.le] at h2
        exact ⟨a / s, ⟨div_nonneg (by linarith) h.le, by rw [div_le_one h]; linarith⟩, div_mul_cancel₀ _ h.ne'⟩
    choose t h1 h2 using hs
    refine ⟨t, h1, funext fun k => ?_⟩
    have e : x - c.elem = Rᵀ *ᵥ (R *ᵥ (x - c.elem)) := by rw [mulVec_mulVec, hR, one_mulVec]
    have := congrFun e k
    simp only [Pi.sub_apply, mulVec, dotProduct, Matrix.transpose_apply] at this
    show x k = c.elem k + ∑ i, t i * s.elem i * R i k
    rw [sub_eq_iff_eq_add'.1 this]
    congr 1
    refine Finset.sum_congr rfl fun i _ => ?_
    rw [h2]
    simp only [mulVec, dotProduct, Pi.sub_apply]; ring
  · rintro ⟨t, ht, rfl⟩ i
    have e : (R *ᵥ ((fun k => c.elem k + ∑ i, t i * s.elem i * R i k) - c.elem)) i = t i * s.elem i := by
      have : ((fun k => c.elem k + ∑ i, t i * s.elem i * R i k) - c.elem) = Rᵀ *ᵥ fun i => t i * s.elem i := by
        ext k; simp only [Pi.sub_apply, mulVec, dotProduct, Matrix.transpose_apply, add_sub_cancel_left]
        exact Finset.sum_congr rfl fun i _ => mul_comm _ _
      rw [this, mulVec_mulVec, hR', one_mulVec]
    show _ ≤ (R *ᵥ ((fun k => c.elem k + ∑ i, t i * s.elem i * R i k) - c.elem)) i ∧ (R *ᵥ ((fun k => c.elem k + ∑ i, t i * s.elem i * R i k) - c.elem)) i ≤ _
    rw [e]
    obtain ⟨t0, t1⟩ := ht i
    rcases le_total 0 (s.elem i) with h | h
    · rw [min_eq_left h, max_eq_right h]; constructor <;> nlinarith
    · rw [min_eq_right h, max_eq_left h]; constructor <;> nlinarith

/-- C135, point and rotated box. `R` is an exact rotation and the orientation stored stands for it up to `E`. Computed in doubles the tolerant test accepts a point
whose coordinates along the edges are within epsilon of those of the box, less the stated margin, and what it accepts is in the box up to little more than epsilon and
the same margin; likewise the proper test and the inside of the box. -/
theorem C135_point (r : Rounding 53) (b : RBox n) (R : Matrix (Fin n) (Fin n) ℝ) (E : ℝ) (hn : n < 2 ^ 52) (hR : Rᵀ * R = 1)
    (h0 : 2 * n * (n + 1) * 2 ^ (-52 : ℤ) ≤ E) (h1 : E ≤ 1 / 4) (hm : Stands b.orient.elem R (E - 2 * n * (n + 1) * 2 ^ (-52 : ℤ))) (p : Pt n) :
    (p.elem ∈ turnedBox b.corner.elem b.size.elem R (epsilon - (E + 2 ^ (-52 : ℤ)) * eucl p.elem b.corner.elem) → Fl.interRP r b p false = true) ∧
    (Fl.interRP r b p false = true → p.elem ∈ turnedBox b.corner.elem b.size.elem R (epsilon * (1 + 2 ^ (-52 : ℤ)) + (E + 2 ^ (-52 : ℤ)) * eucl p.elem b.corner.elem)) ∧
    (p.elem ∈ turnedInterior b.corner.elem b.size.elem R (-((E + 2 ^ (-52 : ℤ)) * eucl p.elem b.corner.elem)) → Fl.interRP r b p true = true) ∧
    (Fl.interRP r b p true = true → p.elem ∈ turnedInterior b.corner.elem b.size.elem R ((E + 2 ^ (-52 : ℤ)) * eucl p.elem b.corner.elem)) := by
  have hs := Fl.shift_err r b.orient R E hn hR h0 h1 hm p b.corner
  have hi : ∀ i, |(Fl.matVec r b.orient (Fl.ptSub r p b.corner)).elem i - (R *ᵥ (p.elem - b.corner.elem)) i| ≤ (E + 2 ^ (-52 : ℤ)) * eucl p.elem b.corner.elem :=
    fun i => (abs_le_len _ i).trans hs
  generalize hM : (E + 2 ^ (-52 : ℤ)) * eucl p.elem b.corner.elem = M at *
  have hle : ∀ proper, Fl.interRP r b p proper = true ↔ ∀ i, if b.size.elem i < 0 then
      ¬ Fl.less r ((Fl.matVec r b.orient (Fl.ptSub r p b.corner)).elem i) (b.size.elem i) proper = true ∧
      ¬ Fl.greater r ((Fl.matVec r b.orient (Fl.ptSub r p b.corner)).elem i) 0 proper = true else
      ¬ Fl.greater r ((Fl.matVec r b.orient (Fl.ptSub r p b.corner)).elem i) (b.size.elem i) proper = true ∧
      ¬ Fl.less r ((Fl.matVec r b.orient (Fl.ptSub r p b.corner)).elem i) 0 proper = true := by
    intro proper
    unfold Fl.interRP
    simp only [List.all_eq_true, List.mem_finRange, true_implies]
    refine forall_congr' fun i => ?_
    split_ifs <;> simp
  rw [hle, hle]
  have acc : ∀ {x y : ℝ}, y - x ≤ epsilon → ¬ Fl.less r x y false = true := fun {x y} h => by
    unfold Fl.less
    simp only [Bool.false_eq_true, if_false, decide_eq_true_eq, not_lt, gt_iff_lt]
    exact r.le_fl Fl.isFl_epsilon h
  have acc' : ∀ {x y : ℝ}, x - y ≤ epsilon → ¬ Fl.greater r x y false = true := fun {x y} h => by
    unfold Fl.greater
    simp only [Bool.false_eq_true, if_false, decide_eq_true_eq, not_lt, gt_iff_lt]
    exact r.le_fl Fl.isFl_epsilon h
  have pr : ∀ {x y : ℝ}, ¬ Fl.less r x y true = true ↔ y < x := fun {x y} => by unfold Fl.less; simp
  have pr' : ∀ {x y : ℝ}, ¬ Fl.greater r x y true = true ↔ x < y := fun {x y} => by unfold Fl.greater; simp
  refine ⟨fun h i => ?_, fun h i => ?_, fun h i => ?_, fun h i => ?_⟩
  · have a := _root_.abs_le.1 (hi i)
    have c := h i
    split_ifs with hneg
    · rw [min_eq_right hneg.le, max_eq_left hneg.le] at c
      exact ⟨acc (by linarith), acc' (by linarith)⟩
    · rw [min_eq_left (not_lt.1 hneg), max_eq_right (not_lt.1 hneg)] at c
      exact ⟨acc' (by linarith), acc (by linarith)⟩
  · have a := _root_.abs_le.1 (hi i)
    have c := h i
    split_ifs at c with hneg
    · rw [min_eq_right hneg.le, max_eq_left hneg.le]
      have c1 := Fl.not_less c.1
      have c2 := Fl.not_greater c.2
      exact ⟨by linarith, by linarith⟩
    · rw [min_eq_left (not_lt.1 hneg), max_eq_right (not_lt.1 hneg)]
      have c1 := Fl.not_greater c.1
      have c2 := Fl.not_less c.2
      exact ⟨by linarith, by linarith⟩
  · have a := _root_.abs_le.1 (hi i)
    have c := h i
    split_ifs with hneg
    · rw [min_eq_right hneg.le, max_eq_left hneg.le] at c
      exact ⟨pr.2 (by linarith), pr'.2 (by linarith)⟩
    · rw [min_eq_left (not_lt.1 hneg), max_eq_right (not_lt.1 hneg)] at c
      exact ⟨pr'.2 (by linarith), pr.2 (by linarith)⟩
  · have a := _root_.abs_le.1 (hi i)
    have c := h i
    split_ifs at c with hneg
    · rw [min_eq_right hneg.le, max_eq_left hneg.le]
      have c1 := pr.1 c.1
      have c2 := pr'.1 c.2
      exact ⟨by linarith, by linarith⟩
    · rw [min_eq_left (not_lt.1 hneg), max_eq_right (not_lt.1 hneg)]
      have c1 := pr'.1 c.1
      have c2 := pr.1 c.2
      exact ⟨by linarith, by linarith⟩

namespace Fl

/-- The corner plus a vector turned, as computed. -/
theorem turned_err (r : Rounding 53) (b : RBox n) (R : Matrix (Fin n) (Fin n) ℝ) (E : ℝ) (hn : n < 2 ^ 52) (hR : Rᵀ * R = 1)
    (h0 : 2 * n * (n + 1) * 2 ^ (-52 : ℤ) ≤ E) (h1 : E ≤ 1 / 4) (hm : Stands b.orient.elem R (E - 2 * n * (n + 1) * 2 ^ (-52 : ℤ))) (v : Vec n) (w : Fin n → ℝ)
    (hv : len (v.elem - w) ≤ 2 ^ (-53 : ℤ) * len w) :
    len ((addVec r b.corner (vecMat r b.orient v)).elem - (b.corner.elem + w ᵥ* R)) ≤ (E + 2 ^ (-51 : ℤ)) * len w + 2 ^ (-53 : ℤ) * len b.corner.elem := by
  have hκ : (0 : ℝ) ≤ 2 * n * (n + 1) * 2 ^ (-52 : ℤ) := by positivity
  have hV := (C124_vector r b.orient R _ hn (sub_nonneg.2 h0) (by linarith) hR hm v).2
  simp only [sub_add_cancel] at hV
  have hR' : Rᵀᵀ * Rᵀ = 1 := by rw [transpose_transpose]; exact mul_eq_one_comm.1 hR
  have lA : ∀ v, len (v ᵥ* R) = len v := fun v => by rw [← mulVec_transpose, len_orth hR']
  have hE : 0 ≤ E := hκ.trans h0
  have a3 : len ((addVec r b.corner (vecMat r b.orient v)).elem - (b.corner.elem + (vecMat r b.orient v).elem)) ≤
      2 ^ (-53 : ℤ) * len (b.corner.elem + (vecMat r b.orient v).elem) := len_round r _
  rw [show (2 : ℝ) ^ (-51 : ℤ) = 4 * 2 ^ (-53 : ℤ) by norm_num]
  have u0 : (0 : ℝ) ≤ 2 ^ (-53 : ℤ) := by positivity
  have u1 : (2 : ℝ) ^ (-53 : ℤ) ≤ 1 / 1000000 := by norm_num
  generalize (addVec r b.corner (vecMat r b.orient v)).elem = q at *
  generalize (vecMat r b.orient v).elem = y at *
  generalize v.elem = v at *
  generalize b.corner.elem = c at *
  generalize (2 : ℝ) ^ (-53 : ℤ) = u at *
  have hD := len_nonneg w
  have t := len_triangle q (c + y) (c + w ᵥ* R)
  rw [add_sub_add_left_eq_sub] at t
  have t2 := len_triangle y (v ᵥ* R) (w ᵥ* R)
  rw [← sub_vecMul, lA] at t2
  have l1 : len v ≤ (1 + u) * len w := by
    have := len_add_le (v - w) w; rw [sub_add_cancel] at this; linarith
  have l4 : E * len v ≤ E * len w + u * len w := by
    have := mul_le_mul_of_nonneg_left l1 hE
    nlinarith [mul_nonneg u0 hD]
  have l5 : len y ≤ 3 / 2 * len w := by
    have := len_add_le (y - w ᵥ* R) (w ᵥ* R); rw [sub_add_cancel, lA] at this
    nlinarith [mul_le_mul_of_nonneg_right h1 hD, mul_le_mul_of_nonneg_right u1 hD]
  have l2 := len_add_le c y
  have l3 := mul_le_mul_of_nonneg_left (l2.trans (add_le_add_right l5 (len c))) u0
  nlinarith [mul_nonneg u0 hD]

end Fl

/-- C135, corners and centre: computed in doubles, corner `i` of a rotated box is the corner of the exact one (the edges whose bit is set in `i`) and the centre is
the exact centre, up to the stated errors; corner 0 is exact. -/
theorem C135_corner (r : Rounding 53) (b : RBox n) (R : Matrix (Fin n) (Fin n) ℝ) (E : ℝ) (hn : n < 2 ^ 52) (hR : Rᵀ * R = 1)
    (h0 : 2 * n * (n + 1) * 2 ^ (-52 : ℤ) ≤ E) (h1 : E ≤ 1 / 4) (hm : Stands b.orient.elem R (E - 2 * n * (n + 1) * 2 ^ (-52 : ℤ))) :
    Fl.rbCorner r b 0 = some b.corner ∧
    (∀ i < 2 ^ n, ∃ p, Fl.rbCorner r b i = some p ∧
      len (p.elem - fun k => b.corner.elem k + ∑ j : Fin n, if i.testBit j then b.size.elem j * R j k else 0) ≤
        (E + 2 ^ (-51 : ℤ)) * len b.size.elem + 2 ^ (-53 : ℤ) * len b.corner.elem) ∧
    len ((Fl.rbCenter r b).elem - fun k => b.corner.elem k + ∑ j : Fin n, b.size.elem j / 2 * R j k) ≤
      (E + 2 ^ (-51 : ℤ)) * (len b.size.elem / 2) + 2 ^ (-53 : ℤ) * len b.corner.elem := by
  have hE : 0 ≤ E := le_trans (by positivity) h0
  have z : (0 : ℝ) ≤ (E + 2 ^ (-51 : ℤ)) * len b.size.elem + 2 ^ (-53 : ℤ) * len b.corner.elem :=
    add_nonneg (mul_nonneg (add_nonneg hE (by positivity)) (len_nonneg _)) (mul_nonneg (by positivity) (len_nonneg _))
  refine ⟨by simp [Fl.rbCorner], fun i hi => ?_, ?_⟩
  · rcases Nat.eq_zero_or_pos i with h | h
    · subst h
      refine ⟨b.corner, by simp [Fl.rbCorner], ?_⟩
      simp only [Nat.zero_testBit, Bool.false_eq_true, if_false, Finset.sum_const_zero, add_zero]
      rw [sub_self, len_zero]; exact z
    · refine ⟨_, by unfold Fl.rbCorner; rw [if_pos hi, if_neg (by omega)], ?_⟩
      have := Fl.turned_err r b R E hn hR h0 h1 hm ⟨fun j => if i.testBit j then b.size.elem j else 0, b.size.valid⟩
        (fun j => if i.testBit j then b.size.elem j else 0) (by rw [sub_self, len_zero]; exact mul_nonneg (by positivity) (len_nonneg _))
      have e : b.corner.elem + (fun j : Fin n => if i.testBit j then b.size.elem j else 0) ᵥ* R =
          fun k => b.corner.elem k + ∑ j : Fin n, if i.testBit j then b.size.elem j * R j k else 0 := by
        ext k
        simp only [Pi.add_apply, vecMul, dotProduct, ite_mul, zero_mul]
      rw [e] at this
      refine this.trans (add_le_add_left (mul_le_mul_of_nonneg_left ?_ (add_nonneg hE (by positivity))) _)
      refine (Fl.len_mono (c := 1) zero_le_one fun j => ?_).trans (one_mul _).le
      rw [one_mul]
      split_ifs
      · exact le_rfl
      · rw [abs_zero]; exact abs_nonneg _
  · have := Fl.turned_err r b R E hn hR h0 h1 hm (Fl.divBy r b.size 2) (fun j => b.size.elem j / 2) (Fl.len_round r _)
    have e : b.corner.elem + (fun j : Fin n => b.size.elem j / 2) ᵥ* R = fun k => b.corner.elem k + ∑ j : Fin n, b.size.elem j / 2 * R j k := rfl
    have e2 : len (fun j => b.size.elem j / 2) = len b.size.elem / 2 := by
      have : (fun j => b.size.elem j / 2) = (1 / 2 : ℝ) • b.size.elem := by ext j; simp; ring
      rw [this, len_smul]; norm_num; ring
    rwa [e, e2] at this

end WFMath
