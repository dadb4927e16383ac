/- Property theorems C120: midpoints, centres of boxes and moved boxes in floating point arithmetic. -/
import Verif.Props.RoundBall

namespace WFMath
open Spec
open WFMath.Spec.Rounding (u)
variable {n : Nat}

theorem isFl_half : IsFl 53 (1 / 2) := ⟨1, -1, by norm_num, by norm_num⟩

theorem Spec.IsFl.half {x : ℝ} (h : IsFl 53 x) : IsFl 53 (x * (1 / 2)) := by
  have := h.mul_zpow (-1)
  rwa [show (2 : ℝ) ^ (-1 : ℤ) = 1 / 2 by norm_num] at this

/-- With weight one half, between two doubles, only the last operation of `Midpoint` rounds. -/
theorem Fl.mid_half (r : Rounding 53) {x y : ℝ} (hx : IsFl 53 x) (hy : IsFl 53 y) :
    r (r (x * r (1 - 1 / 2)) + r (y * (1 / 2))) = r ((x + y) / 2) := by
  rw [show (1 : ℝ) - 1 / 2 = 1 / 2 by norm_num, r.of_fl isFl_half, r.of_fl hx.half, r.of_fl hy.half]
  congr 1; ring

/-- C120, the midpoint of two points whose coordinates are doubles: every coordinate is the exact one rounded once; it lies between the coordinates of the two points; the
order of the points does not matter; the midpoint of a point and itself is that point. -/
theorem C120_midpoint (r : Rounding 53) (p q : Pt n) (hp : ∀ i, IsFl 53 (p.elem i)) (hq : ∀ i, IsFl 53 (q.elem i)) :
    (∀ i, (Fl.midpoint r p q (1 / 2)).elem i = r ((p.elem i + q.elem i) / 2)) ∧
    (∀ i, min (p.elem i) (q.elem i) ≤ (Fl.midpoint r p q (1 / 2)).elem i ∧ (Fl.midpoint r p q (1 / 2)).elem i ≤ max (p.elem i) (q.elem i)) ∧
    Fl.midpoint r p q (1 / 2) = Fl.midpoint r q p (1 / 2) ∧ Fl.midpoint r p p (1 / 2) = p := by
  have h1 : ∀ i, (Fl.midpoint r p q (1 / 2)).elem i = r ((p.elem i + q.elem i) / 2) := fun i => Fl.mid_half r (hp i) (hq i)
  have h2 : ∀ i, (Fl.midpoint r q p (1 / 2)).elem i = r ((q.elem i + p.elem i) / 2) := fun i => Fl.mid_half r (hq i) (hp i)
  refine ⟨h1, fun i => ?_, ?_, ?_⟩
  · rw [h1]
    constructor
    · rcases min_choice (p.elem i) (q.elem i) with h | h <;> rw [h]
      · exact r.fl_le (hp i) (by have := min_le_right (p.elem i) (q.elem i); linarith)
      · exact r.fl_le (hq i) (by have := min_le_left (p.elem i) (q.elem i); linarith)
    · rcases max_choice (p.elem i) (q.elem i) with h | h <;> rw [h]
      · exact r.le_fl (hp i) (by have := le_max_right (p.elem i) (q.elem i); linarith)
      · exact r.le_fl (hq i) (by have := le_max_left (p.elem i) (q.elem i); linarith)
  · refine Pt.ext (funext fun i => ?_) (Bool.and_comm _ _)
    rw [h1, h2, add_comm]
  · refine Pt.ext (funext fun i => ?_) (Bool.and_self _)
    show r (r (p.elem i * r (1 - 1 / 2)) + r (p.elem i * (1 / 2))) = _
    rw [Fl.mid_half r (hp i) (hp i), add_self_div_two, r.of_fl (hp i)]

/-- C120, the centre of a box whose corners are doubles lies in the box, and as near its exact place as one rounding allows. -/
theorem C120_center (r : Rounding 53) (b : Box n) (hb : Ordered b) (hlo : ∀ i, IsFl 53 (b.low.elem i)) (hhi : ∀ i, IsFl 53 (b.high.elem i)) :
    (Fl.boxCenter r b).elem ∈ boxSet b ∧
    ∀ i, |(Fl.boxCenter r b).elem i - (b.low.elem i + b.high.elem i) / 2| ≤ 2 ^ (-53 : ℤ) * |(b.low.elem i + b.high.elem i) / 2| := by
  obtain ⟨h1, h2, -⟩ := C120_midpoint r b.low b.high hlo hhi
  refine ⟨fun i => ?_, fun i => ?_⟩
  · have := h2 i
    rwa [min_eq_left (hb i), max_eq_right (hb i)] at this
  · have := r.err Fl.pos53 ((b.low.elem i + b.high.elem i) / 2)
    rw [Fl.u53] at this
    unfold Fl.boxCenter
    rwa [h1]

/-- C120, the point of a segment at a weight between 0 and 1: weights 0 and 1 give the end points; otherwise every coordinate is off by at most `3 * 2^-52` times the
larger one of the two. -/
theorem C120_between (r : Rounding 53) (p q : Pt n) (hp : ∀ i, IsFl 53 (p.elem i)) (hq : ∀ i, IsFl 53 (q.elem i)) :
    (Fl.midpoint r p q 0).elem = p.elem ∧ (Fl.midpoint r p q 1).elem = q.elem ∧
    ∀ d : ℝ, 0 ≤ d → d ≤ 1 → ∀ i, |(Fl.midpoint r p q d).elem i - ((1 - d) * p.elem i + d * q.elem i)| ≤
      3 * 2 ^ (-52 : ℤ) * max |p.elem i| |q.elem i| := by
  refine ⟨funext fun i => ?_, funext fun i => ?_, fun d h0 h1 i => ?_⟩
  · show r (r (p.elem i * r (1 - 0)) + r (q.elem i * 0)) = _
    rw [sub_zero, mul_zero, r.of_fl (IsFl.one Fl.pos53), mul_one, r.zero, add_zero, r.of_fl (hp i), r.of_fl (hp i)]
  · show r (r (p.elem i * r (1 - 1)) + r (q.elem i * 1)) = _
    rw [sub_self, r.zero, mul_zero, r.zero, mul_one, zero_add, r.of_fl (hq i), r.of_fl (hq i)]
  · show |r (r (p.elem i * r (1 - d)) + r (q.elem i * d)) - _| ≤ _
    have c1 := (Close.refl Fl.pos53 0 (p.elem i)).mul Fl.pos53 (Close.round_self Fl.pos53 r (1 - d)) |>.round Fl.pos53 r
    have c2 := Close.round_self Fl.pos53 r (q.elem i * d)
    have e1 := Fl.Close_err' c1 (by norm_num)
    have e2 := Fl.Close_err' c2 (by norm_num)
    have e3 := r.err Fl.pos53 (r (p.elem i * r (1 - d)) + r (q.elem i * d))
    rw [Fl.u53] at e3
    have m1 := le_max_left |p.elem i| |q.elem i|
    have m2 := le_max_right |p.elem i| |q.elem i|
    generalize r (p.elem i * r (1 - d)) = A at *
    generalize r (q.elem i * d) = B at *
    generalize hM : max |p.elem i| |q.elem i| = M at *
    have hM0 : 0 ≤ M := (abs_nonneg _).trans m1
    have a1 : |p.elem i * (1 - d)| ≤ M * (1 - d) := by rw [abs_mul, abs_of_nonneg (show 0 ≤ 1 - d by linarith)]; gcongr
    have a2 : |q.elem i * d| ≤ M * d := by rw [abs_mul, abs_of_nonneg h0]; gcongr
    have a3 : |p.elem i * (1 - d) + q.elem i * d| ≤ M := (abs_add_le _ _).trans (by nlinarith)
    have a4 : |A + B - (p.elem i * (1 - d) + q.elem i * d)| ≤ 2 * 2 ^ (-52 : ℤ) * M := by
      rw [show A + B - (p.elem i * (1 - d) + q.elem i * d) = (A - p.elem i * (1 - d)) + (B - q.elem i * d) by ring]
      have k1 : |A - p.elem i * (1 - d)| ≤ 2 * 2 ^ (-52 : ℤ) * (M * (1 - d)) :=
        e1.trans (mul_le_mul (by norm_num) a1 (abs_nonneg _) (by positivity))
      have k2 : |B - q.elem i * d| ≤ 2 * 2 ^ (-52 : ℤ) * (M * d) :=
        e2.trans (mul_le_mul (by norm_num) a2 (abs_nonneg _) (by positivity))
      refine (abs_add_le _ _).trans ((add_le_add k1 k2).trans (le_of_eq (by ring)))
    have a5 : |A + B| ≤ (1 + 2 * 2 ^ (-52 : ℤ)) * M := by
      have := abs_sub_abs_le_abs_sub (A + B) (p.elem i * (1 - d) + q.elem i * d)
      linarith
    have a6 := abs_sub_le (r (A + B)) (A + B) ((1 - d) * p.elem i + d * q.elem i)
    rw [show (1 - d) * p.elem i + d * q.elem i = p.elem i * (1 - d) + q.elem i * d by ring] at a6 ⊢
    norm_num at a4 a5 e3 ⊢
    linarith

/-- C120, moving boxes: after a move computed in doubles an ordered box is ordered, a point of the box moved likewise is in the moved box, and a box in another is
in it after both have moved likewise. -/
theorem C120_shift (r : Rounding 53) (b : Box n) (v : Vec n) :
    (Ordered b → Ordered (Fl.boxShift r b v)) ∧ (∀ p : Pt n, p.elem ∈ boxSet b → (Fl.addVec r p v).elem ∈ boxSet (Fl.boxShift r b v)) ∧
    (∀ a : Box n, Ordered a → boxSet a ⊆ boxSet b → boxSet (Fl.boxShift r a v) ⊆ boxSet (Fl.boxShift r b v)) := by
  have hm : ∀ {x y : ℝ} (i : Fin n), x ≤ y → r (x + v.elem i) ≤ r (y + v.elem i) := fun i h => r.mono (by linarith)
  refine ⟨fun h i => hm i (h i), fun p hp i => ⟨hm i (hp i).1, hm i (hp i).2⟩, fun a ha h x hx i => ?_⟩
  have h1 := (h (low_mem ha) i).1
  have h2 := (h (high_mem ha) i).2
  exact ⟨(hm i h1).trans (hx i).1, (hx i).2.trans (hm i h2)⟩

/-- The centre of the box between (1, 1) and (2, 4): hypotheses of `C120_center`. -/
example (r : Rounding 53) : (Fl.boxCenter r (⟨⟨![1, 1], true⟩, ⟨![2, 4], true⟩⟩ : Box 2)).elem ∈
    boxSet (⟨⟨![1, 1], true⟩, ⟨![2, 4], true⟩⟩ : Box 2) := by
  have h2 : IsFl 53 (2 : ℝ) := ⟨1, 1, by norm_num, by norm_num⟩
  have h4 : IsFl 53 (4 : ℝ) := ⟨1, 2, by norm_num, by norm_num⟩
  refine (C120_center r _ (fun i => ?_) (fun i => ?_) fun i => ?_).1
  · fin_cases i <;> simp
  · fin_cases i <;> simpa using IsFl.one Fl.pos53
  · fin_cases i
    · exact h2
    · exact h4

end WFMath
