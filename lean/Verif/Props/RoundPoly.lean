/- Property theorems C136: plane polygons against points, balls and boxes in floating point. -/
import Verif.Model.RoundedPoly
import Verif.Props.PolyBox
import Verif.Props.PolyContains
import Verif.Props.RoundCompare
import Verif.Props.RoundSegBall

namespace WFMath
open Spec Matrix

namespace Spec
/-- Every point of the sides at the height of `p` is farther than `d` from `p`. -/
def ClearOfSides (ps : List (Pt 2)) (p : Fin 2 → ℝ) (d : ℝ) : Prop :=
  ∀ e ∈ sides ps, ∀ x : ℝ, ![x, p 1] ∈ segment ℝ e.1 e.2 → d < |p 0 - x|
/-- Every point of the sides straight above or below `p` is farther than `d` from `p`. -/
def ClearAboveBelow (ps : List (Pt 2)) (p : Fin 2 → ℝ) (d : ℝ) : Prop :=
  ∀ e ∈ sides ps, ∀ y : ℝ, ![p 0, y] ∈ segment ℝ e.1 e.2 → d < |p 1 - y|
/-- How far a point whose coordinate is `a` must be from the sides of a polygon with coordinates up to `M`, for the answer to be safe: the tolerance of the
comparison, and the rounding errors. -/
noncomputable def sideMargin (a M : ℝ) : ℝ := epsilon * max 1 (2 * |a|) * (1 + 2 ^ (-52 : ℤ)) + 2 ^ (-48 : ℤ) * M
end Spec

theorem Fl.scale_le (a x : ℝ) : scaleEpsilon a x epsilon ≤ epsilon * max 1 (2 * |a|) := by
  have he := epsilon_pos
  by_cases h : a = 0 ∨ x = 0
  · rw [scaleEpsilon_zero h]
    exact le_mul_of_one_le_right he.le (le_max_left _ _)
  · push Not at h
    refine (scaleEpsilon_le he.le h.1 h.2).trans ?_
    have h1 : min |a| |x| ≤ |a| := min_le_left _ _
    have h2 : 2 * |a| ≤ max 1 (2 * |a|) := le_max_right _ _
    nlinarith

/-- The computed place where a side crosses a line, against the exact place. -/
theorem Fl.sideAt_err (r : Rounding 53) {a0 a1 b0 b1 y M : ℝ} (hb : between a1 b1 y = true) (ha : |a0| ≤ M) (hb0 : |b0| ≤ M) :
    |Fl.sideAt r a0 a1 b0 b1 y - (a0 + (b0 - a0) * (y - a1) / (b1 - a1))| ≤ 11 * 2 ^ (-52 : ℤ) * M := by
  have h0 : 0 ≤ M := (abs_nonneg _).trans ha
  have hD : Close 53 5 (r (r (r (b0 - a0) * r (y - a1)) / r (b1 - a1))) ((b0 - a0) * (y - a1) / (b1 - a1)) := by
    refine Close.round Fl.pos53 r (k := 4) (Close.div Fl.pos53 (k := 3) (l := 1) (Close.round Fl.pos53 r (k := 2) ?_) (Close.round_self Fl.pos53 r _))
    exact Close.mul Fl.pos53 (k := 1) (l := 1) (Close.round_self Fl.pos53 r _) (Close.round_self Fl.pos53 r _)
  have ht : |(y - a1) / (b1 - a1)| ≤ 1 := by
    unfold between at hb
    rw [decide_eq_true_iff] at hb
    rw [abs_div]
    refine div_le_one_of_le₀ ?_ (abs_nonneg _)
    rcases hb with ⟨h1, h2⟩ | ⟨h1, h2⟩
    · rw [abs_of_nonneg (by linarith), abs_of_nonneg (by linarith)]; linarith
    · rw [abs_of_nonpos (by linarith), abs_of_nonpos (by linarith)]; linarith
  have hd : |(b0 - a0) * (y - a1) / (b1 - a1)| ≤ 2 * M := by
    rw [mul_div_assoc, abs_mul]
    have h1 : |b0 - a0| ≤ 2 * M := (abs_sub _ _).trans (by linarith)
    calc |b0 - a0| * |(y - a1) / (b1 - a1)| ≤ |b0 - a0| * 1 := mul_le_mul_of_nonneg_left ht (abs_nonneg _)
      _ ≤ 2 * M := by linarith
  have hx : |a0 + (b0 - a0) * (y - a1) / (b1 - a1)| ≤ M := by
    have e : a0 + (b0 - a0) * (y - a1) / (b1 - a1) = (1 - (y - a1) / (b1 - a1)) * a0 + (y - a1) / (b1 - a1) * b0 := by ring
    have ht0 : 0 ≤ (y - a1) / (b1 - a1) := by
      unfold between at hb
      rw [decide_eq_true_iff] at hb
      rcases hb with ⟨h1, h2⟩ | ⟨h1, h2⟩
      · exact div_nonneg (by linarith) (by linarith)
      · exact div_nonneg_of_nonpos (by linarith) (by linarith)
    have ht1 : (y - a1) / (b1 - a1) ≤ 1 := (le_abs_self _).trans ht
    rw [e]
    generalize (y - a1) / (b1 - a1) = t at ht0 ht1
    calc |(1 - t) * a0 + t * b0| ≤ |(1 - t) * a0| + |t * b0| := abs_add_le _ _
      _ = (1 - t) * |a0| + t * |b0| := by rw [abs_mul, abs_mul, abs_of_nonneg ht0, abs_of_nonneg (by linarith)]
      _ ≤ (1 - t) * M + t * M := add_le_add (mul_le_mul_of_nonneg_left ha (by linarith)) (mul_le_mul_of_nonneg_left hb0 ht0)
      _ = M := by ring
  have h1 := Fl.Close_err' hD (by norm_num)
  unfold Fl.sideAt
  generalize r (r (r (b0 - a0) * r (y - a1)) / r (b1 - a1)) = D' at *
  generalize (b0 - a0) * (y - a1) / (b1 - a1) = D at *
  have h2 := r.err Fl.pos53 (a0 + D')
  rw [Fl.u53, show (2 : ℝ) ^ (-53 : ℤ) = 2 ^ (-52 : ℤ) / 2 by norm_num] at h2
  have hw : (2 : ℝ) ^ (-52 : ℤ) ≤ 1 / 100 := by norm_num
  have hw0 : (0 : ℝ) < 2 ^ (-52 : ℤ) := by positivity
  generalize (2 : ℝ) ^ (-52 : ℤ) = w at *
  push_cast at h1
  have h3 : |D' - D| ≤ 10 * w * M := by
    refine h1.trans ?_
    have := mul_le_mul_of_nonneg_left hd (show 0 ≤ 5 * w by linarith)
    linarith
  have h4 : |a0 + D'| ≤ M + 10 * w * M := by
    have : a0 + D' = (a0 + D) + (D' - D) := by ring
    rw [this]
    exact (abs_add_le _ _).trans (add_le_add hx h3)
  have h5 : w / 2 * |a0 + D'| ≤ w / 2 * (M + 10 * w * M) := mul_le_mul_of_nonneg_left h4 (by linarith)
  have h6 : w / 2 * (10 * w * M) ≤ w / 2 * (M / 10) := by
    refine mul_le_mul_of_nonneg_left ?_ (by linarith)
    have := mul_le_mul_of_nonneg_right hw h0
    linarith
  have h7 : 0 ≤ w * M := mul_nonneg hw0.le h0
  have e : r (a0 + D') - (a0 + D) = (r (a0 + D') - (a0 + D')) + (D' - D) := by ring
  rw [e]
  refine (abs_add_le _ _).trans ?_
  linarith

/-- When a coordinate is clear of the crossing, comparing it with the computed place gives the exact answers. -/
theorem Fl.sideAt_agrees (r : Rounding 53) {a0 a1 b0 b1 y M a : ℝ} (hb : between a1 b1 y = true) (ha : |a0| ≤ M) (hb0 : |b0| ≤ M)
    (h : sideMargin a M < |a - (a0 + (b0 - a0) * (y - a1) / (b1 - a1))|) :
    Fl.equal r a (Fl.sideAt r a0 a1 b0 b1 y) epsilon = false ∧ WFMath.equal a (a0 + (b0 - a0) * (y - a1) / (b1 - a1)) epsilon = false ∧
    (a < Fl.sideAt r a0 a1 b0 b1 y ↔ a < a0 + (b0 - a0) * (y - a1) / (b1 - a1)) ∧
    (a > Fl.sideAt r a0 a1 b0 b1 y ↔ a > a0 + (b0 - a0) * (y - a1) / (b1 - a1)) := by
  have he := epsilon_pos
  have h0 : 0 ≤ M := (abs_nonneg _).trans ha
  have herr := Fl.sideAt_err r hb ha hb0
  generalize Fl.sideAt r a0 a1 b0 b1 y = x' at *
  generalize a0 + (b0 - a0) * (y - a1) / (b1 - a1) = x at *
  unfold sideMargin at h
  have hT : 0 < epsilon * max 1 (2 * |a|) := mul_pos he (lt_of_lt_of_le one_pos (le_max_left _ _))
  have hs := Fl.scale_le a x
  have hs' := Fl.scale_le a x'
  generalize epsilon * max 1 (2 * |a|) = T at *
  rw [show (2 : ℝ) ^ (-48 : ℤ) = 16 * 2 ^ (-52 : ℤ) by norm_num] at h
  have hw0 : (0 : ℝ) < 2 ^ (-52 : ℤ) := by positivity
  have hround : ∀ δ, |r (a - x')| ≤ δ → |a - x'| ≤ δ * (1 + 2 ^ (-52 : ℤ)) := fun δ => Fl.le_of_round
  generalize (2 : ℝ) ^ (-52 : ℤ) = w at *
  have hwM : 0 ≤ w * M := mul_nonneg hw0.le h0
  have hwT : 0 < w * T := mul_pos hw0 hT
  have h1 : T * (1 + w) < |a - x'| := by
    have e : a - x = (a - x') + (x' - x) := by ring
    have := abs_add_le (a - x') (x' - x)
    rw [← e] at this
    linarith
  have h2 : T < |a - x| := by nlinarith
  refine ⟨?_, ?_, ?_, ?_⟩
  · unfold Fl.equal
    rw [decide_eq_false_iff_not]
    intro hc
    have := hround _ hc
    have := mul_le_mul_of_nonneg_right hs' (show 0 ≤ 1 + w by linarith)
    linarith
  · unfold WFMath.equal
    rw [decide_eq_false_iff_not]
    intro hc
    linarith
  · have h3 := _root_.abs_le.1 herr
    constructor <;> intro h4
    · by_contra hc
      push Not at hc
      rw [abs_of_nonneg (by linarith)] at h
      nlinarith
    · rw [abs_of_neg (by linarith)] at h
      nlinarith
  · have h3 := _root_.abs_le.1 herr
    constructor <;> intro h4
    · by_contra hc
      push Not at hc
      rw [abs_of_nonpos (by linarith)] at h
      nlinarith
    · rw [abs_of_pos (by linarith)] at h
      nlinarith

/-- At a point that is clear of the sides the computed answer is the exact one. -/
theorem Fl.polyP_agrees (r : Rounding 53) (ps : Corners 2) (p : Pt 2) (proper : Bool) {M : ℝ} (hM : ∀ c ∈ ps, |c.elem 0| ≤ M)
    (hc : ClearOfSides ps p.elem (sideMargin (p.elem 0) M)) : Fl.interPolyP r ps p proper = WFMath.interPolyP ps p proper := by
  have key : ∀ es : List (Pt 2 × Pt 2), (∀ e ∈ es, e ∈ edges ps) → ∀ hit, Fl.polyPLoop r p proper es hit = WFMath.polyPLoop p proper es hit := by
    intro es
    induction es with
    | nil => intro _ hit; rfl
    | cons e es ih =>
      intro hes hit
      obtain ⟨i, j⟩ := e
      have hm := hes _ List.mem_cons_self
      have hcn := edges_corner hm
      have ih' := ih fun e he => hes e (List.mem_cons_of_mem _ he)
      rw [Fl.polyPLoop, WFMath.polyPLoop]
      by_cases hb : between (i.elem 1) (j.elem 1) (p.elem 1) = true
      · have hx := (crossing_at ((between_iff j.elem i.elem p.elem).1 hb) _).2 rfl
        have hfar := hc _ (mem_sides_edges.2 ⟨(i, j), hm, rfl, rfl⟩) _ hx
        have ha := Fl.sideAt_agrees r hb (hM _ hcn.1) (hM _ hcn.2) hfar
        simp only [hb, ha.1, ha.2.1, ha.2.2.1, ih']
      · rw [Bool.not_eq_true] at hb
        simp only [hb, ih', if_true]
  exact key _ (fun _ h => h) _

theorem Fl.clear_far {ps : List (Pt 2)} {p : V2} {M : ℝ} (hM : 0 ≤ M) (hc : ClearOfSides ps p (sideMargin (p 0) M)) : FarFromSides ps p := by
  intro e he x hx
  have h := hc e he x hx
  have hs := Fl.scale_le (p 0) x
  unfold WFMath.equal
  rw [decide_eq_false_iff_not]
  intro h1
  unfold sideMargin at h
  have hT : 0 ≤ epsilon * max 1 (2 * |p 0|) := mul_nonneg epsilon_pos.le (zero_le_one.trans (le_max_left _ _))
  have h2 : 0 ≤ 2 ^ (-48 : ℤ) * M := mul_nonneg (by positivity) hM
  have h3 : epsilon * max 1 (2 * |p 0|) ≤ epsilon * max 1 (2 * |p 0|) * (1 + 2 ^ (-52 : ℤ)) := le_mul_of_one_le_right hT (by norm_num)
  linarith

theorem Fl.bound_nonneg {ps : Corners 2} {M : ℝ} (hM : ∀ c ∈ ps, |c.elem 0| ≤ M) (h : ps ≠ []) : 0 ≤ M := by
  obtain ⟨c, hc⟩ := List.exists_mem_of_ne_nil _ h
  exact (abs_nonneg _).trans (hM c hc)

/-- C136: computed in doubles, `Intersect(polygon, point)` and `Contains(polygon, point)` are true exactly for the points inside by the even-odd rule, as long as the
point is not within the margin of a side, measured horizontally. `M` bounds the first coordinates of the corners. -/
theorem C136_point (r : Rounding 53) (ps : Corners 2) (p : Pt 2) (proper : Bool) {M : ℝ} (hM : ∀ c ∈ ps, |c.elem 0| ≤ M)
    (hc : ClearOfSides ps p.elem (sideMargin (p.elem 0) M)) : Fl.interPolyP r ps p proper = true ↔ p.elem ∈ inside ps := by
  rw [Fl.polyP_agrees r ps p proper hM hc]
  by_cases hps : ps = []
  · subst hps
    rw [interPolyP_nil]
    simp only [Bool.false_eq_true, false_iff]
    exact fun h => filled_nil _ (Or.inl h)
  · have hf := Fl.clear_far (Fl.bound_nonneg hM hps) hc
    rw [C74_even_odd ps p proper hf east east_ne]
    exact ⟨fun h => ⟨hf.off, h⟩, fun h => h.2⟩

theorem Fl.polyP_near (r : Rounding 53) (p : Pt 2) (proper : Bool) (es : List (Pt 2 × Pt 2)) (hit : Bool) (e : Pt 2 × Pt 2) (he : e ∈ es)
    (hb : between (e.1.elem 1) (e.2.elem 1) (p.elem 1) = true)
    (hx : Fl.equal r (p.elem 0) (Fl.sideAt r (e.1.elem 0) (e.1.elem 1) (e.2.elem 0) (e.2.elem 1) (p.elem 1)) epsilon = true) :
    Fl.polyPLoop r p proper es hit = !proper := by
  induction es generalizing hit with
  | nil => exact absurd he (by simp)
  | cons f es ih =>
    obtain ⟨i, j⟩ := f
    rw [Fl.polyPLoop]
    rcases List.mem_cons.1 he with rfl | h
    · rw [if_neg (by rw [hb]; simp)]
      simp only [hx, if_true]
    · simp only [ih _ h, ite_self]

/-- C136: a point on a side that crosses its height is accepted, and not properly, when the corners of the side are not much farther from the second axis than the point
is. (Otherwise the error of the crossing may exceed the tolerance: `C136_side_false`.) -/
theorem C136_side (r : Rounding 53) (ps : Corners 2) (p : Pt 2) (proper : Bool) (e : (Fin 2 → ℝ) × (Fin 2 → ℝ)) (he : e ∈ sides ps)
    (hp : p.elem ∈ segment ℝ e.1 e.2) (hs : Separates east p.elem e.1 e.2) (h1 : |e.1 0| ≤ 2 * |p.elem 0|) (h2 : |e.2 0| ≤ 2 * |p.elem 0|) :
    Fl.interPolyP r ps p proper = !proper := by
  obtain ⟨a, b⟩ := e
  obtain ⟨f, hf, rfl, rfl⟩ := mem_sides_edges.1 he
  have hb := (between_iff _ _ _).2 hs
  refine Fl.polyP_near r p proper _ _ f hf hb ?_
  have hpe : p.elem = ![p.elem 0, p.elem 1] := by apply ext2 <;> rfl
  have hx := (crossing_at hs (p.elem 0)).1 (by rw [← hpe]; exact hp)
  have herr := Fl.sideAt_err r hb h2 h1
  rw [← hx] at herr
  generalize Fl.sideAt r (f.1.elem 0) (f.1.elem 1) (f.2.elem 0) (f.2.elem 1) (p.elem 1) = x' at *
  unfold Fl.equal
  rw [decide_eq_true_iff]
  have hround := r.abs_le Fl.pos53 (p.elem 0 - x')
  rw [Fl.u53] at hround
  have hlow : epsilon * min |p.elem 0| |x'| ≤ scaleEpsilon (p.elem 0) x' epsilon := le_scaleEpsilon epsilon_pos.le
  have hep : epsilon = 30 * 2 ^ (-52 : ℤ) := by unfold epsilon; norm_num
  refine hround.trans (le_trans ?_ hlow)
  rw [hep, show (2 : ℝ) ^ (-53 : ℤ) = 2 ^ (-52 : ℤ) / 2 by norm_num]
  have hw : (2 : ℝ) ^ (-52 : ℤ) ≤ 1 / 1000 := by norm_num
  have hw0 : (0 : ℝ) < 2 ^ (-52 : ℤ) := by positivity
  generalize (2 : ℝ) ^ (-52 : ℤ) = w at *
  have ha := abs_nonneg (p.elem 0)
  rw [abs_sub_comm] at herr
  have hx' : (1 - 22 * w) * |p.elem 0| ≤ |x'| := by
    have := abs_sub_abs_le_abs_sub (p.elem 0) x'
    linarith
  have hmin : (1 - 22 * w) * |p.elem 0| ≤ min |p.elem 0| |x'| := le_min (by nlinarith) hx'
  have h3 : (1 + w / 2) * |p.elem 0 - x'| ≤ (1 + w / 2) * (22 * w * |p.elem 0|) := mul_le_mul_of_nonneg_left (by linarith) (by linarith)
  refine h3.trans (le_trans ?_ (mul_le_mul_of_nonneg_left hmin (by linarith)))
  have h4 : (1 + w / 2) * 22 ≤ 30 * (1 - 22 * w) := by linarith
  calc (1 + w / 2) * (22 * w * |p.elem 0|) = (1 + w / 2) * 22 * (w * |p.elem 0|) := by ring
    _ ≤ 30 * (1 - 22 * w) * (w * |p.elem 0|) := mul_le_mul_of_nonneg_right h4 (mul_nonneg hw0.le ha)
    _ = 30 * w * ((1 - 22 * w) * |p.elem 0|) := by ring

end WFMath
