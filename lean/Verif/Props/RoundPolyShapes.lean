/- Property theorems C136, continued: plane polygons against boxes and balls in floating point. -/
import Verif.Props.RoundPoly

namespace WFMath
open Spec Matrix Rounding

/-! ### Boxes -/

/-- The crossings of a side with the lines of the box compare with the corners of the box in floating point as in exact arithmetic. -/
theorem Fl.box_agrees (r : Rounding 53) {ps : Corners 2} {b : Box 2} {M : ℝ} (hM : ∀ c ∈ ps, ∀ i, |c.elem i| ≤ M)
    (hc : ∀ q ∈ boxCorners b, ClearOfSides ps q (sideMargin (q 0) M) ∧ ClearAboveBelow ps q (sideMargin (q 1) M)) {i j : Pt 2}
    (he : (i, j) ∈ edges ps ∨ (j, i) ∈ edges ps) :
    (∀ a y, (a = b.low.elem 0 ∨ a = b.high.elem 0) → (y = b.low.elem 1 ∨ y = b.high.elem 1) → between (i.elem 1) (j.elem 1) y = true →
      Fl.equal r a (Fl.sideAt r (i.elem 0) (i.elem 1) (j.elem 0) (j.elem 1) y) epsilon = false ∧
      WFMath.equal a (i.elem 0 + (y - i.elem 1) * (j.elem 0 - i.elem 0) / (j.elem 1 - i.elem 1)) epsilon = false ∧
      (a < Fl.sideAt r (i.elem 0) (i.elem 1) (j.elem 0) (j.elem 1) y ↔ a < i.elem 0 + (y - i.elem 1) * (j.elem 0 - i.elem 0) / (j.elem 1 - i.elem 1)) ∧
      (a > Fl.sideAt r (i.elem 0) (i.elem 1) (j.elem 0) (j.elem 1) y ↔ a > i.elem 0 + (y - i.elem 1) * (j.elem 0 - i.elem 0) / (j.elem 1 - i.elem 1))) ∧
    (∀ a y, (a = b.low.elem 1 ∨ a = b.high.elem 1) → (y = b.low.elem 0 ∨ y = b.high.elem 0) → between (i.elem 0) (j.elem 0) y = true →
      Fl.equal r a (Fl.sideAt r (i.elem 1) (i.elem 0) (j.elem 1) (j.elem 0) y) epsilon = false ∧
      WFMath.equal a (i.elem 1 + (y - i.elem 0) * (j.elem 1 - i.elem 1) / (j.elem 0 - i.elem 0)) epsilon = false ∧
      (a < Fl.sideAt r (i.elem 1) (i.elem 0) (j.elem 1) (j.elem 0) y ↔ a < i.elem 1 + (y - i.elem 0) * (j.elem 1 - i.elem 1) / (j.elem 0 - i.elem 0)) ∧
      (a > Fl.sideAt r (i.elem 1) (i.elem 0) (j.elem 1) (j.elem 0) y ↔ a > i.elem 1 + (y - i.elem 0) * (j.elem 1 - i.elem 1) / (j.elem 0 - i.elem 0))) := by
  have cor : ∀ x y, (x = b.low.elem 0 ∨ x = b.high.elem 0) → (y = b.low.elem 1 ∨ y = b.high.elem 1) → ![x, y] ∈ boxCorners b := by
    intro x y h1 h2 k
    fin_cases k
    · exact h1
    · exact h2
  have hcn : i ∈ ps ∧ j ∈ ps := he.elim (fun h => edges_corner h) fun h => (edges_corner h).symm
  have hs : ∃ e ∈ sides ps, segment ℝ e.1 e.2 = segment ℝ j.elem i.elem := by
    rcases he with h | h
    · exact ⟨(j.elem, i.elem), mem_sides_edges.2 ⟨(i, j), h, rfl, rfl⟩, rfl⟩
    · exact ⟨(i.elem, j.elem), mem_sides_edges.2 ⟨(j, i), h, rfl, rfl⟩, segment_symm ℝ _ _⟩
  obtain ⟨e, hs, hseg⟩ := hs
  constructor
  · intro a y ha hy hb
    have hm := (xAt_mem hb _).2 rfl
    have hfar := (hc _ (cor a y ha hy)).1 _ hs _ (by rw [hseg]; exact hm)
    rw [mul_comm (y - i.elem 1)]
    unfold xAt at hfar
    rw [mul_comm (y - i.elem 1)] at hfar
    exact Fl.sideAt_agrees r hb (hM _ hcn.1 0) (hM _ hcn.2 0) hfar
  · intro a y ha hy hb
    have hm := (yAt_mem hb _).2 rfl
    have hfar := (hc _ (cor y a hy ha)).2 _ hs _ (by rw [hseg]; exact hm)
    rw [mul_comm (y - i.elem 0)]
    unfold yAt at hfar
    rw [mul_comm (y - i.elem 0)] at hfar
    exact Fl.sideAt_agrees r hb (hM _ hcn.1 1) (hM _ hcn.2 1) hfar

/-- The loops of the two tests, for a list of edges taken in either direction. -/
theorem Fl.polyBLoop_agrees (r : Rounding 53) (ps : Corners 2) (b : Box 2) (proper : Bool) {M : ℝ} (hM : ∀ c ∈ ps, ∀ i, |c.elem i| ≤ M)
    (hc : ∀ q ∈ boxCorners b, ClearOfSides ps q (sideMargin (q 0) M) ∧ ClearAboveBelow ps q (sideMargin (q 1) M)) :
    ∀ es : List (Pt 2 × Pt 2), (∀ e ∈ es, e ∈ edges ps ∨ (e.2, e.1) ∈ edges ps) → ∀ hit,
      Fl.polyBLoop r (b.low.elem 0) (b.low.elem 1) (b.high.elem 0) (b.high.elem 1) proper es hit =
        WFMath.polyBLoop (b.low.elem 0) (b.low.elem 1) (b.high.elem 0) (b.high.elem 1) proper es hit ∧
      Fl.polyCBLoop r (b.low.elem 0) (b.low.elem 1) (b.high.elem 0) (b.high.elem 1) proper es hit =
        WFMath.polyCBLoop (b.low.elem 0) (b.low.elem 1) (b.high.elem 0) (b.high.elem 1) proper es hit := by
  intro es
  induction es with
  | nil => intro _ hit; exact ⟨rfl, rfl⟩
  | cons e es ih =>
    intro hes hit
    obtain ⟨i, j⟩ := e
    have ih' := ih fun e he => hes e (List.mem_cons_of_mem _ he)
    obtain ⟨hX, hY⟩ := Fl.box_agrees r hM hc (hes _ List.mem_cons_self)
    have a1 := hX (b.low.elem 0) (b.low.elem 1) (.inl rfl) (.inl rfl)
    have a2 := hX (b.high.elem 0) (b.low.elem 1) (.inr rfl) (.inl rfl)
    have a3 := hX (b.low.elem 0) (b.high.elem 1) (.inl rfl) (.inr rfl)
    have a4 := hX (b.high.elem 0) (b.high.elem 1) (.inr rfl) (.inr rfl)
    have b1 := hY (b.low.elem 1) (b.low.elem 0) (.inl rfl) (.inl rfl)
    have b2 := hY (b.high.elem 1) (b.low.elem 0) (.inr rfl) (.inl rfl)
    have b3 := hY (b.low.elem 1) (b.high.elem 0) (.inl rfl) (.inr rfl)
    have b4 := hY (b.high.elem 1) (b.high.elem 0) (.inr rfl) (.inr rfl)
    clear hX hY ih hes
    rw [Fl.polyBLoop, WFMath.polyBLoop, Fl.polyCBLoop, WFMath.polyCBLoop]
    by_cases c1 : between (i.elem 1) (j.elem 1) (b.low.elem 1) = true <;>
      by_cases c2 : between (i.elem 0) (j.elem 0) (b.low.elem 0) = true <;>
      by_cases c3 : between (i.elem 1) (j.elem 1) (b.high.elem 1) = true <;>
      by_cases c4 : between (i.elem 0) (j.elem 0) (b.high.elem 0) = true <;>
      simp only [c1, c2, c3, c4, true_implies, Bool.not_eq_true] at a1 a2 a3 a4 b1 b2 b3 b4 <;>
      simp only [*, ih', and_self, Bool.false_and, Bool.true_and]

theorem Fl.polyB_agrees (r : Rounding 53) (ps : Corners 2) (b : Box 2) (proper : Bool) {M : ℝ} (hM : ∀ c ∈ ps, ∀ i, |c.elem i| ≤ M)
    (hc : ∀ q ∈ boxCorners b, ClearOfSides ps q (sideMargin (q 0) M) ∧ ClearAboveBelow ps q (sideMargin (q 1) M)) :
    Fl.interPolyB r ps b proper = WFMath.interPolyB ps b proper ∧ Fl.containsPolyB r ps b proper = WFMath.containsPolyB ps b proper :=
  Fl.polyBLoop_agrees r ps b proper hM hc _ (fun _ h => .inl h) _

theorem Fl.clear_farV {ps : List (Pt 2)} {q : V2} {M : ℝ} (hM : 0 ≤ M) (hc : ClearAboveBelow ps q (sideMargin (q 1) M)) : ¬ NearSideV ps q := by
  rintro ⟨e, he, -, y, hy, h1⟩
  have h := hc e he y hy
  have hs := Fl.scale_le (q 1) y
  unfold WFMath.equal at h1
  rw [decide_eq_true_iff] at h1
  unfold sideMargin at h
  have hT : 0 ≤ epsilon * max 1 (2 * |q 1|) := mul_nonneg epsilon_pos.le (zero_le_one.trans (le_max_left _ _))
  have h2 : 0 ≤ 2 ^ (-48 : ℤ) * M := mul_nonneg (by positivity) hM
  have h3 : epsilon * max 1 (2 * |q 1|) ≤ epsilon * max 1 (2 * |q 1|) * (1 + 2 ^ (-52 : ℤ)) := le_mul_of_one_le_right hT (by norm_num)
  linarith

theorem Fl.clear_grazes {ps : Corners 2} {b : Box 2} {M : ℝ} (hM : ∀ c ∈ ps, ∀ i, |c.elem i| ≤ M)
    (hc : ∀ q ∈ boxCorners b, ClearOfSides ps q (sideMargin (q 0) M) ∧ ClearAboveBelow ps q (sideMargin (q 1) M)) : ¬ Grazes ps b := by
  rintro ⟨q, hq, h⟩
  by_cases hps : ps = []
  · subst hps
    rcases h with ⟨e, he, -⟩ | ⟨e, he, -⟩ <;> simp [sides] at he
  · have h0 := Fl.bound_nonneg (fun c hc => hM c hc 0) hps
    rcases h with ⟨e, he, -, x, hx, h1⟩ | h
    · have := Fl.clear_far h0 (hc q hq).1 e he x hx
      rw [this] at h1
      exact absurd h1 (by simp)
    · exact Fl.clear_farV h0 (hc q hq).2 h

/-- C136: computed in doubles, `Intersect(polygon, box)` and `Contains(polygon, box)` give the exact answers when no side passes within the margin of a corner of the
box, measured horizontally or vertically, and no corner of the polygon is on the rim of the box; for `Intersect` a corner of the polygon must also be outside the box
(polygons inside the box are not found, in exact arithmetic neither: `C98_inside`). `M` bounds the coordinates of the corners. -/
theorem C136_box (r : Rounding 53) (ps : Corners 2) (b : Box 2) (proper : Bool) (ho : Ordered b) (hr : OffRim ps b) {M : ℝ}
    (hM : ∀ c ∈ ps, ∀ i, |c.elem i| ≤ M)
    (hc : ∀ q ∈ boxCorners b, ClearOfSides ps q (sideMargin (q 0) M) ∧ ClearAboveBelow ps q (sideMargin (q 1) M)) :
    ((∃ c ∈ ps, c.elem ∉ boxSet b) → (Fl.interPolyB r ps b proper = true ↔ (filled ps ∩ boxSet b).Nonempty)) ∧
    (Fl.containsPolyB r ps b proper = true ↔ boxSet b ⊆ inside ps) ∧
    ((∀ c ∈ ps, c.elem ∈ boxInterior b) → Fl.interPolyB r ps b proper = false) := by
  obtain ⟨h1, h2⟩ := Fl.polyB_agrees r ps b proper hM hc
  have hg := Fl.clear_grazes hM hc
  rw [h1, h2]
  exact ⟨fun hout => C98_exact_partial ps b proper ho hout hr hg, C99_exact_partial ps b proper ho hr hg, C98_inside ps b proper⟩

theorem hull_corner {ps : Corners 2} {S : Set V2} (h : convexHull ℝ (cornerSet ps) ⊆ S) {c : Pt 2} (hc : c ∈ ps) : c.elem ∈ S :=
  h (subset_convexHull ℝ _ (mem_cornerSet.2 ⟨c, hc, rfl⟩))

/-- C136: computed in doubles, `Contains(box, polygon)` with `proper` says exactly that the convex hull of the corners is in the open box; without, it accepts what is in
the box up to epsilon, and what it accepts is in the box up to `epsilon (1 + 2^-52)`. -/
theorem C136_in_box (r : Rounding 53) (b : Box 2) (ps : Corners 2) :
    (Fl.containsBPoly r b ps true = true ↔ convexHull ℝ (cornerSet ps) ⊆ boxInterior b) ∧
    (Ordered b → convexHull ℝ (cornerSet ps) ⊆ near epsilon (boxSet b) → Fl.containsBPoly r b ps false = true) ∧
    (Ordered b → Fl.containsBPoly r b ps false = true → ∀ c ∈ ps, c.elem ∈ near (epsilon * (1 + 2 ^ (-52 : ℤ))) (boxSet b)) := by
  refine ⟨all_hull (convex_boxInterior b) fun c _ => (C114_box_proper r b b c).1, fun ho h => ?_, fun ho h c hc => ?_⟩
  · unfold Fl.containsBPoly
    rw [List.all_eq_true]
    exact fun c hc => (C114_box r b b ho ho c).1 (hull_corner h hc)
  · unfold Fl.containsBPoly at h
    rw [List.all_eq_true] at h
    exact (C114_box r b b ho ho c).2.1 (h c hc)

/-- C136: `Contains(point, polygon)` in doubles: with `proper` only the polygon without corners is contained; without, every polygon whose corners all equal the point
within the tolerance, and only those whose corners equal it within the tolerance times `1 + 2^-52`. -/
theorem C136_in_point (r : Rounding 53) (p : Pt 2) (ps : Corners 2) :
    (Fl.containsPPoly r p ps true = true ↔ ps = []) ∧
    ((∀ c ∈ ps, p.isEqualTo c epsilon = true) → Fl.containsPPoly r p ps false = true) ∧
    (Fl.containsPPoly r p ps false = true → ∀ c ∈ ps, p.isEqualTo c (epsilon * (1 + 2 ^ (-52 : ℤ))) = true) := by
  have h := C114_equal_arrays (n := 2) r Fl.isFl_epsilon
  unfold Fl.containsPPoly
  simp only [if_true, Bool.false_eq_true, if_false, List.all_eq_true, decide_eq_true_iff, List.length_eq_zero_iff, true_and]
  exact ⟨fun h1 c hc => h.2.2.2.1 p c (h1 c hc), fun h1 c hc => h.2.2.2.2.1 p c (h1 c hc)⟩

/-! ### Balls -/

/-- C136: computed in doubles, `Contains(ball, polygon)` accepts every polygon in the ball with its radius divided by `1 + epsilon`; what the proper test accepts is in the
ball with the radius multiplied by `1 + epsilon`, and what the tolerant test accepts is in the ball with epsilon added to the square of the radius, and that radius
multiplied by `1 + epsilon` — except for corners so near to the centre that the squared distance is set to 0. -/
theorem C136_in_ball (r : Rounding 53) (b : Ball 2) (ps : Corners 2) (hr : 0 ≤ b.radius) :
    (∀ proper, (0 < b.radius ∨ proper = false) → convexHull ℝ (cornerSet ps) ⊆ ballSet ⟨b.center, b.radius / (1 + epsilon)⟩ →
      Fl.containsBallPoly r b ps proper = true) ∧
    (Fl.containsBallPoly r b ps true = true → ∀ c ∈ ps, c.elem ∈ ballSet ⟨b.center, b.radius * (1 + epsilon)⟩ ∨ NearlyFlushed b.center c) ∧
    (Fl.containsBallPoly r b ps false = true →
      ∀ c ∈ ps, c.elem ∈ ballSet ⟨b.center, Real.sqrt (b.radius ^ 2 + epsilon) * (1 + epsilon)⟩ ∨ NearlyFlushed b.center c) := by
  have he := epsilon_pos
  have hB : Close 53 1 (r (b.radius * b.radius)) (b.radius * b.radius) := Close.round_self Fl.pos53 r _
  have hB0 : 0 ≤ b.radius * b.radius := mul_self_nonneg _
  have hf := Fl.fudge (k := 3 + 2 + 1) (by omega)
  have hpw := (Close.pow Fl.pos53 (3 + 2 + 1)).1
  refine ⟨fun proper hp h => ?_, fun h c hc => ?_, fun h c hc => ?_⟩
  · unfold Fl.containsBallPoly
    rw [List.all_eq_true]
    intro c hc
    have h1 : eucl c.elem b.center.elem ≤ b.radius / (1 + epsilon) := hull_corner h hc
    rw [eucl_comm] at h1
    have h2 : eucl b.center.elem c.elem ^ 2 ≤ (b.radius / (1 + epsilon)) ^ 2 := pow_le_pow_left₀ (eucl_nonneg _ _) h1 2
    have h3 : (b.radius / (1 + epsilon)) ^ 2 * (1 + epsilon) ≤ b.radius * b.radius * (1 - u 53) ^ (3 + 2 + 1) := by
      have e : (b.radius / (1 + epsilon)) ^ 2 * (1 + epsilon) * (1 + epsilon) = b.radius * b.radius := by field_simp
      have e2 : (b.radius / (1 + epsilon)) ^ 2 * (1 + epsilon) * 1 ≤ (b.radius / (1 + epsilon)) ^ 2 * (1 + epsilon) * ((1 + epsilon) * (1 - u 53) ^ (3 + 2 + 1)) :=
        mul_le_mul_of_nonneg_left hf (by positivity)
      rw [← mul_assoc, e, mul_one] at e2
      exact e2
    have h4 : (b.radius / (1 + epsilon)) ^ 2 ≤ (b.radius / (1 + epsilon)) ^ 2 * (1 + epsilon) := le_mul_of_one_le_right (sq_nonneg _) (by linarith)
    cases proper with
    | true =>
      have hpos : 0 < b.radius := by simpa using hp
      have h5 : 0 < (b.radius / (1 + epsilon)) ^ 2 := by positivity
      have h6 : (b.radius / (1 + epsilon)) ^ 2 < (b.radius / (1 + epsilon)) ^ 2 * (1 + epsilon) := lt_mul_of_one_lt_right h5 (by linarith)
      have := Fl.sqDist_lt_of r hB (mul_pos hpos hpos) (h2.trans_lt (h6.trans_le h3))
      unfold Fl.greater
      simp only [if_true, Bool.not_eq_true', decide_eq_false_iff_not, ge_iff_le, not_le]
      exact this
    | false =>
      have := Fl.sqDist_le_of r hB hB0 (h2.trans (h4.trans h3))
      unfold Fl.greater
      simp only [Bool.false_eq_true, if_false, Bool.not_eq_true', decide_eq_false_iff_not, gt_iff_lt, not_lt]
      exact (r.nonpos (by linarith)).trans he.le
  · unfold Fl.containsBallPoly at h
    rw [List.all_eq_true] at h
    have h1 := h c hc
    unfold Fl.greater at h1
    simp only [if_true, Bool.not_eq_true', decide_eq_false_iff_not, ge_iff_le, not_le] at h1
    rcases Fl.sqDist_le r (by norm_num) hB hB0 h1.le with h2 | h2
    · left
      show eucl c.elem b.center.elem ≤ b.radius * (1 + epsilon)
      rw [eucl_comm]
      exact Fl.margin_sound (by norm_num) (eucl_nonneg _ _) hr h2
    · exact .inr h2
  · unfold Fl.containsBallPoly at h
    rw [List.all_eq_true] at h
    have h1 : Fl.sqDist r b.center c ≤ r (b.radius * b.radius) + epsilon * (1 + 2 ^ (-52 : ℤ)) := Fl.not_greater (by simpa using h c hc)
    have h2 := r.abs_le Fl.pos53 (b.radius * b.radius)
    rw [Fl.u53, abs_of_nonneg (r.nonneg hB0), abs_of_nonneg hB0] at h2
    have hS0 : 0 ≤ b.radius ^ 2 + epsilon := by positivity
    have h3 : Fl.sqDist r b.center c ≤ (b.radius ^ 2 + epsilon) * (1 + 2 ^ (-52 : ℤ)) := by
      refine h1.trans ?_
      have : (1 + (2 : ℝ) ^ (-53 : ℤ)) * (b.radius * b.radius) ≤ (1 + 2 ^ (-52 : ℤ)) * (b.radius * b.radius) := mul_le_mul_of_nonneg_right (by norm_num) hB0
      calc r (b.radius * b.radius) + epsilon * (1 + 2 ^ (-52 : ℤ)) ≤ (1 + 2 ^ (-52 : ℤ)) * (b.radius * b.radius) + epsilon * (1 + 2 ^ (-52 : ℤ)) :=
            add_le_add (h2.trans this) le_rfl
        _ = (b.radius ^ 2 + epsilon) * (1 + 2 ^ (-52 : ℤ)) := by ring
    rcases Fl.sqDist_le r (by norm_num) (Close.refl Fl.pos53 0 _) (mul_nonneg hS0 (by positivity)) h3 with h4 | h4
    · left
      show eucl c.elem b.center.elem ≤ Real.sqrt (b.radius ^ 2 + epsilon) * (1 + epsilon)
      rw [eucl_comm]
      refine Fl.margin_sound (k := 3 + 2 + 0 + 2) (by norm_num) (eucl_nonneg _ _) (Real.sqrt_nonneg _) ?_
      rw [Real.mul_self_sqrt hS0, pow_add (1 - u 53) _ 2, ← mul_assoc]
      have h5 := mul_le_mul_of_nonneg_right h4 (sq_nonneg (1 - u 53))
      refine h5.trans ?_
      rw [mul_assoc]
      refine mul_le_of_le_one_right hS0 ?_
      rw [Fl.u53]; norm_num
    · exact .inr h4

theorem Fl.near_side {ps : Corners 2} {c : V2} {d : ℝ} (h : ¬ ClearOfSides ps c d) : ∃ z ∈ boundary ps, eucl z c ≤ d := by
  unfold ClearOfSides at h
  push Not at h
  obtain ⟨e, he, x, hx, h⟩ := h
  refine ⟨_, ⟨e, he, hx⟩, ?_⟩
  have e1 : ![x, c 1] - c = (x - c 0) • ![1, 0] := by apply ext2 <;> simp
  rw [eucl_eq_len, e1, len_smul]
  have : len (![1, 0] : V2) = 1 := by
    rw [len]; simp [dotProduct, Fin.sum_univ_two]
  rw [this, mul_one, abs_sub_comm]
  exact h

theorem Fl.side_hit (r : Rounding 53) {ps : Corners 2} {b : Ball 2} {ρ : ℝ}
    (hR : ∀ c ∈ ps, (ρ + 2 ^ (-43 : ℤ) * eucl b.center.elem c.elem + 3 * epsilon) * (1 + epsilon) ≤ b.radius) (proper : Bool)
    (h : ∃ z ∈ boundary ps, eucl z b.center.elem ≤ ρ) : ∃ s ∈ edgeSegs (edges ps) true, Fl.interSBall r s b proper = true := by
  obtain ⟨z, hz, hd⟩ := h
  obtain ⟨s, hs, hzs⟩ := (boundary_segs ps true z).1 hz
  have he := epsilon_pos
  refine ⟨s, hs, C134_ball_complete r s b (by norm_num) proper ⟨z, hzs, le_trans ?_ (hR _ (edgeSegs_corner hs).1)⟩⟩
  exact mul_le_mul_of_nonneg_right (by linarith) (by linarith)

theorem Fl.sideMargin_nonneg {a M : ℝ} (hM : 0 ≤ M) : 0 ≤ sideMargin a M := by
  have := epsilon_pos
  unfold sideMargin
  have h2 : 0 ≤ max 1 (2 * |a|) := zero_le_one.trans (le_max_left _ _)
  positivity

/-- C136: computed in doubles, `Intersect(polygon, ball)` is true when a point of the polygon (inside by the even-odd rule, or on a side) is within `ρ` of the centre, and
when `Contains(polygon, ball)` is true all points within `ρ` of the centre are inside the polygon. Here `ρ` is any number that is less than the radius by the margin of
the tests of the sides, and not less than the margin of the test of the centre. -/
theorem C136_ball (r : Rounding 53) (ps : Corners 2) (b : Ball 2) (proper : Bool) {M ρ : ℝ} (hM : ∀ c ∈ ps, |c.elem 0| ≤ M)
    (hρ : sideMargin (b.center.elem 0) M ≤ ρ)
    (hR : ∀ c ∈ ps, (ρ + 2 ^ (-43 : ℤ) * eucl b.center.elem c.elem + 3 * epsilon) * (1 + epsilon) ≤ b.radius) :
    ((filled ps ∩ ballSet ⟨b.center, ρ⟩).Nonempty → Fl.interPolyBall r ps b proper = some true) ∧
    (Fl.containsPolyBall r ps b proper = some true → ballSet ⟨b.center, ρ⟩ ⊆ inside ps) := by
  have hcen : ps ≠ [] → b.center.elem ∈ ballSet ⟨b.center, ρ⟩ := by
    intro hps
    show eucl b.center.elem b.center.elem ≤ ρ
    rw [eucl_eq_zero.2 rfl]
    exact (Fl.sideMargin_nonneg (Fl.bound_nonneg hM hps)).trans hρ
  have hclear : (¬ ∃ z ∈ boundary ps, eucl z b.center.elem ≤ ρ) → ClearOfSides ps b.center.elem (sideMargin (b.center.elem 0) M) := by
    intro h
    by_contra hc
    obtain ⟨z, hz, hd⟩ := Fl.near_side hc
    exact h ⟨z, hz, hd.trans hρ⟩
  constructor
  · rintro ⟨x, hx, hxb⟩
    have hps : ps ≠ [] := by rintro rfl; exact filled_nil x hx
    have key : Fl.interPolyP r ps b.center proper = true ∨ ∃ z ∈ boundary ps, eucl z b.center.elem ≤ ρ := by
      by_cases h : ∃ z ∈ boundary ps, eucl z b.center.elem ≤ ρ
      · exact .inr h
      · left
        rw [C136_point r ps b.center proper hM (hclear h)]
        by_contra hc
        obtain ⟨z, hz, hz'⟩ := meets_boundary (convex_ballSet ⟨b.center, ρ⟩).isPreconnected hxb hx (hcen hps) hc
        exact h ⟨z, hz', hz⟩
    unfold Fl.interPolyBall
    rcases key with h | h
    · rw [if_pos h]
    · split_ifs with h1
      · rfl
      · obtain ⟨s, hs, h2⟩ := Fl.side_hit r hR proper h
        rw [List.any_eq_true.2 ⟨s, hs, h2⟩]
  · intro h
    unfold Fl.containsPolyBall at h
    have h1 : Fl.interPolyP r ps b.center proper = true := by
      by_contra hc
      rw [Bool.not_eq_true] at hc
      rw [hc] at h
      exact absurd h (by simp)
    rw [h1, if_neg (by simp)] at h
    have h2 : ps ≠ [] := by
      intro hc
      rw [if_pos hc] at h
      exact absurd h (by simp)
    rw [if_neg h2] at h
    have h3 : ∀ s ∈ edgeSegs (edges ps) true, (!Fl.interSBall r s b (!proper)) = true := List.all_eq_true.1 (Option.some.inj h)
    have hno : ¬ ∃ z ∈ boundary ps, eucl z b.center.elem ≤ ρ := by
      intro h4
      obtain ⟨s, hs, h5⟩ := Fl.side_hit r hR (!proper) h4
      have := h3 s hs
      rw [h5] at this
      exact absurd this (by simp)
    have hin := (C136_point r ps b.center proper hM (hclear hno)).1 h1
    intro x hx
    by_contra hc
    obtain ⟨z, hz, hz'⟩ := meets_boundary (convex_ballSet ⟨b.center, ρ⟩).isPreconnected (hcen h2) (.inl hin) hx hc
    exact hno ⟨z, hz', hz⟩

/-- C136: when `Intersect(polygon, ball)`, computed in doubles, is true, a point of the polygon is within `ρ` of the centre; and `Contains(polygon, ball)` is true when all
points within `ρ` of the centre are inside the polygon. Here `ρ` is any number that exceeds the radius by the margin of the tests of the sides and is not less than the
margin of the test of the centre, and no corner is so near to the centre that the squared distance is set to 0. -/
theorem C136_ball_converse (r : Rounding 53) (ps : Corners 2) (b : Ball 2) (proper : Bool) {M ρ : ℝ} (hr : 0 ≤ b.radius) (hM : ∀ c ∈ ps, |c.elem 0| ≤ M)
    (hρ : sideMargin (b.center.elem 0) M ≤ ρ)
    (hR : ∀ c ∈ ps, b.radius * (1 + epsilon) + 2 ^ (-49 : ℤ) * eucl b.center.elem c.elem ≤ ρ) (hf : ∀ c ∈ ps, ¬ NearlyFlushed b.center c) :
    (Fl.interPolyBall r ps b proper = some true → (filled ps ∩ ballSet ⟨b.center, ρ⟩).Nonempty) ∧
    (0 ≤ ρ → ballSet ⟨b.center, ρ⟩ ⊆ inside ps → Fl.containsPolyBall r ps b proper = some true) := by
  have hside : ∀ pr, ∀ s ∈ edgeSegs (edges ps) true, Fl.interSBall r s b pr = true → ∃ z ∈ boundary ps, eucl z b.center.elem ≤ ρ := by
    intro pr s hs h
    have hc := edgeSegs_corner hs
    rcases C134_ball_sound r s b (by norm_num) hr pr h with ⟨x, hx, hd⟩ | h1 | h1
    · exact ⟨x, (boundary_segs ps true x).2 ⟨s, hs, hx⟩, hd.trans (hR _ hc.1)⟩
    · exact absurd h1 (hf _ hc.1)
    · exact absurd h1 (hf _ hc.2)
  constructor
  · intro h
    unfold Fl.interPolyBall at h
    by_cases h1 : Fl.interPolyP r ps b.center proper = true
    · have hps : ps ≠ [] := by
        rintro rfl
        have : Fl.interPolyP r [] b.center proper = false := rfl
        rw [this] at h1; exact absurd h1 (by simp)
      by_cases hc : ClearOfSides ps b.center.elem (sideMargin (b.center.elem 0) M)
      · refine ⟨b.center.elem, .inl ((C136_point r ps b.center proper hM hc).1 h1), ?_⟩
        show eucl b.center.elem b.center.elem ≤ ρ
        rw [eucl_eq_zero.2 rfl]
        exact (Fl.sideMargin_nonneg (Fl.bound_nonneg hM hps)).trans hρ
      · obtain ⟨z, hz, hd⟩ := Fl.near_side hc
        exact ⟨z, .inr hz, hd.trans hρ⟩
    · rw [if_neg h1] at h
      split_ifs at h
      obtain ⟨s, hs, h2⟩ := List.any_eq_true.1 (Option.some.inj h)
      obtain ⟨z, hz, hd⟩ := hside proper s hs h2
      exact ⟨z, .inr hz, hd⟩
  · intro h0 h
    have hno : ¬ ∃ z ∈ boundary ps, eucl z b.center.elem ≤ ρ := fun ⟨z, hz, hd⟩ => (h (show z ∈ ballSet ⟨b.center, ρ⟩ from hd)).1 hz
    have hcl : ClearOfSides ps b.center.elem (sideMargin (b.center.elem 0) M) := by
      by_contra hc
      obtain ⟨z, hz, hd⟩ := Fl.near_side hc
      exact hno ⟨z, hz, hd.trans hρ⟩
    have hin : b.center.elem ∈ inside ps := h (show eucl b.center.elem b.center.elem ≤ ρ by rw [eucl_eq_zero.2 rfl]; exact h0)
    have h1 := (C136_point r ps b.center proper hM hcl).2 hin
    have hps : ps ≠ [] := by rintro rfl; exact filled_nil _ (.inl hin)
    unfold Fl.containsPolyBall
    rw [h1, if_neg (by simp), if_neg hps]
    congr 1
    rw [List.all_eq_true]
    intro s hs
    rw [Bool.not_eq_true', ← Bool.not_eq_true]
    exact fun hc => hno (hside _ s hs hc)

end WFMath
