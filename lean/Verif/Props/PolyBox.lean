/- Property theorems C98 and C99: `Intersect(Polygon<2>, AxisBox<2>)` and `Contains(Polygon<2>, AxisBox<2>)`. -/
import Verif.Lemmas.PolyBox

namespace WFMath
open Spec Matrix

namespace Spec
/-- The direction in which the loops look for crossings with vertical sides. -/
abbrev south : Fin 2 → ℝ := ![0, -1]
/-- Within tolerance, measured vertically, of a side with ends on both sides of the vertical line through `q`. -/
def NearSideV (ps : List (Pt 2)) (q : Fin 2 → ℝ) : Prop :=
  ∃ e ∈ sides ps, Separates south q e.1 e.2 ∧ ∃ y : ℝ, ![q 0, y] ∈ segment ℝ e.1 e.2 ∧ equal (q 1) y epsilon = true
/-- The four corners of a box. -/
def boxCorners (b : Box 2) : Set (Fin 2 → ℝ) := {q | ∀ i, q i = b.low.elem i ∨ q i = b.high.elem i}
/-- A side of the polygon passes within tolerance, measured horizontally or vertically, of a corner of the box. -/
def Grazes (ps : List (Pt 2)) (b : Box 2) : Prop := ∃ q ∈ boxCorners b, NearSide ps q ∨ NearSideV ps q
/-- No corner of the polygon is on the rim of the box. -/
def OffRim (ps : List (Pt 2)) (b : Box 2) : Prop := ∀ c ∈ ps, c.elem ∈ boxSet b → c.elem ∈ boxInterior b
end Spec

theorem between_south (a b q : V2) : between (b 0) (a 0) (q 0) = true ↔ Separates south q a b := by
  have e : ∀ v : V2, cr south (v - q) = v 0 - q 0 := by intro v; simp [cr]
  unfold between Separates
  rw [e, e, decide_eq_true_iff]
  rcases lt_or_ge (q 0) (a 0) with h1 | h1 <;> rcases lt_or_ge (q 0) (b 0) with h2 | h2
  · simp [h1, h2, not_le.2 h1, not_le.2 h2]
  · simp [h1, h2, not_le.2 h1, not_lt.2 h2]
  · simp [h1, h2, not_lt.2 h1, not_le.2 h2]
  · simp [h1, h2, not_lt.2 h1, not_lt.2 h2]

/-- The tests of the loop for a near miss of a corner of the box. -/
theorem touch_iff (ps : Corners 2) (b : Box 2) :
    (∃ e ∈ edges ps, touchE (b.low.elem 0) (b.low.elem 1) (b.high.elem 0) (b.high.elem 1) e = true) ↔ Grazes ps b := by
  have kH : ∀ (a y : ℝ) (e : Pt 2 × Pt 2), (between (e.1.elem 1) (e.2.elem 1) y = true ∧ equal a (xAt e.1 e.2 y) epsilon = true) ↔
      (Separates east ![a, y] e.2.elem e.1.elem ∧ ∃ x : ℝ, ![x, y] ∈ segment ℝ e.2.elem e.1.elem ∧ equal a x epsilon = true) := by
    intro a y e
    have hb := between_iff e.2.elem e.1.elem ![a, y]
    rw [← hb]
    refine and_congr_right fun h => ?_
    constructor
    · intro h'; exact ⟨_, (xAt_mem h _).2 rfl, h'⟩
    · rintro ⟨x, h1, h2⟩; rw [(xAt_mem h _).1 h1] at h2; exact h2
  have kV : ∀ (x a : ℝ) (e : Pt 2 × Pt 2), (between (e.1.elem 0) (e.2.elem 0) x = true ∧ equal a (yAt e.1 e.2 x) epsilon = true) ↔
      (Separates south ![x, a] e.2.elem e.1.elem ∧ ∃ y : ℝ, ![x, y] ∈ segment ℝ e.2.elem e.1.elem ∧ equal a y epsilon = true) := by
    intro x a e
    have hb := between_south e.2.elem e.1.elem ![x, a]
    rw [← hb]
    refine and_congr_right fun h => ?_
    constructor
    · intro h'; exact ⟨_, (yAt_mem h _).2 rfl, h'⟩
    · rintro ⟨x, h1, h2⟩; rw [(yAt_mem h _).1 h1] at h2; exact h2
  constructor
  · rintro ⟨e, he, h⟩
    have hs : (e.2.elem, e.1.elem) ∈ sides ps := mem_sides_edges.2 ⟨e, he, rfl, rfl⟩
    have cor : ∀ x y, (x = b.low.elem 0 ∨ x = b.high.elem 0) → (y = b.low.elem 1 ∨ y = b.high.elem 1) → ![x, y] ∈ boxCorners b := by
      intro x y h1 h2 i
      fin_cases i
      · exact h1
      · exact h2
    unfold touchE tH tV at h
    simp only [Bool.or_eq_true, Bool.and_eq_true, and_or_left, kH, kV] at h
    rcases h with (((h | h) | (h | h)) | (h | h)) | (h | h)
    · exact ⟨_, cor _ _ (Or.inl rfl) (Or.inl rfl), Or.inl ⟨_, hs, h⟩⟩
    · exact ⟨_, cor _ _ (Or.inr rfl) (Or.inl rfl), Or.inl ⟨_, hs, h⟩⟩
    · exact ⟨_, cor _ _ (Or.inl rfl) (Or.inl rfl), Or.inr ⟨_, hs, h⟩⟩
    · exact ⟨_, cor _ _ (Or.inl rfl) (Or.inr rfl), Or.inr ⟨_, hs, h⟩⟩
    · exact ⟨_, cor _ _ (Or.inl rfl) (Or.inr rfl), Or.inl ⟨_, hs, h⟩⟩
    · exact ⟨_, cor _ _ (Or.inr rfl) (Or.inr rfl), Or.inl ⟨_, hs, h⟩⟩
    · exact ⟨_, cor _ _ (Or.inr rfl) (Or.inl rfl), Or.inr ⟨_, hs, h⟩⟩
    · exact ⟨_, cor _ _ (Or.inr rfl) (Or.inr rfl), Or.inr ⟨_, hs, h⟩⟩
  · rintro ⟨q, hq, h⟩
    have hq0 := hq 0
    have hq1 := hq 1
    have hqe : q = ![q 0, q 1] := by apply ext2 <;> rfl
    rcases h with ⟨⟨u, v⟩, hs, h⟩ | ⟨⟨u, v⟩, hs, h⟩
    · obtain ⟨e, he, rfl, rfl⟩ := mem_sides_edges.1 hs
      refine ⟨e, he, ?_⟩
      unfold touchE tH tV
      simp only [Bool.or_eq_true, Bool.and_eq_true, and_or_left, kH, kV]
      rw [hqe] at h
      simp only [Matrix.cons_val_zero, Matrix.cons_val_one] at h
      rcases hq0 with h0 | h0 <;> rcases hq1 with h1 | h1 <;> rw [h0, h1] at h
      · exact Or.inl (Or.inl (Or.inl (Or.inl h)))
      · exact Or.inl (Or.inr (Or.inl h))
      · exact Or.inl (Or.inl (Or.inl (Or.inr h)))
      · exact Or.inl (Or.inr (Or.inr h))
    · obtain ⟨e, he, rfl, rfl⟩ := mem_sides_edges.1 hs
      refine ⟨e, he, ?_⟩
      unfold touchE tH tV
      simp only [Bool.or_eq_true, Bool.and_eq_true, and_or_left, kH, kV]
      rw [hqe] at h
      simp only [Matrix.cons_val_zero, Matrix.cons_val_one] at h
      rcases hq0 with h0 | h0 <;> rcases hq1 with h1 | h1 <;> rw [h0, h1] at h
      · exact Or.inl (Or.inl (Or.inr (Or.inl h)))
      · exact Or.inl (Or.inl (Or.inr (Or.inr h)))
      · exact Or.inr (Or.inl h)
      · exact Or.inr (Or.inr h)

theorem convex_boxSet (b : Box 2) : Convex ℝ (boxSet b) := by
  intro x hx y hy s t hs ht hst i
  have := hx i
  have := hy i
  have e : t = 1 - s := by linarith
  subst e
  simp only [Pi.add_apply, Pi.smul_apply, smul_eq_mul]
  constructor <;> nlinarith

/-- When a side of the polygon has a point in the box and a corner of the polygon is outside, the loop finds a crossing. -/
theorem boundary_found {p : Corners 2} {b : Box 2} (hr : OffRim p b) (hout : ∃ c ∈ p, c.elem ∉ boxSet b) (hm : (boundary p ∩ boxSet b).Nonempty) :
    ∃ e ∈ edges p, touchE (b.low.elem 0) (b.low.elem 1) (b.high.elem 0) (b.high.elem 1) e = true ∨
      cutE (b.low.elem 0) (b.low.elem 1) (b.high.elem 0) (b.high.elem 1) e = true := by
  obtain ⟨z, ⟨⟨u, v⟩, hs, hz⟩, hzb⟩ := hm
  obtain ⟨e, he, rfl, rfl⟩ := mem_sides_edges.1 hs
  have hc := edges_corner he
  by_cases h1 : e.1.elem ∈ boxSet b
  · by_cases h2 : e.2.elem ∈ boxSet b
    · obtain ⟨d, hd, hd'⟩ := hout
      obtain ⟨e', he', h⟩ := changes (P := fun c => c.elem ∈ boxSet b) hc.1 hd h1 hd'
      have hc' := edges_corner he'
      refine ⟨e', he', ?_⟩
      rcases h with ⟨h3, h4⟩ | ⟨h3, h4⟩
      · exact exit_found (right_mem_segment ℝ _ _) h3 (Or.inr ⟨h4, hr _ hc'.1⟩)
      · exact exit_found (left_mem_segment ℝ _ _) h3 (Or.inl ⟨h4, hr _ hc'.2⟩)
    · exact ⟨e, he, exit_found hz hzb (Or.inr ⟨h2, hr _ hc.1⟩)⟩
  · exact ⟨e, he, exit_found hz hzb (Or.inl ⟨h1, hr _ hc.2⟩)⟩

theorem parity_low (p : Corners 2) (b : Box 2) :
    (false != decide (Odd ((edges p).countP (passE (b.low.elem 0) (b.low.elem 1))))) = true ↔ Odd (rayCrossings east p b.low.elem) := by
  rw [count_pass]; simp

/-- C98, the part that holds: when the polygon and the box have a point in common, some corner of the polygon is outside the box, and none is on its
rim, `Intersect(polygon, box)` says so; with `proper` also no side may graze a corner of the box. Missing: polygons with every corner in the box,
which are not found (`C98_inside`), and corners on the rim. -/
theorem C98_accepts_partial (p : Corners 2) (b : Box 2) (proper : Bool) (ho : Ordered b) (hout : ∃ c ∈ p, c.elem ∉ boxSet b) (hr : OffRim p b)
    (hg : proper = false ∨ ¬ Grazes p b) (h : (filled p ∩ boxSet b).Nonempty) : interPolyB p b proper = true := by
  unfold interPolyB
  rw [polyBLoop_true _ _ (hg.imp_right fun h e he => by
    by_contra hc
    exact h ((touch_iff p b).1 ⟨e, he, by simpa using hc⟩)), parity_low]
  by_cases hodd : Odd (rayCrossings east p b.low.elem)
  · exact Or.inr hodd
  · left
    obtain ⟨x, hx, hxb⟩ := h
    obtain ⟨z, hz, hz'⟩ := meets_boundary (convex_boxSet b).isPreconnected hxb hx (low_mem ho) fun h => hodd h.2
    exact boundary_found hr hout ⟨z, hz', hz⟩

/-- C98: when `Intersect(polygon, box)` holds, the polygon and the box have a point in common, unless `proper` is false and a side of the polygon
grazes a corner of the box. -/
theorem C98_rejects (p : Corners 2) (b : Box 2) (proper : Bool) (ho : Ordered b) (hg : proper = true ∨ ¬ Grazes p b)
    (h : interPolyB p b proper = true) : (filled p ∩ boxSet b).Nonempty := by
  rcases polyBLoop_sound _ _ h with ⟨h1, h2⟩ | ⟨e, he, hc⟩ | ⟨-, h⟩
  · rcases hg with hg | hg
    · rw [hg] at h1; exact absurd h1 (by simp)
    · exact absurd ((touch_iff p b).1 h2) hg
  · obtain ⟨z, hz, hzb⟩ := cut_point ho hc
    exact ⟨z, Or.inr ⟨(e.2.elem, e.1.elem), mem_sides_edges.2 ⟨e, he, rfl, rfl⟩, hz⟩, hzb⟩
  · rw [parity_low] at h
    refine ⟨b.low.elem, ?_, low_mem ho⟩
    by_cases hb : b.low.elem ∈ boundary p
    · exact Or.inr hb
    · exact Or.inl ⟨hb, h⟩

/-- C98, an exact answer for polygons that stick out of the box and touch neither its corners nor, with their own corners, its rim. -/
theorem C98_exact_partial (p : Corners 2) (b : Box 2) (proper : Bool) (ho : Ordered b) (hout : ∃ c ∈ p, c.elem ∉ boxSet b) (hr : OffRim p b)
    (hg : ¬ Grazes p b) : interPolyB p b proper = true ↔ (filled p ∩ boxSet b).Nonempty :=
  ⟨C98_rejects p b proper ho (Or.inr hg), C98_accepts_partial p b proper ho hout hr (Or.inr hg)⟩

/-- C98 fails for every polygon that lies inside the box: the answer is no. -/
theorem C98_inside (p : Corners 2) (b : Box 2) (proper : Bool) (h : ∀ c ∈ p, c.elem ∈ boxInterior b) : interPolyB p b proper = false := by
  have nb : ∀ e ∈ edges p, ∀ k, between (e.1.elem k) (e.2.elem k) (b.low.elem k) = false ∧ between (e.1.elem k) (e.2.elem k) (b.high.elem k) = false := by
    intro e he k
    have h1 := h _ (edges_corner he).1 k
    have h2 := h _ (edges_corner he).2 k
    unfold between
    rw [decide_eq_false_iff_not, decide_eq_false_iff_not]
    constructor
    · rintro (⟨h3, h4⟩ | ⟨h3, h4⟩) <;> linarith [h1.1, h2.1]
    · rintro (⟨h3, h4⟩ | ⟨h3, h4⟩) <;> linarith [h1.2, h2.2]
  have nt : ∀ e ∈ edges p, touchE (b.low.elem 0) (b.low.elem 1) (b.high.elem 0) (b.high.elem 1) e = false := by
    intro e he
    simp [touchE, tH, tV, nb e he]
  have nc : ∀ e ∈ edges p, cutE (b.low.elem 0) (b.low.elem 1) (b.high.elem 0) (b.high.elem 1) e = false := by
    intro e he
    simp [cutE, cH, cV, nb e he]
  have np : (edges p).countP (passE (b.low.elem 0) (b.low.elem 1)) = 0 := by
    rw [List.countP_eq_zero]
    intro e he
    simp [passE, nb e he]
  rw [← Bool.not_eq_true, interPolyB, polyBLoop_true _ _ (Or.inr nt), np]
  rintro (⟨e, he, h | h⟩ | h)
  · rw [nt e he] at h; exact absurd h (by simp)
  · rw [nc e he] at h; exact absurd h (by simp)
  · simp at h

/-- C98 is false as stated: the unit square and a box around it have points in common, but the library says that they do not intersect. -/
theorem C98_false : ∃ (p : Corners 2) (b : Box 2), b.valid = true ∧ Solid b ∧ ¬ Grazes p b ∧ OffRim p b ∧ (inside p ∩ boxInterior b).Nonempty ∧
    ∀ proper, interPolyB p b proper = false := by
  refine ⟨unitSquare, ⟨⟨![-1, -1], true⟩, ⟨![2, 2], true⟩⟩, rfl, ?_, ?_, ?_, ⟨![1 / 2, 1 / 2], unitSquare_inside ?_ ?_ ?_ ?_, ?_⟩, fun proper => ?_⟩
  · intro i; fin_cases i <;> norm_num
  · rintro ⟨q, hq, ⟨e, he, h, -⟩ | ⟨e, he, h, -⟩⟩
    · rw [← between_iff] at h
      have h1 := hq 1
      rw [unitSquare_sides] at he
      simp only [List.mem_cons, List.not_mem_nil, or_false] at he
      simp at h1
      rcases h1 with h1 | h1 <;> rw [h1] at h <;> rcases he with rfl | rfl | rfl | rfl <;> simp [between] at h <;> norm_num at h
    · rw [← between_south] at h
      have h1 := hq 0
      rw [unitSquare_sides] at he
      simp only [List.mem_cons, List.not_mem_nil, or_false] at he
      simp at h1
      rcases h1 with h1 | h1 <;> rw [h1] at h <;> rcases he with rfl | rfl | rfl | rfl <;> simp [between] at h <;> norm_num at h
  · intro c hc _ i
    simp only [unitSquare, List.mem_cons, List.not_mem_nil, or_false] at hc
    rcases hc with rfl | rfl | rfl | rfl <;> fin_cases i <;> norm_num
  · norm_num
  · norm_num
  · norm_num
  · norm_num
  · intro i; fin_cases i <;> norm_num
  · apply C98_inside
    intro c hc i
    simp only [unitSquare, List.mem_cons, List.not_mem_nil, or_false] at hc
    rcases hc with rfl | rfl | rfl | rfl <;> fin_cases i <;> norm_num

/-! ### C99 -/

/-- C99, the part that holds: when no side of the polygon grazes a corner of the box and no corner of the polygon is on its rim,
`Contains(polygon, box)` is true exactly when every point of the box is inside the polygon. Missing: sides through the corners of the box, where it
is false (`C99_false`). -/
theorem C99_exact_partial (p : Corners 2) (b : Box 2) (proper : Bool) (ho : Ordered b) (hr : OffRim p b) (hg : ¬ Grazes p b) :
    containsPolyB p b proper = true ↔ boxSet b ⊆ inside p := by
  unfold containsPolyB
  rw [polyCBLoop_true _ _ fun e he => by
    by_contra hc
    exact hg ((touch_iff p b).1 ⟨e, he, by simpa using hc⟩), parity_low]
  constructor
  · rintro ⟨h1, h2⟩ x hx
    by_contra hx'
    have hlow : b.low.elem ∈ filled p := by
      by_cases hb : b.low.elem ∈ boundary p
      · exact Or.inr hb
      · exact Or.inl ⟨hb, h2⟩
    obtain ⟨z, hz, hz'⟩ := meets_boundary (convex_boxSet b).isPreconnected (low_mem ho) hlow hx hx'
    by_cases hout : ∃ c ∈ p, c.elem ∉ boxSet b
    · obtain ⟨e, he, h | h⟩ := boundary_found hr hout ⟨z, hz', hz⟩
      · exact hg ((touch_iff p b).1 ⟨e, he, h⟩)
      · rw [h1 e he] at h; exact absurd h (by simp)
    · push Not at hout
      refine outside_half (u := ![-1, 0]) (p := b.low.elem) (ps := p) east_ne (fun c hc => ?_) h2
      have := (hr c hc (hout c hc) 0).1
      simp [dotProduct, Fin.sum_univ_two]
      exact this
  · intro h
    refine ⟨fun e he => ?_, (h (low_mem ho)).2⟩
    by_contra hc
    obtain ⟨z, hz, hzb⟩ := cut_point ho (by simpa using hc)
    exact (h hzb).1 ⟨(e.2.elem, e.1.elem), mem_sides_edges.2 ⟨e, he, rfl, rfl⟩, hz⟩

/-- The box with the corners of the unit square. -/
noncomputable def unitBox2 : Box 2 := ⟨⟨![0, 0], true⟩, ⟨![1, 1], true⟩⟩

theorem unitBox2_filled : boxSet unitBox2 ⊆ filled unitSquare := by
  intro x hx
  have h0 := hx 0
  have h1 := hx 1
  simp [unitBox2] at h0 h1
  have on : ∀ a b : V2, (a, b) ∈ sides unitSquare → x ∈ segment ℝ a b → x ∈ filled unitSquare := fun a b h1 h2 => Or.inr ⟨(a, b), h1, h2⟩
  rw [unitSquare_sides] at on
  rcases h0.1.eq_or_lt with h | h
  · exact on ![0, 1] ![0, 0] (by simp) (mem_seg.2 ⟨1 - x 1, by linarith, by linarith, by apply ext2 <;> simp [← h]⟩)
  rcases h0.2.eq_or_lt with h' | h'
  · exact on ![1, 0] ![1, 1] (by simp) (mem_seg.2 ⟨x 1, by linarith, by linarith, by apply ext2 <;> simp [h']⟩)
  rcases h1.1.eq_or_lt with h2 | h2
  · exact on ![0, 0] ![1, 0] (by simp) (mem_seg.2 ⟨x 0, by linarith, by linarith, by apply ext2 <;> simp [← h2]⟩)
  rcases h1.2.eq_or_lt with h2' | h2'
  · exact on ![1, 1] ![0, 1] (by simp) (mem_seg.2 ⟨1 - x 0, by linarith, by linarith, by apply ext2 <;> simp [h2']⟩)
  exact Or.inl (unitSquare_inside h h' h2 h2')

/-- C98 and C99 are false for a polygon and a box that are the same set of points: the library says that they do not properly intersect, and that the
polygon does not contain the box. -/
theorem C99_false : ∃ (p : Corners 2) (b : Box 2), b.valid = true ∧ Solid b ∧ boxSet b ⊆ filled p ∧ boxInterior b ⊆ inside p ∧
    containsPolyB p b false = false ∧ interPolyB p b true = false := by
  refine ⟨unitSquare, unitBox2, rfl, ?_, unitBox2_filled, ?_, ?_, ?_⟩
  · intro i; fin_cases i <;> norm_num [unitBox2]
  · intro x hx
    have h0 := hx 0
    have h1 := hx 1
    simp [unitBox2] at h0 h1
    exact unitSquare_inside h0.1 h0.2 h1.1 h1.2
  · simp [containsPolyB, unitBox2, edges, unitSquare, edgesFrom, polyCBLoop, between, equal_refl]
  · simp [interPolyB, unitBox2, edges, unitSquare, edgesFrom, polyBLoop, between, equal_refl]

/-! ### Examples -/

theorem equal_apart {x y : ℝ} (hx : |x| ≤ 4) (h : 1 / 8 ≤ |x - y|) : equal x y epsilon = false := by
  have he := epsilon_lt
  have hp := epsilon_pos
  norm_num at he
  unfold equal
  rw [decide_eq_false_iff_not, not_le]
  refine lt_of_lt_of_le ?_ h
  by_cases hz : x = 0 ∨ y = 0
  · rw [scaleEpsilon_zero hz]; linarith
  · push Not at hz
    have h1 := scaleEpsilon_le (x := x) (y := y) epsilon_pos.le hz.1 hz.2
    have h2 := min_le_left |x| |y|
    nlinarith

/-- A box whose corners are at least 1/8 away, along both axes, from the lines of the unit square is not grazed by it. -/
theorem unitSquare_grazes {b : Box 2} (h : ∀ i, ∀ z ∈ ({b.low.elem i, b.high.elem i} : Set ℝ), |z| ≤ 4 ∧ 1 / 8 ≤ |z - 0| ∧ 1 / 8 ≤ |z - 1|) :
    ¬ Grazes unitSquare b := by
  rintro ⟨q, hq, ⟨e, he, hs, x, hx, heq⟩ | ⟨e, he, hs, x, hx, heq⟩⟩
  · have h0 := h 0 (q 0) (by simpa using hq 0)
    rw [unitSquare_sides] at he
    obtain ⟨s, s0, s1, h2, h3⟩ := seg_coord hx
    rw [← between_iff] at hs
    simp only [List.mem_cons, List.not_mem_nil, or_false] at he
    have hx' : x = 0 ∨ x = 1 := by
      rcases he with rfl | rfl | rfl | rfl <;> simp at h2 h3
      · simp [between] at hs; linarith
      · exact Or.inr h2
      · simp [between] at hs; linarith
      · exact Or.inl h2
    rcases hx' with rfl | rfl
    · rw [equal_apart h0.1 h0.2.1] at heq; exact absurd heq (by simp)
    · rw [equal_apart h0.1 h0.2.2] at heq; exact absurd heq (by simp)
  · have h0 := h 1 (q 1) (by simpa using hq 1)
    rw [unitSquare_sides] at he
    obtain ⟨s, s0, s1, h2, h3⟩ := seg_coord hx
    rw [← between_south] at hs
    simp only [List.mem_cons, List.not_mem_nil, or_false] at he
    have hx' : x = 0 ∨ x = 1 := by
      rcases he with rfl | rfl | rfl | rfl <;> simp at h2 h3
      · exact Or.inl h3
      · simp [between] at hs; linarith
      · exact Or.inr h3
      · simp [between] at hs; linarith
    rcases hx' with rfl | rfl
    · rw [equal_apart h0.1 h0.2.1] at heq; exact absurd heq (by simp)
    · rw [equal_apart h0.1 h0.2.2] at heq; exact absurd heq (by simp)

/-- A box that overlaps the unit square from the right. -/
example (proper : Bool) : interPolyB unitSquare ⟨⟨![1 / 2, 1 / 2], true⟩, ⟨![2, 3], true⟩⟩ proper = true := by
  refine (C98_exact_partial _ _ _ ?_ ⟨⟨![0, 0], true⟩, by simp [unitSquare], fun h => ?_⟩ ?_ (unitSquare_grazes ?_)).2
    ⟨![3 / 4, 3 / 4], Or.inl (unitSquare_inside ?_ ?_ ?_ ?_), ?_⟩
  · intro i; fin_cases i <;> norm_num
  · have := (h 0).1; norm_num at this
  · intro c hc h
    simp only [unitSquare, List.mem_cons, List.not_mem_nil, or_false] at hc
    rcases hc with rfl | rfl | rfl | rfl
    · have := (h 0).1; norm_num at this
    · have := (h 1).1; norm_num at this
    · intro i; fin_cases i <;> norm_num
    · have := (h 0).1; norm_num at this
  · intro i z hz
    fin_cases i <;> simp at hz <;> rcases hz with rfl | rfl <;> norm_num [abs_of_pos, abs_of_neg, abs_le, le_abs]
  all_goals first | (intro i; fin_cases i <;> norm_num; done) | norm_num

/-- A box inside the unit square. -/
example (proper : Bool) : containsPolyB unitSquare ⟨⟨![1 / 4, 1 / 4], true⟩, ⟨![3 / 4, 1 / 2], true⟩⟩ proper = true := by
  refine (C99_exact_partial _ _ _ ?_ ?_ (unitSquare_grazes ?_)).2 fun x hx => ?_
  · intro i; fin_cases i <;> norm_num
  · intro c hc h
    have h0 := h 0
    have h1 := h 1
    simp only [unitSquare, List.mem_cons, List.not_mem_nil, or_false] at hc
    rcases hc with rfl | rfl | rfl | rfl <;> first | (norm_num at h0; done) | (norm_num at h1; done)
  · intro i z hz
    fin_cases i <;> simp at hz <;> rcases hz with rfl | rfl <;> norm_num [abs_of_pos, abs_of_neg, abs_le, le_abs]
  · have h0 := hx 0
    have h1 := hx 1
    simp at h0 h1
    norm_num at h0 h1
    apply unitSquare_inside <;> linarith

end WFMath
