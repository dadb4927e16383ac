/- Property theorems C156: plane polygons against rotated boxes in floating point. -/
import Verif.Model.RoundedPolyRBox
import Verif.Lemmas.PolyStable
import Verif.Props.RoundPolyShapes
import Verif.Props.RoundRBox

namespace WFMath
open Spec Matrix Rounding

namespace Fl

theorem ptRotate_inverse (r : Rounding 53) (b : RBox 2) (p : Pt 2) : ptRotate r p b.orient.inverse b.corner = rbUnrotate r b p := rfl

theorem bounds_flat (r : Rounding 53) (b : RBox 2) (hb : ∀ i, IsFl 53 (b.corner.elem i)) (k : Fin 2) :
    (rbBounds r b k).1 = (rbFlat r b).low.elem k ∧ (rbBounds r b k).2 = (rbFlat r b).high.elem k := by
  rw [flat_low, flat_high]
  unfold rbBounds
  have hc := r.of_fl (hb k)
  split_ifs with h
  · have := r.mono (show b.corner.elem k ≤ b.corner.elem k + b.size.elem k by linarith)
    rw [hc] at this
    rw [min_eq_left this, max_eq_right this]; simp
  · have := r.mono (show b.corner.elem k + b.size.elem k ≤ b.corner.elem k by linarith)
    rw [hc] at this
    rw [min_eq_right this, max_eq_left this]; simp

theorem turnedEdges_mem (r : Rounding 53) (b : RBox 2) (es : List (Pt 2 × Pt 2)) (nx : Bool) {e : Pt 2 × Pt 2} (he : e ∈ turnedEdges r b es nx) :
    e ∈ es.map (fun e => (rbUnrotate r b e.1, rbUnrotate r b e.2)) ∨ (e.2, e.1) ∈ es.map (fun e => (rbUnrotate r b e.1, rbUnrotate r b e.2)) := by
  induction es generalizing nx with
  | nil => simp [turnedEdges] at he
  | cons a es ih =>
    obtain ⟨i, j⟩ := a
    rw [turnedEdges, List.mem_cons] at he
    rcases he with rfl | he
    · cases nx
      · left; simp [ptRotate_inverse]
      · right; simp [ptRotate_inverse]
    · rcases ih _ he with h | h
      · exact .inl (List.mem_cons_of_mem _ h)
      · exact .inr (List.mem_cons_of_mem _ h)

theorem turnedEdges_loop (r : Rounding 53) (b : RBox 2) (l0 l1 h0 h1 : ℝ) (proper : Bool) (es : List (Pt 2 × Pt 2)) (nx hit : Bool) :
    WFMath.polyBLoop l0 l1 h0 h1 proper (turnedEdges r b es nx) hit =
      WFMath.polyBLoop l0 l1 h0 h1 proper (es.map fun e => (rbUnrotate r b e.1, rbUnrotate r b e.2)) hit ∧
    WFMath.polyCBLoop l0 l1 h0 h1 proper (turnedEdges r b es nx) hit =
      WFMath.polyCBLoop l0 l1 h0 h1 proper (es.map fun e => (rbUnrotate r b e.1, rbUnrotate r b e.2)) hit := by
  induction es generalizing nx hit with
  | nil => exact ⟨rfl, rfl⟩
  | cons e es ih =>
    obtain ⟨i, j⟩ := e
    rw [turnedEdges, List.map_cons, ptRotate_inverse, ptRotate_inverse]
    generalize rbUnrotate r b i = i'
    generalize rbUnrotate r b j = j'
    obtain ⟨a, b, c, d, e⟩ := tests_comm i' j'
    have g1 := fun nx hit => (ih nx hit).1
    have g2 := fun nx hit => (ih nx hit).2
    cases nx
    · simp only [Bool.false_eq_true, if_false, polyBLoop_cons, polyCBLoop_cons', g1, g2, and_self]
    · simp only [if_true, polyBLoop_cons, polyCBLoop_cons', g1, g2, a, b, c, d, e, and_self]

/-- The tests are the exact ones for the polygon and the box as computed in the coordinates of the box. -/
theorem polyR_eq (r : Rounding 53) (ps : Corners 2) (b : RBox 2) (proper : Bool) (hb : ∀ i, IsFl 53 (b.corner.elem i)) (hp : ps ≠ []) {M : ℝ}
    (hM : ∀ c ∈ ps.map (rbUnrotate r b), ∀ i, |c.elem i| ≤ M)
    (hc : ∀ q ∈ boxCorners (rbFlat r b), ClearOfSides (ps.map (rbUnrotate r b)) q (sideMargin (q 0) M) ∧
      ClearAboveBelow (ps.map (rbUnrotate r b)) q (sideMargin (q 1) M)) :
    interPolyR r ps b proper = some (WFMath.interPolyB (ps.map (rbUnrotate r b)) (rbFlat r b) proper) ∧
    containsPolyR r ps b proper = some (WFMath.containsPolyB (ps.map (rbUnrotate r b)) (rbFlat r b) proper) := by
  have hag := polyBLoop_agrees r _ _ proper hM hc (turnedEdges r b (edges ps) true)
    (fun e he => by rw [edges_map _ hp]; exact turnedEdges_mem r b _ _ he) false
  obtain ⟨t1, t2⟩ := turnedEdges_loop r b ((rbFlat r b).low.elem 0) ((rbFlat r b).low.elem 1) ((rbFlat r b).high.elem 0) ((rbFlat r b).high.elem 1) proper (edges ps) true false
  unfold interPolyR containsPolyR WFMath.interPolyB WFMath.containsPolyB
  rw [if_neg hp, if_neg hp]
  simp only [bounds_flat r b hb]
  rw [hag.1, hag.2, t1, t2, edges_map _ hp]
  exact ⟨rfl, rfl⟩

end Fl

/-- The coordinates along the edges of a box, from its corner. -/
noncomputable def viewOf (c : V2) (R : Matrix (Fin 2) (Fin 2) ℝ) (x : V2) : V2 := c + R *ᵥ (x - c)

section
variable {c s : V2} {R : Matrix (Fin 2) (Fin 2) ℝ}

theorem view_sub (x y : V2) : viewOf c R x - viewOf c R y = R *ᵥ (x - y) := by
  unfold viewOf
  rw [add_sub_add_left_eq_sub, ← mulVec_sub, sub_sub_sub_cancel_right]

theorem view_len (hR : Rᵀ * R = 1) (x y : V2) : len (viewOf c R x - viewOf c R y) = len (x - y) := by rw [view_sub, Fl.len_orth hR]

theorem view_surj (hR : Rᵀ * R = 1) (y : V2) : ∃ x, viewOf c R x = y := by
  refine ⟨c + Rᵀ *ᵥ (y - c), ?_⟩
  unfold viewOf
  rw [add_sub_cancel_left, mulVec_mulVec, mul_eq_one_comm.1 hR, one_mulVec, add_sub_cancel]

theorem view_det (hR : Rᵀ * R = 1) : R.det ≠ 0 := by
  intro h
  have := congrArg Matrix.det hR
  rw [det_mul, h, mul_zero, det_one] at this
  exact zero_ne_one this

theorem mem_turned {d : ℝ} {x : V2} : x ∈ turnedBox c s R d ↔ ∀ i, min 0 (s i) - d ≤ viewOf c R x i - c i ∧ viewOf c R x i - c i ≤ max 0 (s i) + d := by
  have : ∀ i, viewOf c R x i - c i = (R *ᵥ (x - c)) i := fun i => by simp [viewOf]
  simp only [this]; rfl

theorem mem_turnedI {d : ℝ} {x : V2} : x ∈ turnedInterior c s R d ↔ ∀ i, min 0 (s i) - d < viewOf c R x i - c i ∧ viewOf c R x i - c i < max 0 (s i) + d := by
  have : ∀ i, viewOf c R x i - c i = (R *ᵥ (x - c)) i := fun i => by simp [viewOf]
  simp only [this]; rfl

/-- The polygon computed in the coordinates of the box and the box computed there, against the exact ones. `δ` bounds the movement of the corners, `w` that of the
faces of the box. -/
theorem seen_sets (hR : Rᵀ * R = 1) {ps : Corners 2} {g : Pt 2 → Pt 2} {δ w η : ℝ} (hδ : ∀ p ∈ ps, len (viewOf c R p.elem - (g p).elem) ≤ δ) {F : Box 2}
    (hl : ∀ k, |F.low.elem k - (c k + min 0 (s k))| ≤ w) (hh : ∀ k, |F.high.elem k - (c k + max 0 (s k))| ≤ w) (δ0 : 0 ≤ δ) (hη : 2 * δ + w ≤ η) :
    (turnedBox c s R η ⊆ inside ps → boxSet F ⊆ inside (ps.map g)) ∧
    (boxSet F ⊆ inside (ps.map g) → turnedBox c s R (-η) ⊆ inside ps) ∧
    ((filled ps ∩ turnedBox c s R (-η)).Nonempty → (filled (ps.map g) ∩ boxSet F).Nonempty) ∧
    ((filled (ps.map g) ∩ boxSet F).Nonempty → (filled ps ∩ turnedBox c s R η).Nonempty) := by
  let f : Pt 2 → Pt 2 := fun p => ⟨viewOf c R p.elem, p.valid⟩
  have hf : ∀ p, (f p).elem = viewOf c R p.elem := fun p => rfl
  have hin := affine_inside (view_det hR) (view_sub (c := c)) hf ps
  have hbd := affine_boundary (view_det hR) (view_sub (c := c)) hf ps
  have hδ1 : ∀ p ∈ ps, len ((f p).elem - (g p).elem) ≤ δ := hδ
  have hδ2 : ∀ p ∈ ps, len ((g p).elem - (f p).elem) ≤ δ := fun p hp => by rw [len_sub_comm]; exact hδ p hp
  -- points of the computed box and of the exact one
  have b1 : ∀ {x y : V2} {d e : ℝ}, x ∈ turnedBox c s R d → len (y - viewOf c R x) ≤ e → d + e + w ≤ 0 → y ∈ boxSet F := by
    intro x y d e hx hy h i
    have h1 := mem_turned.1 hx i
    have h2 := _root_.abs_le.1 ((abs_le_len _ i).trans hy)
    have h3 := _root_.abs_le.1 (hl i)
    have h4 := _root_.abs_le.1 (hh i)
    simp only [Pi.sub_apply] at h2
    constructor <;> linarith
  have b2 : ∀ {x y : V2} {d e : ℝ}, y ∈ boxSet F → len (y - viewOf c R x) ≤ e → e + w ≤ d → x ∈ turnedBox c s R d := by
    intro x y d e hy hxy h
    refine mem_turned.2 fun i => ?_
    have h1 := hy i
    have h2 := _root_.abs_le.1 ((abs_le_len _ i).trans hxy)
    have h3 := _root_.abs_le.1 (hl i)
    have h4 := _root_.abs_le.1 (hh i)
    simp only [Pi.sub_apply] at h2
    constructor <;> linarith
  -- a point is near the sides, or the polygon as computed has it inside when the exact one has
  have dich : ∀ x : V2, (∃ z ∈ boundary ps, len (z - x) ≤ δ) ∨
      ((viewOf c R x ∈ inside (ps.map g) ↔ x ∈ inside ps) ∧ viewOf c R x ∉ boundary (ps.map g) ∧ x ∉ boundary ps) := by
    intro x
    by_cases h : ∃ z ∈ boundary ps, len (z - x) ≤ δ
    · exact .inl h
    · push Not at h
      have h' : ∀ z ∈ boundary (ps.map f), δ < len (z - viewOf c R x) := by
        intro z hz
        obtain ⟨z, rfl⟩ := view_surj (c := c) hR z
        rw [view_len hR]
        exact h z ((hbd z).1 hz)
      refine .inr ⟨(inside_stable hδ1 h').trans (hin x), fun hb => ?_, fun hb => ?_⟩
      · obtain ⟨y, hy, hl⟩ := boundary_moved hδ2 hb
        rw [len_sub_comm] at hl
        linarith [h' y hy]
      · have := h x hb
        rw [sub_self, len_zero] at this
        linarith
  have near : ∀ {x z : V2}, z ∈ boundary ps → len (z - x) ≤ δ → ∃ y ∈ boundary (ps.map g), len (y - viewOf c R x) ≤ 2 * δ := by
    intro x z hz hx
    obtain ⟨y, hy, hl⟩ := boundary_moved hδ1 ((hbd z).2 hz)
    refine ⟨y, hy, (len_triangle y (viewOf c R z) (viewOf c R x)).trans ?_⟩
    rw [view_len hR, len_sub_comm]
    linarith
  have zero : ∀ {x : V2}, len (viewOf c R x - viewOf c R x) ≤ 0 := fun {x} => by rw [sub_self, len_zero]
  refine ⟨fun h y hy => ?_, fun h x hx => ?_, ?_, ?_⟩
  · obtain ⟨x, rfl⟩ := view_surj (c := c) hR y
    rcases dich x with ⟨z, hz, hl⟩ | ⟨h1, -, -⟩
    · have := h (b2 (x := z) (d := η) (e := δ) hy (by rw [view_len hR, len_sub_comm]; exact hl) (by linarith))
      exact absurd hz this.1
    · exact h1.2 (h (b2 hy zero (by linarith)))
  · rcases dich x with ⟨z, hz, hl⟩ | ⟨h1, -, -⟩
    · obtain ⟨y, hy, hyl⟩ := near hz hl
      exact absurd hy (h (b1 hx hyl (by linarith))).1
    · exact h1.1 (h (b1 hx zero (by linarith)))
  · rintro ⟨x, hx, hxb⟩
    rcases dich x with ⟨z, hz, hl⟩ | ⟨h1, -, h3⟩
    · obtain ⟨y, hy, hyl⟩ := near hz hl
      exact ⟨y, .inr hy, b1 hxb hyl (by linarith)⟩
    · exact ⟨viewOf c R x, .inl (h1.2 (hx.resolve_right h3)), b1 hxb zero (by linarith)⟩
  · rintro ⟨y, hy, hyb⟩
    obtain ⟨x, rfl⟩ := view_surj (c := c) hR y
    rcases dich x with ⟨z, hz, hl⟩ | ⟨h1, h2, -⟩
    · exact ⟨z, .inr hz, b2 (x := z) (e := δ) hyb (by rw [view_len hR, len_sub_comm]; exact hl) (by linarith)⟩
    · exact ⟨x, .inl (h1.1 (hy.resolve_right h2)), b2 hyb zero (by linarith)⟩

end

namespace Fl

theorem min_move {a b x y w : ℝ} (h : |x - y| ≤ w) (w0 : 0 ≤ w) (e : b = a) : |min a x - min b y| ≤ w ∧ |max a x - max b y| ≤ w := by
  subst e
  refine ⟨(abs_min_sub_min_le_max _ _ _ _).trans ?_, (abs_max_sub_max_le_max _ _ _ _).trans ?_⟩ <;>
  · rw [sub_self, abs_zero]; exact max_le w0 h

theorem flat_bounds (r : Rounding 53) (b : RBox 2) {M : ℝ} (hc : len b.corner.elem ≤ M) (hs : len b.size.elem ≤ M) (k : Fin 2) :
    |(rbFlat r b).low.elem k - (b.corner.elem k + min 0 (b.size.elem k))| ≤ 2 ^ (-52 : ℤ) * M ∧
    |(rbFlat r b).high.elem k - (b.corner.elem k + max 0 (b.size.elem k))| ≤ 2 ^ (-52 : ℤ) * M := by
  rw [flat_low, flat_high, ← min_add_add_left, ← max_add_add_left, add_zero]
  refine min_move ?_ ?_ rfl
  · refine (end_err r b k).trans ?_
    have h1 := (abs_le_len _ k).trans hc
    have h2 := (abs_le_len _ k).trans hs
    have h3 := abs_add_le (b.corner.elem k) (b.size.elem k)
    rw [show (2 : ℝ) ^ (-52 : ℤ) * M = 2 ^ (-53 : ℤ) * (2 * M) by norm_num; ring]
    exact mul_le_mul_of_nonneg_left (h3.trans (by linarith)) (by positivity)
  · exact mul_nonneg (by positivity) ((len_nonneg _).trans hc)

/-- Each corner of the computed box is near a corner of the exact one. -/
theorem flat_corner (r : Rounding 53) (b : RBox 2) {R : Matrix (Fin 2) (Fin 2) ℝ} (hR : Rᵀ * R = 1) {M : ℝ} (hc : len b.corner.elem ≤ M) (hs : len b.size.elem ≤ M) {q : V2}
    (hq : q ∈ boxCorners (rbFlat r b)) : ∃ i < 4, len (q - viewOf b.corner.elem R (turnedCorner b.corner.elem b.size.elem R i)) ≤ 2 ^ (-52 : ℤ) * M := by
  have hv : ∀ i : Nat, viewOf b.corner.elem R (turnedCorner b.corner.elem b.size.elem R i) = fun k => b.corner.elem k + if i.testBit k then b.size.elem k else 0 := by
    intro i
    have : turnedCorner b.corner.elem b.size.elem R i - b.corner.elem = Rᵀ *ᵥ fun k => if i.testBit k then b.size.elem k else 0 := by
      ext k
      simp only [turnedCorner, Pi.sub_apply, add_sub_cancel_left, mulVec, dotProduct, Matrix.transpose_apply]
      refine Finset.sum_congr rfl fun j _ => ?_
      split_ifs <;> ring
    unfold viewOf
    rw [this, mulVec_mulVec, mul_eq_one_comm.1 hR, one_mulVec]
    rfl
  have h : ∀ k, q k = b.corner.elem k ∨ q k = r (b.corner.elem k + b.size.elem k) := by
    intro k
    have := hq k
    rw [flat_low, flat_high] at this
    rcases le_total (b.corner.elem k) (r (b.corner.elem k + b.size.elem k)) with h | h
    · rwa [min_eq_left h, max_eq_right h] at this
    · rw [min_eq_right h, max_eq_left h] at this; exact this.symm
  have key : ∀ i : Nat, (∀ k : Fin 2, if i.testBit k then q k = r (b.corner.elem k + b.size.elem k) else q k = b.corner.elem k) →
      len (q - viewOf b.corner.elem R (turnedCorner b.corner.elem b.size.elem R i)) ≤ 2 ^ (-52 : ℤ) * M := by
    intro i hi
    rw [hv]
    refine (len_mono (b := b.corner.elem + b.size.elem) (c := 2 ^ (-53 : ℤ)) (by positivity) fun k => ?_).trans ?_
    · have := hi k
      simp only [Pi.sub_apply]
      split_ifs at this ⊢ with hk
      · rw [this]; exact end_err r b k
      · rw [this, add_zero, sub_self, abs_zero]; positivity
    · have := (len_add_le b.corner.elem b.size.elem).trans (add_le_add hc hs)
      rw [show (2 : ℝ) ^ (-52 : ℤ) * M = 2 ^ (-53 : ℤ) * (M + M) by norm_num; ring]
      exact mul_le_mul_of_nonneg_left this (by positivity)
  rcases h 0 with h0 | h0 <;> rcases h 1 with h1 | h1
  · exact ⟨0, by norm_num, key 0 fun k => by fin_cases k <;> simpa⟩
  · exact ⟨2, by norm_num, key 2 fun k => by fin_cases k <;> simpa [Nat.testBit]⟩
  · exact ⟨1, by norm_num, key 1 fun k => by fin_cases k <;> simpa [Nat.testBit]⟩
  · exact ⟨3, by norm_num, key 3 fun k => by fin_cases k <;> simpa [Nat.testBit]⟩

theorem margin_le {q M : ℝ} (hq : |q| ≤ 5 / 2 * M) (h0 : 0 ≤ M) : sideMargin q (3 * M) ≤ 2 ^ (-47 : ℤ) + 2 ^ (-44 : ℤ) * M := by
  unfold sideMargin epsilon
  have h : max 1 (2 * |q|) ≤ 1 + 5 * M := max_le (by linarith) (by linarith)
  have h2 := mul_le_mul_of_nonneg_left h (show (0 : ℝ) ≤ 31 * 2 ^ (-52 : ℤ) by positivity)
  have h3 : (0 : ℝ) ≤ max 1 (2 * |q|) := zero_le_one.trans (le_max_left _ _)
  norm_num at h2 ⊢
  nlinarith

end Fl

/-- C156: `Intersect(polygon, box)` and `Contains(polygon, box)` for a polygon of the plane and a rotated box, computed in doubles. `R` is an exact rotation for which the
orientation of the box stands up to `E`. `M` bounds the corner and the size of the box and the distances of the corners of the polygon from that corner.

Let the corners of the exact box be farther than `2^-47 + (2 E + 2^-43) M` from the sides of the polygon, and let no corner of the polygon be within
`η = 2 (E + 2^-50) M` of the rim. Then `Contains` says yes when the box with its faces moved outwards by `η` is inside the polygon, and a yes means that the box with its faces
moved inwards by `η` is. If some corner of the polygon is outside the enlarged box, `Intersect` says yes when the polygon and the reduced box have a point in common, and a yes
means that the polygon and the enlarged box have one. If all corners are in the reduced box, `Intersect` says no, as it does in exact arithmetic (`C98_inside`). -/
theorem C156_rotbox (r : Rounding 53) (ps : Corners 2) (b : RBox 2) (proper : Bool) (R : Matrix (Fin 2) (Fin 2) ℝ) (E M : ℝ) (hR : Rᵀ * R = 1)
    (h0 : 12 * 2 ^ (-52 : ℤ) ≤ E) (h1 : E ≤ 1 / 4) (hm : Stands b.orient.elem R (E - 12 * 2 ^ (-52 : ℤ))) (hb : ∀ i, IsFl 53 (b.corner.elem i))
    (hcM : len b.corner.elem ≤ M) (hsM : len b.size.elem ≤ M) (hpM : ∀ c ∈ ps, eucl c.elem b.corner.elem ≤ M) (hne : ps ≠ [])
    (hclear : ∀ i < 4, ∀ x ∈ boundary ps, 2 ^ (-47 : ℤ) + (2 * E + 2 ^ (-43 : ℤ)) * M < eucl x (turnedCorner b.corner.elem b.size.elem R i))
    (hrim : ∀ c ∈ ps, c.elem ∈ turnedBox b.corner.elem b.size.elem R (2 * (E + 2 ^ (-50 : ℤ)) * M) →
      c.elem ∈ turnedInterior b.corner.elem b.size.elem R (-(2 * (E + 2 ^ (-50 : ℤ)) * M))) :
    (turnedBox b.corner.elem b.size.elem R (2 * (E + 2 ^ (-50 : ℤ)) * M) ⊆ inside ps → Fl.containsPolyR r ps b proper = some true) ∧
    (Fl.containsPolyR r ps b proper = some true → turnedBox b.corner.elem b.size.elem R (-(2 * (E + 2 ^ (-50 : ℤ)) * M)) ⊆ inside ps) ∧
    ((∃ c ∈ ps, c.elem ∉ turnedBox b.corner.elem b.size.elem R (2 * (E + 2 ^ (-50 : ℤ)) * M)) →
      ((filled ps ∩ turnedBox b.corner.elem b.size.elem R (-(2 * (E + 2 ^ (-50 : ℤ)) * M))).Nonempty → Fl.interPolyR r ps b proper = some true) ∧
      (Fl.interPolyR r ps b proper = some true → (filled ps ∩ turnedBox b.corner.elem b.size.elem R (2 * (E + 2 ^ (-50 : ℤ)) * M)).Nonempty)) ∧
    ((∀ c ∈ ps, c.elem ∈ turnedInterior b.corner.elem b.size.elem R (-(2 * (E + 2 ^ (-50 : ℤ)) * M))) → Fl.interPolyR r ps b proper = some false) ∧
    (∃ x y, Fl.interPolyR r ps b proper = some x ∧ Fl.containsPolyR r ps b proper = some y) := by
  have M0 : 0 ≤ M := (len_nonneg _).trans hcM
  have E0 : 0 ≤ E := le_trans (by positivity) h0
  set δ := (E + 5 * 2 ^ (-53 : ℤ)) * M with hδd
  set w := 2 ^ (-52 : ℤ) * M with hw
  set η := 2 * (E + 2 ^ (-50 : ℤ)) * M with hη
  have δ0 : 0 ≤ δ := mul_nonneg (add_nonneg E0 (by positivity)) M0
  have hsum : 2 * δ + w ≤ η := by
    rw [hδd, hw, hη]; norm_num; nlinarith
  have w0 : 0 ≤ w := mul_nonneg (by positivity) M0
  have hg : ∀ p ∈ ps, len (viewOf b.corner.elem R p.elem - (Fl.rbUnrotate r b p).elem) ≤ δ := by
    intro p hp
    have := Fl.unrotate_err r b R E (by norm_num) hR (by norm_num at h0 ⊢; linarith) h1 (by norm_num at hm ⊢; exact hm) p
    rw [len_sub_comm]
    refine this.trans ?_
    have k1 := mul_le_mul_of_nonneg_left (hpM p hp) (show 0 ≤ E + 2 ^ (-51 : ℤ) by positivity)
    have k2 := mul_le_mul_of_nonneg_left hcM (show (0 : ℝ) ≤ 2 ^ (-53 : ℤ) by positivity)
    rw [hδd]
    norm_num at k1 k2 ⊢
    linarith
  have hfl := Fl.flat_bounds r b hcM hsM
  obtain ⟨s1, s2, s3, s4⟩ := seen_sets hR hg (fun k => (hfl k).1) (fun k => (hfl k).2) δ0 hsum
  have hdM : δ ≤ M := by
    have : E + 5 * 2 ^ (-53 : ℤ) ≤ 1 := by norm_num; linarith
    rw [hδd]; nlinarith
  -- the corners as computed, against the rim
  have hcrd : ∀ c ∈ ps, ∀ i, |(Fl.rbUnrotate r b c).elem i - viewOf b.corner.elem R c.elem i| ≤ δ := fun c hc i => by
    have := (abs_le_len _ i).trans (hg c hc)
    rwa [Pi.sub_apply, abs_sub_comm] at this
  have inF : ∀ c ∈ ps, (Fl.rbUnrotate r b c).elem ∈ boxSet (Fl.rbFlat r b) → c.elem ∈ turnedBox b.corner.elem b.size.elem R η := by
    intro c hc h
    refine mem_turned.2 fun i => ?_
    have a1 := h i
    have a2 := _root_.abs_le.1 (hcrd c hc i)
    have a3 := _root_.abs_le.1 (hfl i).1
    have a4 := _root_.abs_le.1 (hfl i).2
    constructor <;> linarith
  have intF : ∀ c ∈ ps, c.elem ∈ turnedInterior b.corner.elem b.size.elem R (-η) → (Fl.rbUnrotate r b c).elem ∈ boxInterior (Fl.rbFlat r b) := by
    intro c hc h i
    have a1 := mem_turnedI.1 h i
    have a2 := _root_.abs_le.1 (hcrd c hc i)
    have a3 := _root_.abs_le.1 (hfl i).1
    have a4 := _root_.abs_le.1 (hfl i).2
    constructor <;> linarith
  have hoff : OffRim (ps.map (Fl.rbUnrotate r b)) (Fl.rbFlat r b) := by
    intro c hc h
    obtain ⟨c, hp, rfl⟩ := List.mem_map.1 hc
    exact intF c hp (hrim c hp (inF c hp h))
  -- the sides as computed, against the corners of the box
  have hMM : ∀ c ∈ ps.map (Fl.rbUnrotate r b), ∀ i, |c.elem i| ≤ 3 * M := by
    intro c hc i
    obtain ⟨c, hp, rfl⟩ := List.mem_map.1 hc
    have a1 : len (viewOf b.corner.elem R c.elem) ≤ M + M := by
      refine (len_add_le _ _).trans (add_le_add hcM ?_)
      rw [Fl.len_orth hR, ← eucl_eq_len]; exact hpM c hp
    have a2 := (abs_le_len _ i).trans a1
    have a3 := hcrd c hp i
    have a4 := abs_sub_abs_le_abs_sub ((Fl.rbUnrotate r b c).elem i) (viewOf b.corner.elem R c.elem i)
    linarith
  let f : Pt 2 → Pt 2 := fun p => ⟨viewOf b.corner.elem R p.elem, p.valid⟩
  have far : ∀ q ∈ boxCorners (Fl.rbFlat r b), ∀ y ∈ boundary (ps.map (Fl.rbUnrotate r b)), 2 ^ (-47 : ℤ) + 2 ^ (-44 : ℤ) * M < len (q - y) := by
    intro q hq y hy
    obtain ⟨i, hi, hqi⟩ := Fl.flat_corner r b hR hcM hsM hq
    obtain ⟨z, hz, hl⟩ := boundary_moved (g := f) (η := δ) (fun p hp => by rw [len_sub_comm]; exact hg p hp) hy
    obtain ⟨x, rfl⟩ := view_surj (c := b.corner.elem) hR z
    have hx := (affine_boundary (view_det hR) (view_sub (c := b.corner.elem)) (f := f) (fun _ => rfl) ps x).1 hz
    have k := hclear i hi x hx
    rw [eucl_eq_len, ← view_len (c := b.corner.elem) hR, len_sub_comm] at k
    have t1 := len_triangle (viewOf b.corner.elem R (turnedCorner b.corner.elem b.size.elem R i)) q (viewOf b.corner.elem R x)
    have t2 := len_triangle q y (viewOf b.corner.elem R x)
    rw [len_sub_comm] at hqi
    have : δ + w + 2 ^ (-44 : ℤ) * M ≤ (2 * E + 2 ^ (-43 : ℤ)) * M := by
      rw [hδd, hw]; norm_num; nlinarith [mul_nonneg E0 M0]
    linarith
  have qb : ∀ q ∈ boxCorners (Fl.rbFlat r b), ∀ k, |q k| ≤ 5 / 2 * M := by
    intro q hq k
    obtain ⟨i, hi, hqi⟩ := Fl.flat_corner r b hR hcM hsM hq
    have h5 := hfl k
    have a1 := _root_.abs_le.1 ((abs_le_len _ k).trans hcM)
    have a2 := _root_.abs_le.1 ((abs_le_len _ k).trans hsM)
    have a3 := _root_.abs_le.1 h5.1
    have a4 := _root_.abs_le.1 h5.2
    have hw2 : w ≤ 1 / 2 * M := by rw [hw]; norm_num; linarith
    have m1 : -M ≤ min 0 (b.size.elem k) := le_min (by linarith) a2.1
    have m2 : max 0 (b.size.elem k) ≤ M := max_le M0 a2.2
    have m3 : min 0 (b.size.elem k) ≤ 0 := min_le_left _ _
    have m4 : 0 ≤ max 0 (b.size.elem k) := le_max_left _ _
    rcases hq k with h | h <;> rw [h, _root_.abs_le] <;> constructor <;> linarith
  have hclr : ∀ q ∈ boxCorners (Fl.rbFlat r b), ClearOfSides (ps.map (Fl.rbUnrotate r b)) q (sideMargin (q 0) (3 * M)) ∧
      ClearAboveBelow (ps.map (Fl.rbUnrotate r b)) q (sideMargin (q 1) (3 * M)) := by
    intro q hq
    constructor
    · intro e he x hx
      have := far q hq _ ⟨e, he, hx⟩
      have e1 : len (q - ![x, q 1]) = |q 0 - x| := by
        unfold len; rw [← Real.sqrt_sq_eq_abs]; congr 1; simp [dotProduct, Fin.sum_univ_two]; ring
      rw [e1] at this
      exact lt_of_le_of_lt (Fl.margin_le (qb q hq 0) M0) this
    · intro e he x hx
      have := far q hq _ ⟨e, he, hx⟩
      have e1 : len (q - ![q 0, x]) = |q 1 - x| := by
        unfold len; rw [← Real.sqrt_sq_eq_abs]; congr 1; simp [dotProduct, Fin.sum_univ_two]; ring
      rw [e1] at this
      exact lt_of_le_of_lt (Fl.margin_le (qb q hq 1) M0) this
  obtain ⟨q1, q2⟩ := Fl.polyR_eq r ps b proper hb hne hMM hclr
  have hgr := Fl.clear_grazes hMM hclr
  have ho := Fl.flat_ordered r b
  rw [q1, q2]
  simp only [Option.some.injEq]
  refine ⟨fun h => (C99_exact_partial _ _ proper ho hoff hgr).2 (s1 h), fun h => s2 ((C99_exact_partial _ _ proper ho hoff hgr).1 h), ?_, ?_, ?_⟩
  · rintro ⟨c, hc, hcn⟩
    have hout : ∃ c ∈ ps.map (Fl.rbUnrotate r b), c.elem ∉ boxSet (Fl.rbFlat r b) := ⟨_, List.mem_map_of_mem hc, fun h => hcn (inF c hc h)⟩
    have := C98_exact_partial _ _ proper ho hout hoff hgr
    exact ⟨fun h => this.2 (s3 h), fun h => s4 (this.1 h)⟩
  · intro h
    refine C98_inside _ _ proper fun c hc => ?_
    obtain ⟨c, hp, rfl⟩ := List.mem_map.1 hc
    exact intF c hp (h c hp)
  · exact ⟨_, _, rfl, rfl⟩

/-- C156: on a polygon without corners both functions read the last element of an empty vector. -/
theorem C156_empty (r : Rounding 53) (b : RBox 2) (proper : Bool) : Fl.interPolyR r [] b proper = none ∧ Fl.containsPolyR r [] b proper = none := by
  simp [Fl.interPolyR, Fl.containsPolyR]

/-- C156: when the corners of a polygon move by at most `η`, every point farther than `η` from its sides stays inside or stays outside. -/
theorem C156_stable (ps : Corners 2) (g : Pt 2 → Pt 2) (η : ℝ) (h : ∀ c ∈ ps, eucl c.elem (g c).elem ≤ η) (p : Fin 2 → ℝ)
    (hp : ∀ x ∈ boundary ps, η < eucl x p) : p ∈ inside (ps.map g) ↔ p ∈ inside ps := by
  have := inside_stable (ps := ps) (f := id) (g := g) (η := η) (p := p) (fun c hc => by rw [← eucl_eq_len]; exact h c hc)
    (by rw [List.map_id]; exact fun x hx => by rw [← eucl_eq_len]; exact hp x hx)
  rwa [List.map_id] at this

end WFMath
