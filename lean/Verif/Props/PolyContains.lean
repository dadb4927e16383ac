/- Property theorem C75: a convex shape contains a polygon when it contains its corners. -/
import Verif.Model.PolyIntersect
import Verif.Spec.PolyShapes
import Verif.Props.RotBox
import Verif.Props.PolyEdit

namespace WFMath
open Spec Matrix Gauss
variable {n : Nat}

/-! ### Convexity of the shapes -/

theorem convex_boxInterior (b : Box n) : Convex ℝ (boxInterior b) := by
  intro x hx y hy s t hs ht hst i
  have h1 := hx i; have h2 := hy i
  simp only [Pi.add_apply, Pi.smul_apply, smul_eq_mul]
  obtain rfl : s = 1 - t := by linarith
  rcases eq_or_lt_of_le ht with rfl | ht
  · simpa using h1
  · constructor <;> nlinarith

theorem convex_near_box {b : Box n} (ho : Ordered b) : Convex ℝ (near epsilon (boxSet b)) := by
  intro x hx y hy s t hs ht hst
  rw [mem_near_box ho epsilon_pos.le] at hx hy ⊢
  intro i
  have h1 := hx i; have h2 := hy i
  simp only [Pi.add_apply, Pi.smul_apply, smul_eq_mul]
  obtain rfl : s = 1 - t := by linarith
  constructor <;> nlinarith

theorem convex_turn (r : RBox n) {S : Set (Fin n → ℝ)} (h : Convex ℝ S) : Convex ℝ {x | turn r x ∈ S} := by
  intro x hx y hy s t hs ht hst
  obtain rfl : s = 1 - t := by linarith
  rw [Set.mem_setOf_eq, turn_affine]
  exact h hx hy hs ht hst

theorem convex_rboxInterior {r : RBox n} (hm : IsRotation r.orient) : Convex ℝ (rboxInterior r) := by
  have := convex_turn r (convex_boxInterior r.flat)
  simp only [turn_mem_interior hm] at this
  exact this

theorem convex_nearAlong {r : RBox n} (hm : IsRotation r.orient) : Convex ℝ (nearAlong r epsilon (rboxSet r)) := by
  have := convex_turn r (convex_near_box (flat_ordered r))
  simp only [turn_near hm] at this
  exact this

theorem convex_ballSet (b : Ball n) : Convex ℝ (ballSet b) := by
  intro x hx y hy s t hs ht hst
  obtain rfl : s = 1 - t := by linarith
  have h1 : eucl x b.center.elem ≤ b.radius := hx
  have h2 : eucl y b.center.elem ≤ b.radius := hy
  exact (eucl_convex ht (by linarith)).trans (by nlinarith)

theorem convex_ballInterior (b : Ball n) : Convex ℝ (ballInterior b) := by
  intro x hx y hy s t hs ht hst
  obtain rfl : s = 1 - t := by linarith
  have h1 : eucl x b.center.elem < b.radius := hx
  have h2 : eucl y b.center.elem < b.radius := hy
  refine (eucl_convex ht (by linarith)).trans_lt ?_
  rcases eq_or_lt_of_le ht with rfl | ht
  · simpa using h1
  · nlinarith

/-! ### Plane polygons -/

theorem mem_cornerSet {ps : Corners n} {x : Fin n → ℝ} : x ∈ cornerSet ps ↔ ∃ c ∈ ps, x = c.elem := by
  constructor
  · rintro ⟨i, c, hc, rfl⟩; exact ⟨c, List.mem_of_getElem? hc, rfl⟩
  · rintro ⟨c, hc, rfl⟩
    obtain ⟨i, hi⟩ := List.getElem?_of_mem hc
    exact ⟨i, c, hi, rfl⟩

theorem all_hull {ps : Corners n} {test : Pt n → Bool} {S : Set (Fin n → ℝ)} (hS : Convex ℝ S)
    (h : ∀ c ∈ ps, test c = true ↔ c.elem ∈ S) : ps.all test = true ↔ convexHull ℝ (cornerSet ps) ⊆ S := by
  rw [hS.convexHull_subset_iff, List.all_eq_true]
  constructor
  · intro h1 x hx
    obtain ⟨c, hc, rfl⟩ := mem_cornerSet.1 hx
    exact (h c hc).1 (h1 c hc)
  · intro h1 c hc
    exact (h c hc).2 (h1 (mem_cornerSet.2 ⟨c, hc, rfl⟩))

/-- C75, boxes: the proper test says exactly that the convex hull of the corners is in the open box, the other that it is in the
closed box with every coordinate allowed to be off by epsilon. -/
theorem C75_box (b : Box 2) (p : Corners 2) :
    (containsBPoly b p true = true ↔ convexHull ℝ (cornerSet p) ⊆ boxInterior b) ∧
    (Ordered b → (containsBPoly b p false = true ↔ convexHull ℝ (cornerSet p) ⊆ near epsilon (boxSet b))) :=
  ⟨all_hull (convex_boxInterior b) fun c _ => (C54_point b c).1,
    fun ho => all_hull (convex_near_box ho) fun c _ => (C54_point b c).2.1 ho⟩

/-- C75, rotated boxes. -/
theorem C75_rotbox (r : RBox 2) (p : Corners 2) (hm : IsRotation r.orient) :
    (containsRPoly r p true = true ↔ convexHull ℝ (cornerSet p) ⊆ rboxInterior r) ∧
    (containsRPoly r p false = true ↔ convexHull ℝ (cornerSet p) ⊆ nearAlong r epsilon (rboxSet r)) :=
  ⟨all_hull (convex_rboxInterior hm) fun c _ => (C64_point r c hm).1,
    all_hull (convex_nearAlong hm) fun c _ => (C64_point r c hm).2.1⟩

/-- The ball with the square of its radius larger by epsilon: what the tolerant test of a polygon in a ball allows. -/
noncomputable def widened (b : Ball n) : Ball n := ⟨b.center, Real.sqrt (b.radius * b.radius + epsilon)⟩

theorem widened_sq (b : Ball n) : (widened b).radius ^ 2 = b.radius * b.radius + epsilon :=
  Real.sq_sqrt (add_nonneg (mul_self_nonneg _) epsilon_pos.le)

theorem widened_nonneg (b : Ball n) : 0 ≤ (widened b).radius := Real.sqrt_nonneg _

/-- C75, balls, for corners whose distance from the centre is not so small that it is rounded to 0. -/
theorem C75_ball (b : Ball 2) (p : Corners 2) (hr : 0 ≤ b.radius) (hf : ∀ c ∈ p, ¬ Flushed b.center c) :
    (containsBallPoly b p true = true ↔ convexHull ℝ (cornerSet p) ⊆ ballInterior b) ∧
    (containsBallPoly b p false = true ↔ convexHull ℝ (cornerSet p) ⊆ ballSet (widened b)) := by
  refine ⟨all_hull (convex_ballInterior b) fun c hc => ?_, all_hull (convex_ballSet _) fun c hc => ?_⟩
  · show (!decide (b.radius * b.radius ≤ _)) = true ↔ eucl _ _ < _
    rw [sqDist_exact (hf c hc), eucl_comm, Bool.not_eq_true', decide_eq_false_iff_not, not_le, ← sq,
      pow_lt_pow_iff_left₀ (eucl_nonneg _ _) hr (by norm_num)]
  · show (!decide (_ - b.radius * b.radius > epsilon)) = true ↔ eucl _ _ ≤ _
    rw [sqDist_exact (hf c hc), eucl_comm, Bool.not_eq_true', decide_eq_false_iff_not, not_lt, sub_le_iff_le_add, add_comm epsilon,
      ← widened_sq, pow_le_pow_iff_left₀ (eucl_nonneg _ _) (widened_nonneg b) (by norm_num)]
    rfl

/-- C75, balls, in general: a polygon whose hull is in the ball passes; for one that passes each corner is in the ball, or in the
widened ball for the tolerant test, or is so close to the centre that its distance is rounded to 0. -/
theorem C75_ball_general (b : Ball 2) (p : Corners 2) (hr : 0 ≤ b.radius) :
    (containsBallPoly b p true = true ↔ ∀ c ∈ p, c.elem ∈ ballInterior b ∨ (0 < b.radius ∧ Flushed b.center c)) ∧
    (containsBallPoly b p false = true ↔ ∀ c ∈ p, c.elem ∈ ballSet (widened b) ∨ Flushed b.center c) ∧
    (convexHull ℝ (cornerSet p) ⊆ ballSet b → containsBallPoly b p false = true) ∧
    (convexHull ℝ (cornerSet p) ⊆ ballInterior b → containsBallPoly b p true = true) := by
  have h1 : containsBallPoly b p true = true ↔ ∀ c ∈ p, c.elem ∈ ballInterior b ∨ (0 < b.radius ∧ Flushed b.center c) := by
    unfold containsBallPoly
    rw [List.all_eq_true]
    refine forall₂_congr fun c hc => ?_
    show (!decide (b.radius * b.radius ≤ _)) = true ↔ eucl _ _ < _ ∨ _
    rw [Bool.not_eq_true', decide_eq_false_iff_not, not_le, ← sq, sqDist_lt_iff hr, eucl_comm]
  have h2 : containsBallPoly b p false = true ↔ ∀ c ∈ p, c.elem ∈ ballSet (widened b) ∨ Flushed b.center c := by
    unfold containsBallPoly
    rw [List.all_eq_true]
    refine forall₂_congr fun c hc => ?_
    show (!decide (_ - b.radius * b.radius > epsilon)) = true ↔ eucl _ _ ≤ (widened b).radius ∨ _
    rw [Bool.not_eq_true', decide_eq_false_iff_not, not_lt, sub_le_iff_le_add, add_comm epsilon, ← widened_sq,
      sqDist_le_iff (widened_nonneg b), eucl_comm]
    rfl
  refine ⟨h1, h2, fun h => h2.2 fun c hc => Or.inl ?_, fun h => h1.2 fun c hc => Or.inl ?_⟩
  · have : eucl c.elem b.center.elem ≤ b.radius := h (subset_convexHull ℝ _ (mem_cornerSet.2 ⟨c, hc, rfl⟩))
    refine this.trans (Real.le_sqrt_of_sq_le ?_)
    nlinarith [epsilon_pos]
  · exact h (subset_convexHull ℝ _ (mem_cornerSet.2 ⟨c, hc, rfl⟩))

/-! ### Polygons in space -/

theorem allCorners_true {α : Type} (get : α → Option (Pt n)) (test : Pt n → Bool) (qs : List α) :
    (allCorners get test qs = some true ↔ ∀ q ∈ qs, ∃ c, get q = some c ∧ test c = true) ∧
    ((∀ q ∈ qs, get q ≠ none) → allCorners get test qs ≠ none) := by
  induction qs with
  | nil => simp [allCorners]
  | cons q qs ih =>
    unfold allCorners
    cases hq : get q with
    | none => simp [hq]
    | some c =>
      rw [Option.bind_some]
      cases ht : test c
      · simp [hq, ht]
      · simp only [Bool.not_true, Bool.false_eq_true, if_false]
        constructor
        · rw [ih.1]; simp [hq, ht]
        · intro h; exact ih.2 fun q hq => h q (List.mem_cons_of_mem _ hq)

/-- Every corner can be read, as is so after any history of edits (C90). -/
def Readable (s : Poly n) : Prop := ∀ i < s.numCorners, s.getCorner i ≠ none

theorem readable_of_edited {dbg : Bool} {s : Poly n} {k : Nat} (h : Edited dbg s k) : Readable s := fun i hi => by
  obtain ⟨h1, h2, -⟩ := C90_readable dbg s k h
  rw [h1] at hi
  exact (h2 i).2 hi

theorem Readable.convert {s : Poly n} (h : Readable s) {q : Pt 2} (hq : q ∈ s.poly) : s.orient.convert q ≠ none := by
  obtain ⟨i, hi⟩ := List.getElem?_of_mem hq
  have := h i (List.getElem?_eq_some_iff.1 hi).1
  rwa [getCorner_of (by exact hi)] at this

theorem mem_polyCornerSet {s : Poly n} {x : Fin n → ℝ} :
    x ∈ polyCornerSet s ↔ ∃ q ∈ s.poly, ∃ c, s.orient.convert q = some c ∧ x = c.elem := by
  constructor
  · rintro ⟨i, c, hc, rfl⟩
    obtain ⟨q, hq, hqc⟩ := getCorner_some hc
    exact ⟨q, List.mem_of_getElem? hq, c, hqc, rfl⟩
  · rintro ⟨q, hq, c, hc, rfl⟩
    obtain ⟨i, hi⟩ := List.getElem?_of_mem hq
    exact ⟨i, c, by rw [getCorner_of (by exact hi)]; exact hc, rfl⟩

theorem allCorners_hull {s : Poly n} (hs : Readable s) {get : Pt 2 → Option (Pt n)} {test : Pt n → Bool} {S : Set (Fin n → ℝ)} (hS : Convex ℝ S)
    (h : ∀ q c, s.orient.convert q = some c → ∃ c', get q = some c' ∧ (test c' = true ↔ c.elem ∈ S)) :
    (allCorners get test s.poly = some true ↔ convexHull ℝ (polyCornerSet s) ⊆ S) ∧ allCorners get test s.poly ≠ none := by
  constructor
  · rw [hS.convexHull_subset_iff, (allCorners_true _ _ _).1]
    constructor
    · intro h1 x hx
      obtain ⟨q, hq, c, hc, rfl⟩ := mem_polyCornerSet.1 hx
      obtain ⟨c', hc', ht⟩ := h q c hc
      obtain ⟨c'', hc'', ht'⟩ := h1 q hq
      rw [hc'] at hc''
      rw [← Option.some.inj hc''] at ht'
      exact ht.1 ht'
    · intro h1 q hq
      obtain ⟨c, hc⟩ := Option.ne_none_iff_exists'.1 (hs.convert hq)
      obtain ⟨c', hc', ht⟩ := h q c hc
      exact ⟨c', hc', ht.2 (h1 (mem_polyCornerSet.2 ⟨q, hq, c, hc, rfl⟩))⟩
  · refine (allCorners_true _ _ _).2 fun q hq => ?_
    obtain ⟨c, hc⟩ := Option.ne_none_iff_exists'.1 (hs.convert hq)
    obtain ⟨c', hc', -⟩ := h q c hc
    rw [hc']; simp

/-- C75, boxes and polygons in space, after any history of edits: the call returns, and the answer is as in the plane. -/
theorem C75_box_space (b : Box n) (s : Poly n) (hs : Readable s) :
    (containsBPolyN b s true = some true ↔ convexHull ℝ (polyCornerSet s) ⊆ boxInterior b) ∧
    (Ordered b → (containsBPolyN b s false = some true ↔ convexHull ℝ (polyCornerSet s) ⊆ near epsilon (boxSet b))) ∧
    ∀ proper, containsBPolyN b s proper ≠ none := by
  refine ⟨(allCorners_hull hs (convex_boxInterior b) fun q c hc => ⟨c, hc, (C54_point b c).1⟩).1,
    fun ho => (allCorners_hull hs (convex_near_box ho) fun q c hc => ⟨c, hc, (C54_point b c).2.1 ho⟩).1,
    fun proper => (allCorners_true _ _ _).2 fun q hq => hs.convert hq⟩

/-- C75, rotated boxes and polygons in space. -/
theorem C75_rotbox_space (r : RBox n) (s : Poly n) (hs : Readable s) (hm : IsRotation r.orient) (hv : r.orient.valid = true)
    (hc : r.corner.valid = true) :
    (containsRPolyN r s true = some true ↔ convexHull ℝ (polyCornerSet s) ⊆ rboxInterior r) ∧
    (containsRPolyN r s false = some true ↔ convexHull ℝ (polyCornerSet s) ⊆ nearAlong r epsilon (rboxSet r)) ∧
    ∀ proper, containsRPolyN r s proper ≠ none := by
  have key : ∀ q c, s.orient.convert q = some c →
      ∃ c', (s.orient.rotate r.orient.inverse r.corner).convert q = some c' ∧ c'.elem = turn r c.elem := by
    intro q c hq
    have h := C70_polygon ⟨s.orient, [q]⟩ r.orient.inverse r.corner (by exact hv) hc 0
    have e1 : (Poly.mk s.orient [q]).getCorner 0 = some c := hq
    have e2 : ((Poly.mk s.orient [q]).rotatePoint r.orient.inverse r.corner).getCorner 0 =
      (s.orient.rotate r.orient.inverse r.corner).convert q := rfl
    rw [e1, e2] at h
    refine ⟨_, h, ?_⟩
    show about (byMat r.orient.inverse) r.corner.elem c.elem = _
    unfold about byMat turn
    rw [RotMat.inverse_elem, vecMul_transpose]
  have hb : ∀ (c c' : Pt n), c'.elem = turn r c.elem →
      (interBP r.flat c' true = true ↔ c.elem ∈ rboxInterior r) ∧ (interBP r.flat c' false = true ↔ c.elem ∈ nearAlong r epsilon (rboxSet r)) := by
    intro c c' h
    rw [(C54_point r.flat c').1, (C54_point r.flat c').2.1 (flat_ordered r), h, turn_mem_interior hm, turn_near hm]
    exact ⟨Iff.rfl, Iff.rfl⟩
  have h1 : ∀ q c, s.orient.convert q = some c → ∃ c', (s.orient.rotate r.orient.inverse r.corner).convert q = some c' ∧
      (interBP r.flat c' true = true ↔ c.elem ∈ rboxInterior r) := fun q c hq => by
    obtain ⟨c', h, e⟩ := key q c hq
    exact ⟨c', h, (hb c c' e).1⟩
  have h2 : ∀ q c, s.orient.convert q = some c → ∃ c', (s.orient.rotate r.orient.inverse r.corner).convert q = some c' ∧
      (interBP r.flat c' false = true ↔ c.elem ∈ nearAlong r epsilon (rboxSet r)) := fun q c hq => by
    obtain ⟨c', h, e⟩ := key q c hq
    exact ⟨c', h, (hb c c' e).2⟩
  refine ⟨(allCorners_hull hs (convex_rboxInterior hm) h1).1, (allCorners_hull hs (convex_nearAlong hm) h2).1, ?_⟩
  rintro (_ | _)
  · exact (allCorners_hull hs (convex_nearAlong hm) h2).2
  · exact (allCorners_hull hs (convex_rboxInterior hm) h1).2

/-- What the test of a ball and a polygon in space needs of the plane's axes: each is a unit vector, or zero if it is marked invalid, and two valid
axes are perpendicular. -/
structure AxesFit (o : Orient n) : Prop where
  unit0 : o.ax0.elem ⬝ᵥ o.ax0.elem = 1 ∨ (o.ax0.valid = false ∧ o.ax0.elem = 0)
  unit1 : o.ax1.elem ⬝ᵥ o.ax1.elem = 1 ∨ (o.ax1.valid = false ∧ o.ax1.elem = 0)
  perp : o.ax1.valid = true → o.ax0.elem ⬝ᵥ o.ax1.elem = 0

/-- The two products taken when a point is projected to the plane are not so small that they are rounded to 0. -/
structure ProjExact (o : Orient n) (c : Pt n) : Prop where
  first : DotExact (c.sub o.origin) o.ax0
  second : DotExact ((c.sub o.origin) - o.ax0.scale ((c.sub o.origin).dot o.ax0)) o.ax1

/-- Pythagoras: the square of the distance of a point from a corner is the square of its distance from the plane plus that of its
projection from the corner in plane coordinates. -/
theorem offset_pythagoras {o : Orient n} {c : Pt n} (ha : AxesFit o) (hp : ProjExact o c) {off : Vec n} {c2 q : Pt 2} {x : Pt n}
    (h : o.offset c = some (off, c2)) (hq : o.convert q = some x) :
    eucl c.elem x.elem ^ 2 = off.sqrMag + eucl c2.elem q.elem ^ 2 := by
  obtain ⟨g0, g1, g2, g3, g4⟩ := convert_some hq
  unfold Orient.offset at h
  rw [if_neg (by simp [g0])] at h
  obtain ⟨rfl, rfl⟩ := Prod.mk.inj (Option.some.inj h)
  obtain ⟨e1, e2⟩ := hp
  unfold DotExact at e1 e2
  rw [eucl_sq, eucl_sq, Fin.sum_univ_two, g3]
  generalize hd0 : (c.sub o.origin).dot o.ax0 = d0 at *
  generalize hd1 : (c.sub o.origin - o.ax0.scale d0).dot o.ax1 = d1 at *
  have k1 : d0 = (c.elem - o.origin.elem) ⬝ᵥ o.ax0.elem := e1
  have k2 : d1 = (c.elem - o.origin.elem - d0 • o.ax0.elem) ⬝ᵥ o.ax1.elem := by
    rw [e2]; congr 1; funext i; show _ - o.ax0.elem i * d0 = _ - d0 * o.ax0.elem i; rw [mul_comm]; rfl
  have l1 : (c.sub o.origin - o.ax0.scale d0 - o.ax1.scale d1).elem = c.elem - o.origin.elem - d0 • o.ax0.elem - d1 • o.ax1.elem := by
    funext i; show _ - o.ax0.elem i * d0 - o.ax1.elem i * d1 = _ - d0 * o.ax0.elem i - d1 * o.ax1.elem i; rw [mul_comm d0, mul_comm d1]; rfl
  rw [Vec.sqrMag_eq, l1]
  have l2 : ∑ i, (c.elem i - o.at (q.elem 0) (q.elem 1) i) ^ 2 =
      (c.elem - o.origin.elem - q.elem 0 • o.ax0.elem - q.elem 1 • o.ax1.elem) ⬝ᵥ
      (c.elem - o.origin.elem - q.elem 0 • o.ax0.elem - q.elem 1 • o.ax1.elem) := by
    unfold dotProduct Orient.at
    refine Finset.sum_congr rfl fun i _ => ?_
    simp only [Pi.sub_apply, Pi.add_apply, Pi.smul_apply]
    ring
  rw [l2]
  simp only [cons_val_zero, cons_val_one]
  generalize c.elem - o.origin.elem = w at *
  obtain ⟨u0, u1, pp⟩ := ha
  have k2' : d1 = w ⬝ᵥ o.ax1.elem - d0 * (o.ax0.elem ⬝ᵥ o.ax1.elem) := by
    rw [k2, sub_dotProduct, smul_dotProduct, smul_eq_mul]
  have key : ∀ x y : ℝ, (w - x • o.ax0.elem - y • o.ax1.elem) ⬝ᵥ (w - x • o.ax0.elem - y • o.ax1.elem) =
      w ⬝ᵥ w - 2 * x * (w ⬝ᵥ o.ax0.elem) - 2 * y * (w ⬝ᵥ o.ax1.elem) + x ^ 2 * (o.ax0.elem ⬝ᵥ o.ax0.elem) +
        y ^ 2 * (o.ax1.elem ⬝ᵥ o.ax1.elem) + 2 * x * y * (o.ax0.elem ⬝ᵥ o.ax1.elem) := by
    intro x y
    simp only [sub_dotProduct, dotProduct_sub, smul_dotProduct, dotProduct_smul, smul_eq_mul]
    rw [dotProduct_comm o.ax0.elem w, dotProduct_comm o.ax1.elem w, dotProduct_comm o.ax1.elem o.ax0.elem]
    ring
  rw [key, key, ← k1, show w ⬝ᵥ o.ax1.elem = d1 + d0 * (o.ax0.elem ⬝ᵥ o.ax1.elem) by rw [k2']; ring]
  have q0 : (q.elem 0 = 0 ∧ d0 = 0 ∧ o.ax0.elem ⬝ᵥ o.ax0.elem = 0 ∧ o.ax0.elem ⬝ᵥ o.ax1.elem = 0) ∨ o.ax0.elem ⬝ᵥ o.ax0.elem = 1 := by
    rcases u0 with u | ⟨u, v⟩
    · exact Or.inr u
    · left
      refine ⟨by simpa [u] using g1, by rw [k1, v, dotProduct_zero], by rw [v, zero_dotProduct], by rw [v, zero_dotProduct]⟩
  have q1 : (q.elem 1 = 0 ∧ d1 = 0 ∧ o.ax1.elem ⬝ᵥ o.ax1.elem = 0 ∧ o.ax0.elem ⬝ᵥ o.ax1.elem = 0) ∨
      (o.ax1.elem ⬝ᵥ o.ax1.elem = 1 ∧ (q.elem 1 = 0 ∨ o.ax0.elem ⬝ᵥ o.ax1.elem = 0)) := by
    rcases u1 with u | ⟨u, v⟩
    · right; exact ⟨u, g2.symm.imp_right pp⟩
    · left
      refine ⟨by simpa [u] using g2, by rw [k2', v, dotProduct_zero, dotProduct_zero]; ring, by rw [v, zero_dotProduct], by rw [v, dotProduct_zero]⟩
  rcases q0 with ⟨a1, a2, a3, a4⟩ | a1 <;> rcases q1 with ⟨b1, b2, b3, b4⟩ | ⟨b1, b2 | b2⟩
  · rw [a1, a2, a3, b1, b2, b3, b4]; ring
  · rw [a1, a2, a3, a4, b1, b2]; ring
  · rw [a1, a2, a3, a4, b1]; ring
  · rw [a1, b1, b2, b3, b4]; ring
  · rw [a1, b1, b2]; ring
  · rw [a1, b1, b2]; ring

/-- C75, balls and polygons in space: the test projects the centre to the plane of the polygon, and yet it says exactly that the hull of
the corners is in the ball, for polygons whose axes are exact, when no product and no distance is so small that it is rounded to 0. -/
theorem C75_ball_space (b : Ball n) (s : Poly n) (hs : Readable s) (hr : 0 ≤ b.radius) (ha : AxesFit s.orient) (hp : ProjExact s.orient b.center)
    (hf : ∀ off c2, s.orient.offset b.center = some (off, c2) → ∀ q ∈ s.poly, ¬ Flushed c2 q) :
    (containsBallPolyN b s true = some true ↔ convexHull ℝ (polyCornerSet s) ⊆ ballInterior b) ∧
    (containsBallPolyN b s false = some true ↔ convexHull ℝ (polyCornerSet s) ⊆ ballSet (widened b)) ∧
    ∀ proper, containsBallPolyN b s proper ≠ none := by
  rw [(convex_ballInterior b).convexHull_subset_iff, (convex_ballSet _).convexHull_subset_iff]
  unfold containsBallPolyN
  by_cases h0 : s.poly.length = 0
  · have : ∀ x, x ∉ polyCornerSet s := by
      intro x hx
      obtain ⟨q, hq, -⟩ := mem_polyCornerSet.1 hx
      rw [List.length_eq_zero_iff.1 h0] at hq; simp at hq
    simp only [if_pos h0]
    exact ⟨⟨fun _ x hx => absurd hx (this x), fun _ => by trivial⟩, ⟨fun _ x hx => absurd hx (this x), fun _ => by trivial⟩, fun _ => by simp⟩
  · obtain ⟨q0, hq0⟩ := List.exists_mem_of_ne_nil s.poly (by intro h; simp [h] at h0)
    obtain ⟨c0, hc0⟩ := Option.ne_none_iff_exists'.1 (hs.convert hq0)
    have hv := (convert_some hc0).1
    have ho : ∃ off c2, s.orient.offset b.center = some (off, c2) := by
      unfold Orient.offset; rw [if_neg (by simp [hv])]; exact ⟨_, _, rfl⟩
    obtain ⟨off, c2, ho⟩ := ho
    simp only [if_neg h0, ho, Option.map_some, Option.some.injEq]
    have key : ∀ q ∈ s.poly, ∀ c, s.orient.convert q = some c → eucl c.elem b.center.elem ^ 2 = off.sqrMag + c2.sqDist q := by
      intro q hq c hc
      rw [eucl_comm, offset_pythagoras ha hp ho hc, sqDist_exact (hf off c2 ho q hq)]
    have hin : ∀ {S : Set (Fin n → ℝ)}, polyCornerSet s ⊆ S ↔ ∀ q ∈ s.poly, ∀ c, s.orient.convert q = some c → c.elem ∈ S := by
      intro S
      constructor
      · intro h q hq c hc; exact h (mem_polyCornerSet.2 ⟨q, hq, c, hc, rfl⟩)
      · intro h x hx
        obtain ⟨q, hq, c, hc, rfl⟩ := mem_polyCornerSet.1 hx
        exact h q hq c hc
    have hn : ∀ q, 0 ≤ c2.sqDist q := fun q => by rw [sqDist_eq]; split_ifs <;> positivity
    refine ⟨?_, ?_, fun proper => by simp⟩
    · rw [hin]
      have e : ∀ q ∈ s.poly, ∀ c, s.orient.convert q = some c → (c.elem ∈ ballInterior b ↔ c2.sqDist q < b.radius * b.radius - off.sqrMag) := by
        intro q hq c hc
        show eucl _ _ < _ ↔ _
        rw [← pow_lt_pow_iff_left₀ (eucl_nonneg _ _) hr (by norm_num : (2 : ℕ) ≠ 0), key q hq c hc, sq]
        constructor <;> intro h <;> linarith
      simp only [less_true]
      split_ifs with hl
      · simp only [Bool.false_eq_true, false_iff]
        intro h
        have := (e q0 hq0 c0 hc0).1 (h q0 hq0 c0 hc0)
        linarith [hn q0]
      · rw [List.all_eq_true]
        constructor
        · intro h q hq c hc
          have := h q hq
          rw [Bool.not_eq_true', ← Bool.not_eq_true, less_true, not_le] at this
          exact (e q hq c hc).2 this
        · intro h q hq
          obtain ⟨c, hc⟩ := Option.ne_none_iff_exists'.1 (hs.convert hq)
          rw [Bool.not_eq_true', ← Bool.not_eq_true, less_true, not_le]
          exact (e q hq c hc).1 (h q hq c hc)
    · rw [hin]
      have e : ∀ q ∈ s.poly, ∀ c, s.orient.convert q = some c →
          (c.elem ∈ ballSet (widened b) ↔ c2.sqDist q - (b.radius * b.radius - off.sqrMag) ≤ epsilon) := by
        intro q hq c hc
        show eucl c.elem b.center.elem ≤ _ ↔ _
        rw [← pow_le_pow_iff_left₀ (eucl_nonneg _ _) (widened_nonneg b) (by norm_num : (2 : ℕ) ≠ 0), key q hq c hc, widened_sq]
        constructor <;> intro h <;> linarith
      simp only [less_false]
      split_ifs with hl
      · simp only [Bool.false_eq_true, false_iff]
        intro h
        have := (e q0 hq0 c0 hc0).1 (h q0 hq0 c0 hc0)
        linarith [hn q0]
      · rw [List.all_eq_true]
        constructor
        · intro h q hq c hc
          have := h q hq
          rw [Bool.not_eq_true', ← Bool.not_eq_true, less_false] at this
          exact (e q hq c hc).2 (by linarith)
        · intro h q hq
          obtain ⟨c, hc⟩ := Option.ne_none_iff_exists'.1 (hs.convert hq)
          rw [Bool.not_eq_true', ← Bool.not_eq_true, less_false]
          have := (e q hq c hc).1 (h q hq c hc)
          linarith

/-! ### Axes that are marked invalid -/

/-- A unit vector or zero. -/
def UnitOrZero (v : Vec n) : Prop := v.elem ⬝ᵥ v.elem = 1 ∨ v.elem = 0

theorem expand_axes {o o' : Orient n} {pd : Pt n} {p : Pt 2} {eps : ℝ} {b : Bool} (h : o.expand pd eps = (b, o', p)) :
    (o'.ax0 = o.ax0 ∨ o'.ax0.valid = true) ∧ (o'.ax1 = o.ax1 ∨ o'.ax1.valid = true) := by
  unfold Orient.expand at h
  simp only at h
  split_ifs at h <;> (rw [← (Prod.mk.inj (Prod.mk.inj h).2).1]; simp)

theorem reduce_axes {dbg : Bool} {o o' : Orient n} {ps : Corners 2} {r : Reorient} (h : o.reduce dbg ps = some (o', r)) :
    (o'.ax0.elem = o.ax0.elem ∨ o'.ax0.elem = o.ax1.elem ∨ ∃ v : Vec n, o'.ax0 = v.divBy v.mag) ∧
    o'.ax1.elem = o.ax1.elem := by
  unfold Orient.reduce at h
  split at h
  · rw [← (Prod.mk.inj (Option.some.inj h)).1]; simp
  · by_cases c1 : dbg = true ∧ o.origin.valid = false
    · rw [if_pos c1] at h; simp at h
    rw [if_neg c1] at h
    by_cases c2 : o.ax0.valid = false
    · rw [if_pos c2] at h
      rw [← (Prod.mk.inj (Option.some.inj h)).1]; simp
    rw [if_neg c2] at h
    simp only at h
    split at h
    · simp at h
    · rw [← (Prod.mk.inj (Option.some.inj h)).1]; simp
    · rename_i still0 still1 got ratio _
      cases still0 <;> cases still1 <;> cases got <;> simp only [Bool.false_eq_true, if_true, if_false] at h <;>
        rw [← (Prod.mk.inj (Option.some.inj h)).1] <;> first | exact ⟨Or.inl rfl, rfl⟩ | exact ⟨Or.inr (Or.inl rfl), rfl⟩ | exact ⟨Or.inr (Or.inr ⟨_, rfl⟩), rfl⟩

theorem unitOrZero_divBy (v : Vec n) : UnitOrZero (v.divBy v.mag) := by
  by_cases h : v.elem = 0
  · right; rw [divBy_elem, h, smul_zero]
  · left; rw [divBy_elem, mag_eq_len]; exact unit_of_div h

theorem unitOrZero_of {v w : Vec n} (h : UnitOrZero v) (e : w.elem = v.elem) : UnitOrZero w := by
  unfold UnitOrZero at *; rwa [e]

theorem unitOrZero_rotateM {v : Vec n} {m : RotMat n} (hm : IsRotation m) (h : UnitOrZero v) : UnitOrZero (v.rotateM m) := by
  unfold UnitOrZero at *
  rw [RotMat.rotateM_elem, vecMul_dot hm]
  exact h.imp id fun h => by rw [h, zero_vecMul]

theorem unitOrZero_mulVec {v : Vec n} {m : RotMat n} (hm : IsRotation m) (h : UnitOrZero v) : UnitOrZero (m.mulVec v) := by
  unfold UnitOrZero at *
  rw [RotMat.mulVec_elem, mulVec_dot hm]
  exact h.imp id fun h => by rw [h, mulVec_zero]

theorem rotate2_axes {o o' : Orient n} {m : RotMat n} {p : Pt 2} (hm : IsRotation m) (h : o.rotate2 m p = some o')
    (h0 : UnitOrZero o.ax0) (h1 : UnitOrZero o.ax1) : UnitOrZero o'.ax0 ∧ UnitOrZero o'.ax1 := by
  unfold Orient.rotate2 at h
  split_ifs at h <;> rw [← Option.some.inj h]
  · exact ⟨h0, h1⟩
  · exact ⟨unitOrZero_rotateM hm h0, unitOrZero_rotateM hm h1⟩
  · exact ⟨unitOrZero_rotateM hm h0, h1⟩

/-- Through any history of edits each axis is a unit vector, or zero when it never was needed; also axes that are marked invalid. -/
theorem edited_axes {dbg : Bool} {s : Poly n} {k : Nat} (h : Edited dbg s k) : UnitOrZero s.orient.ax0 ∧ UnitOrZero s.orient.ax1 := by
  have hx : ∀ {o o' : Orient n} {pd : Pt n} {p : Pt 2} {eps : ℝ} {b : Bool}, OrientOk o' → o.expand pd eps = (b, o', p) →
      UnitOrZero o.ax0 → UnitOrZero o.ax1 → UnitOrZero o'.ax0 ∧ UnitOrZero o'.ax1 := by
    intro o o' pd p eps b hok he h0 h1
    obtain ⟨e0, e1⟩ := expand_axes he
    exact ⟨e0.elim (fun e => by rw [e]; exact h0) fun e => Or.inl (hok.unit0 e),
      e1.elim (fun e => by rw [e]; exact h1) fun e => Or.inl (hok.unit1 e)⟩
  have hr : ∀ {o o' : Orient n} {ps : Corners 2} {r : Reorient}, o.reduce dbg ps = some (o', r) →
      UnitOrZero o.ax0 → UnitOrZero o.ax1 → UnitOrZero o'.ax0 ∧ UnitOrZero o'.ax1 := by
    intro o o' ps r he h0 h1
    obtain ⟨e0, e1⟩ := reduce_axes he
    refine ⟨?_, unitOrZero_of h1 e1⟩
    rcases e0 with e | e | ⟨v, e⟩
    · exact unitOrZero_of h0 e
    · exact unitOrZero_of h1 e
    · rw [e]; exact unitOrZero_divBy v
  induction h with
  | empty => exact ⟨Or.inr rfl, Or.inr rfl⟩
  | @add s t k i p eps he hs ha ih =>
    have hok := (polyOk_add he (edited_ok hs).1 ha).1.ok
    obtain ⟨o, p2, hxx, hi, rfl⟩ := addCorner_true ha
    exact hx hok hxx ih.1 ih.2
  | @addFail s t k i p eps _ ha ih => rw [(C72_fail s t i p eps).1 ha]; exact ih
  | @remove s t k i hs ha ih =>
    have hok := (edited_ok hs).1
    unfold Poly.removeCorner at ha
    obtain ⟨kept, hk, ha⟩ := Option.bind_eq_some_iff.1 ha
    obtain ⟨⟨o, r⟩, hr', rfl⟩ := Option.map_eq_some_iff.1 ha
    exact hr hr' ih.1 ih.2
  | @move s t k i p eps b he hs ha ih =>
    have hok := (edited_ok hs).1
    have hok' := (polyOk_move he hok ha).1.ok
    unfold Poly.moveCorner at ha
    obtain ⟨kept, hk, ha⟩ := Option.bind_eq_some_iff.1 ha
    obtain ⟨⟨o, r⟩, hr', ha⟩ := Option.bind_eq_some_iff.1 ha
    have h2 := hr hr' ih.1 ih.2
    rcases hxx : o.expand p eps with ⟨b', o', p2⟩
    simp only [hxx] at ha
    cases b'
    · simp only [Bool.false_eq_true, if_false, Option.some.injEq, Prod.mk.injEq] at ha
      rw [← ha.2]; exact ih
    · simp only [if_true, Option.some.injEq, Prod.mk.injEq] at ha
      rw [← ha.2] at hok' ⊢
      exact hx hok' hxx h2.1 h2.2
  | @shift s k v hv _ ih =>
    unfold Poly.shift Orient.shift
    split_ifs <;> exact ih
  | rotatePoint m p hm hmv hp _ ih => exact ⟨unitOrZero_rotateM hm ih.1, unitOrZero_rotateM hm ih.2⟩
  | rotateCorner m i hm hmv _ hr ih =>
    unfold Poly.rotateCorner at hr
    obtain ⟨p, -, hr⟩ := Option.bind_eq_some_iff.1 hr
    obtain ⟨o, ho, rfl⟩ := Option.map_eq_some_iff.1 hr
    exact rotate2_axes hm ho ih.1 ih.2
  | rotateCenter m hm hmv _ hr ih =>
    unfold Poly.rotateCenter at hr
    split_ifs at hr
    · obtain ⟨o, ho, rfl⟩ := Option.map_eq_some_iff.1 hr
      exact rotate2_axes hm ho ih.1 ih.2
    · rw [← Option.some.inj hr]; exact ih
  | toParent o m hm hmv ho _ ih => exact ⟨unitOrZero_rotateM hm ih.1, unitOrZero_rotateM hm ih.2⟩
  | toLocal o m hm hmv ho _ ih => exact ⟨unitOrZero_mulVec hm ih.1, unitOrZero_mulVec hm ih.2⟩

/-- After any history of edits the axes are as the test of a ball and a polygon needs them, if two valid axes are exactly perpendicular. -/
theorem axesFit_of_edited {dbg : Bool} {s : Poly n} {k : Nat} (h : Edited dbg s k)
    (hp : s.orient.ax1.valid = true → s.orient.ax0.elem ⬝ᵥ s.orient.ax1.elem = 0) : AxesFit s.orient := by
  have hok := (edited_ok h).1.ok
  obtain ⟨h0, h1⟩ := edited_axes h
  refine ⟨?_, ?_, hp⟩
  · cases hv : s.orient.ax0.valid
    · exact h0.imp id fun h => ⟨rfl, h⟩
    · exact Or.inl (hok.unit0 hv)
  · cases hv : s.orient.ax1.valid
    · exact h1.imp id fun h => ⟨rfl, h⟩
    · exact Or.inl (hok.unit1 hv)

/-! ### Concrete cases -/

/-- A triangle in the unit square. -/
example : containsBPoly ⟨⟨![0, 0], true⟩, ⟨![1, 1], true⟩⟩ [⟨![1 / 4, 1 / 4], true⟩, ⟨![3 / 4, 1 / 4], true⟩, ⟨![1 / 2, 1 / 2], true⟩] true = true := by
  simp only [containsBPoly, List.all_cons, List.all_nil, Bool.and_true, Bool.and_eq_true, interBP_true]
  refine ⟨?_, ?_, ?_⟩ <;> (intro i; fin_cases i <;> constructor <;> norm_num)

/-- The triangle with corners (0,0,0), (1,0,0), (0,1,0), built by adding them one by one, meets what `C75_box_space` and `C75_rotbox_space`
ask for, and its axes what `C75_ball_space` asks for. -/
example : Readable threeCorners ∧ AxesFit threeCorners.orient := by
  obtain ⟨k, h⟩ := Built.edited (dbg := true) epsilon_pos.le threeCorners_built
  exact ⟨readable_of_edited h, axesFit_of_edited h fun _ => by simp [threeCorners, dotProduct, Fin.sum_univ_three]⟩

theorem not_flushed {p q : Pt n} {M : ℝ} (hp : ∀ i, |p.elem i| ≤ M) (hM : 1 ≤ M) (h : 2 * epsilon * M ≤ eucl p.elem q.elem ^ 2) : ¬ Flushed p q := by
  have he := epsilon_pos
  unfold Flushed
  rw [not_lt]
  refine le_trans ?_ h
  by_cases h0 : p.elem = 0 ∨ q.elem = 0
  · rw [scaleEpsilonArr_zero h0]; nlinarith
  · push Not at h0
    refine (scaleEpsilonArr_le he.le h0.1 h0.2).trans (mul_le_mul_of_nonneg_left ((min_le_left _ _).trans ?_) (by linarith))
    exact maxAbs_le (by linarith) hp

/-- A ball about (1, 1, 2) and that triangle: nothing is rounded. -/
example : ProjExact threeCorners.orient ⟨![1, 1, 2], true⟩ ∧
    ∀ off c2, threeCorners.orient.offset ⟨![1, 1, 2], true⟩ = some (off, c2) → ∀ q ∈ threeCorners.poly, ¬ Flushed c2 q := by
  have he2 := epsilon_lt
  norm_num at he2
  have hs : (⟨![1, 1, 2], true⟩ : Pt 3).sub ⟨0, true⟩ = ⟨![1, 1, 2], true⟩ := by
    ext i
    · fin_cases i <;> simp [Pt.sub]
    · rfl
  have h0 : (⟨![1, 1, 2], true⟩ : Vec 3).dot ⟨![1, 0, 0], true⟩ = 1 := by
    rw [dot_of_le (M := 2) (fun i => by fin_cases i <;> simp) (by simp [dotProduct, Fin.sum_univ_three]; linarith)]
    simp [dotProduct, Fin.sum_univ_three]
  have h1 : (⟨![1, 1, 2], true⟩ : Vec 3) - (⟨![1, 0, 0], true⟩ : Vec 3).scale 1 = ⟨![0, 1, 2], true⟩ := by
    ext i
    · rw [sub_elem', scale_elem]; fin_cases i <;> simp
    · rfl
  have h2 : (⟨![0, 1, 2], true⟩ : Vec 3).dot ⟨![0, 1, 0], true⟩ = 1 := by
    rw [dot_of_le (M := 2) (fun i => by fin_cases i <;> simp) (by simp [dotProduct, Fin.sum_univ_three]; linarith)]
    simp [dotProduct, Fin.sum_univ_three]
  constructor
  · constructor
    · unfold DotExact; simp only [threeCorners, hs, h0]; simp [dotProduct, Fin.sum_univ_three]
    · unfold DotExact; simp only [threeCorners, hs, h0, h1, h2]; simp [dotProduct, Fin.sum_univ_three]
  · intro off c2 h q hq
    unfold Orient.offset at h
    rw [if_neg (by simp [threeCorners])] at h
    simp only [threeCorners, hs, h0, h1, h2] at h
    obtain ⟨-, rfl⟩ := Prod.mk.inj (Option.some.inj h)
    refine not_flushed (M := 1) (fun i => by fin_cases i <;> simp) le_rfl ?_
    rw [eucl_sq, Fin.sum_univ_two]
    simp only [threeCorners, List.mem_cons, List.not_mem_nil, or_false] at hq
    rcases hq with rfl | rfl | rfl <;> simp <;> linarith

end WFMath
