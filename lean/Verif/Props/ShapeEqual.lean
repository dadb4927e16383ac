/- Property theorem C109: tolerant equality of shapes; parts of C29, C52, C57, C58, C68 and C70 for simple shapes. -/
import Verif.Props.ShapeCoords
import Verif.Props.PolyContains
import Verif.Props.BoundingSphere

namespace WFMath
open Spec Matrix
variable {n : Nat}

/-! ### C109 equality -/

theorem pt_close {p q : Pt n} {eps : ℝ} (h : p.isEqualTo q eps = true) (i : Fin n) :
    |p.elem i - q.elem i| ≤ scaleEpsilonArr p.elem q.elem eps := ((C28_point_iff p q eps).1 h).2.2 i

theorem ptEq_laws (p q : Pt n) {eps : ℝ} (he : 0 ≤ eps) : (p.valid = true → p.isEqualTo p eps = true) ∧ p.isEqualTo q eps = q.isEqualTo p eps ∧
    (p.isEqualTo q eps = true → p.valid = true ∧ q.valid = true) :=
  ⟨(C28_point_laws p q eps he).1, (C28_point_laws p q eps he).2.1, fun h => ⟨((C28_point_iff p q eps).1 h).1, ((C28_point_iff p q eps).1 h).2.1⟩⟩

/-- C109, boxes: equality is reflexive on valid boxes, symmetric, only between valid boxes, and every point of one box is within the tolerance of the
corners of a point of the other. -/
theorem C109_box (a b : Box n) (eps : ℝ) (he : 0 ≤ eps) :
    (a.valid = true → a.isEqualTo a eps = true) ∧ a.isEqualTo b eps = b.isEqualTo a eps ∧
    (a.isEqualTo b eps = true → a.valid = true ∧ b.valid = true) ∧
    (a.isEqualTo b eps = true → Ordered b → ∀ x ∈ boxSet a, ∃ y ∈ boxSet b, ∀ i,
      |x i - y i| ≤ max (scaleEpsilonArr a.low.elem b.low.elem eps) (scaleEpsilonArr a.high.elem b.high.elem eps)) := by
  obtain ⟨l1, l2, l3⟩ := ptEq_laws a.low b.low he
  obtain ⟨u1, u2, u3⟩ := ptEq_laws a.high b.high he
  unfold Box.isEqualTo Box.valid
  simp only [Bool.and_eq_true]
  refine ⟨fun h => ⟨l1 h.1, u1 h.2⟩, by rw [l2, u2], fun h => ⟨⟨(l3 h.1).1, (u3 h.2).1⟩, ⟨(l3 h.1).2, (u3 h.2).2⟩⟩, fun h hb x hx => ?_⟩
  refine ⟨fun i => max (b.low.elem i) (min (b.high.elem i) (x i)), fun i => ⟨le_max_left _ _, max_le (hb i) (min_le_left _ _)⟩, fun i => ?_⟩
  have h1 := abs_le.1 ((pt_close h.1 i).trans (le_max_left _ (scaleEpsilonArr a.high.elem b.high.elem eps)))
  have h2 := abs_le.1 ((pt_close h.2 i).trans (le_max_right (scaleEpsilonArr a.low.elem b.low.elem eps) _))
  have hx1 := (hx i).1
  have hx2 := (hx i).2
  have hbi := hb i
  generalize max (scaleEpsilonArr a.low.elem b.low.elem eps) (scaleEpsilonArr a.high.elem b.high.elem eps) = t at *
  show |x i - max (b.low.elem i) (min (b.high.elem i) (x i))| ≤ t
  rw [abs_le]
  rcases le_total (b.high.elem i) (x i) with g | g
  · rw [min_eq_left g, max_eq_right hbi]; constructor <;> linarith
  · rw [min_eq_right g]
    rcases le_total (b.low.elem i) (x i) with g' | g'
    · rw [max_eq_right g']; constructor <;> linarith
    · rw [max_eq_left g']; constructor <;> linarith

/-- C109, balls: equality is reflexive on valid balls, symmetric, only between valid balls, and means that centre and radius are equal within the
tolerance. -/
theorem C109_ball (a b : Ball n) (eps : ℝ) (he : 0 ≤ eps) :
    (a.valid = true → a.isEqualTo a eps = true) ∧ a.isEqualTo b eps = b.isEqualTo a eps ∧
    (a.isEqualTo b eps = true ↔ a.valid = true ∧ b.valid = true ∧ (∀ i, |a.center.elem i - b.center.elem i| ≤ scaleEpsilonArr a.center.elem b.center.elem eps) ∧
      |a.radius - b.radius| ≤ scaleEpsilon a.radius b.radius eps) := by
  obtain ⟨l1, l2, l3⟩ := ptEq_laws a.center b.center he
  unfold Ball.isEqualTo Ball.valid
  simp only [Bool.and_eq_true]
  refine ⟨fun h => ⟨l1 h, equal_self he⟩, ?_, ?_⟩
  · rw [l2]
    congr 1
    rw [Bool.eq_iff_iff, equal_iff, equal_iff, abs_sub_comm, scaleEpsilon_symm]
  · rw [C28_point_iff, equal_iff]; tauto

/-- C109, segments. -/
theorem C109_segment (s t : Seg n) (eps : ℝ) (he : 0 ≤ eps) :
    (s.valid = true → s.isEqualTo s eps = true) ∧ s.isEqualTo t eps = t.isEqualTo s eps ∧
    (s.isEqualTo t eps = true → s.valid = true ∧ t.valid = true) ∧
    (s.isEqualTo t eps = true → ∀ x ∈ segSet s, ∃ y ∈ segSet t, ∀ i,
      |x i - y i| ≤ max (scaleEpsilonArr s.p1.elem t.p1.elem eps) (scaleEpsilonArr s.p2.elem t.p2.elem eps)) := by
  obtain ⟨l1, l2, l3⟩ := ptEq_laws s.p1 t.p1 he
  obtain ⟨u1, u2, u3⟩ := ptEq_laws s.p2 t.p2 he
  unfold Seg.isEqualTo Seg.valid
  simp only [Bool.and_eq_true]
  refine ⟨fun h => ⟨l1 h.1, u1 h.2⟩, by rw [l2, u2], fun h => ⟨⟨(l3 h.1).1, (u3 h.2).1⟩, ⟨(l3 h.1).2, (u3 h.2).2⟩⟩, fun h x hx => ?_⟩
  obtain ⟨β, hβ, hβ1, rfl⟩ := hx
  refine ⟨(1 - β) • t.p1.elem + β • t.p2.elem, ⟨β, hβ, hβ1, rfl⟩, fun i => ?_⟩
  have hα : 0 ≤ 1 - β := by linarith
  have hαβ : 1 - β + β = 1 := by ring
  generalize 1 - β = α at *
  have h1 := (pt_close h.1 i).trans (le_max_left _ (scaleEpsilonArr s.p2.elem t.p2.elem eps))
  have h2 := (pt_close h.2 i).trans (le_max_right (scaleEpsilonArr s.p1.elem t.p1.elem eps) _)
  generalize max (scaleEpsilonArr s.p1.elem t.p1.elem eps) (scaleEpsilonArr s.p2.elem t.p2.elem eps) = m at *
  simp only [Pi.add_apply, Pi.smul_apply, smul_eq_mul]
  have e : α * s.p1.elem i + β * s.p2.elem i - (α * t.p1.elem i + β * t.p2.elem i) = α * (s.p1.elem i - t.p1.elem i) + β * (s.p2.elem i - t.p2.elem i) := by
    ring
  rw [e]
  refine (abs_add_le _ _).trans ?_
  rw [abs_mul, abs_mul, abs_of_nonneg hα, abs_of_nonneg hβ]
  calc α * |s.p1.elem i - t.p1.elem i| + β * |s.p2.elem i - t.p2.elem i| ≤ α * m + β * m :=
        add_le_add (mul_le_mul_of_nonneg_left h1 hα) (mul_le_mul_of_nonneg_left h2 hβ)
    _ = m := by rw [← add_mul, hαβ, one_mul]

theorem cornersLoop {eps : ℝ} : ∀ ps qs : Corners n, ps.length = qs.length →
    (Corners.isEqualToLoop eps ps qs = true ↔ ∀ i p q, ps.getCorner i = some p → qs.getCorner i = some q → p.isEqualTo q eps = true)
  | [], [], _ => by simp [Corners.isEqualToLoop, Corners.getCorner]
  | p :: ps, q :: qs, h => by
    have ih := cornersLoop (eps := eps) ps qs (by simpa using h)
    unfold Corners.getCorner at ih ⊢
    unfold Corners.isEqualToLoop
    cases hpq : p.isEqualTo q eps
    · simp only [Bool.not_false, if_true, Bool.false_eq_true, false_iff]
      intro hc
      have := hc 0 p q rfl rfl
      rw [hpq] at this
      exact absurd this (by simp)
    · simp only [Bool.not_true, Bool.false_eq_true, if_false, ih]
      constructor
      · intro hc i x y hx hy
        cases i with
        | zero =>
          rw [List.getElem?_cons_zero, Option.some.injEq] at hx hy
          rw [← hx, ← hy]; exact hpq
        | succ i => exact hc i x y (by simpa using hx) (by simpa using hy)
      · intro hc i x y hx hy
        exact hc (i + 1) x y (by simpa using hx) (by simpa using hy)

/-- C109, lines and plane polygons: equal exactly when they have the same number of corners and the corners are equal one by one; so equality is
reflexive when all corners are valid, and symmetric. -/
theorem C109_corners (ps qs : Corners n) (eps : ℝ) (he : 0 ≤ eps) :
    (ps.isEqualTo qs eps = true ↔ ps.length = qs.length ∧ ∀ i p q, ps.getCorner i = some p → qs.getCorner i = some q → p.isEqualTo q eps = true) ∧
    ((∀ p ∈ ps, p.valid = true) → ps.isEqualTo ps eps = true) ∧ ps.isEqualTo qs eps = qs.isEqualTo ps eps := by
  have key : ∀ ps qs : Corners n, ps.isEqualTo qs eps = true ↔
      ps.length = qs.length ∧ ∀ i p q, ps.getCorner i = some p → qs.getCorner i = some q → p.isEqualTo q eps = true := by
    intro ps qs
    unfold Corners.isEqualTo
    by_cases h : ps.length = qs.length
    · simp only [h, ne_eq, not_true_eq_false, if_false, true_and]
      exact cornersLoop ps qs h
    · simp [h]
  refine ⟨key ps qs, fun h => (key ps ps).2 ⟨rfl, fun i p q hp hq => ?_⟩, ?_⟩
  · rw [hp, Option.some.injEq] at hq
    rw [← hq]
    exact (ptEq_laws p p he).1 (h p (List.mem_of_getElem? hp))
  · rw [Bool.eq_iff_iff, key, key]
    constructor
    · rintro ⟨h1, h2⟩
      exact ⟨h1.symm, fun i p q hp hq => by rw [(ptEq_laws p q he).2.1]; exact h2 i q p hq hp⟩
    · rintro ⟨h1, h2⟩
      exact ⟨h1.symm, fun i p q hp hq => by rw [(ptEq_laws p q he).2.1]; exact h2 i q p hq hp⟩

theorem polyLoop {o o' : Orient n} {eps : ℝ} : ∀ ps qs : Corners 2, ps.length = qs.length → (∀ p ∈ ps, o.convert p ≠ none) → (∀ q ∈ qs, o'.convert q ≠ none) →
    ∃ b, Poly.isEqualToLoop eps (ps.map o.convert) (qs.map o'.convert) = some b ∧
      (b = true ↔ ∀ (i : Nat) p q x y, ps[i]? = some p → qs[i]? = some q → o.convert p = some x → o'.convert q = some y → x.isEqualTo y eps = true)
  | [], [], _, _, _ => ⟨true, rfl, by simp⟩
  | p :: ps, q :: qs, h, hp, hq => by
    obtain ⟨b, h1, h2⟩ := polyLoop (eps := eps) ps qs (by simpa using h) (fun x hx => hp x (List.mem_cons_of_mem _ hx)) fun x hx => hq x (List.mem_cons_of_mem _ hx)
    obtain ⟨x, hx⟩ := Option.ne_none_iff_exists'.1 (hp p List.mem_cons_self)
    obtain ⟨y, hy⟩ := Option.ne_none_iff_exists'.1 (hq q List.mem_cons_self)
    rw [List.map_cons, List.map_cons, hx, hy]
    unfold Poly.isEqualToLoop
    simp only [Option.bind_some]
    cases hxy : x.isEqualTo y eps
    · refine ⟨false, rfl, ?_⟩
      simp only [Bool.false_eq_true, false_iff]
      intro hc
      have := hc 0 p q x y rfl rfl hx hy
      rw [hxy] at this
      exact absurd this (by simp)
    · refine ⟨b, h1, h2.trans ?_⟩
      constructor
      · intro hc i a c u v ha hc' hu hv
        cases i with
        | zero =>
          rw [List.getElem?_cons_zero, Option.some.injEq] at ha hc'
          rw [← ha, hx, Option.some.injEq] at hu
          rw [← hc', hy, Option.some.injEq] at hv
          rw [← hu, ← hv]; exact hxy
        | succ i => exact hc i a c u v (by simpa using ha) (by simpa using hc') hu hv
      · intro hc i a c u v ha hc' hu hv
        exact hc (i + 1) a c u v (by simpa using ha) (by simpa using hc') hu hv

/-- C109, polygons in space, after any histories of edits: the comparison fails no assertion, and is true exactly when the polygons have the same
number of corners and the corners are equal one by one, however they are stored. -/
theorem C109_polygon (dbg : Bool) (s t : Poly n) (k l : Nat) (hs : Edited dbg s k) (ht : Edited dbg t l) (eps : ℝ) :
    ∃ b, s.isEqualTo t eps = some b ∧
      (b = true ↔ k = l ∧ ∀ i c d, s.getCorner i = some c → t.getCorner i = some d → c.isEqualTo d eps = true) := by
  have hR := readable_of_edited hs
  have hT := readable_of_edited ht
  have e1 := (edited_ok hs).2
  have e2 := (edited_ok ht).2
  unfold Poly.isEqualTo
  by_cases h : s.poly.length = t.poly.length
  · rw [if_neg (by simpa using h)]
    obtain ⟨b, h1, h2⟩ := polyLoop (o := s.orient) (o' := t.orient) (eps := eps) s.poly t.poly h (fun p hp => hR.convert hp) fun p hp => hT.convert hp
    refine ⟨b, h1, h2.trans ⟨fun hc => ⟨by omega, fun i c d hi hd => ?_⟩, fun hc i p q x y hp hq hx hy => ?_⟩⟩
    · obtain ⟨p, hp, hpx⟩ := getCorner_some hi
      obtain ⟨q, hq, hqx⟩ := getCorner_some hd
      exact hc i p q c d hp hq hpx hqx
    · exact hc.2 i x y (by rw [getCorner_of hp, hx]) (by rw [getCorner_of hq, hy])
  · rw [if_pos (by simpa using h)]
    refine ⟨false, rfl, ?_⟩
    simp only [Bool.false_eq_true, false_iff, not_and]
    omega

/-- C109, polygons in space: reflexive when all corners are valid. -/
theorem C109_polygon_self (dbg : Bool) (s : Poly n) (k : Nat) (hs : Edited dbg s k) (eps : ℝ) (he : 0 ≤ eps)
    (hv : ∀ i c, s.getCorner i = some c → c.valid = true) : s.isEqualTo s eps = some true := by
  obtain ⟨b, h1, h2⟩ := C109_polygon dbg s s k k hs hs eps
  rw [h1, h2.2 ⟨rfl, fun i c d hc hd => ?_⟩]
  rw [hc, Option.some.injEq] at hd
  rw [← hd]
  exact (ptEq_laws c c he).1 (hv i c hc)

/-- C109, rotated boxes: reflexive on valid boxes; equal boxes are valid, and corner, size and orientation are equal within the tolerance. -/
theorem C109_rotbox (r s : RBox n) (eps : ℝ) (he : 0 < eps) :
    (r.valid = true → r.isEqualTo r eps = some true) ∧
    (r.isEqualTo s eps = some true → r.valid = true ∧ s.valid = true ∧
      (∀ i, |r.corner.elem i - s.corner.elem i| ≤ scaleEpsilonArr r.corner.elem s.corner.elem eps) ∧
      (∀ i, |r.size.elem i - s.size.elem i| ≤ scaleEpsilonArr r.size.elem s.size.elem eps) ∧
      (∀ i j, |r.orient.elem i j - s.orient.elem i j| ≤ eps) ∧ r.orient.flip = s.orient.flip) := by
  unfold RBox.isEqualTo RBox.valid
  constructor
  · intro h
    simp only [Bool.and_eq_true] at h
    rw [(C28_point_laws r.corner r.corner eps he.le).1 h.1.1, (C28_vector_laws r.size r.size eps he.le).1 h.1.2]
    simp [RotMat.isEqualTo, h.2, he, he.le]
  · intro h
    split_ifs at h with hc
    · simp only [Bool.and_eq_true] at hc
      obtain ⟨a1, a2, a3⟩ := (C28_point_iff _ _ _).1 hc.1
      obtain ⟨b1, b2, b3⟩ := (C28_vector_iff _ _ _).1 hc.2
      unfold RotMat.isEqualTo at h
      rw [if_neg (by simpa using he)] at h
      split_ifs at h with g1 g2 g3
      · cases h
      · simp at g1 g2
        exact ⟨by simp [a1, b1, g1.2], by simp [a2, b2, g1.1], a3, b3, g2, g3⟩
      · cases h
    · cases h

example : (⟨⟨![1, 2], true⟩, ⟨![3, 4], true⟩⟩ : Box 2).isEqualTo ⟨⟨![1, 2], true⟩, ⟨![3, 4], true⟩⟩ epsilon = true :=
  (C109_box _ Box.default epsilon epsilon_pos.le).1 rfl
example : Poly.isEqualTo threeCorners threeCorners epsilon = some true := by
  obtain ⟨k, h⟩ := Built.edited (dbg := true) epsilon_pos.le threeCorners_built
  refine C109_polygon_self true threeCorners k h epsilon epsilon_pos.le fun i c hc => ?_
  obtain ⟨p, hp, hpx⟩ := getCorner_some hc
  rw [(convert_some hpx).2.2.2.2]
  have := List.mem_of_getElem? hp
  simp [threeCorners] at this
  rcases this with rfl | rfl | rfl <;> rfl

/-! ### Points, bounding boxes, coordinate changes -/

/-- C29: `Vector(p)` is the vector from the origin to `p`, `Point(v)` the point that `v` leads to from the origin; each undoes the other. -/
theorem C29_convert (p : Pt n) (v : Vec n) :
    p.toVec = p.sub Pt.origin ∧ Pt.ofVec v = Pt.origin.addVec v ∧ Pt.ofVec p.toVec = p ∧ (Pt.ofVec v).toVec = v := by
  refine ⟨?_, ?_, rfl, rfl⟩
  · ext i
    · rw [Pt.sub_elem, Pt.origin_elem, sub_zero]; rfl
    · simp [Pt.toVec, Pt.sub, Pt.origin]
  · ext i
    · rw [Pt.addVec_elem, Pt.origin_elem, zero_add]; rfl
    · simp [Pt.ofVec, Pt.addVec, Pt.origin]

/-- C52: `boundingBox()` of a point is the point. -/
theorem C52_point (p : Pt n) : boxSet p.boundingBox = {p.elem} ∧ p.boundingBox.valid = p.valid := by
  refine ⟨?_, by simp [Pt.boundingBox, Box.valid]⟩
  ext x
  constructor
  · intro h; exact funext fun i => le_antisymm (h i).2 (h i).1
  · rintro rfl i; exact ⟨le_rfl, le_rfl⟩

/-- C56: `boundingSphere()` of a point is the point. -/
theorem C56_point (p : Pt n) : ballSet p.boundingSphere = {p.elem} ∧ p.boundingSphere.valid = p.valid := by
  constructor
  · unfold Pt.boundingSphere
    rw [ballSet_mk']
    ext x
    constructor
    · intro h
      funext i
      have := (abs_sub_le_eucl x p.elem i).trans h
      linarith [abs_nonpos_iff.1 this]
    · rintro rfl
      show eucl _ _ ≤ 0
      rw [eucl_self]
  · simp [Pt.boundingSphere, Ball.mk', Ball.valid]

/-- C52: `boundingBox()` of a segment is the least box that contains it. It is valid, even when the segment is not (see `C49_false`). -/
theorem C52_segment (s : Seg n) : segSet s ⊆ boxSet s.boundingBox ∧ (∀ c : Box n, segSet s ⊆ boxSet c → boxSet s.boundingBox ⊆ boxSet c) ∧
    s.boundingBox.valid = true := by
  have e1 : ∀ i, s.boundingBox.low.elem i = min (s.p1.elem i) (s.p2.elem i) := fun i => by
    show (if s.p1.elem i > s.p2.elem i then s.p2.elem i else s.p1.elem i) = _
    split_ifs with h
    · rw [min_eq_right h.le]
    · rw [min_eq_left (not_lt.1 h)]
  have e2 : ∀ i, s.boundingBox.high.elem i = max (s.p1.elem i) (s.p2.elem i) := fun i => by
    show (if s.p1.elem i > s.p2.elem i then s.p1.elem i else s.p2.elem i) = _
    split_ifs with h
    · rw [max_eq_left h.le]
    · rw [max_eq_right (not_lt.1 h)]
  refine ⟨?_, fun c hc x hx i => ?_, ?_⟩
  · rintro x ⟨t, h0, h1, rfl⟩ i
    rw [e1, e2]
    simp only [Pi.add_apply, Pi.smul_apply, smul_eq_mul]
    have a1 := min_le_left (s.p1.elem i) (s.p2.elem i)
    have a2 := min_le_right (s.p1.elem i) (s.p2.elem i)
    have b1 := le_max_left (s.p1.elem i) (s.p2.elem i)
    have b2 := le_max_right (s.p1.elem i) (s.p2.elem i)
    constructor <;> nlinarith
  · have m1 : s.p1.elem ∈ segSet s := ⟨0, le_rfl, zero_le_one, by simp⟩
    have m2 : s.p2.elem ∈ segSet s := ⟨1, zero_le_one, le_rfl, by simp⟩
    have p1 := hc m1 i
    have p2 := hc m2 i
    have := hx i
    rw [e1, e2] at this
    exact ⟨(le_min p1.1 p2.1).trans this.1, this.2.trans (max_le p1.2 p2.2)⟩
  · simp [Seg.boundingBox, Box.ofCorners, Box.valid]

/-- C52 is false for the validity of boxes of segments: an invalid segment has a valid bounding box. -/
theorem C52_segment_false : ∃ s : Seg n, s.valid = false ∧ s.boundingBox.valid = true :=
  ⟨⟨Pt.default, Pt.default⟩, rfl, (C52_segment _).2.2⟩

/-- C52: `boundingBox()` of a line or plane polygon with corners is the least box that contains the corners. -/
theorem C52_corners (ps : Corners n) (hne : ps ≠ []) : cornerSet ps ⊆ boxSet ps.boundingBox ∧
    (∀ c : Box n, cornerSet ps ⊆ boxSet c → boxSet ps.boundingBox ⊆ boxSet c) ∧ (ps.boundingBox.valid = true ↔ ps.polyValid = true) := by
  obtain ⟨h1, h2, h3⟩ := C52_points ps hne
  refine ⟨?_, fun c hc => h2 c fun p hp => ?_, ?_⟩
  · rintro x ⟨i, c, hc, rfl⟩
    exact h1 c (List.mem_of_getElem? hc)
  · obtain ⟨i, hi⟩ := List.getElem?_of_mem hp
    exact hc ⟨i, p, hi, rfl⟩
  · unfold Corners.boundingBox Corners.polyValid
    rw [h3, List.all_eq_true]

theorem mapM_convert {o : Orient n} : ∀ ps : Corners 2, (∀ p ∈ ps, o.convert p ≠ none) →
    ∃ cs, ps.mapM o.convert = some cs ∧ (∀ c, c ∈ cs ↔ ∃ p ∈ ps, o.convert p = some c)
  | [], _ => ⟨[], rfl, by simp⟩
  | p :: ps, h => by
    obtain ⟨cs, h1, h2⟩ := mapM_convert ps fun q hq => h q (List.mem_cons_of_mem _ hq)
    obtain ⟨x, hx⟩ := Option.ne_none_iff_exists'.1 (h p List.mem_cons_self)
    refine ⟨x :: cs, by rw [List.mapM_cons, hx, h1]; rfl, fun c => ?_⟩
    rw [List.mem_cons, h2]
    constructor
    · rintro (rfl | ⟨q, hq, hc⟩)
      · exact ⟨p, List.mem_cons_self, hx⟩
      · exact ⟨q, List.mem_cons_of_mem _ hq, hc⟩
    · rintro ⟨q, hq, hc⟩
      rcases List.mem_cons.1 hq with rfl | hq
      · rw [hx, Option.some.injEq] at hc
        exact Or.inl hc.symm
      · exact Or.inr ⟨q, hq, hc⟩

/-- C52: `boundingBox()` of a polygon in space, after any history of edits that leaves a corner, fails no assertion and is the least box that contains the
corners; without corners it is a failed assertion. -/
theorem C52_polygon (dbg : Bool) (s : Poly n) (k : Nat) (h : Edited dbg s k) :
    (k = 0 → s.boundingBox = none) ∧
    (0 < k → ∃ b, s.boundingBox = some b ∧ polyCornerSet s ⊆ boxSet b ∧ (∀ c : Box n, polyCornerSet s ⊆ boxSet c → boxSet b ⊆ boxSet c) ∧
      (b.valid = true ↔ ∀ i c, s.getCorner i = some c → c.valid = true)) := by
  have hR := readable_of_edited h
  have hlen := (edited_ok h).2
  unfold Poly.boundingBox
  constructor
  · intro hk; rw [if_neg (by omega)]
  · intro hk
    rw [if_pos (by omega)]
    obtain ⟨cs, h1, h2⟩ := mapM_convert (o := s.orient) s.poly fun p hp => hR.convert hp
    have hcs : ∀ c, c ∈ cs ↔ ∃ i, s.getCorner i = some c := fun c => by
      rw [h2]
      constructor
      · rintro ⟨p, hp, hc⟩
        obtain ⟨i, hi⟩ := List.getElem?_of_mem hp
        exact ⟨i, by rw [getCorner_of hi, hc]⟩
      · rintro ⟨i, hi⟩
        obtain ⟨p, hp, hpx⟩ := getCorner_some hi
        exact ⟨p, List.mem_of_getElem? hp, hpx⟩
    have hne : cs ≠ [] := fun h0 => by
      obtain ⟨p, hp⟩ := List.exists_mem_of_length_pos (l := s.poly) (by omega)
      obtain ⟨x, hx⟩ := Option.ne_none_iff_exists'.1 (hR.convert hp)
      have := (h2 x).2 ⟨p, hp, hx⟩
      rw [h0] at this
      exact List.not_mem_nil this
    obtain ⟨g1, g2, g3⟩ := C52_points cs hne
    refine ⟨Box.boundingPoints cs, by rw [h1]; rfl, ?_, fun c hc => g2 c fun p hp => ?_, ?_⟩
    · rintro x ⟨i, c, hc, rfl⟩
      exact g1 c ((hcs c).2 ⟨i, hc⟩)
    · obtain ⟨i, hi⟩ := (hcs p).1 hp
      exact hc ⟨i, p, hi, rfl⟩
    · rw [g3]
      exact ⟨fun h i c hc => h c ((hcs c).2 ⟨i, hc⟩), fun h c hc => let ⟨i, hi⟩ := (hcs c).1 hc; h i c hi⟩

/-- C68, boxes in the coordinates of another box: the two conversions undo each other, and convert corner by corner. -/
theorem C68_box (b c : Box n) (hc : c.low.valid = true) :
    (b.toParentBox c).toLocalBox c = b ∧ (b.toLocalBox c).toParentBox c = b ∧
    ∀ i, ((b.toParentBox c).getCorner i).elem = ((b.getCorner i).toParentBox c).elem ∧
      ((b.toLocalBox c).getCorner i).elem = ((b.getCorner i).toLocalBox c).elem := by
  unfold Box.toParentBox Box.toLocalBox
  refine ⟨by simp [(pt_local_parent_box _ c hc).1], by simp [(pt_local_parent_box _ c hc).2], fun i => ?_⟩
  unfold Box.getCorner
  constructor <;> split_ifs <;> try rfl
  all_goals
    funext j
    simp only [Pt.toParentBox, Pt.toLocalBox, Pt.addVec_elem, Pt.sub_elem, Pi.add_apply, Pi.sub_apply]
    split_ifs <;> rfl

/-- C70, balls: turning about the centre, or moving or turning about a corner (a ball has none), changes nothing; turning about a point by a quaternion turns
the centre about it and keeps the radius. -/
theorem C70_ball_fixed (b : Ball n) (m : RotMat n) (i : Nat) (p : Pt n) : b.rotateCorner m i = b ∧ b.rotateCenter m = b ∧ b.moveCornerTo p i = b :=
  ⟨rfl, rfl, rfl⟩

end WFMath
