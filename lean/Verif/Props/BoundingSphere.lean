/- Property theorems C56 and C57 about enclosing balls. -/
import Verif.Props.Ball
import Verif.Props.VectorNorm
import Verif.Model.Bounding
import Verif.Lemmas.RotMatrix

namespace WFMath
open Spec Matrix
variable {n : Nat}

/-! ### C56 boxes and segments -/

theorem ballSet_mk' (c : Pt n) (r : ℝ) : ballSet (Ball.mk' c r) = {x | eucl x c.elem ≤ r} := by
  unfold Ball.mk' ballSet
  split_ifs <;> rfl

theorem midpoint_elem (p q : Pt n) : (Pt.midpoint p q (1 / 2)).elem = (1 / 2 : ℝ) • (p.elem + q.elem) := by
  funext i; simp only [Pt.midpoint, Pi.smul_apply, Pi.add_apply, smul_eq_mul]; ring

theorem eucl_midpoint (p q : Pt n) : eucl p.elem (Pt.midpoint p q (1 / 2)).elem = eucl p.elem q.elem / 2 ∧
    eucl q.elem (Pt.midpoint p q (1 / 2)).elem = eucl p.elem q.elem / 2 := by
  rw [midpoint_elem]
  simp only [eucl_eq_len]
  have e1 : p.elem - (1 / 2 : ℝ) • (p.elem + q.elem) = (1 / 2 : ℝ) • (p.elem - q.elem) := by module
  have e2 : q.elem - (1 / 2 : ℝ) • (p.elem + q.elem) = (-(1 / 2) : ℝ) • (p.elem - q.elem) := by module
  rw [e1, e2, len_smul, len_smul, abs_neg, abs_of_pos (by norm_num : (0 : ℝ) < 1 / 2)]
  constructor <;> ring

/-- Every point of a box is at most half the diagonal away from its centre. -/
theorem box_center_dist (b : Box n) {x : Fin n → ℝ} (hx : x ∈ boxSet b) :
    eucl x b.getCenter.elem ≤ eucl b.low.elem b.high.elem / 2 := by
  have h0 : eucl b.low.elem b.high.elem / 2 = eucl b.low.elem b.getCenter.elem := (eucl_midpoint b.low b.high).1.symm
  rw [h0, eucl_le_iff (eucl_nonneg _ _), eucl_sq]
  refine Finset.sum_le_sum fun i _ => ?_
  have := hx i
  have e : b.getCenter.elem i = b.low.elem i * (1 - 1 / 2) + b.high.elem i * (1 / 2) := rfl
  rw [e]
  nlinarith

theorem dist_le (p q : Pt n) : p.dist q ≤ eucl p.elem q.elem := by
  unfold Pt.dist
  rw [← Real.sqrt_sq (eucl_nonneg p.elem q.elem)]
  refine Real.sqrt_le_sqrt ?_
  rw [sqDist_eq]; split_ifs
  · exact le_rfl
  · positivity

theorem dist_exact {p q : Pt n} (h : ¬ Flushed p q) : p.dist q = eucl p.elem q.elem := by
  unfold Pt.dist; rw [sqDist_exact h, Real.sqrt_sq (eucl_nonneg _ _)]

theorem sub_mag (p q : Pt n) : (p.sub q).mag = eucl p.elem q.elem := by
  rw [mag_eq_len, Pt.sub_elem, eucl_eq_len]

/-- The property asked of `SloppyDistance`: never less than the distance. -/
def IsUpper (sd : Pt n → Pt n → ℝ) : Prop := ∀ p q, eucl p.elem q.elem ≤ sd p q

theorem upper2 : IsUpper Pt.sloppyDist2 := fun p q => by rw [← sub_mag]; exact (C19_dim2 _).1
theorem upper3 : IsUpper Pt.sloppyDist3 := fun p q => by rw [← sub_mag]; exact (C19_dim3_partial _).1

/-- C56, boxes: the sloppy bounding sphere contains the box and the exact bounding sphere. -/
theorem C56_box_sloppy2 (b : Box 2) : boxSet b ⊆ ballSet b.boundingSphereSloppy2 ∧
    ballSet b.boundingSphere ⊆ ballSet b.boundingSphereSloppy2 := by
  unfold Box.boundingSphereSloppy2 Box.boundingSphere
  rw [ballSet_mk', ballSet_mk']
  have h := upper2 b.low b.high
  refine ⟨fun x hx => ?_, fun x hx => ?_⟩
  · exact (box_center_dist b hx).trans (by linarith)
  · have hx' : eucl x b.getCenter.elem ≤ b.low.dist b.high / 2 := hx
    exact hx'.trans (by linarith [dist_le b.low b.high])

/-- C56, boxes in three dimensions. -/
theorem C56_box_sloppy3 (b : Box 3) : boxSet b ⊆ ballSet b.boundingSphereSloppy3 ∧
    ballSet b.boundingSphere ⊆ ballSet b.boundingSphereSloppy3 := by
  unfold Box.boundingSphereSloppy3 Box.boundingSphere
  rw [ballSet_mk', ballSet_mk']
  have h := upper3 b.low b.high
  refine ⟨fun x hx => ?_, fun x hx => ?_⟩
  · exact (box_center_dist b hx).trans (by linarith)
  · have hx' : eucl x b.getCenter.elem ≤ b.low.dist b.high / 2 := hx
    exact hx'.trans (by linarith [dist_le b.low b.high])

/-- C56, boxes: the bounding sphere contains the box and no ball of smaller radius does, provided the length of the
diagonal is not rounded to 0 (`C56_box_false`). -/
theorem C56_box_partial (b : Box n) (ho : Ordered b) (h : ¬ Flushed b.low b.high) :
    boxSet b ⊆ ballSet b.boundingSphere ∧ ∀ c : Ball n, boxSet b ⊆ ballSet c → b.boundingSphere.radius ≤ c.radius := by
  unfold Box.boundingSphere
  rw [ballSet_mk', dist_exact h]
  refine ⟨fun x hx => box_center_dist b hx, fun c hc => ?_⟩
  have h1 : eucl b.low.elem c.center.elem ≤ c.radius := hc (low_mem ho)
  have h2 : eucl b.high.elem c.center.elem ≤ c.radius := hc (high_mem ho)
  have h3 := eucl_triangle b.low.elem c.center.elem b.high.elem
  rw [eucl_comm c.center.elem] at h3
  show eucl b.low.elem b.high.elem / 2 ≤ c.radius
  linarith

/-- C56 is false of the code for boxes much smaller than their distance from the origin: the radius becomes 0. -/
theorem C56_box_false : ∃ b : Box 1, b.valid = true ∧ Solid b ∧ ¬ boxSet b ⊆ ballSet b.boundingSphere := by
  have he : epsilon = 30 * 2⁻¹ ^ 52 := by unfold epsilon; norm_num
  let b : Box 1 := ⟨⟨![1], true⟩, ⟨![1 + 2⁻¹ ^ 26], true⟩⟩
  have hs : epsilon ≤ scaleEpsilonArr (![1] : Fin 1 → ℝ) ![1 + 2⁻¹ ^ 26] epsilon := by
    have := le_scaleEpsilonArr (x := (![1] : Fin 1 → ℝ)) (y := ![1 + 2⁻¹ ^ 26]) epsilon_pos.le
    have m1 : 1 ≤ maxAbs (![1] : Fin 1 → ℝ) := by have := le_maxAbs (![1] : Fin 1 → ℝ) 0; simpa using this
    have m2 : 1 ≤ maxAbs (![1 + 2⁻¹ ^ 26] : Fin 1 → ℝ) := by
      have := le_maxAbs (![1 + 2⁻¹ ^ 26] : Fin 1 → ℝ) 0
      simp only [cons_val_fin_one] at this
      rw [abs_of_pos (by norm_num)] at this
      linarith [show (0 : ℝ) < 2⁻¹ ^ 26 by norm_num]
    refine le_trans ?_ this
    exact le_mul_of_one_le_right epsilon_pos.le (le_min m1 m2)
  have hf : Flushed b.low b.high := by
    refine lt_of_lt_of_le ?_ hs
    rw [eucl_sq, he]
    simp [b]
    norm_num
  refine ⟨b, rfl, fun i => by simp [b], fun h => ?_⟩
  have hm := h (low_mem (b := b) fun i => by simp [b])
  unfold Box.boundingSphere at hm
  rw [ballSet_mk'] at hm
  have hd : b.low.dist b.high = 0 := by unfold Pt.dist; rw [sqDist_flushed hf, Real.sqrt_zero]
  rw [Set.mem_setOf_eq, hd, zero_div] at hm
  have := eucl_eq_zero.1 (le_antisymm hm (eucl_nonneg _ _))
  have := congrFun this 0
  simp [b, Box.getCenter, Pt.midpoint] at this
  norm_num at this

/-- Every point of a segment is at most half its length away from its middle. -/
theorem seg_center_dist (s : Seg n) {x : Fin n → ℝ} (hx : x ∈ segSet s) :
    eucl x s.getCenter.elem ≤ eucl s.p1.elem s.p2.elem / 2 := by
  obtain ⟨t, t0, t1, rfl⟩ := hx
  have e : s.getCenter.elem = (1 / 2 : ℝ) • (s.p1.elem + s.p2.elem) := midpoint_elem _ _
  have e' : (1 - t) • s.p1.elem + t • s.p2.elem - (1 / 2 : ℝ) • (s.p1.elem + s.p2.elem) =
      (1 / 2 - t) • (s.p1.elem - s.p2.elem) := by module
  rw [e, eucl_eq_len, e', len_smul, eucl_eq_len]
  have : |1 / 2 - t| ≤ 1 / 2 := by rw [abs_le]; constructor <;> linarith
  have := mul_le_mul_of_nonneg_right this (len_nonneg (s.p1.elem - s.p2.elem))
  linarith

theorem p1_mem (s : Seg n) : s.p1.elem ∈ segSet s := ⟨0, le_rfl, zero_le_one, by simp⟩
theorem p2_mem (s : Seg n) : s.p2.elem ∈ segSet s := ⟨1, zero_le_one, le_rfl, by simp⟩

/-- C56, segments: the sloppy bounding sphere contains the segment and the exact bounding sphere. -/
theorem C56_segment_sloppy2 (s : Seg 2) : segSet s ⊆ ballSet s.boundingSphereSloppy2 ∧
    ballSet s.boundingSphere ⊆ ballSet s.boundingSphereSloppy2 := by
  unfold Seg.boundingSphereSloppy2 Seg.boundingSphere
  rw [ballSet_mk', ballSet_mk']
  have h := upper2 s.p1 s.p2
  refine ⟨fun x hx => ?_, fun x hx => ?_⟩
  · exact (seg_center_dist s hx).trans (by linarith)
  · have hx' : eucl x s.getCenter.elem ≤ s.p1.dist s.p2 / 2 := hx
    exact hx'.trans (by linarith [dist_le s.p1 s.p2])

/-- C56, segments in three dimensions. -/
theorem C56_segment_sloppy3 (s : Seg 3) : segSet s ⊆ ballSet s.boundingSphereSloppy3 ∧
    ballSet s.boundingSphere ⊆ ballSet s.boundingSphereSloppy3 := by
  unfold Seg.boundingSphereSloppy3 Seg.boundingSphere
  rw [ballSet_mk', ballSet_mk']
  have h := upper3 s.p1 s.p2
  refine ⟨fun x hx => ?_, fun x hx => ?_⟩
  · exact (seg_center_dist s hx).trans (by linarith)
  · have hx' : eucl x s.getCenter.elem ≤ s.p1.dist s.p2 / 2 := hx
    exact hx'.trans (by linarith [dist_le s.p1 s.p2])

/-- C56, segments: the bounding sphere contains the segment and no ball of smaller radius does, provided its length is
not rounded to 0. -/
theorem C56_segment_partial (s : Seg n) (h : ¬ Flushed s.p1 s.p2) :
    segSet s ⊆ ballSet s.boundingSphere ∧ ∀ c : Ball n, segSet s ⊆ ballSet c → s.boundingSphere.radius ≤ c.radius := by
  unfold Seg.boundingSphere
  rw [ballSet_mk', dist_exact h]
  refine ⟨fun x hx => seg_center_dist s hx, fun c hc => ?_⟩
  have h1 : eucl s.p1.elem c.center.elem ≤ c.radius := hc (p1_mem s)
  have h2 : eucl s.p2.elem c.center.elem ≤ c.radius := hc (p2_mem s)
  have h3 := eucl_triangle s.p1.elem c.center.elem s.p2.elem
  rw [eucl_comm c.center.elem] at h3
  show eucl s.p1.elem s.p2.elem / 2 ≤ c.radius
  linarith

/-! ### C56 rotated boxes -/

/-- A rotation keeps lengths. -/
theorem len_vecMul {m : RotMat n} (hm : IsRotation m) (v : Fin n → ℝ) : len (v ᵥ* m.elem) = len v := by
  unfold len
  rw [← dotProduct_mulVec, ← vecMul_transpose, vecMul_vecMul, hm.orth, vecMul_one]

/-- The points of a rotated box as images under the rotation. -/
theorem rboxSet_eq (r : RBox n) : rboxSet r = {x | ∃ t : Fin n → ℝ, (∀ i, 0 ≤ t i ∧ t i ≤ 1) ∧
    x = r.corner.elem + (fun i => t i * r.size.elem i) ᵥ* r.orient.elem} := rfl

theorem rbox_center (r : RBox n) : r.getCenter.elem = r.corner.elem + (fun i => (1 / 2 : ℝ) * r.size.elem i) ᵥ* r.orient.elem := by
  have : (r.size.divBy 2).elem = fun i => (1 / 2 : ℝ) * r.size.elem i := by funext i; simp [Vec.divBy]; ring
  show r.corner.elem + ((r.size.divBy 2).rotateM r.orient).elem = _
  rw [RotMat.rotateM_elem, this]

theorem rbox_center_dist (r : RBox n) (hm : IsRotation r.orient) {x : Fin n → ℝ} (hx : x ∈ rboxSet r) :
    eucl x r.getCenter.elem ≤ r.size.mag / 2 := by
  rw [rboxSet_eq] at hx
  obtain ⟨t, ht, rfl⟩ := hx
  rw [eucl_eq_len, rbox_center, add_sub_add_left_eq_sub, ← sub_vecMul, len_vecMul hm, mag_eq_len]
  have e : (1 / 2 : ℝ) * len r.size.elem = len ((1 / 2 : ℝ) • r.size.elem) := by
    rw [len_smul, abs_of_pos (by norm_num)]
  have : len r.size.elem / 2 = len ((1 / 2 : ℝ) • r.size.elem) := by rw [← e]; ring
  rw [this]
  refine Real.sqrt_le_sqrt (Finset.sum_le_sum fun i _ => ?_)
  have := ht i
  simp only [Pi.sub_apply, Pi.smul_apply, smul_eq_mul]
  have e1 : (t i * r.size.elem i - 1 / 2 * r.size.elem i) * (t i * r.size.elem i - 1 / 2 * r.size.elem i) =
    (t i - 1 / 2) ^ 2 * r.size.elem i ^ 2 := by ring
  have e2 : 1 / 2 * r.size.elem i * (1 / 2 * r.size.elem i) = (1 / 2) ^ 2 * r.size.elem i ^ 2 := by ring
  rw [e1, e2]
  refine mul_le_mul_of_nonneg_right ?_ (sq_nonneg _)
  nlinarith

/-- C56, rotated boxes: the bounding sphere contains the box. -/
theorem C56_rotbox (r : RBox n) (hm : IsRotation r.orient) : rboxSet r ⊆ ballSet r.boundingSphere := by
  unfold RBox.boundingSphere
  rw [ballSet_mk']
  exact fun x hx => rbox_center_dist r hm hx

/-- C56, rotated boxes: the sloppy sphere, whose radius is computed from the square of the size, contains the box and
the exact sphere when the diagonal is at least 1. -/
theorem C56_rotbox_sloppy_partial (r : RBox n) (hm : IsRotation r.orient) (h : 1 ≤ r.size.mag) :
    rboxSet r ⊆ ballSet r.boundingSphereSloppy ∧ ballSet r.boundingSphere ⊆ ballSet r.boundingSphereSloppy := by
  have h2 : r.size.mag ≤ r.size.sqrMag := by rw [← Vec.mag_sq]; nlinarith
  unfold RBox.boundingSphereSloppy RBox.boundingSphere
  rw [ballSet_mk', ballSet_mk']
  refine ⟨fun x hx => (rbox_center_dist r hm hx).trans (by linarith), fun x hx => ?_⟩
  have hx' : eucl x r.getCenter.elem ≤ r.size.mag / 2 := hx
  exact hx'.trans (by linarith)

/-- C56 is false of the code for the sloppy sphere of rotated boxes: the radius is half the square of the diagonal. -/
theorem C56_rotbox_false : ∃ r : RBox 2, r.valid = true ∧ IsRotation r.orient ∧ ¬ rboxSet r ⊆ ballSet r.boundingSphereSloppy := by
  let r : RBox 2 := ⟨⟨![0, 0], true⟩, ⟨![3 / 10, 4 / 10], true⟩, RotMat.identity⟩
  refine ⟨r, rfl, isRotation_identity, fun h => ?_⟩
  have h0 : r.corner.elem ∈ rboxSet r := ⟨fun _ => 0, fun i => ⟨le_rfl, zero_le_one⟩, by simp⟩
  have := h h0
  unfold RBox.boundingSphereSloppy at this
  rw [ballSet_mk', Set.mem_setOf_eq, Vec.sqrMag_eq, eucl_le_iff (by simp [r]; norm_num), rbox_center] at this
  simp [r, RotMat.identity, Fin.sum_univ_two, vecMul, dotProduct] at this
  norm_num at this

/-- A box and a rotated box meeting the conditions. -/
example : rboxSet (⟨⟨![0, 0], true⟩, ⟨![3, 4], true⟩, RotMat.identity⟩ : RBox 2) ⊆
    ballSet (⟨⟨![0, 0], true⟩, ⟨![3, 4], true⟩, RotMat.identity⟩ : RBox 2).boundingSphere := C56_rotbox _ isRotation_identity

/-! ### C57 the fast enclosing ball of a container -/

namespace Ritter

theorem scan_mem (ps : List (Pt n × Nat)) (s : Extremes n) (l : List (Pt n × Nat)) (hps : ∀ p ∈ ps, p ∈ l)
    (h : ∀ j, s.minP j ∈ l ∧ s.maxP j ∈ l) : ∀ j, (scan s ps).minP j ∈ l ∧ (scan s ps).maxP j ∈ l := by
  induction ps generalizing s with
  | nil => exact h
  | cons p ps ih =>
    rw [scan]
    refine ih _ (fun q hq => hps q (List.mem_cons_of_mem _ hq)) fun j => ?_
    have hp := hps p (by simp)
    simp only
    constructor
    · split_ifs
      · exact hp
      · exact (h j).1
    · split_ifs
      · exact hp
      · exact (h j).2

theorem scan_valid (ps : List (Pt n × Nat)) (s : Extremes n) :
    (scan s ps).valid = true ↔ s.valid = true ∧ ∀ p ∈ ps, p.1.valid = true := by
  induction ps generalizing s with
  | nil => simp [scan]
  | cons p ps ih => rw [scan, ih]; simp [and_assoc]

theorem scan_le (ps : List (Pt n × Nat)) (s : Extremes n) (h : ∀ j, s.min j ≤ s.max j) (j : Fin n) :
    (scan s ps).min j ≤ (scan s ps).max j := by
  induction ps generalizing s with
  | nil => exact h j
  | cons p ps ih =>
    rw [scan]
    refine ih _ fun j => ?_
    have := h j
    simp only
    split_ifs <;> linarith

theorem widest_some (s : Extremes n) (js : List (Fin n)) (span : ℝ) (d : Fin n) : ∃ d', widest s js (span, some d) = some d' := by
  induction js generalizing span d with
  | nil => exact ⟨d, rfl⟩
  | cons j js ih =>
    rw [widest]
    split_ifs <;> exact ih _ _

theorem widest_exists (hn : 0 < n) (s : Extremes n) (h : ∀ j, s.min j ≤ s.max j) :
    ∃ d, widest s (List.finRange n) (-1, none) = some d := by
  cases n with
  | zero => omega
  | succ k =>
    rw [List.finRange_succ, widest]
    have : s.max 0 - s.min 0 > -1 := by linarith [h 0]
    simp only [this, if_true]
    exact widest_some _ _ _ _

/-- The second pass never fails, keeps what the ball contained and adds every point not skipped. -/
theorem grow_spec {sd : Pt n → Pt n → ℝ} (hsd : IsUpper sd) (skip : Nat → Bool) (ps : List (Pt n × Nat)) (c : Pt n) (r : ℝ)
    (hr : 0 ≤ r) : ∃ c' r', grow sd skip (c, r) ps = some (c', r') ∧ 0 ≤ r' ∧
      (∀ x, eucl x c.elem ≤ r → eucl x c'.elem ≤ r') ∧ ∀ p ∈ ps, skip p.2 = false → eucl p.1.elem c'.elem ≤ r' := by
  induction ps generalizing c r with
  | nil => exact ⟨c, r, rfl, hr, fun _ h => h, by simp⟩
  | cons p ps ih =>
    rw [grow]
    by_cases hs : skip p.2 = true
    · rw [if_pos hs]
      obtain ⟨c', r', h1, h2, h3, h4⟩ := ih c r hr
      refine ⟨c', r', h1, h2, h3, fun q hq hq' => ?_⟩
      rcases List.mem_cons.1 hq with rfl | hq
      · rw [hs] at hq'; exact absurd hq' (by simp)
      · exact h4 q hq hq'
    · rw [if_neg hs]
      simp only
      have hu := hsd p.1 c
      by_cases hd : sd p.1 c > r
      · rw [if_pos hd]
        have hpos : 0 < sd p.1 c := hr.trans_lt hd
        have hδ : 0 ≤ (sd p.1 c - r) / 2 := by linarith
        have e : (c.addVec (((p.1.sub c).scale ((sd p.1 c - r) / 2)).divBy (sd p.1 c))).elem =
            c.elem + ((sd p.1 c - r) / 2 / sd p.1 c) • (p.1.elem - c.elem) := by
          funext i
          simp only [Pt.addVec, Vec.divBy, Vec.scale, Pt.sub, Pi.add_apply, Pi.smul_apply, Pi.sub_apply, smul_eq_mul]
          ring
        have hq : 0 ≤ (sd p.1 c - r) / 2 / sd p.1 c := div_nonneg hδ hpos.le
        have hmove : eucl c.elem (c.addVec (((p.1.sub c).scale ((sd p.1 c - r) / 2)).divBy (sd p.1 c))).elem ≤ (sd p.1 c - r) / 2 := by
          rw [e, eucl_comm, eucl_eq_len, add_sub_cancel_left, len_smul, abs_of_nonneg hq, ← eucl_eq_len, div_mul_eq_mul_div,
            div_le_iff₀ hpos]
          exact mul_le_mul_of_nonneg_left hu hδ
        have hnew : eucl p.1.elem (c.addVec (((p.1.sub c).scale ((sd p.1 c - r) / 2)).divBy (sd p.1 c))).elem ≤
            r + (sd p.1 c - r) / 2 := by
          have e2 : p.1.elem - (c.elem + ((sd p.1 c - r) / 2 / sd p.1 c) • (p.1.elem - c.elem)) =
              (1 - (sd p.1 c - r) / 2 / sd p.1 c) • (p.1.elem - c.elem) := by module
          have h1 : 0 ≤ 1 - (sd p.1 c - r) / 2 / sd p.1 c := by
            rw [sub_nonneg, div_le_one hpos]; linarith
          rw [e, eucl_eq_len, e2, len_smul, abs_of_nonneg h1, ← eucl_eq_len]
          refine (mul_le_mul_of_nonneg_left hu h1).trans (le_of_eq ?_)
          field_simp
          ring
        have ha : p.1.sqDist (c.addVec (((p.1.sub c).scale ((sd p.1 c - r) / 2)).divBy (sd p.1 c))) ≤
            (r + (sd p.1 c - r) / 2) * (r + (sd p.1 c - r) / 2) := by
          rw [← sq, sqDist_le_iff (by linarith)]; exact Or.inl hnew
        rw [if_pos ha]
        obtain ⟨c', r', h1, h2, h3, h4⟩ := ih (c.addVec (((p.1.sub c).scale ((sd p.1 c - r) / 2)).divBy (sd p.1 c)))
          (r + (sd p.1 c - r) / 2) (by linarith)
        refine ⟨c', r', h1, h2, fun x hx => h3 x ?_, fun q hq hq' => ?_⟩
        · have := eucl_triangle x c.elem (c.addVec (((p.1.sub c).scale ((sd p.1 c - r) / 2)).divBy (sd p.1 c))).elem
          linarith
        · rcases List.mem_cons.1 hq with rfl | hq
          · exact h3 _ hnew
          · exact h4 q hq hq'
      · rw [if_neg hd]
        obtain ⟨c', r', h1, h2, h3, h4⟩ := ih c r hr
        refine ⟨c', r', h1, h2, h3, fun q hq hq' => ?_⟩
        rcases List.mem_cons.1 hq with rfl | hq
        · exact h3 _ (hu.trans (not_lt.1 hd))
        · exact h4 q hq hq'

theorem mem_zipIdx_unique {l : List (Pt n)} {p q : Pt n × Nat} (hp : p ∈ l.zipIdx) (hq : q ∈ l.zipIdx) (h : p.2 = q.2) : p = q := by
  rw [List.mem_zipIdx_iff_getElem?] at hp hq
  rw [h, hq] at hp
  exact Prod.ext (Option.some.inj hp).symm h

theorem spec (hn : 0 < n) {sd : Pt n → Pt n → ℝ} (hsd : IsUpper sd) (l : List (Pt n)) (hl : l ≠ []) :
    ∃ b, boundingSphereSloppy sd l = some b ∧ 0 ≤ b.radius ∧ (∀ p ∈ l, p.elem ∈ ballSet b) ∧
      (b.valid = true ↔ ∀ p ∈ l, p.valid = true) := by
  unfold boundingSphereSloppy
  have hz : l.zipIdx ≠ [] := by simpa using hl
  rcases hzl : l.zipIdx with _ | ⟨p, ps⟩
  · exact absurd hzl hz
  · simp only
    have hmin := scan_le ps (start p) (fun j => le_rfl)
    obtain ⟨d, hd⟩ := widest_exists hn (scan (start p) ps) hmin
    have hm := scan_mem ps (start p) (p :: ps) (fun q hq => List.mem_cons_of_mem _ hq)
      (fun j => ⟨List.mem_cons_self, List.mem_cons_self⟩) d
    rw [hd]
    simp only
    have hmid := eucl_midpoint ((scan (start p) ps).minP d).1 ((scan (start p) ps).maxP d).1
    have hu := hsd ((scan (start p) ps).minP d).1 (Pt.midpoint ((scan (start p) ps).minP d).1 ((scan (start p) ps).maxP d).1 (1 / 2))
    obtain ⟨c', r', h1, h2, h3, h4⟩ := grow_spec hsd
      (fun i => i == ((scan (start p) ps).minP d).2 || i == ((scan (start p) ps).maxP d).2) (p :: ps) _ _
      ((eucl_nonneg _ _).trans hu)
    rw [h1]
    simp only
    have hall : ∀ q ∈ l, q.elem ∈ ballSet (Ball.mk' ⟨c'.elem, (scan (start p) ps).valid⟩ r') := by
      intro q hq
      rw [ballSet_mk']
      show eucl q.elem c'.elem ≤ r'
      obtain ⟨i, hi, rfl⟩ := List.mem_iff_getElem.1 hq
      have hqi : (l[i], i) ∈ l.zipIdx := List.mem_zipIdx_iff_getElem?.2 (List.getElem?_eq_getElem hi)
      by_cases hs : (i == ((scan (start p) ps).minP d).2 || i == ((scan (start p) ps).maxP d).2) = true
      · simp only [Bool.or_eq_true, beq_iff_eq] at hs
        rcases hs with hs | hs
        · have := mem_zipIdx_unique hqi (hzl ▸ hm.1) hs
          have e : l[i] = ((scan (start p) ps).minP d).1 := congrArg Prod.fst this
          rw [e]; exact h3 _ hu
        · have := mem_zipIdx_unique hqi (hzl ▸ hm.2) hs
          have e : l[i] = ((scan (start p) ps).maxP d).1 := congrArg Prod.fst this
          rw [e]
          refine h3 _ ?_
          rw [hmid.2, ← hmid.1]; exact hu
      · exact h4 (l[i], i) (hzl ▸ hqi) (by simpa using hs)
    refine ⟨_, rfl, h2, hall, ?_⟩
    have hv : (Ball.mk' ⟨c'.elem, (scan (start p) ps).valid⟩ r').valid = (scan (start p) ps).valid := by
      unfold Ball.mk' Ball.valid; rw [if_neg (not_lt.2 h2)]
    rw [hv, scan_valid]
    have : (∀ q ∈ l, q.valid = true) ↔ ∀ q ∈ p :: ps, q.1.valid = true := by
      rw [← hzl]
      constructor
      · intro h q hq; exact h q.1 (List.fst_mem_of_mem_zipIdx hq)
      · intro h q hq
        obtain ⟨i, hi, rfl⟩ := List.mem_iff_getElem.1 hq
        exact h (l[i], i) (List.mem_zipIdx_iff_getElem?.2 (List.getElem?_eq_getElem hi))
    rw [this]
    simp [start]

end Ritter

/-- C57 in two dimensions: no assertion fails, every point is in the ball, and the ball is valid exactly when all points
are. -/
theorem C57_dim2 (l : List (Pt 2)) (hl : l ≠ []) : ∃ b, boundingSphereSloppy2 l = some b ∧
    (∀ p ∈ l, p.elem ∈ ballSet b) ∧ (b.valid = true ↔ ∀ p ∈ l, p.valid = true) := by
  obtain ⟨b, h1, -, h2, h3⟩ := Ritter.spec (by norm_num) upper2 l hl
  exact ⟨b, h1, h2, h3⟩

/-- C57 in three dimensions. -/
theorem C57_dim3 (l : List (Pt 3)) (hl : l ≠ []) : ∃ b, boundingSphereSloppy3 l = some b ∧
    (∀ p ∈ l, p.elem ∈ ballSet b) ∧ (b.valid = true ↔ ∀ p ∈ l, p.valid = true) := by
  obtain ⟨b, h1, -, h2, h3⟩ := Ritter.spec (by norm_num) upper3 l hl
  exact ⟨b, h1, h2, h3⟩

/-- C57: the empty container gives an invalid ball. -/
theorem C57_empty : (boundingSphereSloppy2 [] = some Ball.default ∧ (Ball.default : Ball 2).valid = false) ∧
    boundingSphereSloppy3 [] = some Ball.default ∧ (Ball.default : Ball 3).valid = false := ⟨⟨rfl, rfl⟩, rfl, rfl⟩

example : ∃ b, boundingSphereSloppy2 [⟨![0, 0], true⟩, ⟨![1, 0], true⟩, ⟨![0, 5], true⟩] = some b ∧ b.valid = true := by
  obtain ⟨b, h1, -, h3⟩ := C57_dim2 [⟨![0, 0], true⟩, ⟨![1, 0], true⟩, ⟨![0, 5], true⟩] (by simp)
  exact ⟨b, h1, h3.2 (by simp)⟩

end WFMath
