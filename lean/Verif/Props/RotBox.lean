/- Property theorems C64, C65, C67, C89 about rotated boxes. -/
import Verif.Lemmas.RotBox
import Verif.Props.AxisBox

namespace WFMath
open Spec Matrix Gauss
variable {n : Nat}

/-! ### C64 membership and corners -/

theorem interRP_eq (r : RBox n) (p : Pt n) (pr : Bool) : interRP r p pr = interBP r.flat (r.unrotate p) pr := by
  rw [Bool.eq_iff_iff]
  unfold interRP
  simp only [List.all_eq_true, List.mem_finRange, true_implies]
  have hu : ∀ i, (r.unrotate p).elem i = r.corner.elem i + ((p.sub r.corner).prodInvM r.orient).elem i := fun i => rfl
  cases pr
  · rw [interBP_false]
    refine forall_congr' fun i => ?_
    rw [flat_low, flat_high, hu]
    split_ifs with h
    · rw [min_eq_right h.le, max_eq_left h.le, not_or_bool, less_false, greater_false, not_lt, not_lt]
      constructor <;> rintro ⟨h1, h2⟩ <;> constructor <;> linarith
    · rw [not_lt] at h
      rw [min_eq_left h, max_eq_right h, not_or_bool, less_false, greater_false, not_lt, not_lt]
      constructor <;> rintro ⟨h1, h2⟩ <;> constructor <;> linarith
  · rw [interBP_true]
    refine forall_congr' fun i => ?_
    rw [flat_low, flat_high, hu]
    split_ifs with h
    · rw [min_eq_right h.le, max_eq_left h.le, not_or_bool, less_true, greater_true, not_le, not_le]
      constructor <;> rintro ⟨h1, h2⟩ <;> constructor <;> linarith
    · rw [not_lt] at h
      rw [min_eq_left h, max_eq_right h, not_or_bool, less_true, greater_true, not_le, not_le]
      constructor <;> rintro ⟨h1, h2⟩ <;> constructor <;> linarith

/-- C64, membership: the proper test is membership in the interior; the other is membership in the box with an error of
epsilon allowed along each of the box's own directions. -/
theorem C64_point (r : RBox n) (p : Pt n) (hm : IsRotation r.orient) :
    (interRP r p true = true ↔ p.elem ∈ rboxInterior r) ∧
    (interRP r p false = true ↔ p.elem ∈ nearAlong r epsilon (rboxSet r)) ∧
    (p.elem ∈ rboxSet r → interRP r p false = true) := by
  have h := C54_point r.flat (r.unrotate p)
  rw [interRP_eq, interRP_eq, h.1, h.2.1 (flat_ordered r), unrotate_elem, turn_mem_interior hm, turn_near hm]
  refine ⟨Iff.rfl, Iff.rfl, fun hp => ⟨p.elem, hp, fun i => ?_⟩⟩
  simp [epsilon_pos.le]

theorem getCorner_elem (r : RBox n) {i : Nat} {c : Pt n} (h : r.getCorner i = some c) : i < 2 ^ n ∧
    c.elem = r.corner.elem + (fun j : Fin n => (if i.testBit j then (1 : ℝ) else 0) * r.size.elem j) ᵥ* r.orient.elem := by
  unfold RBox.getCorner at h
  split_ifs at h with h1 h2
  · refine ⟨h1, ?_⟩
    rw [← Option.some.inj h, h2]
    have : (fun j : Fin n => (if Nat.testBit 0 j then (1 : ℝ) else 0) * r.size.elem j) = 0 := by funext j; simp
    rw [this, zero_vecMul, add_zero]
  · refine ⟨h1, ?_⟩
    rw [← Option.some.inj h]
    show r.corner.elem + _ = _
    rw [RotMat.rotateM_elem]
    congr 2
    funext j
    simp only; split_ifs <;> simp

/-- C64, corners: exactly the indices below `2^n` have corners, corner `i` is the base corner plus the edges selected by the
binary digits of `i`, and it is a point of the box. -/
theorem C64_corners (r : RBox n) (i : Nat) :
    (r.getCorner i ≠ none ↔ i < 2 ^ n) ∧
    (∀ c, r.getCorner i = some c → c.elem ∈ rboxSet r ∧
      ∀ k, c.elem k = r.corner.elem k + ∑ j : Fin n, if i.testBit j then r.size.elem j * r.orient.elem j k else 0) := by
  refine ⟨?_, fun c hc => ?_⟩
  · unfold RBox.getCorner; split_ifs <;> simp_all
  · obtain ⟨-, he⟩ := getCorner_elem r hc
    refine ⟨?_, fun k => ?_⟩
    · rw [rboxSet_eq]
      exact ⟨_, fun j => by split_ifs <;> norm_num, he⟩
    · rw [he]
      simp only [Pi.add_apply, vecMul, dotProduct]
      congr 1
      refine Finset.sum_congr rfl fun j _ => ?_
      split_ifs <;> ring

/-- C64: every corner passes the test. -/
theorem C64_corner_member (r : RBox n) (hm : IsRotation r.orient) (i : Nat) (c : Pt n) (h : r.getCorner i = some c) :
    interRP r c false = true := (C64_point r c hm).2.2 ((C64_corners r i).2 c h).1

/-- C64: the centre is half-way along every edge, hence in the box, and inside it when no edge has length 0; both tests
say so. -/
theorem C64_center (r : RBox n) (hm : IsRotation r.orient) :
    (∀ k, r.getCenter.elem k = r.corner.elem k + ∑ j, 1 / 2 * r.size.elem j * r.orient.elem j k) ∧
    r.getCenter.elem ∈ rboxSet r ∧ interRP r r.getCenter false = true ∧
    ((∀ i, r.size.elem i ≠ 0) → r.getCenter.elem ∈ rboxInterior r ∧ interRP r r.getCenter true = true) := by
  have hc := rbox_center r
  have hmem : r.getCenter.elem ∈ rboxSet r := by
    rw [rboxSet_eq]; exact ⟨fun _ => 1 / 2, fun _ => by norm_num, hc⟩
  refine ⟨fun k => by rw [hc]; rfl, hmem, (C64_point r _ hm).2.2 hmem, fun hs => ?_⟩
  have : r.getCenter.elem ∈ rboxInterior r := ⟨hs, fun _ => 1 / 2, fun _ => by norm_num, hc⟩
  exact ⟨this, (C64_point r _ hm).1.2 this⟩

/-- C64, `Contains(point, box)`: never properly; otherwise exactly when every edge has length 0 and the point is the corner
under the tolerant equality. -/
theorem C64_point_contains (p : Pt n) (r : RBox n) :
    containsPR p r true = false ∧
    (containsPR p r false = true ↔ (∀ i, r.size.elem i = 0) ∧ p.isEqualTo r.corner epsilon = true) := by
  constructor
  · simp [containsPR]
  · unfold containsPR
    simp

/-! ### C65 bounding box -/

/-- C65: the bounding box contains the box and is contained in every box that contains its corners. -/
theorem C65_bounding_box (r : RBox n) :
    rboxSet r ⊆ boxSet r.boundingBox ∧ Ordered r.boundingBox ∧ (r.boundingBox.valid = r.valid) ∧
    ∀ b : Box n, (∀ i c, r.getCorner i = some c → c.elem ∈ boxSet b) → boxSet r.boundingBox ⊆ boxSet b := by
  refine ⟨fun x => mem_bb r, bb_ordered r, by show (r.valid && r.valid) = _; rw [Bool.and_self], fun b hb x hx i => ?_⟩
  -- every 0/1 combination of the edges is a corner
  have key : ∀ t : Fin n → ℝ, (∀ j, t j = 0 ∨ t j = 1) →
      b.low.elem i ≤ r.corner.elem i + ∑ j, t j * r.size.elem j * r.orient.elem j i ∧
      r.corner.elem i + ∑ j, t j * r.size.elem j * r.orient.elem j i ≤ b.high.elem i := by
    intro t ht
    obtain ⟨k, hk, hbits⟩ := exists_bits (fun m => if h : m < n then decide (t ⟨m, h⟩ = 1) else false) n
    obtain ⟨c, hc⟩ : ∃ c, r.getCorner k = some c := Option.ne_none_iff_exists'.1 ((C64_corners r k).1.2 hk)
    have hmem := hb k c hc i
    have he := ((C64_corners r k).2 c hc).2 i
    have : ∑ j : Fin n, (if k.testBit j then r.size.elem j * r.orient.elem j i else 0) =
        ∑ j, t j * r.size.elem j * r.orient.elem j i := by
      refine Finset.sum_congr rfl fun j _ => ?_
      rw [hbits j j.isLt]
      simp only [j.isLt, dif_pos, Fin.eta]
      rcases ht j with h | h <;> rw [h] <;> simp
    rw [he, this] at hmem
    exact hmem
  obtain ⟨t1, h1, e1⟩ := bb_low_attained r i
  obtain ⟨t2, h2, e2⟩ := bb_high_attained r i
  have k1 := key t1 h1
  have k2 := key t2 h2
  rw [e1] at k1
  rw [e2] at k2
  exact ⟨k1.1.trans (hx i).1, (hx i).2.trans k2.2⟩

/-! ### C67 containment among boxes -/

theorem rbox_subset_near (r : RBox n) (b : Box n) (ho : Ordered b) {δ : ℝ} (hδ : 0 ≤ δ) :
    rboxSet r ⊆ near δ (boxSet b) ↔ ∀ i, b.low.elem i - δ ≤ r.boundingBox.low.elem i ∧ r.boundingBox.high.elem i ≤ b.high.elem i + δ := by
  constructor
  · intro h i
    obtain ⟨t1, h1, e1⟩ := bb_low_attained r i
    obtain ⟨t2, h2, e2⟩ := bb_high_attained r i
    have k1 := (mem_near_box ho hδ).1 (h ⟨t1, corner01 h1, rfl⟩) i
    have k2 := (mem_near_box ho hδ).1 (h ⟨t2, corner01 h2, rfl⟩) i
    rw [e1] at k1; rw [e2] at k2
    exact ⟨k1.1, k2.2⟩
  · intro h x hx
    rw [mem_near_box ho hδ]
    intro i
    have := mem_bb r hx i
    exact ⟨(h i).1.trans this.1, this.2.trans (h i).2⟩

theorem rbox_subset_interior (r : RBox n) (b : Box n) :
    rboxSet r ⊆ boxInterior b ↔ ∀ i, b.low.elem i < r.boundingBox.low.elem i ∧ r.boundingBox.high.elem i < b.high.elem i := by
  constructor
  · intro h i
    obtain ⟨t1, h1, e1⟩ := bb_low_attained r i
    obtain ⟨t2, h2, e2⟩ := bb_high_attained r i
    have k1 := h ⟨t1, corner01 h1, rfl⟩ i
    have k2 := h ⟨t2, corner01 h2, rfl⟩ i
    rw [e1] at k1; rw [e2] at k2
    exact ⟨k1.1, k2.2⟩
  · intro h x hx i
    have := mem_bb r hx i
    exact ⟨(h i).1.trans_le this.1, this.2.trans_lt (h i).2⟩

/-- C67, axis box containing a rotated box: exactly inclusion, in the open box when proper, otherwise with an error of
epsilon allowed per coordinate. -/
theorem C67_axis_rotated (b : Box n) (r : RBox n) (ho : Ordered b) :
    (containsBR b r true = true ↔ rboxSet r ⊆ boxInterior b) ∧
    (containsBR b r false = true ↔ rboxSet r ⊆ near epsilon (boxSet b)) ∧
    (rboxSet r ⊆ boxSet b → containsBR b r false = true) := by
  have h2 : containsBR b r false = true ↔ rboxSet r ⊆ near epsilon (boxSet b) := by
    unfold containsBR
    rw [containsBB_false, rbox_subset_near r b ho epsilon_pos.le]
    exact forall_congr' fun i => by constructor <;> rintro ⟨h1, h2⟩ <;> constructor <;> linarith
  refine ⟨?_, h2, fun h => h2.2 fun x hx => ⟨x, h hx, fun i => by simp [epsilon_pos.le]⟩⟩
  unfold containsBR
  rw [containsBB_true, rbox_subset_interior]

/-- C67, rotated box containing an axis box: exactly inclusion, in the interior when proper, otherwise with an error of
epsilon allowed along each direction of the rotated box. -/
theorem C67_rotated_axis (r : RBox n) (b : Box n) (hm : IsRotation r.orient) (ho : Ordered b) :
    (containsRB r b true = true ↔ boxSet b ⊆ rboxInterior r) ∧
    (containsRB r b false = true ↔ boxSet b ⊆ nearAlong r epsilon (rboxSet r)) ∧
    (boxSet b ⊆ rboxSet r → containsRB r b false = true) := by
  have h := C67_axis_rotated r.flat (r.boxSeen b) (flat_ordered r)
  have h2 : containsRB r b false = true ↔ boxSet b ⊆ nearAlong r epsilon (rboxSet r) := by
    unfold containsRB
    rw [h.2.1]
    show (∀ y, y ∈ _ → y ∈ _) ↔ ∀ x, x ∈ _ → x ∈ _
    rw [forall_turn hm]
    exact forall_congr' fun x => by rw [boxSeen_mem hm b ho, turn_near hm]
  refine ⟨?_, h2, fun hs => h2.2 fun x hx => ⟨x, hs hx, fun i => by simp [epsilon_pos.le]⟩⟩
  unfold containsRB
  rw [h.1]
  show (∀ y, y ∈ _ → y ∈ _) ↔ ∀ x, x ∈ _ → x ∈ _
  rw [forall_turn hm]
  exact forall_congr' fun x => by rw [boxSeen_mem hm b ho, turn_mem_interior hm]

/-- A rotated box seen in the frame of another. -/
theorem turned_mem (L : Limits) {r s : RBox n} (hr : IsRotation r.orient) (hs : IsRotation s.orient) (x : Fin n → ℝ) :
    turn r x ∈ rboxSet (s.rotatePoint L r.orient.inverse r.corner) ↔ x ∈ rboxSet s := by
  have hp : (s.rotatePoint L r.orient.inverse r.corner).orient.elem = s.orient.elem * r.orient.elemᵀ := by
    show (RotMat.prod L s.orient r.orient.inverse).elem = _
    rw [RotMat.prod_elem hs.orth hr.inverse.orth, RotMat.inverse_elem]
  have hc : (s.rotatePoint L r.orient.inverse r.corner).corner.elem = turn r s.corner.elem := by
    show r.corner.elem + ((s.corner.sub r.corner).rotateM r.orient.inverse).elem = _
    rw [RotMat.rotateM_elem, RotMat.inverse_elem, vecMul_transpose, Pt.sub_elem]; rfl
  have hz : (s.rotatePoint L r.orient.inverse r.corner).size = s.size := rfl
  rw [rboxSet_eq, rboxSet_eq]
  refine exists_congr fun t => and_congr_right fun _ => ?_
  rw [hp, hc, hz, ← vecMul_vecMul, vecMul_transpose]
  have : turn r s.corner.elem + r.orient.elem *ᵥ ((fun i => t i * s.size.elem i) ᵥ* s.orient.elem) =
      turn r (s.corner.elem + (fun i => t i * s.size.elem i) ᵥ* s.orient.elem) := by
    have := turn_sub r (s.corner.elem + (fun i => t i * s.size.elem i) ᵥ* s.orient.elem) s.corner.elem
    rw [add_sub_cancel_left] at this
    rw [← this]; abel
  rw [this]
  exact ⟨turn_inj hr, fun h => by rw [h]⟩

/-- C67, rotated box containing a rotated box. -/
theorem C67_rotated_rotated (L : Limits) (outer inner : RBox n) (ho : IsRotation outer.orient) (hi : IsRotation inner.orient) :
    (containsRR L outer inner true = true ↔ rboxSet inner ⊆ rboxInterior outer) ∧
    (containsRR L outer inner false = true ↔ rboxSet inner ⊆ nearAlong outer epsilon (rboxSet outer)) ∧
    (rboxSet inner ⊆ rboxSet outer → containsRR L outer inner false = true) := by
  have h := C67_axis_rotated outer.flat (inner.rotatePoint L outer.orient.inverse outer.corner) (flat_ordered outer)
  have h2 : containsRR L outer inner false = true ↔ rboxSet inner ⊆ nearAlong outer epsilon (rboxSet outer) := by
    unfold containsRR
    rw [h.2.1]
    show (∀ y, y ∈ _ → y ∈ _) ↔ ∀ x, x ∈ _ → x ∈ _
    rw [forall_turn ho]
    exact forall_congr' fun x => by rw [turned_mem L ho hi, turn_near ho]
  refine ⟨?_, h2, fun hs => h2.2 fun x hx => ⟨x, hs hx, fun i => by simp [epsilon_pos.le]⟩⟩
  unfold containsRR
  rw [h.1]
  show (∀ y, y ∈ _ → y ∈ _) ↔ ∀ x, x ∈ _ → x ∈ _
  rw [forall_turn ho]
  exact forall_congr' fun x => by rw [turned_mem L ho hi, turn_mem_interior ho]

/-! ### C89 rotated boxes against balls and segments -/

/-- C89, rotated box and ball: exactly whether a point of the box is in the ball (the open ball when proper). -/
theorem C89_ball (r : RBox n) (b : Ball n) (hm : IsRotation r.orient) (hr : 0 ≤ b.radius) :
    (interRBall r b false = true ↔ (ballSet b ∩ rboxSet r).Nonempty) ∧
    (interRBall r b true = true ↔ (ballInterior b ∩ rboxSet r).Nonempty) := by
  have h := C55_box (Ball.mk' (r.unrotate b.center) b.radius) r.flat hr (flat_ordered r)
  unfold interRBall
  rw [h.1, h.2]
  constructor
  · show (∃ y, y ∈ _ ∧ y ∈ _) ↔ ∃ x, x ∈ _ ∧ x ∈ _
    rw [exists_turn hm]
    exact exists_congr fun x => by rw [(turn_ball hm b x).1, turn_mem hm]
  · show (∃ y, y ∈ _ ∧ y ∈ _) ↔ ∃ x, x ∈ _ ∧ x ∈ _
    rw [exists_turn hm]
    exact exists_congr fun x => by rw [(turn_ball hm b x).2.1, turn_mem hm]

/-- C89, rotated box containing a ball. -/
theorem C89_contains_ball (r : RBox n) (b : Ball n) (hm : IsRotation r.orient) (hr : 0 ≤ b.radius) :
    (containsRBall r b true = true ↔ ballSet b ⊆ rboxInterior r) ∧
    (containsRBall r b false = true ↔ ballSet b ⊆ nearAlong r epsilon (rboxSet r)) := by
  have h := C55_box_contains r.flat (Ball.mk' (r.unrotate b.center) b.radius) hr
  unfold containsRBall
  rw [h.1, h.2.1 (flat_ordered r)]
  constructor
  · show (∀ y, y ∈ _ → y ∈ _) ↔ ∀ x, x ∈ _ → x ∈ _
    rw [forall_turn hm]
    exact forall_congr' fun x => by rw [(turn_ball hm b x).1, turn_mem_interior hm]
  · show (∀ y, y ∈ _ → y ∈ _) ↔ ∀ x, x ∈ _ → x ∈ _
    rw [forall_turn hm]
    exact forall_congr' fun x => by rw [(turn_ball hm b x).1, turn_near hm]

/-- C89, ball containing a rotated box: inclusion in the ball with radius enlarged by `√(1 + ε)`. -/
theorem C89_ball_contains (r : RBox n) (b : Ball n) (hm : IsRotation r.orient) (hr : 0 ≤ b.radius) :
    (containsBallR b r false = true ↔ rboxSet r ⊆ ballSet (grown b)) ∧
    (containsBallR b r true = true ↔ rboxSet r ⊆ ballInterior (grown b)) := by
  have h := C55_contains_box (Ball.mk' (r.unrotate b.center) b.radius) r.flat hr (flat_ordered r)
  unfold containsBallR
  rw [h.1, h.2]
  constructor
  · show (∀ y, y ∈ _ → y ∈ _) ↔ ∀ x, x ∈ _ → x ∈ _
    rw [forall_turn hm]
    exact forall_congr' fun x => by rw [(turn_ball hm b x).2.2.1, turn_mem hm]
  · show (∀ y, y ∈ _ → y ∈ _) ↔ ∀ x, x ∈ _ → x ∈ _
    rw [forall_turn hm]
    exact forall_congr' fun x => by rw [(turn_ball hm b x).2.2.2, turn_mem hm]

/-- C89, rotated box and segment: the proper test is exact; the tolerant one is true when they share a point, and when true
some point of the segment is within epsilon of the box along each of its directions. -/
theorem C89_segment (r : RBox n) (s : Seg n) (hm : IsRotation r.orient) :
    (interRS r s true = true ↔ (segSet s ∩ rboxInterior r).Nonempty) ∧
    ((segSet s ∩ rboxSet r).Nonempty → interRS r s false = true) ∧
    (interRS r s false = true → (segSet s ∩ nearAlong r epsilon (rboxSet r)).Nonempty) := by
  have h1 := C59_proper ⟨r.unrotate s.p1, r.unrotate s.p2⟩ r.flat (flat_ordered r)
  have h2 := C59_tolerance ⟨r.unrotate s.p1, r.unrotate s.p2⟩ r.flat (flat_ordered r)
  unfold interRS
  refine ⟨?_, fun ⟨x, hx1, hx2⟩ => h2.1 ⟨turn r x, (turn_seg hm s x).2 hx1, (turn_mem hm x).2 hx2⟩, fun h => ?_⟩
  · rw [h1]
    show (∃ y, y ∈ _ ∧ y ∈ _) ↔ ∃ x, x ∈ _ ∧ x ∈ _
    rw [exists_turn hm]
    exact exists_congr fun x => by rw [turn_seg hm, turn_mem_interior hm]
  · obtain ⟨y, hy1, hy2⟩ := h2.2.1 h
    refine ⟨unturn r y, (turn_seg hm s _).1 (by rw [turn_unturn hm]; exact hy1), (turn_near hm _ _).1 (by rw [turn_unturn hm]; exact hy2)⟩

/-- C89, rotated box containing a segment. -/
theorem C89_contains_segment (r : RBox n) (s : Seg n) (hm : IsRotation r.orient) :
    (containsRS r s true = true ↔ segSet s ⊆ rboxInterior r) ∧
    (containsRS r s false = true ↔ segSet s ⊆ nearAlong r epsilon (rboxSet r)) := by
  have h := C63_box r.flat ⟨r.unrotate s.p1, r.unrotate s.p2⟩ (flat_ordered r)
  unfold containsRS
  rw [h.1, h.2.1]
  constructor
  · show (∀ y, y ∈ _ → y ∈ _) ↔ ∀ x, x ∈ _ → x ∈ _
    rw [forall_turn hm]
    exact forall_congr' fun x => by rw [turn_seg hm, turn_mem_interior hm]
  · show (∀ y, y ∈ _ → y ∈ _) ↔ ∀ x, x ∈ _ → x ∈ _
    rw [forall_turn hm]
    exact forall_congr' fun x => by rw [turn_seg hm, turn_near hm]

/-- C89, segment containing a rotated box: true when the segment contains all its points; when the proper test is true, all
its points are within tolerance of the segment. -/
theorem C89_segment_contains (s : Seg n) (r : RBox n) (hm : IsRotation r.orient) :
    (rboxSet r ⊆ segSet s → containsSR s r false = true) ∧
    (containsSR s r true = true →
      ∀ x ∈ rboxSet r, ∃ y ∈ segSet s, eucl x y ≤ Real.sqrt (2 * epsilon) * eucl s.p1.elem s.p2.elem) := by
  unfold containsSR
  constructor
  · intro h
    refine C88_box _ _ (flat_ordered r) fun y hy => ?_
    rw [← turn_unturn hm y] at hy ⊢
    exact (turn_seg hm s _).2 (h ((turn_mem hm _).1 hy))
  · intro h x hx
    obtain ⟨y, hy, hd⟩ := C88_box_proper _ _ (flat_ordered r) h (turn r x) ((turn_mem hm x).2 hx)
    refine ⟨unturn r y, (turn_seg hm s _).1 (by rw [turn_unturn hm]; exact hy), ?_⟩
    simp only [unrotate_elem] at hd
    rw [turn_eucl hm] at hd
    rwa [← turn_eucl hm, turn_unturn hm]

/-! ### Examples -/

/-- A quarter turn in the plane. -/
noncomputable def quarter : RotMat 2 := ⟨!![0, 1; -1, 0], false, true, 1⟩
theorem quarter_isRotation : IsRotation quarter := by
  constructor
  · ext i j; fin_cases i <;> fin_cases j <;> simp [quarter, Matrix.mul_apply, Fin.sum_univ_two]
  · simp [quarter, det_fin_two]

example : interRP (⟨⟨![1, 1], true⟩, ⟨![2, 3], true⟩, quarter⟩ : RBox 2) ⟨![0, 2], true⟩ true = true := by
  refine (C64_point _ _ quarter_isRotation).1.2 ⟨fun i => by fin_cases i <;> simp, ![1 / 2, 1 / 3], fun i => ?_, ?_⟩
  · fin_cases i <;> simp <;> norm_num
  · funext i; fin_cases i <;> simp [quarter, Fin.sum_univ_two] <;> norm_num

/-- The hypotheses of the containment theorems: a unit square inside the turned box. -/
example : containsRB (⟨⟨![1, 1], true⟩, ⟨![2, 3], true⟩, quarter⟩ : RBox 2) ⟨⟨![-1, 1], true⟩, ⟨![0, 2], true⟩⟩ false = true := by
  refine (C67_rotated_axis _ _ quarter_isRotation (fun i => by fin_cases i <;> norm_num)).2.2 fun x hx => ?_
  refine ⟨![(x 1 - 1) / 2, (1 - x 0) / 3], fun i => ?_, ?_⟩
  · have h0 := hx 0; have h1 := hx 1
    simp at h0 h1
    fin_cases i <;> simp <;> constructor <;> linarith
  · funext i; fin_cases i <;> simp [quarter, Fin.sum_univ_two] <;> ring

/-- A ball and a turned box that touch in one point only. -/
example : interRBall (⟨⟨![1, 1], true⟩, ⟨![2, 3], true⟩, quarter⟩ : RBox 2) ⟨⟨![3, 2], true⟩, 2⟩ false = true := by
  refine (C89_ball _ _ quarter_isRotation (by norm_num)).1.2 ⟨![1, 2], ?_, ⟨![1 / 2, 0], fun i => ?_, ?_⟩⟩
  · show eucl ![1, 2] ![3, 2] ≤ 2
    unfold eucl
    rw [Real.sqrt_le_left (by norm_num)]
    simp [Fin.sum_univ_two]; norm_num
  · fin_cases i <;> simp; norm_num
  · funext i; fin_cases i <;> simp [quarter, Fin.sum_univ_two]; norm_num

end WFMath
