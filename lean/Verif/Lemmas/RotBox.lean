/- Lemmas on rotated boxes: the rotation about the corner that makes the box an axis box. -/
import Verif.Props.SegmentPairs
import Verif.Lemmas.RotMatrix

namespace WFMath
open Spec Matrix Gauss
variable {n : Nat}

/-- The rotation about the corner that turns the box `r` into the axis box `r.flat`. -/
noncomputable def turn (r : RBox n) (x : Fin n → ℝ) : Fin n → ℝ := r.corner.elem + r.orient.elem *ᵥ (x - r.corner.elem)
/-- Its inverse. -/
noncomputable def unturn (r : RBox n) (x : Fin n → ℝ) : Fin n → ℝ := r.corner.elem + (x - r.corner.elem) ᵥ* r.orient.elem

theorem unrotate_elem (r : RBox n) (p : Pt n) : (r.unrotate p).elem = turn r p.elem := by
  show r.corner.elem + ((p.sub r.corner).prodInvM r.orient).elem = _
  rw [RotMat.prodInvM_elem, Pt.sub_elem]; rfl

theorem turn_unturn {r : RBox n} (hm : IsRotation r.orient) (x : Fin n → ℝ) : turn r (unturn r x) = x := by
  unfold turn unturn
  rw [add_sub_cancel_left, ← mulVec_transpose, mulVec_mulVec, hm.orth, one_mulVec, add_sub_cancel]

theorem unturn_turn {r : RBox n} (hm : IsRotation r.orient) (x : Fin n → ℝ) : unturn r (turn r x) = x := by
  unfold turn unturn
  rw [add_sub_cancel_left, ← mulVec_transpose, mulVec_mulVec, hm.orth', one_mulVec, add_sub_cancel]

theorem turn_inj {r : RBox n} (hm : IsRotation r.orient) {x y : Fin n → ℝ} (h : turn r x = turn r y) : x = y := by
  rw [← unturn_turn hm x, h, unturn_turn hm]

theorem len_mulVec {m : RotMat n} (hm : IsRotation m) (v : Fin n → ℝ) : len (m.elem *ᵥ v) = len v := by
  have := len_vecMul hm.inverse v
  rwa [RotMat.inverse_elem, vecMul_transpose] at this

theorem turn_sub (r : RBox n) (x y : Fin n → ℝ) : turn r x - turn r y = r.orient.elem *ᵥ (x - y) := by
  unfold turn
  rw [add_sub_add_left_eq_sub, ← mulVec_sub, sub_sub_sub_cancel_right]

theorem turn_eucl {r : RBox n} (hm : IsRotation r.orient) (x y : Fin n → ℝ) : eucl (turn r x) (turn r y) = eucl x y := by
  rw [eucl_eq_len, eucl_eq_len, turn_sub, len_mulVec hm]

theorem turn_affine (r : RBox n) (x y : Fin n → ℝ) (t : ℝ) :
    turn r ((1 - t) • x + t • y) = (1 - t) • turn r x + t • turn r y := by
  unfold turn
  have : (1 - t) • x + t • y - r.corner.elem = (1 - t) • (x - r.corner.elem) + t • (y - r.corner.elem) := by module
  rw [this, mulVec_add, mulVec_smul, mulVec_smul]
  module

/-- The axis box a rotated box is turned into. -/
theorem flat_low (r : RBox n) (i : Fin n) : r.flat.low.elem i = r.corner.elem i + min 0 (r.size.elem i) := by
  show (if r.corner.elem i > r.corner.elem i + r.size.elem i then r.corner.elem i + r.size.elem i else r.corner.elem i) = _
  split_ifs with h
  · rw [min_eq_right (by linarith)]
  · rw [min_eq_left (by linarith), add_zero]
theorem flat_high (r : RBox n) (i : Fin n) : r.flat.high.elem i = r.corner.elem i + max 0 (r.size.elem i) := by
  show (if r.corner.elem i > r.corner.elem i + r.size.elem i then r.corner.elem i else r.corner.elem i + r.size.elem i) = _
  split_ifs with h
  · rw [max_eq_left (by linarith), add_zero]
  · rw [max_eq_right (by linarith)]
theorem flat_ordered (r : RBox n) : Ordered r.flat := fun i => by
  rw [flat_low, flat_high]
  exact add_le_add le_rfl ((min_le_left _ _).trans (le_max_left _ _))

theorem mem_flat (r : RBox n) (y : Fin n → ℝ) :
    y ∈ boxSet r.flat ↔ ∃ t : Fin n → ℝ, (∀ i, 0 ≤ t i ∧ t i ≤ 1) ∧ y = r.corner.elem + fun i => t i * r.size.elem i := by
  constructor
  · intro h
    refine ⟨fun i => if r.size.elem i = 0 then 0 else (y i - r.corner.elem i) / r.size.elem i, fun i => ?_, ?_⟩
    · have := h i
      rw [flat_low, flat_high] at this
      simp only
      split_ifs with hs
      · exact ⟨le_rfl, zero_le_one⟩
      · rcases lt_or_gt_of_ne hs with hs | hs
        · rw [min_eq_right hs.le, max_eq_left hs.le] at this
          exact ⟨div_nonneg_of_nonpos (by linarith) hs.le, by rw [div_le_one_of_neg hs]; linarith⟩
        · rw [min_eq_left hs.le, max_eq_right hs.le] at this
          exact ⟨div_nonneg (by linarith) hs.le, by rw [div_le_one hs]; linarith⟩
    · funext i
      have := h i
      rw [flat_low, flat_high] at this
      simp only [Pi.add_apply]
      split_ifs with hs
      · rw [hs, min_self, max_self] at this
        linarith [this.1, this.2]
      · rw [div_mul_cancel₀ _ hs]; ring
  · rintro ⟨t, ht, rfl⟩ i
    rw [flat_low, flat_high]
    simp only [Pi.add_apply]
    have := ht i
    rcases le_total 0 (r.size.elem i) with hs | hs
    · rw [min_eq_left hs, max_eq_right hs]
      constructor <;> nlinarith
    · rw [min_eq_right hs, max_eq_left hs]
      constructor <;> nlinarith

theorem mem_flat_interior (r : RBox n) (y : Fin n → ℝ) :
    y ∈ boxInterior r.flat ↔ (∀ i, r.size.elem i ≠ 0) ∧
      ∃ t : Fin n → ℝ, (∀ i, 0 < t i ∧ t i < 1) ∧ y = r.corner.elem + fun i => t i * r.size.elem i := by
  constructor
  · intro h
    have hs : ∀ i, r.size.elem i ≠ 0 := fun i hs => by
      have := h i
      rw [flat_low, flat_high, hs, min_self, max_self] at this
      linarith [this.1, this.2]
    refine ⟨hs, fun i => (y i - r.corner.elem i) / r.size.elem i, fun i => ?_, ?_⟩
    · have := h i
      rw [flat_low, flat_high] at this
      rcases lt_or_gt_of_ne (hs i) with hs | hs
      · rw [min_eq_right hs.le, max_eq_left hs.le] at this
        exact ⟨div_pos_of_neg_of_neg (by linarith) hs, by rw [div_lt_one_of_neg hs]; linarith⟩
      · rw [min_eq_left hs.le, max_eq_right hs.le] at this
        exact ⟨div_pos (by linarith) hs, by rw [div_lt_one hs]; linarith⟩
    · funext i
      simp only [Pi.add_apply]
      rw [div_mul_cancel₀ _ (hs i)]; ring
  · rintro ⟨hs, t, ht, rfl⟩ i
    rw [flat_low, flat_high]
    simp only [Pi.add_apply]
    have := ht i
    rcases lt_or_gt_of_ne (hs i) with hs | hs
    · rw [min_eq_right hs.le, max_eq_left hs.le]
      constructor <;> nlinarith
    · rw [min_eq_left hs.le, max_eq_right hs.le]
      constructor <;> nlinarith

theorem turn_eq_iff {r : RBox n} (hm : IsRotation r.orient) (x v : Fin n → ℝ) :
    turn r x = r.corner.elem + v ↔ x = r.corner.elem + v ᵥ* r.orient.elem := by
  constructor
  · intro h
    rw [← unturn_turn hm x, h]
    unfold unturn; rw [add_sub_cancel_left]
  · rintro rfl
    have : r.corner.elem + v ᵥ* r.orient.elem = unturn r (r.corner.elem + v) := by unfold unturn; rw [add_sub_cancel_left]
    rw [this, turn_unturn hm]

/-- The box is turned into its flat axis box. -/
theorem turn_mem {r : RBox n} (hm : IsRotation r.orient) (x : Fin n → ℝ) : turn r x ∈ boxSet r.flat ↔ x ∈ rboxSet r := by
  rw [mem_flat, rboxSet_eq]
  exact exists_congr fun t => and_congr_right fun _ => turn_eq_iff hm _ _
theorem turn_mem_interior {r : RBox n} (hm : IsRotation r.orient) (x : Fin n → ℝ) :
    turn r x ∈ boxInterior r.flat ↔ x ∈ rboxInterior r := by
  rw [mem_flat_interior]
  exact and_congr_right fun _ => exists_congr fun t => and_congr_right fun _ => turn_eq_iff hm _ _

theorem turn_near {r : RBox n} (hm : IsRotation r.orient) (x : Fin n → ℝ) (δ : ℝ) :
    turn r x ∈ near δ (boxSet r.flat) ↔ x ∈ nearAlong r δ (rboxSet r) := by
  have key : ∀ y i, turn r x i - turn r y i = ∑ k, r.orient.elem i k * (x k - y k) := fun y i => by
    have := congrFun (turn_sub r x y) i
    rw [Pi.sub_apply] at this
    rw [this]; rfl
  constructor
  · rintro ⟨y, hy, h⟩
    refine ⟨unturn r y, (turn_mem hm _).1 (by rw [turn_unturn hm]; exact hy), fun i => ?_⟩
    rw [← key, turn_unturn hm]; exact h i
  · rintro ⟨y, hy, h⟩
    exact ⟨turn r y, (turn_mem hm _).2 hy, fun i => by rw [key]; exact h i⟩

/-- A set statement about turned points is one about all points. -/
theorem exists_turn {r : RBox n} (hm : IsRotation r.orient) {P : (Fin n → ℝ) → Prop} : (∃ y, P y) ↔ ∃ x, P (turn r x) :=
  ⟨fun ⟨y, h⟩ => ⟨unturn r y, by rw [turn_unturn hm]; exact h⟩, fun ⟨x, h⟩ => ⟨_, h⟩⟩
theorem forall_turn {r : RBox n} (hm : IsRotation r.orient) {P : (Fin n → ℝ) → Prop} : (∀ y, P y) ↔ ∀ x, P (turn r x) :=
  ⟨fun h x => h _, fun h y => by rw [← turn_unturn hm y]; exact h _⟩

theorem turn_ball {r : RBox n} (hm : IsRotation r.orient) (b : Ball n) (x : Fin n → ℝ) :
    (turn r x ∈ ballSet (Ball.mk' (r.unrotate b.center) b.radius) ↔ x ∈ ballSet b) ∧
    (turn r x ∈ ballInterior (Ball.mk' (r.unrotate b.center) b.radius) ↔ x ∈ ballInterior b) ∧
    (turn r x ∈ ballSet (grown (Ball.mk' (r.unrotate b.center) b.radius)) ↔ x ∈ ballSet (grown b)) ∧
    (turn r x ∈ ballInterior (grown (Ball.mk' (r.unrotate b.center) b.radius)) ↔ x ∈ ballInterior (grown b)) := by
  have hc : (Ball.mk' (r.unrotate b.center) b.radius).center.elem = turn r b.center.elem := by
    rw [← unrotate_elem]; unfold Ball.mk'; simp only; split_ifs <;> rfl
  have hr : (Ball.mk' (r.unrotate b.center) b.radius).radius = b.radius := rfl
  refine ⟨?_, ?_, ?_, ?_⟩
  · show eucl _ _ ≤ _ ↔ eucl _ _ ≤ _
    rw [hc, hr, turn_eucl hm]
  · show eucl _ _ < _ ↔ eucl _ _ < _
    rw [hc, hr, turn_eucl hm]
  · show eucl _ (Ball.mk' (r.unrotate b.center) b.radius).center.elem ≤ Real.sqrt (1 + epsilon) * _ ↔ eucl _ _ ≤ Real.sqrt (1 + epsilon) * _
    rw [hc, hr, turn_eucl hm]; rfl
  · show eucl _ (Ball.mk' (r.unrotate b.center) b.radius).center.elem < Real.sqrt (1 + epsilon) * _ ↔ eucl _ _ < Real.sqrt (1 + epsilon) * _
    rw [hc, hr, turn_eucl hm]; rfl

theorem turn_seg {r : RBox n} (hm : IsRotation r.orient) (s : Seg n) (x : Fin n → ℝ) :
    turn r x ∈ segSet ⟨r.unrotate s.p1, r.unrotate s.p2⟩ ↔ x ∈ segSet s := by
  refine exists_congr fun t => and_congr_right fun _ => and_congr_right fun _ => ?_
  rw [unrotate_elem, unrotate_elem, ← turn_affine]
  exact ⟨turn_inj hm, fun h => by rw [h]⟩

theorem boxSeen_mem {r : RBox n} (hm : IsRotation r.orient) (b : Box n) (ho : Ordered b) (x : Fin n → ℝ) :
    turn r x ∈ rboxSet (r.boxSeen b) ↔ x ∈ boxSet b := by
  have hc : (r.boxSeen b).corner.elem = turn r b.low.elem := by
    show r.corner.elem + ((b.low.sub r.corner).rotateM r.orient.inverse).elem = _
    rw [RotMat.rotateM_elem, RotMat.inverse_elem, vecMul_transpose, Pt.sub_elem]; rfl
  have hs : ∀ i, (r.boxSeen b).size.elem i = b.high.elem i - b.low.elem i := fun i => rfl
  have hor : (r.boxSeen b).orient.elem = r.orient.elemᵀ := RotMat.inverse_elem _
  rw [rboxSet_eq]
  have key : ∀ t : Fin n → ℝ, turn r x = (r.boxSeen b).corner.elem + (fun i => t i * (r.boxSeen b).size.elem i) ᵥ* (r.boxSeen b).orient.elem ↔
      x = b.low.elem + fun i => t i * (b.high.elem i - b.low.elem i) := fun t => by
    rw [hc, hor, vecMul_transpose]
    simp only [hs]
    have : turn r b.low.elem + r.orient.elem *ᵥ (fun i => t i * (b.high.elem i - b.low.elem i)) =
        turn r (b.low.elem + fun i => t i * (b.high.elem i - b.low.elem i)) := by
      have := turn_sub r (b.low.elem + fun i => t i * (b.high.elem i - b.low.elem i)) b.low.elem
      rw [add_sub_cancel_left] at this
      rw [← this]; abel
    rw [this]
    exact ⟨turn_inj hm, fun h => by rw [h]⟩
  constructor
  · rintro ⟨t, ht, h⟩
    rw [(key t).1 h]
    intro i
    have := ht i; have := ho i
    simp only [Pi.add_apply]
    constructor <;> nlinarith
  · intro h
    refine ⟨fun i => if b.high.elem i - b.low.elem i = 0 then 0 else (x i - b.low.elem i) / (b.high.elem i - b.low.elem i),
      fun i => ?_, (key _).2 ?_⟩
    · have := h i
      have ho := ho i
      simp only
      split_ifs with hz
      · exact ⟨le_rfl, zero_le_one⟩
      · have hp : 0 < b.high.elem i - b.low.elem i := lt_of_le_of_ne (by linarith) (Ne.symm hz)
        exact ⟨div_nonneg (by linarith) hp.le, by rw [div_le_one hp]; linarith⟩
    · funext i
      have := h i
      simp only [Pi.add_apply]
      split_ifs with hz
      · linarith [this.1, this.2]
      · rw [div_mul_cancel₀ _ hz]; ring

/-! ### The bounding box -/

theorem bbSums_spec (r : RBox n) (i : Fin n) (l : List (Fin n)) (s : ℝ × ℝ) :
    RBox.bbSums r i l s = (s.1 + (l.map fun j => min 0 (r.orient.elem j i * r.size.elem j)).sum,
      s.2 + (l.map fun j => max 0 (r.orient.elem j i * r.size.elem j)).sum) := by
  induction l generalizing s with
  | nil => simp [RBox.bbSums]
  | cons j l ih =>
    obtain ⟨mn, mx⟩ := s
    rw [RBox.bbSums, ih]
    split_ifs with h
    · rw [List.map_cons, List.map_cons, List.sum_cons, List.sum_cons, min_eq_right h.le, max_eq_left h.le]
      simp only [Prod.mk.injEq]; constructor <;> ring
    · rw [not_lt] at h
      rw [List.map_cons, List.map_cons, List.sum_cons, List.sum_cons, min_eq_left h, max_eq_right h]
      simp only [Prod.mk.injEq]; constructor <;> ring

theorem bb_low (r : RBox n) (i : Fin n) :
    r.boundingBox.low.elem i = r.corner.elem i + ∑ j, min 0 (r.orient.elem j i * r.size.elem j) := by
  show (RBox.bbSums r i (List.finRange n) (r.corner.elem i, r.corner.elem i)).1 = _
  rw [bbSums_spec, Fin.sum_univ_def]
theorem bb_high (r : RBox n) (i : Fin n) :
    r.boundingBox.high.elem i = r.corner.elem i + ∑ j, max 0 (r.orient.elem j i * r.size.elem j) := by
  show (RBox.bbSums r i (List.finRange n) (r.corner.elem i, r.corner.elem i)).2 = _
  rw [bbSums_spec, Fin.sum_univ_def]

theorem bb_ordered (r : RBox n) : Ordered r.boundingBox := fun i => by
  rw [bb_low, bb_high]
  exact add_le_add le_rfl (Finset.sum_le_sum fun j _ => (min_le_left _ _).trans (le_max_left _ _))

theorem mem_bb (r : RBox n) {x : Fin n → ℝ} (h : x ∈ rboxSet r) : x ∈ boxSet r.boundingBox := by
  obtain ⟨t, ht, rfl⟩ := h
  intro i
  rw [bb_low, bb_high]
  constructor
  · refine add_le_add le_rfl (Finset.sum_le_sum fun j _ => ?_)
    have := ht j
    rcases le_total 0 (r.orient.elem j i * r.size.elem j) with hs | hs
    · rw [min_eq_left hs]; nlinarith
    · rw [min_eq_right hs]; nlinarith
  · refine add_le_add le_rfl (Finset.sum_le_sum fun j _ => ?_)
    have := ht j
    rcases le_total 0 (r.orient.elem j i * r.size.elem j) with hs | hs
    · rw [max_eq_right hs]; nlinarith
    · rw [max_eq_left hs]; nlinarith

/-- Every face of the bounding box is touched, at a corner. -/
theorem bb_low_attained (r : RBox n) (i : Fin n) : ∃ t : Fin n → ℝ, (∀ j, t j = 0 ∨ t j = 1) ∧
    r.corner.elem i + ∑ j, t j * r.size.elem j * r.orient.elem j i = r.boundingBox.low.elem i := by
  refine ⟨fun j => if r.orient.elem j i * r.size.elem j < 0 then 1 else 0, fun j => by simp only; split_ifs <;> simp, ?_⟩
  rw [bb_low]
  congr 1
  refine Finset.sum_congr rfl fun j _ => ?_
  simp only
  split_ifs with h
  · rw [min_eq_right h.le]; ring
  · rw [min_eq_left (not_lt.1 h)]; ring
theorem bb_high_attained (r : RBox n) (i : Fin n) : ∃ t : Fin n → ℝ, (∀ j, t j = 0 ∨ t j = 1) ∧
    r.corner.elem i + ∑ j, t j * r.size.elem j * r.orient.elem j i = r.boundingBox.high.elem i := by
  refine ⟨fun j => if r.orient.elem j i * r.size.elem j < 0 then 0 else 1, fun j => by simp only; split_ifs <;> simp, ?_⟩
  rw [bb_high]
  congr 1
  refine Finset.sum_congr rfl fun j _ => ?_
  simp only
  split_ifs with h
  · rw [max_eq_left h.le]; ring
  · rw [max_eq_right (not_lt.1 h)]; ring

theorem corner01 {t : Fin n → ℝ} (h : ∀ j, t j = 0 ∨ t j = 1) (j : Fin n) : 0 ≤ t j ∧ t j ≤ 1 := by
  rcases h j with h | h <;> rw [h] <;> norm_num

end WFMath
