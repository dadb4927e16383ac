/- Property theorems C66: the separating axis test of a rotated box against a box. -/
import Verif.Lemmas.Separating
import Verif.Props.RotBox

namespace WFMath
open Spec Matrix Gauss
variable {n : Nat}

/-! ### Points of the boxes by parameters -/

theorem abs_elem_le_one {m : RotMat n} (hm : IsRotation m) (i j : Fin n) : |m.elem i j| ≤ 1 := by
  have h : (m.elem * m.elemᵀ) i i = 1 := by rw [hm.orth]; simp
  rw [Matrix.mul_apply] at h
  simp only [transpose_apply] at h
  have h2 : m.elem i j * m.elem i j ≤ ∑ k, m.elem i k * m.elem i k :=
    Finset.single_le_sum (f := fun k => m.elem i k * m.elem i k) (fun k _ => mul_self_nonneg _) (Finset.mem_univ j)
  rw [h] at h2
  exact abs_le_one_iff_mul_self_le_one.2 h2

/-- The point of a rotated box with parameters `t`. -/
noncomputable def rAt (r : RBox n) (t : Fin n → ℝ) : Fin n → ℝ := r.corner.elem + (fun i => t i * r.size.elem i) ᵥ* r.orient.elem
/-- The point of a box with parameters `t`. -/
noncomputable def bAt (b : Box n) (t : Fin n → ℝ) : Fin n → ℝ := fun i => b.low.elem i + t i * (b.high.elem i - b.low.elem i)

theorem turn_rAt {r : RBox n} (hm : IsRotation r.orient) (t : Fin n → ℝ) : turn r (rAt r t) = r.corner.elem + fun i => t i * r.size.elem i :=
  (turn_eq_iff hm _ _).2 rfl
theorem rAt_flat {r : RBox n} (hm : IsRotation r.orient) {t : Fin n → ℝ} (ht : ∀ i, 0 ≤ t i ∧ t i ≤ 1) (k : Fin n) :
    turn r (rAt r t) k ∈ Set.Icc (r.flat.low.elem k) (r.flat.high.elem k) :=
  (mem_flat r _).2 ⟨t, ht, turn_rAt hm t⟩ k
theorem rAt_flat_open {r : RBox n} (hm : IsRotation r.orient) (hs : ∀ i, r.size.elem i ≠ 0) {t : Fin n → ℝ} (ht : ∀ i, 0 < t i ∧ t i < 1)
    (k : Fin n) : turn r (rAt r t) k ∈ Set.Ioo (r.flat.low.elem k) (r.flat.high.elem k) :=
  (mem_flat_interior r _).2 ⟨hs, t, ht, turn_rAt hm t⟩ k
theorem rAt_apply (r : RBox n) (t : Fin n → ℝ) (j : Fin n) :
    rAt r t j = r.corner.elem j + ∑ k, t k * (r.orient.elem k j * r.size.elem k) := by
  show _ + ∑ k, (t k * r.size.elem k) * r.orient.elem k j = _
  congr 1
  exact Finset.sum_congr rfl fun k _ => by ring
theorem bAt_mem {b : Box n} (ho : Ordered b) {t : Fin n → ℝ} (ht : ∀ i, 0 ≤ t i ∧ t i ≤ 1) (j : Fin n) :
    b.low.elem j ≤ bAt b t j ∧ bAt b t j ≤ b.high.elem j := by
  have := ht j; have := ho j
  unfold bAt
  constructor <;> nlinarith
theorem bAt_open {b : Box n} (ho : Solid b) {t : Fin n → ℝ} (ht : ∀ i, 0 < t i ∧ t i < 1) (j : Fin n) :
    b.low.elem j < bAt b t j ∧ bAt b t j < b.high.elem j := by
  have := ht j; have := ho j
  unfold bAt
  constructor <;> nlinarith
theorem exists_bAt {b : Box n} (ho : Ordered b) {x : Fin n → ℝ} (hx : x ∈ boxSet b) : ∃ t : Fin n → ℝ, (∀ i, 0 ≤ t i ∧ t i ≤ 1) ∧ x = bAt b t := by
  refine ⟨fun i => if b.high.elem i - b.low.elem i = 0 then 0 else (x i - b.low.elem i) / (b.high.elem i - b.low.elem i), fun i => ?_, ?_⟩
  · have := hx i
    have ho := ho i
    simp only
    split_ifs with hz
    · exact ⟨le_rfl, zero_le_one⟩
    · have hp : 0 < b.high.elem i - b.low.elem i := lt_of_le_of_ne (by linarith) (Ne.symm hz)
      exact ⟨div_nonneg (by linarith) hp.le, by rw [div_le_one hp]; linarith⟩
  · funext i
    have := hx i
    unfold bAt
    simp only
    split_ifs with hz
    · linarith [this.1, this.2]
    · rw [div_mul_cancel₀ _ hz]; ring
theorem exists_bAt_open {b : Box n} (ho : Solid b) {x : Fin n → ℝ} (hx : x ∈ boxInterior b) :
    ∃ t : Fin n → ℝ, (∀ i, 0 < t i ∧ t i < 1) ∧ x = bAt b t := by
  refine ⟨fun i => (x i - b.low.elem i) / (b.high.elem i - b.low.elem i), fun i => ?_, ?_⟩
  · have := hx i
    have hp := sub_pos.2 (ho i)
    exact ⟨div_pos (by linarith) hp, by rw [div_lt_one hp]; linarith⟩
  · funext i
    unfold bAt
    rw [div_mul_cancel₀ _ (sub_pos.2 (ho i)).ne']; ring

theorem turn_bAt (r : RBox n) (b : Box n) (t : Fin n → ℝ) (k : Fin n) :
    turn r (bAt b t) k = turn r b.low.elem k + ∑ j, t j * (r.orient.elem k j * (b.high.elem j - b.low.elem j)) := by
  have h : bAt b t = b.low.elem + fun i => t i * (b.high.elem i - b.low.elem i) := rfl
  rw [h, turn_add]
  show _ + ∑ j, r.orient.elem k j * (t j * (b.high.elem j - b.low.elem j)) = _
  congr 1
  exact Finset.sum_congr rfl fun j _ => by ring

theorem boxSeen_low (r : RBox n) (b : Box n) (k : Fin n) : (r.boxSeen b).boundingBox.low.elem k =
    turn r b.low.elem k + ∑ j, min 0 (r.orient.elem k j * (b.high.elem j - b.low.elem j)) := by
  have hc : (r.boxSeen b).corner.elem = turn r b.low.elem := by
    show r.corner.elem + ((b.low.sub r.corner).rotateM r.orient.inverse).elem = _
    rw [RotMat.rotateM_elem, RotMat.inverse_elem, vecMul_transpose, Pt.sub_elem]; rfl
  have hor : (r.boxSeen b).orient.elem = r.orient.elemᵀ := RotMat.inverse_elem _
  rw [bb_low, hc, hor]; rfl
theorem boxSeen_high (r : RBox n) (b : Box n) (k : Fin n) : (r.boxSeen b).boundingBox.high.elem k =
    turn r b.low.elem k + ∑ j, max 0 (r.orient.elem k j * (b.high.elem j - b.low.elem j)) := by
  have hc : (r.boxSeen b).corner.elem = turn r b.low.elem := by
    show r.corner.elem + ((b.low.sub r.corner).rotateM r.orient.inverse).elem = _
    rw [RotMat.rotateM_elem, RotMat.inverse_elem, vecMul_transpose, Pt.sub_elem]; rfl
  have hor : (r.boxSeen b).orient.elem = r.orient.elemᵀ := RotMat.inverse_elem _
  rw [bb_high, hc, hor]; rfl

/-! ### The face normals -/

theorem face_r {r : RBox n} (hm : IsRotation r.orient) {b : Box n} (h : interBB r.boundingBox b false = true) (j : Fin n) :
    ∃ x : Fin n → ℝ, (∀ k, turn r x k ∈ Set.Icc (r.flat.low.elem k) (r.flat.high.elem k)) ∧
      b.low.elem j - epsilon ≤ x j ∧ (b.low.elem j ≤ b.high.elem j → x j ≤ b.high.elem j + epsilon) := by
  have hj := interBB_false.1 h j
  rw [bb_low, bb_high] at hj
  have hs := sums_le fun k => r.orient.elem k j * r.size.elem k
  have he := epsilon_pos
  obtain ⟨t, ht, hv⟩ := proj_closed (fun k => r.orient.elem k j * r.size.elem k)
    (y := max (∑ k, min 0 (r.orient.elem k j * r.size.elem k)) (b.low.elem j - epsilon - r.corner.elem j)) (le_max_left _ _)
    (max_le hs (by linarith [hj.2]))
  refine ⟨rAt r t, rAt_flat hm ht, ?_, fun ho => ?_⟩
  · rw [rAt_apply, hv]; linarith [le_max_right (∑ k, min 0 (r.orient.elem k j * r.size.elem k)) (b.low.elem j - epsilon - r.corner.elem j)]
  · rw [rAt_apply, hv]
    have : max (∑ k, min 0 (r.orient.elem k j * r.size.elem k)) (b.low.elem j - epsilon - r.corner.elem j) ≤
        b.high.elem j + epsilon - r.corner.elem j := max_le (by linarith [hj.1]) (by linarith)
    linarith

theorem face_b {r : RBox n} (hm : IsRotation r.orient) {b : Box n} (ho : Ordered b)
    (h : interBB (r.boxSeen b).boundingBox r.flat false = true) (k : Fin n) :
    ∃ x : Fin n → ℝ, (∀ j, b.low.elem j - epsilon ≤ x j ∧ x j ≤ b.high.elem j + epsilon) ∧
      turn r x k ∈ Set.Icc (r.flat.low.elem k) (r.flat.high.elem k) := by
  have hk := interBB_false.1 h k
  rw [boxSeen_low, boxSeen_high] at hk
  have hs := sums_le fun j => r.orient.elem k j * (b.high.elem j - b.low.elem j)
  have he := epsilon_pos
  have hf := flat_ordered r k
  set c := turn r b.low.elem k
  set L := ∑ j, min 0 (r.orient.elem k j * (b.high.elem j - b.low.elem j))
  set H := ∑ j, max 0 (r.orient.elem k j * (b.high.elem j - b.low.elem j))
  obtain ⟨t, ht, hv⟩ := proj_closed (fun j => r.orient.elem k j * (b.high.elem j - b.low.elem j))
    (y := max L (r.flat.low.elem k - epsilon - c)) (le_max_left _ _) (max_le hs (by linarith [hk.2]))
  have hx : turn r (bAt b t) k = c + max L (r.flat.low.elem k - epsilon - c) := by rw [turn_bAt, hv]
  set y := c + max L (r.flat.low.elem k - epsilon - c) with hy
  have hy1 : r.flat.low.elem k - epsilon ≤ y := by rw [hy]; linarith [le_max_right L (r.flat.low.elem k - epsilon - c)]
  have hy2 : y ≤ r.flat.high.elem k + epsilon := by
    have : max L (r.flat.low.elem k - epsilon - c) ≤ r.flat.high.elem k + epsilon - c := max_le (by linarith [hk.1]) (by linarith)
    rw [hy]; linarith
  -- move into the slab
  obtain ⟨s, hs1, hs2⟩ : ∃ s : ℝ, |s| ≤ epsilon ∧ y + s ∈ Set.Icc (r.flat.low.elem k) (r.flat.high.elem k) := by
    rcases lt_or_ge y (r.flat.low.elem k) with h1 | h1
    · exact ⟨r.flat.low.elem k - y, by rw [abs_le]; constructor <;> linarith, by linarith, by linarith⟩
    · rcases lt_or_ge (r.flat.high.elem k) y with h2 | h2
      · exact ⟨r.flat.high.elem k - y, by rw [abs_le]; constructor <;> linarith, by linarith, by linarith⟩
      · exact ⟨0, by rw [abs_zero]; exact he.le, by rw [add_zero]; exact h1, by rw [add_zero]; exact h2⟩
  refine ⟨bAt b t + s • r.orient.elem k, fun j => ?_, ?_⟩
  · have h1 := bAt_mem ho ht j
    have h2 : |s * r.orient.elem k j| ≤ epsilon := by
      rw [abs_mul]
      calc |s| * |r.orient.elem k j| ≤ epsilon * 1 := mul_le_mul hs1 (abs_elem_le_one hm k j) (abs_nonneg _) he.le
        _ = epsilon := mul_one _
    have h3 := abs_le.1 h2
    simp only [Pi.add_apply, Pi.smul_apply, smul_eq_mul]
    constructor <;> linarith
  · rw [turn_add, mulVec_smul, mulVec_row hm]
    simp only [Pi.add_apply, Pi.smul_apply, Pi.single_eq_same, smul_eq_mul, mul_one]
    rw [hx]; exact hs2

theorem face_r_open {r : RBox n} (hm : IsRotation r.orient) (hs : ∀ i, r.size.elem i ≠ 0) {b : Box n} (hb : Solid b)
    (h : interBB r.boundingBox b true = true) (j : Fin n) :
    ∃ x : Fin n → ℝ, (∀ k, turn r x k ∈ Set.Ioo (r.flat.low.elem k) (r.flat.high.elem k)) ∧
      x j ∈ Set.Ioo (b.low.elem j) (b.high.elem j) := by
  have hj := interBB_true.1 h j
  rw [bb_low, bb_high] at hj
  have hv : ∃ k, r.orient.elem k j * r.size.elem k ≠ 0 := by
    by_contra hc
    push Not at hc
    have h1 : (r.orient.elemᵀ * r.orient.elem) j j = 1 := by rw [hm.orth']; simp
    rw [Matrix.mul_apply] at h1
    rw [Finset.sum_eq_zero] at h1
    · norm_num at h1
    · intro k _
      rcases mul_eq_zero.1 (hc k) with h2 | h2
      · rw [h2, mul_zero]
      · exact absurd h2 (hs k)
  have hlt := sums_lt hv
  have hbj := hb j
  set L := ∑ k, min 0 (r.orient.elem k j * r.size.elem k)
  set H := ∑ k, max 0 (r.orient.elem k j * r.size.elem k)
  set c := r.corner.elem j
  obtain ⟨y, hy1, hy2⟩ : ∃ y, max L (b.low.elem j - c) < y ∧ y < min H (b.high.elem j - c) :=
    _root_.exists_between (max_lt (lt_min hlt (by linarith [hj.1])) (lt_min (by linarith [hj.2]) (by linarith)))
  obtain ⟨t, ht, hv⟩ := proj_open (fun k => r.orient.elem k j * r.size.elem k) (lt_of_le_of_lt (le_max_left _ _) hy1)
    (lt_of_lt_of_le hy2 (min_le_left _ _))
  refine ⟨rAt r t, rAt_flat_open hm hs ht, ?_, ?_⟩
  · rw [rAt_apply, hv]; linarith [lt_of_le_of_lt (le_max_right _ _) hy1]
  · rw [rAt_apply, hv]; linarith [lt_of_lt_of_le hy2 (min_le_right _ _)]

theorem face_b_open {r : RBox n} (hm : IsRotation r.orient) (hs : ∀ i, r.size.elem i ≠ 0) {b : Box n} (hb : Solid b)
    (h : interBB (r.boxSeen b).boundingBox r.flat true = true) (k : Fin n) :
    ∃ x : Fin n → ℝ, (∀ j, x j ∈ Set.Ioo (b.low.elem j) (b.high.elem j)) ∧
      turn r x k ∈ Set.Ioo (r.flat.low.elem k) (r.flat.high.elem k) := by
  have hk := interBB_true.1 h k
  rw [boxSeen_low, boxSeen_high] at hk
  have hv : ∃ j, r.orient.elem k j * (b.high.elem j - b.low.elem j) ≠ 0 := by
    by_contra hc
    push Not at hc
    have h1 : (r.orient.elem * r.orient.elemᵀ) k k = 1 := by rw [hm.orth]; simp
    rw [Matrix.mul_apply] at h1
    rw [Finset.sum_eq_zero] at h1
    · norm_num at h1
    · intro j _
      rcases mul_eq_zero.1 (hc j) with h2 | h2
      · rw [h2, zero_mul]
      · exact absurd h2 (sub_pos.2 (hb j)).ne'
  have hlt := sums_lt hv
  have hf : r.flat.low.elem k < r.flat.high.elem k := by
    rw [flat_low, flat_high]
    rcases lt_or_gt_of_ne (hs k) with h1 | h1
    · rw [min_eq_right h1.le, max_eq_left h1.le]; linarith
    · rw [min_eq_left h1.le, max_eq_right h1.le]; linarith
  set L := ∑ j, min 0 (r.orient.elem k j * (b.high.elem j - b.low.elem j))
  set H := ∑ j, max 0 (r.orient.elem k j * (b.high.elem j - b.low.elem j))
  set c := turn r b.low.elem k
  obtain ⟨y, hy1, hy2⟩ : ∃ y, max L (r.flat.low.elem k - c) < y ∧ y < min H (r.flat.high.elem k - c) :=
    _root_.exists_between (max_lt (lt_min hlt (by linarith [hk.1])) (lt_min (by linarith [hk.2]) (by linarith)))
  obtain ⟨t, ht, hv⟩ := proj_open (fun j => r.orient.elem k j * (b.high.elem j - b.low.elem j)) (lt_of_le_of_lt (le_max_left _ _) hy1)
    (lt_of_lt_of_le hy2 (min_le_left _ _))
  refine ⟨bAt b t, bAt_open hb ht, ?_, ?_⟩
  · rw [turn_bAt, hv]; linarith [lt_of_le_of_lt (le_max_right _ _) hy1]
  · rw [turn_bAt, hv]; linarith [lt_of_lt_of_le hy2 (min_le_right _ _)]

/-- A common point passes the tests along the face normals. -/
theorem faces_pass {r : RBox n} (hm : IsRotation r.orient) {b : Box n} (ho : Ordered b) {x : Fin n → ℝ} (h1 : x ∈ boxSet b) (h2 : x ∈ rboxSet r) :
    interBB r.boundingBox b false = true ∧ interBB (r.boxSeen b).boundingBox r.flat false = true := by
  have he := epsilon_pos
  constructor
  · refine interBB_false.2 fun i => ?_
    have := mem_bb r h2 i; have := h1 i
    constructor <;> linarith
  · refine interBB_false.2 fun i => ?_
    have := mem_bb _ ((boxSeen_mem hm b ho x).2 h1) i
    have := (turn_mem hm x).2 h2 i
    constructor <;> linarith

/-- A common inner point passes the proper tests along the face normals. -/
theorem faces_pass_open {r : RBox n} (hm : IsRotation r.orient) {b : Box n} (hb : Solid b) {x : Fin n → ℝ} (h1 : x ∈ boxInterior b)
    (h2 : x ∈ rboxInterior r) :
    interBB r.boundingBox b true = true ∧ interBB (r.boxSeen b).boundingBox r.flat true = true := by
  have w1 : x ∈ boxSet b := fun i => ⟨(h1 i).1.le, (h1 i).2.le⟩
  have w2 : x ∈ rboxSet r := by
    obtain ⟨-, t, ht, hx⟩ := h2
    exact ⟨t, fun i => ⟨(ht i).1.le, (ht i).2.le⟩, hx⟩
  constructor
  · refine interBB_true.2 fun i => ?_
    have := mem_bb r w2 i; have := h1 i
    constructor <;> linarith
  · refine interBB_true.2 fun i => ?_
    have := mem_bb _ ((boxSeen_mem hm b (fun i => (hb i).le) x).2 w1) i
    have := (turn_mem_interior hm x).2 h2 i
    constructor <;> linarith

/-- A point in the enlarged slabs is near the box. -/
theorem near_of_slabs {b : Box n} (ho : Ordered b) {δ : ℝ} (hδ : 0 ≤ δ) {x : Fin n → ℝ}
    (h : ∀ j, x j ∈ Set.Icc (b.low.elem j - δ) (b.high.elem j + δ)) : x ∈ near δ (boxSet b) :=
  (mem_near_box ho hδ).2 h

/-! ### C66 in the plane -/

/-- C66 in the plane: boxes that share a point are reported, boxes that are reported share a point up to epsilon in each coordinate, and the
proper test tells exactly whether the interiors meet. -/
theorem C66_plane (r : RBox 2) (b : Box 2) (hm : IsRotation r.orient) (ho : Ordered b) :
    ((boxSet b ∩ rboxSet r).Nonempty → interRB2 r b false = true) ∧
    (interRB2 r b false = true → (near epsilon (boxSet b) ∩ rboxSet r).Nonempty) ∧
    (Solid b → (∀ i, r.size.elem i ≠ 0) → (interRB2 r b true = true ↔ (boxInterior b ∩ rboxInterior r).Nonempty)) := by
  have split : ∀ p, interRB2 r b p = true ↔ interBB r.boundingBox b p = true ∧ interBB (r.boxSeen b).boundingBox r.flat p = true := fun p => by
    unfold interRB2
    cases interBB r.boundingBox b p <;> simp
  refine ⟨?_, ?_, ?_⟩
  · rintro ⟨x, h1, h2⟩
    exact (split _).2 (faces_pass hm ho h1 h2)
  · intro h
    obtain ⟨h1, h2⟩ := (split _).1 h
    obtain ⟨x, hx, hy⟩ := sat2 (r := r) (I := fun j => Set.Icc (b.low.elem j - epsilon) (b.high.elem j + epsilon))
      (J := fun k => Set.Icc (r.flat.low.elem k) (r.flat.high.elem k)) (fun j => convex_Icc _ _) (fun k => convex_Icc _ _)
      (fun k => face_b hm ho h2 k) (fun j => by
        obtain ⟨x, hx1, hx2, hx3⟩ := face_r hm h1 j
        exact ⟨x, hx1, hx2, hx3 (ho j)⟩)
    exact ⟨x, near_of_slabs ho epsilon_pos.le hx, (turn_mem hm x).1 hy⟩
  · intro hb hs
    constructor
    · intro h
      obtain ⟨h1, h2⟩ := (split _).1 h
      obtain ⟨x, hx, hy⟩ := sat2 (r := r) (I := fun j => Set.Ioo (b.low.elem j) (b.high.elem j))
        (J := fun k => Set.Ioo (r.flat.low.elem k) (r.flat.high.elem k)) (fun j => convex_Ioo _ _) (fun k => convex_Ioo _ _)
        (face_b_open hm hs hb h2) (face_r_open hm hs hb h1)
      exact ⟨x, hx, (turn_mem_interior hm x).1 hy⟩
    · rintro ⟨x, h1, h2⟩
      exact (split _).2 (faces_pass_open hm hb h1 h2)

/-! ### The cross products -/

theorem satSums_eq (v w : ℝ) : satSums v w = (min 0 v + min 0 w, max 0 v + max 0 w) := by
  unfold satSums
  split_ifs with h1 h2 h2 <;> simp only [not_lt, gt_iff_lt] at h1 h2 <;> simp only [Prod.mk.injEq]
  · rw [min_eq_left h1.le, min_eq_left h2.le, max_eq_right h1.le, max_eq_right h2.le]; constructor <;> ring
  · rw [min_eq_left h1.le, min_eq_right h2, max_eq_right h1.le, max_eq_left h2]; constructor <;> ring
  · rw [min_eq_right h1, min_eq_left h2.le, max_eq_left h1, max_eq_right h2.le]; constructor <;> ring
  · rw [min_eq_right h1, min_eq_right h2, max_eq_left h1, max_eq_left h2]; constructor <;> ring

/-- The contributions of the edges of the two boxes to the extent along a normal, and the offset, as computed. -/
noncomputable def bPart (r : RBox 3) (b : Box 3) (i j : Fin 3) (a : Fin 3) : ℝ :=
  (satAxis r.orient i j).elem a * (b.high.elem a - b.low.elem a)
noncomputable def rPart (r : RBox 3) (i j : Fin 3) (k : Fin 3) : ℝ := (r.orient.row k).dot (satAxis r.orient i j) * r.size.elem k
noncomputable def sepPart (r : RBox 3) (b : Box 3) (i j : Fin 3) : ℝ := (b.low.sub r.corner).dot (satAxis r.orient i j)

theorem satStep_eq (r : RBox 3) (b : Box 3) (p : Bool) (i j : Fin 3) :
    satStep r b p i j = if (satAxis r.orient i j).sqrMag < epsilon * epsilon then none else
      some (!(greater ((∑ k, min 0 (rPart r i j k)) - sepPart r b i j) (∑ a, max 0 (bPart r b i j a)) p ||
        less ((∑ k, max 0 (rPart r i j k)) - sepPart r b i j) (∑ a, min 0 (bPart r b i j a)) p)) := by
  have hb0 : bPart r b i j j = 0 := by unfold bPart; rw [(satAxis_elem r.orient i j).1, zero_mul]
  have hr0 : rPart r i j i = 0 := by
    unfold rPart
    rw [Vec.dot_of_exact_zero (u := r.orient.row i) (satAxis_perp r.orient i j), zero_mul]
  have two : ∀ j : Fin 3, j + 1 + 1 = j + 2 := by decide
  unfold satStep
  simp only [satSums_eq, two]
  rw [sum3 (fun k => min 0 (rPart r i j k)) i, sum3 (fun k => max 0 (rPart r i j k)) i, sum3 (fun k => min 0 (bPart r b i j k)) j,
    sum3 (fun k => max 0 (bPart r b i j k)) j, hb0, hr0, min_self, max_self]
  simp only [zero_add]
  rfl

theorem satStep_false {r : RBox 3} {b : Box 3} {i j : Fin 3} : satStep r b false i j = some true ↔
    ¬ (satAxis r.orient i j).sqrMag < epsilon * epsilon ∧
      (∑ k, min 0 (rPart r i j k)) - sepPart r b i j ≤ (∑ a, max 0 (bPart r b i j a)) + epsilon ∧
      (∑ a, min 0 (bPart r b i j a)) ≤ (∑ k, max 0 (rPart r i j k)) - sepPart r b i j + epsilon := by
  rw [satStep_eq]
  split_ifs with h
  · simp [h]
  · rw [Option.some.injEq, not_or_bool, greater_false, less_false, not_lt, not_lt]
    exact ⟨fun h' => ⟨h, h'⟩, fun h' => h'.2⟩
theorem satStep_true {r : RBox 3} {b : Box 3} {i j : Fin 3} : satStep r b true i j = some true ↔
    ¬ (satAxis r.orient i j).sqrMag < epsilon * epsilon ∧
      (∑ k, min 0 (rPart r i j k)) - sepPart r b i j < ∑ a, max 0 (bPart r b i j a) ∧
      (∑ a, min 0 (bPart r b i j a)) < (∑ k, max 0 (rPart r i j k)) - sepPart r b i j := by
  rw [satStep_eq]
  split_ifs with h
  · simp [h]
  · rw [Option.some.injEq, not_or_bool, greater_true, less_true, not_le, not_le]
    exact ⟨fun h' => ⟨h, h'⟩, fun h' => h'.2⟩

/-- The loop: true unless some normal separates before the first vanishing one. -/
theorem satLoop_true {r : RBox 3} {b : Box 3} {p : Bool} : ∀ {l : List (Fin 3 × Fin 3)}, satLoop r b p l = true →
    (∃ q ∈ l, satStep r b p q.1 q.2 = none) ∨ ∀ q ∈ l, satStep r b p q.1 q.2 = some true
  | [], _ => .inr (by simp)
  | (i, j) :: ps, h => by
    rw [satLoop] at h
    match hs : satStep r b p i j with
    | none => exact .inl ⟨(i, j), by simp, hs⟩
    | some false => rw [hs] at h; simp at h
    | some true =>
      rw [hs] at h
      rcases satLoop_true h with ⟨q, hq, h'⟩ | h'
      · exact .inl ⟨q, by simp [hq], h'⟩
      · refine .inr fun q hq => ?_
        rcases List.mem_cons.1 hq with rfl | hq
        · exact hs
        · exact h' q hq
theorem satLoop_of {r : RBox 3} {b : Box 3} {p : Bool} : ∀ {l : List (Fin 3 × Fin 3)}, (∀ q ∈ l, satStep r b p q.1 q.2 ≠ some false) →
    satLoop r b p l = true
  | [], _ => rfl
  | (i, j) :: ps, h => by
    rw [satLoop]
    match hs : satStep r b p i j with
    | none => rfl
    | some false => exact absurd hs (h (i, j) (by simp))
    | some true => exact satLoop_of fun q hq => h q (by simp [hq])

theorem mem_satPairs (i j : Fin 3) : (i, j) ∈ satPairs := by revert i j; decide

theorem interRB3_iff (r : RBox 3) (b : Box 3) (p : Bool) : interRB3 r b p = true ↔ interBB r.boundingBox b p = true ∧
    interBB (r.boxSeen b).boundingBox r.flat p = true ∧ satLoop r b p satPairs = true := by
  unfold interRB3
  cases interBB r.boundingBox b p <;> cases interBB (r.boxSeen b).boundingBox r.flat p <;> simp

/-- The exact extents. -/
theorem dot_bAt (r : RBox 3) (b : Box 3) (i j : Fin 3) (t : Fin 3 → ℝ) :
    (satAxis r.orient i j).elem ⬝ᵥ (bAt b t - r.corner.elem) =
      (b.low.sub r.corner).elem ⬝ᵥ (satAxis r.orient i j).elem + ∑ a, t a * bPart r b i j a := by
  unfold bPart bAt dotProduct
  rw [← Finset.sum_add_distrib]
  refine Finset.sum_congr rfl fun a _ => ?_
  rw [Pt.sub_elem]
  simp only [Pi.sub_apply]; ring
theorem dot_rAt (r : RBox 3) (a t : Fin 3 → ℝ) :
    a ⬝ᵥ (rAt r t - r.corner.elem) = ∑ k, t k * (r.orient.elem k ⬝ᵥ a * r.size.elem k) := by
  have h : rAt r t - r.corner.elem = (fun i => t i * r.size.elem i) ᵥ* r.orient.elem := by unfold rAt; rw [add_sub_cancel_left]
  rw [h, dotProduct_comm, ← dotProduct_mulVec]
  unfold dotProduct mulVec dotProduct
  exact Finset.sum_congr rfl fun k _ => by ring

theorem min_close (d e s : ℝ) : |min 0 (d * s) - min 0 (e * s)| ≤ |d - e| * |s| := by
  have := abs_min_sub_min_le_max 0 (d * s) 0 (e * s)
  rw [sub_self, abs_zero, max_eq_right (a := (0 : ℝ)) (b := |d * s - e * s|) (abs_nonneg _), ← sub_mul, abs_mul] at this
  exact this
theorem max_close (d e s : ℝ) : |max 0 (d * s) - max 0 (e * s)| ≤ |d - e| * |s| := by
  have := abs_max_sub_max_le_max 0 (d * s) 0 (e * s)
  rw [sub_self, abs_zero, max_eq_right (a := (0 : ℝ)) (b := |d * s - e * s|) (abs_nonneg _), ← sub_mul, abs_mul] at this
  exact this

/-- How far the inner products computed for a normal are from the exact ones, weighted by the sizes. -/
noncomputable def satErr (r : RBox 3) (b : Box 3) (i j : Fin 3) : ℝ :=
  |(b.low.sub r.corner).dot (satAxis r.orient i j) - (b.low.sub r.corner).elem ⬝ᵥ (satAxis r.orient i j).elem| +
    ∑ k, |(r.orient.row k).dot (satAxis r.orient i j) - r.orient.elem k ⬝ᵥ (satAxis r.orient i j).elem| * |r.size.elem k|

/-- A normal that does not separate: points of the two boxes that are level up to the tolerance. -/
theorem step_points {r : RBox 3} (hm : IsRotation r.orient) {b : Box 3} (ho : Ordered b) {i j : Fin 3}
    (h : satStep r b false i j = some true) :
    ∃ x y : Fin 3 → ℝ, (∀ a, b.low.elem a ≤ x a ∧ x a ≤ b.high.elem a) ∧
      (∀ k, turn r y k ∈ Set.Icc (r.flat.low.elem k) (r.flat.high.elem k)) ∧
      |(satAxis r.orient i j).elem ⬝ᵥ (y - x)| ≤ epsilon + satErr r b i j := by
  obtain ⟨-, h1, h2⟩ := satStep_false.1 h
  have he := epsilon_pos
  -- replace the computed inner products
  have eL : |(∑ k, min 0 (rPart r i j k)) - ∑ k, min 0 (r.orient.elem k ⬝ᵥ (satAxis r.orient i j).elem * r.size.elem k)| ≤
      ∑ k, |(r.orient.row k).dot (satAxis r.orient i j) - r.orient.elem k ⬝ᵥ (satAxis r.orient i j).elem| * |r.size.elem k| := by
    rw [← Finset.sum_sub_distrib]
    exact (Finset.abs_sum_le_sum_abs _ _).trans (Finset.sum_le_sum fun k _ => min_close _ _ _)
  have eH : |(∑ k, max 0 (rPart r i j k)) - ∑ k, max 0 (r.orient.elem k ⬝ᵥ (satAxis r.orient i j).elem * r.size.elem k)| ≤
      ∑ k, |(r.orient.row k).dot (satAxis r.orient i j) - r.orient.elem k ⬝ᵥ (satAxis r.orient i j).elem| * |r.size.elem k| := by
    rw [← Finset.sum_sub_distrib]
    exact (Finset.abs_sum_le_sum_abs _ _).trans (Finset.sum_le_sum fun k _ => max_close _ _ _)
  have eS := le_refl |sepPart r b i j - (b.low.sub r.corner).elem ⬝ᵥ (satAxis r.orient i j).elem|
  have sb := sums_le (bPart r b i j)
  have sr := sums_le fun k => r.orient.elem k ⬝ᵥ (satAxis r.orient i j).elem * r.size.elem k
  have hE : satErr r b i j = |sepPart r b i j - (b.low.sub r.corner).elem ⬝ᵥ (satAxis r.orient i j).elem| +
    ∑ k, |(r.orient.row k).dot (satAxis r.orient i j) - r.orient.elem k ⬝ᵥ (satAxis r.orient i j).elem| * |r.size.elem k| := rfl
  have hEn : 0 ≤ satErr r b i j := by
    rw [hE]; exact add_nonneg (abs_nonneg _) (Finset.sum_nonneg fun k _ => mul_nonneg (abs_nonneg _) (abs_nonneg _))
  have key : ∃ u v, (∑ a, min 0 (bPart r b i j a)) ≤ u ∧ u ≤ (∑ a, max 0 (bPart r b i j a)) ∧
      (∑ k, min 0 (r.orient.elem k ⬝ᵥ (satAxis r.orient i j).elem * r.size.elem k)) ≤ v ∧
      v ≤ (∑ k, max 0 (r.orient.elem k ⬝ᵥ (satAxis r.orient i j).elem * r.size.elem k)) ∧
      |v - ((b.low.sub r.corner).elem ⬝ᵥ (satAxis r.orient i j).elem + u)| ≤ epsilon + satErr r b i j := by
    have a1 := abs_le.1 eL; have a2 := abs_le.1 eH; have a3 := abs_le.1 eS
    rw [hE] at hEn ⊢
    generalize (∑ k, |(r.orient.row k).dot (satAxis r.orient i j) - r.orient.elem k ⬝ᵥ (satAxis r.orient i j).elem| * |r.size.elem k|) = E1 at *
    generalize |sepPart r b i j - (b.low.sub r.corner).elem ⬝ᵥ (satAxis r.orient i j).elem| = E2 at *
    generalize (∑ k, min 0 (r.orient.elem k ⬝ᵥ (satAxis r.orient i j).elem * r.size.elem k)) = LR at *
    generalize (∑ k, max 0 (r.orient.elem k ⬝ᵥ (satAxis r.orient i j).elem * r.size.elem k)) = HR at *
    generalize (∑ k, min 0 (rPart r i j k)) = LR' at *
    generalize (∑ k, max 0 (rPart r i j k)) = HR' at *
    generalize (∑ a, min 0 (bPart r b i j a)) = LB at *
    generalize (∑ a, max 0 (bPart r b i j a)) = HB at *
    generalize (b.low.sub r.corner).elem ⬝ᵥ (satAxis r.orient i j).elem = D at *
    generalize sepPart r b i j = D' at *
    -- intervals [D + LB, D + HB] and [LR, HR]
    by_cases c1 : HR < D + LB
    · exact ⟨LB, HR, le_rfl, sb, sr, le_rfl, by rw [abs_le]; constructor <;> linarith⟩
    · by_cases c2 : D + HB < LR
      · exact ⟨HB, LR, sb, le_rfl, le_rfl, sr, by rw [abs_le]; constructor <;> linarith⟩
      · rw [not_lt] at c1 c2
        rcases le_total (D + LB) LR with c3 | c3
        · exact ⟨LR - D, LR, by linarith, by linarith, le_rfl, sr, by rw [show LR - (D + (LR - D)) = 0 by ring, abs_zero]; linarith⟩
        · exact ⟨LB, D + LB, le_rfl, sb, c3, c1, by rw [sub_self, abs_zero]; linarith⟩
  obtain ⟨u, v, u1, u2, v1, v2, huv⟩ := key
  obtain ⟨t, ht, hv⟩ := proj_closed _ u1 u2
  obtain ⟨t', ht', hv'⟩ := proj_closed _ v1 v2
  refine ⟨bAt b t, rAt r t', bAt_mem ho ht, rAt_flat hm ht', ?_⟩
  have : rAt r t' - bAt b t = (rAt r t' - r.corner.elem) - (bAt b t - r.corner.elem) := by abel
  rw [this, dotProduct_sub, dot_rAt, dot_bAt, hv, hv']
  exact huv

/-- Moving the point of the box along the normal until the points are level. -/
theorem level_points {a x y : Fin 3 → ℝ} {c η : ℝ} (hc : 0 < c) (ha : c ^ 2 ≤ a ⬝ᵥ a) (h : |a ⬝ᵥ (y - x)| ≤ η) :
    ∃ x' : Fin 3 → ℝ, (∀ k, |x' k - x k| ≤ η / c) ∧ a ⬝ᵥ (x' - y) = 0 := by
  have hpos : 0 < a ⬝ᵥ a := lt_of_lt_of_le (by positivity) ha
  refine ⟨x + (a ⬝ᵥ (y - x) / (a ⬝ᵥ a)) • a, fun k => ?_, ?_⟩
  · simp only [Pi.add_apply, Pi.smul_apply, smul_eq_mul, add_sub_cancel_left]
    rw [abs_mul, abs_div, abs_of_pos hpos, div_mul_eq_mul_div, div_le_div_iff₀ hpos hc]
    have hk : a k * a k ≤ a ⬝ᵥ a := Finset.single_le_sum (f := fun k => a k * a k) (fun k _ => mul_self_nonneg _) (Finset.mem_univ k)
    have hη : 0 ≤ η := (abs_nonneg _).trans h
    have hkc : |a k| * c ≤ a ⬝ᵥ a := by
      have h1 : (|a k| * c) ^ 2 ≤ (a ⬝ᵥ a) ^ 2 := by
        rw [mul_pow, sq_abs, sq (a k), sq (a ⬝ᵥ a)]
        exact mul_le_mul hk ha (sq_nonneg _) hpos.le
      exact abs_le_of_sq_le_sq' h1 hpos.le |>.2
    calc |a ⬝ᵥ (y - x)| * |a k| * c = |a ⬝ᵥ (y - x)| * (|a k| * c) := by ring
      _ ≤ η * (a ⬝ᵥ a) := mul_le_mul h hkc (mul_nonneg (abs_nonneg _) hc.le) hη
  · have : x + (a ⬝ᵥ (y - x) / (a ⬝ᵥ a)) • a - y = (a ⬝ᵥ (y - x) / (a ⬝ᵥ a)) • a - (y - x) := by abel
    rw [this, dotProduct_sub, dotProduct_smul, smul_eq_mul, div_mul_cancel₀ _ hpos.ne', sub_self]

/-! ### C66 in space -/

/-- The bound of the error of the inner products: 2 epsilon times one plus the sizes. -/
theorem satErr_le {r : RBox 3} (hm : IsRotation r.orient) (b : Box 3) (i j : Fin 3) :
    satErr r b i j ≤ 2 * epsilon * (1 + ∑ k, |r.size.elem k|) := by
  have he := epsilon_pos
  have hA : maxAbs (satAxis r.orient i j).elem ≤ 1 := by
    refine maxAbs_le zero_le_one fun k => ?_
    obtain ⟨h0, h1, h2⟩ := satAxis_elem r.orient i j
    rcases fin3_cases j k with rfl | rfl | rfl
    · rw [h0, abs_zero]; exact zero_le_one
    · rw [h1, abs_neg]; exact abs_elem_le_one hm _ _
    · rw [h2]; exact abs_elem_le_one hm _ _
  have hd : ∀ u : Vec 3, |u.dot (satAxis r.orient i j) - u.elem ⬝ᵥ (satAxis r.orient i j).elem| ≤ 2 * epsilon := fun u => by
    refine (Vec.dot_err _ _).trans ?_
    calc 2 * epsilon * min (maxAbs u.elem) (maxAbs (satAxis r.orient i j).elem) ≤ 2 * epsilon * 1 :=
          mul_le_mul_of_nonneg_left ((min_le_right _ _).trans hA) (by linarith)
      _ = 2 * epsilon := mul_one _
  unfold satErr
  rw [mul_add, mul_one, Finset.mul_sum]
  exact add_le_add (hd _) (Finset.sum_le_sum fun k _ => mul_le_mul_of_nonneg_right (hd (r.orient.row k)) (abs_nonneg _))

theorem space_near {r : RBox 3} (hm : IsRotation r.orient) {b : Box 3} (ho : Ordered b) {c η : ℝ} (hc : epsilon ≤ c) (hc1 : c ≤ 1) (hη : epsilon ≤ η)
    (hax : ∀ i j, (satAxis r.orient i j).elem = 0 ∨ c ^ 2 ≤ (satAxis r.orient i j).elem ⬝ᵥ (satAxis r.orient i j).elem)
    (herr : ∀ i j, epsilon + satErr r b i j ≤ η)
    (h : interRB3 r b false = true) : (near (η / c) (boxSet b) ∩ rboxSet r).Nonempty := by
  obtain ⟨h1, h2, h3⟩ := (interRB3_iff _ _ _).1 h
  have he := epsilon_pos
  have hc0 : 0 < c := lt_of_lt_of_le he hc
  have hδ : epsilon ≤ η / c := by
    rw [le_div_iff₀ hc0]
    calc epsilon * c ≤ epsilon * 1 := mul_le_mul_of_nonneg_left hc1 he.le
      _ ≤ η := by rw [mul_one]; exact hη
  have F1 : ∀ k, ∃ x : Fin 3 → ℝ, (∀ j, x j ∈ Set.Icc (b.low.elem j - η / c) (b.high.elem j + η / c)) ∧
      turn r x k ∈ Set.Icc (r.flat.low.elem k) (r.flat.high.elem k) := fun k => by
    obtain ⟨x, hx, hy⟩ := face_b hm ho h2 k
    exact ⟨x, fun j => ⟨by linarith [(hx j).1], by linarith [(hx j).2]⟩, hy⟩
  have F2 : ∀ j, ∃ x : Fin 3 → ℝ, (∀ k, turn r x k ∈ Set.Icc (r.flat.low.elem k) (r.flat.high.elem k)) ∧
      x j ∈ Set.Icc (b.low.elem j - η / c) (b.high.elem j + η / c) := fun j => by
    obtain ⟨x, hx1, hx2, hx3⟩ := face_r hm h1 j
    exact ⟨x, hx1, by linarith, by linarith [hx3 (ho j)]⟩
  have fin : ∀ x : Fin 3 → ℝ, (∀ j, x j ∈ Set.Icc (b.low.elem j - η / c) (b.high.elem j + η / c)) →
      (∀ k, turn r x k ∈ Set.Icc (r.flat.low.elem k) (r.flat.high.elem k)) → (near (η / c) (boxSet b) ∩ rboxSet r).Nonempty :=
    fun x hx hy => ⟨x, near_of_slabs ho (he.le.trans hδ) hx, (turn_mem hm x).1 hy⟩
  rcases satLoop_true h3 with ⟨q, -, hq⟩ | hall
  · have hz : (satAxis r.orient q.1 q.2).elem = 0 := by
      rw [satStep_eq] at hq
      split_ifs at hq with hs
      rcases hax q.1 q.2 with h0 | h0
      · exact h0
      · exfalso
        rw [Vec.sqrMag_eq] at hs
        have : epsilon * epsilon ≤ c ^ 2 := by rw [sq]; exact mul_le_mul hc hc he.le hc0.le
        linarith
    obtain ⟨x, hx, hy⟩ := sat_parallel hm (fun j => convex_Icc _ _) (fun k => convex_Icc _ _) F1 F2 hz
    exact fin x hx hy
  · obtain ⟨x, hx, hy⟩ := sat3 hm (fun j => convex_Icc _ _) (fun k => convex_Icc _ _) F1 F2 (fun i j hn => by
      obtain ⟨x, y, hx, hy, hxy⟩ := step_points hm ho (hall (i, j) (mem_satPairs i j))
      obtain ⟨x', hx', hlev⟩ := level_points hc0 ((hax i j).resolve_left hn) (hxy.trans (herr i j))
      refine ⟨x', y, fun a => ?_, hy, hlev⟩
      have := abs_le.1 (hx' a)
      have := hx a
      constructor <;> linarith)
    exact fin x hx hy

/-- The length of the normal tried for two edges is the sine of the angle between them. -/
theorem satAxis_sq {m : RotMat 3} (hm : IsRotation m) (i j : Fin 3) :
    (satAxis m i j).elem ⬝ᵥ (satAxis m i j).elem = 1 - m.elem i j ^ 2 := by
  have h : (m.elem * m.elemᵀ) i i = 1 := by rw [hm.orth]; simp
  rw [Matrix.mul_apply] at h
  simp only [transpose_apply] at h
  rw [sum3 (fun k => m.elem i k * m.elem i k) j] at h
  obtain ⟨h0, h1, h2⟩ := satAxis_elem m i j
  show (∑ k : Fin 3, (satAxis m i j).elem k * (satAxis m i j).elem k) = _
  rw [sum3 (fun k => (satAxis m i j).elem k * (satAxis m i j).elem k) j, h0, h1, h2]
  linarith
theorem axes_of_cos {m : RotMat 3} (hm : IsRotation m) {c : ℝ} (h : ∀ i j, m.elem i j ^ 2 = 1 ∨ m.elem i j ^ 2 ≤ 1 - c ^ 2) (i j : Fin 3) :
    (satAxis m i j).elem = 0 ∨ c ^ 2 ≤ (satAxis m i j).elem ⬝ᵥ (satAxis m i j).elem := by
  rw [satAxis_sq hm]
  rcases h i j with h | h
  · left
    exact dotProduct_self_eq_zero.1 (by rw [satAxis_sq hm, h, sub_self])
  · right; linarith

/-- The inner products used by the test are returned exactly (none is flushed to 0 by the cut-off). -/
def SatExact (r : RBox 3) (b : Box 3) : Prop := ∀ i j, DotExact (b.low.sub r.corner) (satAxis r.orient i j) ∧
  ∀ k, DotExact (r.orient.row k) (satAxis r.orient i j)

theorem satErr_zero {r : RBox 3} {b : Box 3} (h : SatExact r b) (i j : Fin 3) : satErr r b i j = 0 := by
  unfold satErr
  have h1 : (b.low.sub r.corner).dot (satAxis r.orient i j) = _ := (h i j).1
  have h2 : ∀ k, (r.orient.row k).dot (satAxis r.orient i j) = r.orient.elem k ⬝ᵥ (satAxis r.orient i j).elem := (h i j).2
  rw [h1, sub_self, abs_zero, zero_add]
  exact Finset.sum_eq_zero fun k _ => by rw [h2, sub_self, abs_zero, zero_mul]

/-- C66 in space, boxes that share a point are reported. -/
theorem C66_shared (r : RBox 3) (b : Box 3) (hm : IsRotation r.orient) (ho : Ordered b) (hd : SatExact r b)
    (h : (boxSet b ∩ rboxSet r).Nonempty) : interRB3 r b false = true := by
  obtain ⟨x, h1, h2⟩ := h
  obtain ⟨f1, f2⟩ := faces_pass hm ho h1 h2
  refine (interRB3_iff _ _ _).2 ⟨f1, f2, satLoop_of fun q _ hq => ?_⟩
  obtain ⟨i, j⟩ := q
  obtain ⟨t, ht, rfl⟩ := exists_bAt ho h1
  rw [rboxSet_eq] at h2
  obtain ⟨t', ht', h2⟩ := h2
  have hx : bAt b t = rAt r t' := h2
  have e1 := dot_bAt r b i j t
  rw [hx, dot_rAt] at e1
  have p1 := proj_bounds (bPart r b i j) t ht
  have p2 := proj_bounds (fun k => r.orient.elem k ⬝ᵥ (satAxis r.orient i j).elem * r.size.elem k) t' ht'
  have hr : rPart r i j = fun k => r.orient.elem k ⬝ᵥ (satAxis r.orient i j).elem * r.size.elem k := by
    funext k
    unfold rPart
    rw [(hd i j).2 k]; rfl
  have hs : sepPart r b i j = (b.low.sub r.corner).elem ⬝ᵥ (satAxis r.orient i j).elem := (hd i j).1
  have he := epsilon_pos
  have hyes : satStep r b false i j = none ∨ satStep r b false i j = some true := by
    by_cases hsm : (satAxis r.orient i j).sqrMag < epsilon * epsilon
    · left; rw [satStep_eq, if_pos hsm]
    · right
      refine satStep_false.2 ⟨hsm, ?_, ?_⟩ <;> rw [hr, hs] <;> linarith
  rcases hyes with h' | h' <;> rw [h'] at hq <;> simp at hq

/-- C66 in space, boxes that are reported share a point up to epsilon over the length of the shortest normal in each coordinate; the hypothesis
says that no edge of the rotated box is nearly, but not exactly, parallel to an axis (`orient i j` is the cosine of the angle of edge `i` and
axis `j`). -/
theorem C66_reported_partial (r : RBox 3) (b : Box 3) (hm : IsRotation r.orient) (ho : Ordered b) (hd : SatExact r b) (c : ℝ) (hc : epsilon ≤ c) (hc1 : c ≤ 1)
    (hax : ∀ i j, r.orient.elem i j ^ 2 = 1 ∨ r.orient.elem i j ^ 2 ≤ 1 - c ^ 2)
    (h : interRB3 r b false = true) : (near (epsilon / c) (boxSet b) ∩ rboxSet r).Nonempty :=
  space_near hm ho hc hc1 le_rfl (axes_of_cos hm hax) (fun i j => by rw [satErr_zero hd, add_zero]) h

/-- C66 in space, the same whatever the cut-off does: the sizes of the rotated box come into the bound. -/
theorem C66_reported_any_partial (r : RBox 3) (b : Box 3) (hm : IsRotation r.orient) (ho : Ordered b) (c : ℝ) (hc : epsilon ≤ c) (hc1 : c ≤ 1)
    (hax : ∀ i j, r.orient.elem i j ^ 2 = 1 ∨ r.orient.elem i j ^ 2 ≤ 1 - c ^ 2)
    (h : interRB3 r b false = true) :
    (near (epsilon * (3 + 2 * ∑ k, |r.size.elem k|) / c) (boxSet b) ∩ rboxSet r).Nonempty := by
  have he := epsilon_pos
  have hs : 0 ≤ ∑ k, |r.size.elem k| := Finset.sum_nonneg fun k _ => abs_nonneg _
  refine space_near hm ho hc hc1 ?_ (axes_of_cos hm hax) (fun i j => ?_) h
  · nlinarith
  · have := satErr_le hm b i j
    nlinarith

/-- C66 in space, the proper test tells exactly whether the interiors meet. -/
theorem C66_proper_partial (r : RBox 3) (b : Box 3) (hm : IsRotation r.orient) (hb : Solid b) (hs : ∀ i, r.size.elem i ≠ 0) (hd : SatExact r b)
    (hax : ∀ i j, r.orient.elem i j ^ 2 = 1 ∨ r.orient.elem i j ^ 2 ≤ 1 - epsilon ^ 2) :
    interRB3 r b true = true ↔ (boxInterior b ∩ rboxInterior r).Nonempty := by
  replace hax := axes_of_cos hm hax
  have he := epsilon_pos
  have hr : ∀ i j, rPart r i j = fun k => r.orient.elem k ⬝ᵥ (satAxis r.orient i j).elem * r.size.elem k := fun i j => by
    funext k
    unfold rPart
    rw [(hd i j).2 k]; rfl
  have hsep : ∀ i j, sepPart r b i j = (b.low.sub r.corner).elem ⬝ᵥ (satAxis r.orient i j).elem := fun i j => (hd i j).1
  have hbn : ∀ i j, (satAxis r.orient i j).elem ≠ 0 → ∃ a, bPart r b i j a ≠ 0 := fun i j hn => by
    obtain ⟨a, ha⟩ := Function.ne_iff.1 hn
    exact ⟨a, mul_ne_zero ha (sub_pos.2 (hb a)).ne'⟩
  have hrn : ∀ i j, (satAxis r.orient i j).elem ≠ 0 →
      ∃ k, r.orient.elem k ⬝ᵥ (satAxis r.orient i j).elem * r.size.elem k ≠ 0 := fun i j hn => by
    by_contra hc
    push Not at hc
    refine hn ?_
    have hz : r.orient.elem *ᵥ (satAxis r.orient i j).elem = 0 := by
      funext k
      exact (mul_eq_zero.1 (hc k)).resolve_right (hs k)
    have := congrArg (fun v => r.orient.elemᵀ *ᵥ v) hz
    simpa [mulVec_mulVec, hm.orth'] using this
  constructor
  · intro h
    obtain ⟨h1, h2, h3⟩ := (interRB3_iff _ _ _).1 h
    have F1 := face_b_open hm hs hb h2
    have F2 := face_r_open hm hs hb h1
    rcases satLoop_true h3 with ⟨q, -, hq⟩ | hall
    · have hz : (satAxis r.orient q.1 q.2).elem = 0 := by
        rw [satStep_eq] at hq
        split_ifs at hq with hsm
        rcases hax q.1 q.2 with h0 | h0
        · exact h0
        · exfalso
          rw [Vec.sqrMag_eq, ← sq] at hsm
          linarith
      obtain ⟨x, hx, hy⟩ := sat_parallel (I := fun j => Set.Ioo (b.low.elem j) (b.high.elem j))
        (J := fun k => Set.Ioo (r.flat.low.elem k) (r.flat.high.elem k)) hm (fun j => convex_Ioo _ _) (fun k => convex_Ioo _ _) F1 F2 hz
      exact ⟨x, hx, (turn_mem_interior hm x).1 hy⟩
    · obtain ⟨x, hx, hy⟩ := sat3 (I := fun j => Set.Ioo (b.low.elem j) (b.high.elem j))
        (J := fun k => Set.Ioo (r.flat.low.elem k) (r.flat.high.elem k)) hm (fun j => convex_Ioo _ _) (fun k => convex_Ioo _ _) F1 F2
        (fun i j hn => by
          obtain ⟨-, g1, g2⟩ := satStep_true.1 (hall (i, j) (mem_satPairs i j))
          simp only [hr, hsep] at g1 g2
          have s1 := sums_lt (hbn i j hn)
          have s2 := sums_lt (hrn i j hn)
          obtain ⟨v, hv1, hv2⟩ : ∃ v, max ((b.low.sub r.corner).elem ⬝ᵥ (satAxis r.orient i j).elem + ∑ a, min 0 (bPart r b i j a))
              (∑ k, min 0 (r.orient.elem k ⬝ᵥ (satAxis r.orient i j).elem * r.size.elem k)) < v ∧
              v < min ((b.low.sub r.corner).elem ⬝ᵥ (satAxis r.orient i j).elem + ∑ a, max 0 (bPart r b i j a))
              (∑ k, max 0 (r.orient.elem k ⬝ᵥ (satAxis r.orient i j).elem * r.size.elem k)) :=
            _root_.exists_between (max_lt (lt_min (by linarith) (by linarith)) (lt_min (by linarith) s2))
          rw [max_lt_iff] at hv1
          rw [lt_min_iff] at hv2
          obtain ⟨t, ht, et⟩ := proj_open (bPart r b i j) (y := v - (b.low.sub r.corner).elem ⬝ᵥ (satAxis r.orient i j).elem)
            (by linarith [hv1.1]) (by linarith [hv2.1])
          obtain ⟨t', ht', et'⟩ := proj_open _ hv1.2 hv2.2
          refine ⟨bAt b t, rAt r t', bAt_open hb ht, rAt_flat_open hm hs ht', ?_⟩
          have : bAt b t - rAt r t' = (bAt b t - r.corner.elem) - (rAt r t' - r.corner.elem) := by abel
          rw [this, dotProduct_sub, dot_rAt, dot_bAt, et, et']; ring)
      exact ⟨x, hx, (turn_mem_interior hm x).1 hy⟩
  · rintro ⟨x, h1, h2⟩
    obtain ⟨f1, f2⟩ := faces_pass_open hm hb h1 h2
    refine (interRB3_iff _ _ _).2 ⟨f1, f2, satLoop_of fun q _ hq => ?_⟩
    obtain ⟨i, j⟩ := q
    obtain ⟨t, ht, rfl⟩ := exists_bAt_open hb h1
    obtain ⟨-, t', ht', h2⟩ := h2
    have hx : bAt b t = rAt r t' := by
      rw [h2]; funext k; rw [rAt_apply]
      congr 1
      exact Finset.sum_congr rfl fun a _ => by ring
    have hyes : satStep r b true i j = none ∨ satStep r b true i j = some true := by
      by_cases hsm : (satAxis r.orient i j).sqrMag < epsilon * epsilon
      · left; rw [satStep_eq, if_pos hsm]
      · right
        have hn : (satAxis r.orient i j).elem ≠ 0 := fun h0 => hsm (by rw [Vec.sqrMag_eq, h0, dotProduct_zero]; positivity)
        have e1 := dot_bAt r b i j t
        rw [hx, dot_rAt] at e1
        have p1 := proj_bounds_strict (bPart r b i j) t ht (hbn i j hn)
        have p2 := proj_bounds_strict (fun k => r.orient.elem k ⬝ᵥ (satAxis r.orient i j).elem * r.size.elem k) t' ht' (hrn i j hn)
        refine satStep_true.2 ⟨hsm, ?_, ?_⟩ <;> rw [hr, hsep] <;> linarith
    rcases hyes with h' | h' <;> rw [h'] at hq <;> simp at hq

/-! ### Two rotated boxes -/

theorem turned_elem (L : Limits) {r s : RBox n} (hr : IsRotation r.orient) (hs : IsRotation s.orient) :
    (s.rotatePoint L r.orient.inverse r.corner).orient.elem = s.orient.elem * r.orient.elemᵀ := by
  show (RotMat.prod L s.orient r.orient.inverse).elem = _
  rw [RotMat.prod_elem hs.orth hr.inverse.orth, RotMat.inverse_elem]
theorem turned_rotation (L : Limits) {r s : RBox n} (hr : IsRotation r.orient) (hs : IsRotation s.orient) :
    IsRotation (s.rotatePoint L r.orient.inverse r.corner).orient := IsRotation.prod hs hr.inverse
theorem turned_mem_interior (L : Limits) {r s : RBox n} (hr : IsRotation r.orient) (hs : IsRotation s.orient) (x : Fin n → ℝ) :
    turn r x ∈ rboxInterior (s.rotatePoint L r.orient.inverse r.corner) ↔ x ∈ rboxInterior s := by
  have hz : (s.rotatePoint L r.orient.inverse r.corner).size = s.size := rfl
  have hc : (s.rotatePoint L r.orient.inverse r.corner).corner.elem = turn r s.corner.elem := by
    show r.corner.elem + ((s.corner.sub r.corner).rotateM r.orient.inverse).elem = _
    rw [RotMat.rotateM_elem, RotMat.inverse_elem, vecMul_transpose, Pt.sub_elem]; rfl
  refine and_congr (by rw [hz]) (exists_congr fun t => and_congr_right fun _ => ?_)
  have e1 : (fun k => (s.rotatePoint L r.orient.inverse r.corner).corner.elem k +
      ∑ i, t i * (s.rotatePoint L r.orient.inverse r.corner).size.elem i * (s.rotatePoint L r.orient.inverse r.corner).orient.elem i k) =
      (s.rotatePoint L r.orient.inverse r.corner).corner.elem +
        (fun i => t i * s.size.elem i) ᵥ* (s.rotatePoint L r.orient.inverse r.corner).orient.elem := rfl
  have e2 : (fun k => s.corner.elem k + ∑ i, t i * s.size.elem i * s.orient.elem i k) =
      s.corner.elem + (fun i => t i * s.size.elem i) ᵥ* s.orient.elem := rfl
  rw [e1, e2, turned_elem L hr hs, hc, ← vecMul_vecMul, vecMul_transpose]
  have : turn r s.corner.elem + r.orient.elem *ᵥ ((fun i => t i * s.size.elem i) ᵥ* s.orient.elem) =
      turn r (s.corner.elem + (fun i => t i * s.size.elem i) ᵥ* s.orient.elem) := by
    have := turn_sub r (s.corner.elem + (fun i => t i * s.size.elem i) ᵥ* s.orient.elem) s.corner.elem
    rw [add_sub_cancel_left] at this
    rw [← this]; abel
  rw [this]
  exact ⟨turn_inj hr, fun h => by rw [h]⟩

theorem flat_solid {r : RBox n} (h : ∀ i, r.size.elem i ≠ 0) : Solid r.flat := fun i => by
  rw [flat_low, flat_high]
  rcases lt_or_gt_of_ne (h i) with h | h
  · rw [min_eq_right h.le, max_eq_left h.le]; linarith
  · rw [min_eq_left h.le, max_eq_right h.le]; linarith

/-- What a test of the turned box against the straightened one says about the two boxes. -/
theorem share_iff (L : Limits) {r1 r2 : RBox n} (h1 : IsRotation r1.orient) (h2 : IsRotation r2.orient) :
    ((boxSet r2.flat ∩ rboxSet (r1.rotatePoint L r2.orient.inverse r2.corner)).Nonempty ↔ (rboxSet r2 ∩ rboxSet r1).Nonempty) ∧
    (∀ δ, (near δ (boxSet r2.flat) ∩ rboxSet (r1.rotatePoint L r2.orient.inverse r2.corner)).Nonempty ↔
      (nearAlong r2 δ (rboxSet r2) ∩ rboxSet r1).Nonempty) ∧
    ((boxInterior r2.flat ∩ rboxInterior (r1.rotatePoint L r2.orient.inverse r2.corner)).Nonempty ↔
      (rboxInterior r2 ∩ rboxInterior r1).Nonempty) := by
  refine ⟨?_, fun δ => ?_, ?_⟩
  · show (∃ y, _ ∧ _) ↔ ∃ x, _ ∧ _
    rw [exists_turn h2]
    exact exists_congr fun x => and_congr (turn_mem h2 x) (turned_mem L h2 h1 x)
  · show (∃ y, _ ∧ _) ↔ ∃ x, _ ∧ _
    rw [exists_turn h2]
    exact exists_congr fun x => and_congr (turn_near h2 x δ) (turned_mem L h2 h1 x)
  · show (∃ y, _ ∧ _) ↔ ∃ x, _ ∧ _
    rw [exists_turn h2]
    exact exists_congr fun x => and_congr (turn_mem_interior h2 x) (turned_mem_interior L h2 h1 x)

/-- C66 for two rotated boxes in the plane. -/
theorem C66_plane_rotated (L : Limits) (r1 r2 : RBox 2) (h1 : IsRotation r1.orient) (h2 : IsRotation r2.orient) :
    ((rboxSet r2 ∩ rboxSet r1).Nonempty → interRR2 L r1 r2 false = true) ∧
    (interRR2 L r1 r2 false = true → (nearAlong r2 epsilon (rboxSet r2) ∩ rboxSet r1).Nonempty) ∧
    ((∀ i, r1.size.elem i ≠ 0) → (∀ i, r2.size.elem i ≠ 0) →
      (interRR2 L r1 r2 true = true ↔ (rboxInterior r2 ∩ rboxInterior r1).Nonempty)) := by
  obtain ⟨a, b, c⟩ := C66_plane _ _ (turned_rotation L h2 h1) (flat_ordered r2)
  obtain ⟨s1, s2, s3⟩ := share_iff L h1 h2
  exact ⟨fun h => a (s1.2 h), fun h => (s2 _).1 (b h), fun z1 z2 => (c (flat_solid z2) z1).trans s3⟩

/-- C66 for two rotated boxes in space: the hypotheses are those of the test of a rotated box against a box, for the first box seen in the
frame of the second; the sum is the cosine of the angle of edge `i` of the first and edge `j` of the second box. -/
theorem C66_space_rotated_partial (L : Limits) (r1 r2 : RBox 3) (h1 : IsRotation r1.orient) (h2 : IsRotation r2.orient)
    (hd : SatExact (r1.rotatePoint L r2.orient.inverse r2.corner) r2.flat) :
    ((rboxSet r2 ∩ rboxSet r1).Nonempty → interRR3 L r1 r2 false = true) ∧
    (∀ c, epsilon ≤ c → c ≤ 1 → (∀ i j, (∑ k, r1.orient.elem i k * r2.orient.elem j k) ^ 2 = 1 ∨
        (∑ k, r1.orient.elem i k * r2.orient.elem j k) ^ 2 ≤ 1 - c ^ 2) →
      interRR3 L r1 r2 false = true → (nearAlong r2 (epsilon / c) (rboxSet r2) ∩ rboxSet r1).Nonempty) ∧
    ((∀ i j, (∑ k, r1.orient.elem i k * r2.orient.elem j k) ^ 2 = 1 ∨
        (∑ k, r1.orient.elem i k * r2.orient.elem j k) ^ 2 ≤ 1 - epsilon ^ 2) →
      (∀ i, r1.size.elem i ≠ 0) → (∀ i, r2.size.elem i ≠ 0) →
      (interRR3 L r1 r2 true = true ↔ (rboxInterior r2 ∩ rboxInterior r1).Nonempty)) := by
  obtain ⟨s1, s2, s3⟩ := share_iff L h1 h2
  have hcos : ∀ i j, (r1.rotatePoint L r2.orient.inverse r2.corner).orient.elem i j = ∑ k, r1.orient.elem i k * r2.orient.elem j k :=
    fun i j => by rw [turned_elem L h2 h1]; rfl
  refine ⟨fun h => C66_shared _ _ (turned_rotation L h2 h1) (flat_ordered r2) hd (s1.2 h), fun c hc hc1 hax h => ?_, fun hax z1 z2 => ?_⟩
  · exact (s2 _).1 (C66_reported_partial _ _ (turned_rotation L h2 h1) (flat_ordered r2) hd c hc hc1 (fun i j => by rw [hcos]; exact hax i j) h)
  · exact (C66_proper_partial _ _ (turned_rotation L h2 h1) (flat_solid z2) z1 hd (fun i j => by rw [hcos]; exact hax i j)).trans s3

/-! ### Nearly parallel edges -/

/-- A turn by less than epsilon. -/
noncomputable def slightly : RotMat 3 :=
  let u : ℝ := (2 ^ 49)⁻¹
  ⟨(1 + 2 * u ^ 2)⁻¹ • !![1 - 2 * u ^ 2, -2 * u, -2 * u; 2 * u, 1, -2 * u ^ 2; 2 * u, -2 * u ^ 2, 1], false, true, 1⟩
theorem slightly_isRotation : IsRotation slightly := by
  constructor
  · ext i j; fin_cases i <;> fin_cases j <;> simp [slightly, Matrix.mul_apply, Fin.sum_univ_three] <;> norm_num
  · simp [slightly, det_fin_three]; norm_num
/-- Two long rods that cross at a distance. -/
noncomputable def rod : Box 3 := ⟨⟨![-2 ^ 52, -1, -1], true⟩, ⟨![2 ^ 52, 1, 1], true⟩⟩
noncomputable def turnedRod : RBox 3 := ⟨⟨![-2 ^ 52, 11, 21], true⟩, ⟨![2 ^ 53, 1, 1], true⟩, slightly⟩

/-- Bounding boxes pass when each coordinate of some point of the rotated box is inside the range of the box. -/
theorem bb_passes {r : RBox n} {b : Box n} (h : ∀ j, ∃ t : Fin n → ℝ, (∀ i, 0 ≤ t i ∧ t i ≤ 1) ∧
    b.low.elem j < r.corner.elem j + ∑ i, t i * r.size.elem i * r.orient.elem i j ∧
    r.corner.elem j + ∑ i, t i * r.size.elem i * r.orient.elem i j < b.high.elem j) (p : Bool) : interBB r.boundingBox b p = true := by
  have key : ∀ j, r.boundingBox.low.elem j < b.high.elem j ∧ b.low.elem j < r.boundingBox.high.elem j := fun j => by
    obtain ⟨t, ht, h1, h2⟩ := h j
    have := mem_bb r ⟨t, ht, rfl⟩ j
    constructor <;> linarith
  have he := epsilon_pos
  cases p
  · exact interBB_false.2 fun i => by have := key i; constructor <;> linarith
  · exact interBB_true.2 fun i => by have := key i; constructor <;> linarith
theorem seen_passes {r : RBox n} (hm : IsRotation r.orient) {b : Box n} (hb : Solid b) (h : ∀ k, ∃ x ∈ boxSet b,
    r.flat.low.elem k < turn r x k ∧ turn r x k < r.flat.high.elem k) (p : Bool) : interBB (r.boxSeen b).boundingBox r.flat p = true := by
  have key : ∀ k, (r.boxSeen b).boundingBox.low.elem k < r.flat.high.elem k ∧ r.flat.low.elem k < (r.boxSeen b).boundingBox.high.elem k := fun k => by
    obtain ⟨x, hx, h1, h2⟩ := h k
    have := mem_bb _ ((boxSeen_mem hm b (fun i => (hb i).le) x).2 hx) k
    constructor <;> linarith
  have he := epsilon_pos
  cases p
  · exact interBB_false.2 fun i => by have := key i; constructor <;> linarith
  · exact interBB_true.2 fun i => by have := key i; constructor <;> linarith

/-- C66 fails in space when edges are nearly parallel: two solid boxes at least 3 apart along an axis are reported as intersecting, also properly. -/
theorem C66_false : IsRotation turnedRod.orient ∧ Solid rod ∧ (∀ i, turnedRod.size.elem i ≠ 0) ∧
    (∀ x ∈ boxSet rod, ∀ y ∈ rboxSet turnedRod, 3 ≤ |x 1 - y 1| ∨ 3 ≤ |x 2 - y 2|) ∧ ∀ p, interRB3 turnedRod rod p = true := by
  have hb : Solid rod := fun i => by fin_cases i <;> simp [rod] <;> norm_num
  refine ⟨slightly_isRotation, hb, fun i => by fin_cases i <;> simp [turnedRod], ?_, fun p => ?_⟩
  · rintro x hx y ⟨t, ht, rfl⟩
    have a1 := hx 1; have a2 := hx 2
    have t1 := ht 1; have t2 := ht 2
    simp [rod] at a1 a2
    simp only [turnedRod, slightly, Fin.sum_univ_three]
    simp
    by_contra hcon
    push Not at hcon
    obtain ⟨c1, c2⟩ := hcon
    rw [abs_lt] at c1 c2
    norm_num at c1 c2
    linarith
  · refine (interRB3_iff _ _ _).2 ⟨?_, ?_, ?_⟩
    · refine bb_passes (fun j => ?_) p
      have w : ∀ q : ℝ, 0 ≤ q → q ≤ 1 → ∀ i : Fin 3, 0 ≤ (![q, 0, 0] : Fin 3 → ℝ) i ∧ (![q, 0, 0] : Fin 3 → ℝ) i ≤ 1 := fun q h0 h1 i => by
        fin_cases i <;> simp [h0, h1]
      fin_cases j
      · refine ⟨![1 / 2, 0, 0], w _ (by norm_num) (by norm_num), ?_⟩
        simp [rod, turnedRod, slightly, Fin.sum_univ_three]; norm_num
      · refine ⟨![11 / 32, 0, 0], w _ (by norm_num) (by norm_num), ?_⟩
        simp [rod, turnedRod, slightly, Fin.sum_univ_three]; norm_num
      · refine ⟨![21 / 32, 0, 0], w _ (by norm_num) (by norm_num), ?_⟩
        simp [rod, turnedRod, slightly, Fin.sum_univ_three]; norm_num
    · refine seen_passes slightly_isRotation hb (fun k => ?_) p
      have w : ∀ q : ℝ, -2 ^ 52 ≤ q → q ≤ 2 ^ 52 → (![q, 0, 0] : Fin 3 → ℝ) ∈ boxSet rod := fun q h0 h1 i => by
        fin_cases i <;> simp [rod] <;> constructor <;> linarith
      have tk : ∀ (x : Fin 3 → ℝ) k, turn turnedRod x k = turnedRod.corner.elem k +
          (slightly.elem k 0 * (x 0 - turnedRod.corner.elem 0) + slightly.elem k 1 * (x 1 - turnedRod.corner.elem 1) +
            slightly.elem k 2 * (x 2 - turnedRod.corner.elem 2)) := fun x k => by
        show turnedRod.corner.elem k + ∑ i : Fin 3, slightly.elem k i * (x i - turnedRod.corner.elem i) = _
        rw [Fin.sum_univ_three]
      rw [flat_low, flat_high]
      fin_cases k
      · refine ⟨![0, 0, 0], w 0 (by norm_num) (by norm_num), ?_⟩
        rw [tk]; simp [turnedRod, slightly]; norm_num
      · refine ⟨![-2 ^ 52 + 23 / 2 * 2 ^ 48, 0, 0], w _ (by norm_num) (by norm_num), ?_⟩
        rw [tk]; simp [turnedRod, slightly]; norm_num
      · refine ⟨![-2 ^ 52 + 43 / 2 * 2 ^ 48, 0, 0], w _ (by norm_num) (by norm_num), ?_⟩
        rw [tk]; simp [turnedRod, slightly]; norm_num
    · rw [satPairs, satLoop, satStep_eq, if_pos]
      rw [Vec.sqrMag_eq]
      have : (satAxis turnedRod.orient 0 0).elem ⬝ᵥ (satAxis turnedRod.orient 0 0).elem = 1 - turnedRod.orient.elem 0 0 ^ 2 :=
        satAxis_sq slightly_isRotation 0 0
      rw [this]
      have he : epsilon = 30 * 2⁻¹ ^ 52 := by unfold epsilon; norm_num
      rw [he]
      simp [turnedRod, slightly]
      norm_num

/-! ### The hypotheses are met -/

/-- A quarter turn about the third axis. -/
noncomputable def quarter3 : RotMat 3 := ⟨!![0, 1, 0; -1, 0, 0; 0, 0, 1], false, true, 1⟩
theorem quarter3_isRotation : IsRotation quarter3 := by
  constructor
  · ext i j; fin_cases i <;> fin_cases j <;> simp [quarter3, Matrix.mul_apply, Fin.sum_univ_three]
  · simp [quarter3, det_fin_three]

/-- In the plane: a turned box and a box that overlap in a strip. -/
example : interRB2 (⟨⟨![1, 1], true⟩, ⟨![2, 3], true⟩, quarter⟩ : RBox 2) ⟨⟨![0, 0], true⟩, ⟨![5, 4], true⟩⟩ true = true := by
  refine ((C66_plane _ _ quarter_isRotation (fun i => by fin_cases i <;> norm_num)).2.2 (fun i => by fin_cases i <;> norm_num)
    (fun i => by fin_cases i <;> simp)).2 ⟨![1 / 2, 2], fun i => by fin_cases i <;> simp <;> norm_num, fun i => by fin_cases i <;> simp,
      ![1 / 2, 1 / 6], fun i => by fin_cases i <;> simp <;> norm_num, ?_⟩
  funext i; fin_cases i <;> simp [quarter, Fin.sum_univ_two] <;> norm_num

/-- In space: inner products with entries 0, 1 and -1 are exact. -/
theorem exact_small {u v : Vec 3} (hu : ∀ i, |u.elem i| ≤ 10) (h : u.elem ⬝ᵥ v.elem = 0 ∨ 1 ≤ |u.elem ⬝ᵥ v.elem|) : DotExact u v := by
  rcases h with h | h
  · show u.dot v = _
    rw [Vec.dot_of_exact_zero h, h]
  · refine Vec.dot_exact (le_trans ?_ h)
    have he := epsilon_pos
    have he2 := epsilon_lt
    norm_num at he2
    have : min (maxAbs u.elem) (maxAbs v.elem) ≤ 10 := (min_le_left _ _).trans (maxAbs_le (by norm_num) hu)
    nlinarith

noncomputable def exBox : Box 3 := ⟨⟨![0, 0, 0], true⟩, ⟨![5, 4, 3], true⟩⟩
noncomputable def exRot : RBox 3 := ⟨⟨![1, 1, 1], true⟩, ⟨![2, 3, 4], true⟩, quarter3⟩
theorem ex_exact : SatExact exRot exBox := by
  intro i j
  refine ⟨exact_small (fun k => ?_) ?_, fun k => exact_small (fun l => (abs_elem_le_one quarter3_isRotation k l).trans (by norm_num)) ?_⟩
  · rw [Pt.sub_elem]; fin_cases k <;> simp [exRot, exBox]
  · rw [Pt.sub_elem]
    fin_cases i <;> fin_cases j <;> simp [exRot, exBox, quarter3, satAxis, dotProduct, Fin.sum_univ_three]
  · fin_cases i <;> fin_cases j <;> fin_cases k <;>
      simp [exRot, quarter3, satAxis, dotProduct, Fin.sum_univ_three, RotMat.row]
theorem ex_cos (c : ℝ) (hc : 0 ≤ c) (hc1 : c ≤ 1) (i j : Fin 3) : exRot.orient.elem i j ^ 2 = 1 ∨ exRot.orient.elem i j ^ 2 ≤ 1 - c ^ 2 := by
  have : c ^ 2 ≤ 1 := by nlinarith
  fin_cases i <;> fin_cases j <;> simp [exRot, quarter3, this]

/-- All hypotheses of the theorems in space together, with a common inner point. -/
example : interRB3 exRot exBox true = true ∧ interRB3 exRot exBox false = true := by
  have hs : Solid exBox := fun i => by fin_cases i <;> simp [exBox]
  have he := epsilon_pos
  have he2 := epsilon_lt
  norm_num at he2
  have hin : (boxInterior exBox ∩ rboxInterior exRot).Nonempty := by
    refine ⟨![1 / 2, 2, 2], fun i => by fin_cases i <;> simp [exBox] <;> norm_num, fun i => by fin_cases i <;> simp [exRot],
      ![1 / 2, 1 / 6, 1 / 4], fun i => by fin_cases i <;> simp <;> norm_num, ?_⟩
    funext i; fin_cases i <;> simp [exRot, quarter3, Fin.sum_univ_three] <;> norm_num
  refine ⟨(C66_proper_partial _ _ quarter3_isRotation hs (fun i => by fin_cases i <;> simp [exRot]) ex_exact
    (ex_cos _ he.le (by linarith))).2 hin, C66_shared _ _ quarter3_isRotation (fun i => (hs i).le) ex_exact ?_⟩
  obtain ⟨x, h1, h2, t, ht, h3⟩ := hin
  exact ⟨x, fun i => ⟨(h1 i).1.le, (h1 i).2.le⟩, t, fun i => ⟨(ht i).1.le, (ht i).2.le⟩, h3⟩

/-- Two rotated boxes in space: all hypotheses, with the second box not turned. -/
noncomputable def exRot2 : RBox 3 := ⟨⟨![0, 0, 0], true⟩, ⟨![5, 4, 3], true⟩, RotMat.identity⟩
example (L : Limits) : interRR3 L exRot exRot2 true = true := by
  have hI : IsRotation exRot2.orient := isRotation_identity
  have hE : (exRot.rotatePoint L exRot2.orient.inverse exRot2.corner).orient.elem = exRot.orient.elem := by
    rw [turned_elem L hI quarter3_isRotation]
    show _ * (1 : Matrix _ _ ℝ)ᵀ = _
    rw [transpose_one, mul_one]
  have hC : (exRot.rotatePoint L exRot2.orient.inverse exRot2.corner).corner.elem = exRot.corner.elem := by
    show exRot2.corner.elem + ((exRot.corner.sub exRot2.corner).rotateM exRot2.orient.inverse).elem = _
    rw [RotMat.rotateM_elem, RotMat.inverse_elem, vecMul_transpose, Pt.sub_elem]
    show exRot2.corner.elem + (1 : Matrix _ _ ℝ) *ᵥ _ = _
    rw [one_mulVec]; abel
  have hF : exRot2.flat.low.elem = exBox.low.elem := by
    funext i; rw [flat_low]; fin_cases i <;> simp [exRot2, exBox]
  have hA : ∀ i j, (satAxis (exRot.rotatePoint L exRot2.orient.inverse exRot2.corner).orient i j).elem = (satAxis exRot.orient i j).elem :=
    fun i j => by unfold satAxis; rw [hE]
  have dc : ∀ {u u' v v' : Vec 3}, u.elem = u'.elem → v.elem = v'.elem → DotExact u' v' → DotExact u v := fun h1 h2 h => by
    show _ = _
    rw [h1, h2, ← h, Vec.dot_def, Vec.dot_def, h1, h2]
  have hd : SatExact (exRot.rotatePoint L exRot2.orient.inverse exRot2.corner) exRot2.flat := fun i j => by
    refine ⟨dc ?_ (hA i j) (ex_exact i j).1, fun k => dc ?_ (hA i j) ((ex_exact i j).2 k)⟩
    · rw [Pt.sub_elem, Pt.sub_elem, hC, hF]
    · exact congrFun hE k
  have he := epsilon_pos
  have he2 := epsilon_lt
  norm_num at he2
  refine ((C66_space_rotated_partial L exRot exRot2 quarter3_isRotation hI hd).2.2 (fun i j => ?_) (fun i => by fin_cases i <;> simp [exRot])
    (fun i => by fin_cases i <;> simp [exRot2])).2 ?_
  · have : (∑ k, exRot.orient.elem i k * exRot2.orient.elem j k) = exRot.orient.elem i j := by
      have := congrFun (congrFun hE i) j
      rw [turned_elem L hI quarter3_isRotation] at this
      exact this
    rw [this]
    exact ex_cos _ he.le (by linarith) i j
  · refine ⟨![1 / 2, 2, 2], ⟨fun i => by fin_cases i <;> simp [exRot2], ![1 / 10, 1 / 2, 2 / 3],
      fun i => by fin_cases i <;> simp <;> norm_num, ?_⟩, fun i => by fin_cases i <;> simp [exRot],
      ![1 / 2, 1 / 6, 1 / 4], fun i => by fin_cases i <;> simp <;> norm_num, ?_⟩
    · funext i; fin_cases i <;> simp [exRot2, RotMat.identity, Fin.sum_univ_three] <;> norm_num
    · funext i; fin_cases i <;> simp [exRot, quarter3, Fin.sum_univ_three] <;> norm_num

end WFMath
