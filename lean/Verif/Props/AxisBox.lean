/- Property theorems C49-C54 about axis-parallel boxes. -/
import Verif.Spec.Shapes
import Verif.Model.Intersect
import Verif.Props.Point

namespace WFMath
open Spec
variable {n : Nat}

theorem floatMax_eq (a b : ℝ) : floatMax a b = max a b := by
  unfold floatMax
  split_ifs with h
  · rw [max_eq_left h.le]
  · rw [max_eq_right (not_lt.1 h)]

theorem floatMin_eq (a b : ℝ) : floatMin a b = min a b := by
  unfold floatMin
  split_ifs with h
  · rw [min_eq_left h.le]
  · rw [min_eq_right (not_lt.1 h)]

theorem boxSet_nonempty {b : Box n} : (boxSet b).Nonempty ↔ Ordered b :=
  ⟨fun ⟨_, h⟩ i => (h i).1.trans (h i).2, fun h => ⟨b.low.elem, fun i => ⟨le_rfl, h i⟩⟩⟩

theorem low_mem {b : Box n} (h : Ordered b) : b.low.elem ∈ boxSet b := fun i => ⟨le_rfl, h i⟩
theorem high_mem {b : Box n} (h : Ordered b) : b.high.elem ∈ boxSet b := fun i => ⟨h i, le_rfl⟩

theorem boxSet_subset {a b : Box n} (h : Ordered a) :
    boxSet a ⊆ boxSet b ↔ ∀ i, b.low.elem i ≤ a.low.elem i ∧ a.high.elem i ≤ b.high.elem i := by
  constructor
  · intro hs i
    exact ⟨(hs (low_mem h) i).1, (hs (high_mem h) i).2⟩
  · intro hs x hx i
    exact ⟨(hs i).1.trans (hx i).1, (hx i).2.trans (hs i).2⟩

/-! ### C49 construction from two corners -/

theorem ofCorners_low (p q : Pt n) (i : Fin n) : (Box.ofCorners p q).low.elem i = min (p.elem i) (q.elem i) := by
  unfold Box.ofCorners
  simp only
  split_ifs with h
  · rw [min_eq_right h.le]
  · rw [min_eq_left (not_lt.1 h)]

theorem ofCorners_high (p q : Pt n) (i : Fin n) : (Box.ofCorners p q).high.elem i = max (p.elem i) (q.elem i) := by
  unfold Box.ofCorners
  simp only
  split_ifs with h
  · rw [max_eq_left h.le]
  · rw [max_eq_right (not_lt.1 h)]

/-- C49, all but validity: the box built from two corners contains them, is ordered, is the smallest such box, and does
not depend on the order of the corners; each of its bounds is a coordinate of one of them. -/
theorem C49_partial (p q : Pt n) :
    p.elem ∈ boxSet (Box.ofCorners p q) ∧ q.elem ∈ boxSet (Box.ofCorners p q) ∧ Ordered (Box.ofCorners p q) ∧
    (∀ b : Box n, p.elem ∈ boxSet b → q.elem ∈ boxSet b → boxSet (Box.ofCorners p q) ⊆ boxSet b) ∧
    Box.ofCorners p q = Box.ofCorners q p := by
  have ho : Ordered (Box.ofCorners p q) := fun i => by
    rw [ofCorners_low, ofCorners_high]; exact (min_le_left _ _).trans (le_max_left _ _)
  refine ⟨fun i => ?_, fun i => ?_, ho, fun b hp hq => ?_, ?_⟩
  · rw [ofCorners_low, ofCorners_high]; exact ⟨min_le_left _ _, le_max_left _ _⟩
  · rw [ofCorners_low, ofCorners_high]; exact ⟨min_le_right _ _, le_max_right _ _⟩
  · rw [boxSet_subset ho]
    intro i
    rw [ofCorners_low, ofCorners_high]
    exact ⟨le_min (hp i).1 (hq i).1, max_le (hp i).2 (hq i).2⟩
  · refine Box.ext (Pt.ext (funext fun i => ?_) rfl) (Pt.ext (funext fun i => ?_) rfl)
    · rw [ofCorners_low, ofCorners_low, min_comm]
    · rw [ofCorners_high, ofCorners_high, max_comm]

/-- C49, corners given in order: the corners are kept as they are, with their validity. -/
theorem C49_ordered (p q : Pt n) (h : ∀ i, p.elem i ≤ q.elem i) :
    (Box.ofOrdered p q).low = p ∧ (Box.ofOrdered p q).high = q ∧
    ((Box.ofOrdered p q).valid = true ↔ p.valid = true ∧ q.valid = true) ∧
    boxSet (Box.ofOrdered p q) = boxSet (Box.ofCorners p q) := by
  refine ⟨rfl, rfl, by simp [Box.ofOrdered, Box.valid], ?_⟩
  ext x
  refine forall_congr' fun i => ?_
  rw [ofCorners_low, ofCorners_high, min_eq_left (h i), max_eq_right (h i)]; rfl

/-- C49 is false of the code as far as validity is concerned: two invalid points give a valid box. -/
theorem C49_false : ¬ ∀ p q : Pt 2, (Box.ofCorners p q).valid = true → p.valid = true ∧ q.valid = true :=
  fun h => by simpa using (h ⟨![0, 0], false⟩ ⟨![1, 1], false⟩ rfl).1

example : (Box.ofCorners (⟨![3, 0], true⟩ : Pt 2) ⟨![1, 2], true⟩).low.elem = ![1, 0] := by
  funext i; rw [ofCorners_low]; fin_cases i <;> simp

/-! ### C50 intersection -/

theorem interLoop_spec (a1 a2 : Box n) (l : List (Fin n)) (out : Box n) :
    ((Box.interLoop a1 a2 l out).1 = true ↔ ∀ i ∈ l, max (a1.low.elem i) (a2.low.elem i) ≤ min (a1.high.elem i) (a2.high.elem i)) ∧
    ((Box.interLoop a1 a2 l out).1 = true → ∀ i,
      (Box.interLoop a1 a2 l out).2.low.elem i = (if i ∈ l then max (a1.low.elem i) (a2.low.elem i) else out.low.elem i) ∧
      (Box.interLoop a1 a2 l out).2.high.elem i = (if i ∈ l then min (a1.high.elem i) (a2.high.elem i) else out.high.elem i)) := by
  induction l generalizing out with
  | nil => simp [Box.interLoop]
  | cons k l ih =>
    rw [Box.interLoop]
    simp only [floatMax_eq, floatMin_eq]
    by_cases h : max (a1.low.elem k) (a2.low.elem k) > min (a1.high.elem k) (a2.high.elem k)
    · rw [if_pos h]
      simp only [Bool.false_eq_true, false_iff, false_implies, and_true]
      intro H
      exact absurd (H k (by simp)) (not_le.2 h)
    · rw [if_neg h]
      obtain ⟨i1, i2⟩ := ih ⟨⟨Function.update out.low.elem k (max (a1.low.elem k) (a2.low.elem k)), out.low.valid⟩,
        ⟨Function.update out.high.elem k (min (a1.high.elem k) (a2.high.elem k)), out.high.valid⟩⟩
      constructor
      · rw [i1]
        constructor
        · rintro H i hi
          rcases List.mem_cons.1 hi with rfl | hi
          · exact not_lt.1 h
          · exact H i hi
        · exact fun H i hi => H i (List.mem_cons_of_mem _ hi)
      · intro H i
        obtain ⟨j1, j2⟩ := i2 H i
        rw [j1, j2]
        by_cases hl : i ∈ l
        · rw [if_pos hl, if_pos hl, if_pos (List.mem_cons_of_mem _ hl), if_pos (List.mem_cons_of_mem _ hl)]
          exact ⟨rfl, rfl⟩
        · rw [if_neg hl, if_neg hl]
          by_cases hk : i = k
          · subst hk
            simp
          · have : ¬ i ∈ k :: l := by simp [hk, hl]
            rw [if_neg this, if_neg this]
            exact ⟨Function.update_of_ne hk _ _, Function.update_of_ne hk _ _⟩

theorem intersection_true (a1 a2 out : Box n) :
    (Box.intersection a1 a2 out).1 = true ↔ ∀ i, max (a1.low.elem i) (a2.low.elem i) ≤ min (a1.high.elem i) (a2.high.elem i) := by
  have h := (interLoop_spec a1 a2 (List.finRange n) out).1
  simp only [List.mem_finRange, true_implies] at h
  rw [← h]
  unfold Box.intersection
  rcases Box.interLoop a1 a2 (List.finRange n) out with ⟨_ | _, o⟩ <;> rfl

theorem intersection_elem (a1 a2 out : Box n) (h : (Box.intersection a1 a2 out).1 = true) (i : Fin n) :
    (Box.intersection a1 a2 out).2.low.elem i = max (a1.low.elem i) (a2.low.elem i) ∧
    (Box.intersection a1 a2 out).2.high.elem i = min (a1.high.elem i) (a2.high.elem i) ∧
    (Box.intersection a1 a2 out).2.low.valid = (a1.low.valid && a2.low.valid) ∧
    (Box.intersection a1 a2 out).2.high.valid = (a1.high.valid && a2.high.valid) := by
  have h2 := (interLoop_spec a1 a2 (List.finRange n) out).2
  unfold Box.intersection at h ⊢
  rcases hl : Box.interLoop a1 a2 (List.finRange n) out with ⟨_ | _, o⟩
  · rw [hl] at h; exact absurd h (by simp)
  · rw [hl] at h2
    have := h2 rfl i
    simp only [List.mem_finRange, if_true] at this
    exact ⟨this.1, this.2, rfl, rfl⟩

/-- C50: the function returns true exactly when the boxes share a point, whatever `out` held before. -/
theorem C50_disjoint (a1 a2 out : Box n) (h1 : Ordered a1) (h2 : Ordered a2) :
    (Box.intersection a1 a2 out).1 = true ↔ (boxSet a1 ∩ boxSet a2).Nonempty := by
  rw [intersection_true]
  constructor
  · intro h
    exact ⟨fun i => max (a1.low.elem i) (a2.low.elem i),
      fun i => ⟨le_max_left _ _, (h i).trans (min_le_left _ _)⟩, fun i => ⟨le_max_right _ _, (h i).trans (min_le_right _ _)⟩⟩
  · rintro ⟨x, hx1, hx2⟩ i
    exact (max_le (hx1 i).1 (hx2 i).1).trans (le_min (hx1 i).2 (hx2 i).2)

/-- C50: when it returns true, the box returned is the intersection as a set of points, is ordered, and is valid when
both boxes are. -/
theorem C50_points (a1 a2 out : Box n) (h : (Box.intersection a1 a2 out).1 = true) :
    boxSet (Box.intersection a1 a2 out).2 = boxSet a1 ∩ boxSet a2 ∧ Ordered (Box.intersection a1 a2 out).2 ∧
    (0 < n → ((Box.intersection a1 a2 out).2.valid = true ↔ a1.valid = true ∧ a2.valid = true)) := by
  have he := intersection_elem a1 a2 out h
  refine ⟨?_, fun i => ?_, fun hn => ?_⟩
  · ext x
    constructor
    · intro hx
      refine ⟨fun i => ?_, fun i => ?_⟩ <;> have := hx i <;> rw [(he i).1, (he i).2.1] at this
      · exact ⟨(le_max_left _ _).trans this.1, this.2.trans (min_le_left _ _)⟩
      · exact ⟨(le_max_right _ _).trans this.1, this.2.trans (min_le_right _ _)⟩
    · rintro ⟨hx1, hx2⟩ i
      rw [(he i).1, (he i).2.1]
      exact ⟨max_le (hx1 i).1 (hx2 i).1, le_min (hx1 i).2 (hx2 i).2⟩
  · rw [(he i).1, (he i).2.1]; exact (intersection_true a1 a2 out).1 h i
  · have := he ⟨0, hn⟩
    unfold Box.valid
    rw [this.2.2.1, this.2.2.2]
    simp only [Bool.and_eq_true]
    tauto

/-- Two overlapping and two disjoint boxes. -/
example (out : Box 2) :
    (Box.intersection (⟨⟨![0, 0], true⟩, ⟨![2, 2], true⟩⟩ : Box 2) ⟨⟨![1, 1], true⟩, ⟨![3, 3], true⟩⟩ out).1 = true ∧
    (Box.intersection (⟨⟨![0, 0], true⟩, ⟨![2, 2], true⟩⟩ : Box 2) ⟨⟨![0, 3], true⟩, ⟨![3, 4], true⟩⟩ out).1 = false := by
  constructor
  · rw [intersection_true]; intro i; fin_cases i <;> simp
  · rw [Bool.eq_false_iff, Ne, intersection_true]
    intro h; have := h 1; simp at this; norm_num at this

/-! ### C51 union -/

/-- C51: the union contains both boxes and is contained in every box that does. -/
theorem C51_least (a b c : Box n) (ha : Ordered a) (hb : Ordered b) :
    boxSet a ⊆ boxSet (Box.union a b) ∧ boxSet b ⊆ boxSet (Box.union a b) ∧ Ordered (Box.union a b) ∧
    (boxSet a ⊆ boxSet c → boxSet b ⊆ boxSet c → boxSet (Box.union a b) ⊆ boxSet c) ∧
    ((Box.union a b).valid = true ↔ a.valid = true ∧ b.valid = true) := by
  have el : ∀ i, (Box.union a b).low.elem i = min (a.low.elem i) (b.low.elem i) := fun i => floatMin_eq _ _
  have eh : ∀ i, (Box.union a b).high.elem i = max (a.high.elem i) (b.high.elem i) := fun i => floatMax_eq _ _
  have ho : Ordered (Box.union a b) := fun i => by
    rw [el, eh]; exact (min_le_left _ _).trans ((ha i).trans (le_max_left _ _))
  refine ⟨(boxSet_subset ha).2 fun i => ?_, (boxSet_subset hb).2 fun i => ?_, ho, fun h1 h2 => (boxSet_subset ho).2 fun i => ?_, ?_⟩
  · rw [el, eh]; exact ⟨min_le_left _ _, le_max_left _ _⟩
  · rw [el, eh]; exact ⟨min_le_right _ _, le_max_right _ _⟩
  · rw [el, eh]
    have k1 := (boxSet_subset ha).1 h1 i
    have k2 := (boxSet_subset hb).1 h2 i
    exact ⟨le_min k1.1 k2.1, max_le k1.2 k2.2⟩
  · simp only [Box.valid, Box.union, Bool.and_eq_true]; tauto

/-- C51: union is commutative, associative and idempotent, flags included. -/
theorem C51_laws (a b c : Box n) :
    Box.union a b = Box.union b a ∧ Box.union (Box.union a b) c = Box.union a (Box.union b c) ∧ Box.union a a = a := by
  unfold Box.union
  simp only [floatMin_eq, floatMax_eq]
  refine ⟨?_, ?_, ?_⟩ <;>
    refine Box.ext (Pt.ext (funext fun i => ?_) ?_) (Pt.ext (funext fun i => ?_) ?_) <;>
    simp [min_comm, max_comm, min_assoc, max_assoc, Bool.and_comm, Bool.and_assoc, Bool.and_left_comm]

example : Ordered (⟨⟨![0, 0], true⟩, ⟨![2, 2], true⟩⟩ : Box 2) := fun i => by fin_cases i <;> simp

/-! ### C52 bounding boxes of containers -/

theorem bbLoop_eq (s : Box n) (l : List (Box n)) : Box.bbLoop s l = l.foldl Box.union s := by
  induction l generalizing s with
  | nil => rfl
  | cons b l ih => rw [Box.bbLoop, ih, List.foldl_cons]; rfl

theorem foldl_union (s : Box n) (l : List (Box n)) (hs : Ordered s) (hl : ∀ b ∈ l, Ordered b) :
    Ordered (l.foldl Box.union s) ∧ boxSet s ⊆ boxSet (l.foldl Box.union s) ∧ (∀ b ∈ l, boxSet b ⊆ boxSet (l.foldl Box.union s)) ∧
    ∀ c, boxSet s ⊆ boxSet c → (∀ b ∈ l, boxSet b ⊆ boxSet c) → boxSet (l.foldl Box.union s) ⊆ boxSet c := by
  induction l generalizing s with
  | nil => exact ⟨hs, subset_rfl, by simp, fun c h _ => h⟩
  | cons b l ih =>
    have hb := hl b (by simp)
    obtain ⟨u1, u2, u3, -, -⟩ := C51_least s b s hs hb
    obtain ⟨i1, i2, i3, i4⟩ := ih (Box.union s b) u3 fun x hx => hl x (List.mem_cons_of_mem _ hx)
    rw [List.foldl_cons]
    refine ⟨i1, u1.trans i2, fun x hx => ?_, fun c h1 h2 => ?_⟩
    · rcases List.mem_cons.1 hx with rfl | hx
      · exact u2.trans i2
      · exact i3 x hx
    · exact i4 c ((C51_least s b c hs hb).2.2.2.1 h1 (h2 b (by simp))) fun x hx => h2 x (List.mem_cons_of_mem _ hx)

theorem foldl_union_valid (s : Box n) (l : List (Box n)) :
    (l.foldl Box.union s).valid = true ↔ s.valid = true ∧ ∀ b ∈ l, b.valid = true := by
  induction l generalizing s with
  | nil => simp
  | cons b l ih =>
    rw [List.foldl_cons, ih]
    have : (Box.union s b).valid = true ↔ s.valid = true ∧ b.valid = true := by
      simp only [Box.valid, Box.union, Bool.and_eq_true]; tauto
    rw [this]
    simp only [List.mem_cons, forall_eq_or_imp]; tauto

/-- C52, boxes: the bounding box of a list contains every box of it and is contained in every box that does; it is valid
exactly when all are. -/
theorem C52_boxes (l : List (Box n)) (hne : l ≠ []) (hl : ∀ b ∈ l, Ordered b) :
    (∀ b ∈ l, boxSet b ⊆ boxSet (Box.boundingBoxes l)) ∧
    (∀ c, (∀ b ∈ l, boxSet b ⊆ boxSet c) → boxSet (Box.boundingBoxes l) ⊆ boxSet c) ∧
    ((Box.boundingBoxes l).valid = true ↔ ∀ b ∈ l, b.valid = true) := by
  cases l with
  | nil => exact absurd rfl hne
  | cons b l =>
    obtain ⟨h1, h2, h3, h4⟩ := foldl_union b l (hl b (by simp)) fun x hx => hl x (List.mem_cons_of_mem _ hx)
    rw [Box.boundingBoxes, bbLoop_eq]
    refine ⟨fun x hx => ?_, fun c hc => h4 c (hc b (by simp)) fun x hx => hc x (List.mem_cons_of_mem _ hx), ?_⟩
    · rcases List.mem_cons.1 hx with rfl | hx
      · exact h2
      · exact h3 x hx
    · rw [foldl_union_valid]; simp

/-- C52, boxes: the order of the list does not matter. -/
theorem C52_boxes_order (l l' : List (Box n)) (h : l.Perm l') : Box.boundingBoxes l = Box.boundingBoxes l' := by
  have hc : RightCommutative (Box.union : Box n → Box n → Box n) := ⟨fun a b c => by
    rw [(C51_laws a b c).2.1, (C51_laws b c a).1, ← (C51_laws a c b).2.1]⟩
  have key : ∀ (b : Box n) (l : List (Box n)), Box.boundingBoxes (b :: l) = (b :: l).foldl Box.union b := by
    intro b l; rw [Box.boundingBoxes, bbLoop_eq, List.foldl_cons, (C51_laws b b b).2.2]
  have key2 : ∀ (l : List (Box n)) (b : Box n), b ∈ l → Box.boundingBoxes l = l.foldl Box.union b := by
    intro l b hb
    cases l with
    | nil => simp at hb
    | cons a l =>
      rw [key, List.foldl_cons, List.foldl_cons, (C51_laws a a a).2.2]
      rcases List.mem_cons.1 hb with rfl | hb
      · rw [(C51_laws b b b).2.2]
      · have abs : ∀ (l : List (Box n)) (s : Box n), b ∈ l → l.foldl Box.union (Box.union b s) = l.foldl Box.union s := by
          intro l
          induction l with
          | nil => simp
          | cons c l ih =>
            intro s hb
            rw [List.foldl_cons, List.foldl_cons, (C51_laws b s c).2.1]
            rcases List.mem_cons.1 hb with rfl | hb
            · rw [(C51_laws s b b).1, ← (C51_laws b b s).2.1, (C51_laws b b b).2.2]
            · exact ih _ hb
        exact (abs l a hb).symm
  cases l with
  | nil => rw [List.nil_perm.1 h]
  | cons b l =>
    rw [key2 (b :: l) b (by simp), key2 l' b (h.mem_iff.1 (by simp)), h.foldl_eq]

theorem bpLoop_eq (ok : Bool) (low high : Fin n → ℝ) (l : List (Pt n)) :
    Box.bpLoop (ok, low, high) l =
      (((l.map Pt.boundingBox).foldl Box.union ⟨⟨low, ok⟩, ⟨high, ok⟩⟩).low.valid,
       ((l.map Pt.boundingBox).foldl Box.union ⟨⟨low, ok⟩, ⟨high, ok⟩⟩).low.elem,
       ((l.map Pt.boundingBox).foldl Box.union ⟨⟨low, ok⟩, ⟨high, ok⟩⟩).high.elem) ∧
    ((l.map Pt.boundingBox).foldl Box.union ⟨⟨low, ok⟩, ⟨high, ok⟩⟩).high.valid =
      ((l.map Pt.boundingBox).foldl Box.union ⟨⟨low, ok⟩, ⟨high, ok⟩⟩).low.valid := by
  induction l generalizing ok low high with
  | nil => exact ⟨rfl, rfl⟩
  | cons p l ih =>
    rw [Box.bpLoop, List.map_cons, List.foldl_cons]
    exact ih (ok && p.valid) (fun j => floatMin (low j) (p.elem j)) (fun j => floatMax (high j) (p.elem j))

/-- The bounding box of points is that of the points seen as boxes. -/
theorem boundingPoints_eq (l : List (Pt n)) : Box.boundingPoints l = Box.boundingBoxes (l.map Pt.boundingBox) := by
  cases l with
  | nil => rfl
  | cons p l =>
    obtain ⟨h1, h2⟩ := bpLoop_eq p.valid p.elem p.elem l
    simp only [Box.boundingPoints, List.map_cons, Box.boundingBoxes, bbLoop_eq, h1]
    have hp : (⟨⟨p.elem, p.valid⟩, ⟨p.elem, p.valid⟩⟩ : Box n) = p.boundingBox := rfl
    rw [hp] at h2 ⊢
    refine Box.ext (Pt.ext rfl rfl) (Pt.ext rfl ?_)
    exact h2.symm

theorem boxSet_point (p : Pt n) : boxSet p.boundingBox = {p.elem} := by
  ext x
  rw [Set.mem_singleton_iff]
  exact ⟨fun h => funext fun i => le_antisymm (h i).2 (h i).1, by rintro rfl i; exact ⟨le_rfl, le_rfl⟩⟩

/-- C52, points: the bounding box of a list of points contains every one of them and is contained in every box that does;
it is valid exactly when all are. -/
theorem C52_points (l : List (Pt n)) (hne : l ≠ []) :
    (∀ p ∈ l, p.elem ∈ boxSet (Box.boundingPoints l)) ∧
    (∀ c, (∀ p ∈ l, p.elem ∈ boxSet c) → boxSet (Box.boundingPoints l) ⊆ boxSet c) ∧
    ((Box.boundingPoints l).valid = true ↔ ∀ p ∈ l, p.valid = true) := by
  obtain ⟨h1, h2, h3⟩ := C52_boxes (l.map Pt.boundingBox) (by simpa using hne) (by
    intro b hb; obtain ⟨p, _, rfl⟩ := List.mem_map.1 hb; exact fun i => le_rfl)
  rw [boundingPoints_eq]
  refine ⟨fun p hp => ?_, fun c hc => h2 c fun b hb => ?_, ?_⟩
  · have := h1 _ (List.mem_map_of_mem hp)
    rw [boxSet_point] at this; exact this rfl
  · obtain ⟨p, hp, rfl⟩ := List.mem_map.1 hb
    rw [boxSet_point, Set.singleton_subset_iff]; exact hc p hp
  · rw [h3]; simp [Pt.boundingBox, Box.valid]

/-- C52, points: the order of the list does not matter. -/
theorem C52_points_order (l l' : List (Pt n)) (h : l.Perm l') : Box.boundingPoints l = Box.boundingPoints l' := by
  rw [boundingPoints_eq, boundingPoints_eq, C52_boxes_order _ _ (h.map _)]

/-- C52: nothing gives an invalid box. -/
theorem C52_empty : (Box.boundingBoxes ([] : List (Box n))).valid = false ∧ (Box.boundingPoints ([] : List (Pt n))).valid = false :=
  ⟨rfl, rfl⟩

/-- C52: the barycenter is in the bounding box (with C30). -/
theorem C52_barycenter (l : List (Pt n)) (hne : l ≠ []) : (Pt.barycenter l).elem ∈ boxSet (Box.boundingPoints l) :=
  fun j => C30_in_box l hne j _ _ fun p hp => (C52_points l hne).1 p hp j

example : (Box.boundingPoints [(⟨![3, 0], true⟩ : Pt 2), ⟨![1, 2], true⟩]).valid = true := rfl

/-! ### C53 corners -/

/-- C53: below `2^dim`, corner `i` has the upper bound on exactly the axes where bit `i` is set. -/
theorem C53_bits (b : Box n) (i : Nat) (hi : i < 2 ^ n) (j : Fin n) :
    (b.getCorner i).elem j = if i.testBit j then b.high.elem j else b.low.elem j := by
  unfold Box.getCorner
  split_ifs with h1 h2 h3 h4 h5
  · exfalso; have : i = 0 := by omega
    rw [this] at h2; simp at h2
  · rfl
  · rfl
  · exfalso
    have : i = 2 ^ n - 1 := by omega
    rw [this, Nat.testBit_two_pow_sub_one] at h4
    simp [j.isLt] at h4
  · simp [h5]
  · simp [h5]

/-- C53: every corner lies in the box. -/
theorem C53_in_box (b : Box n) (h : Ordered b) (i : Nat) : (b.getCorner i).elem ∈ boxSet b := by
  intro j
  unfold Box.getCorner
  split_ifs
  · exact ⟨le_rfl, h j⟩
  · exact ⟨h j, le_rfl⟩
  · simp only
    split_ifs
    · exact ⟨h j, le_rfl⟩
    · exact ⟨le_rfl, h j⟩

theorem exists_bits (f : Nat → Bool) (n : Nat) : ∃ i, i < 2 ^ n ∧ ∀ j, j < n → i.testBit j = f j := by
  induction n with
  | zero => exact ⟨0, by norm_num, by simp⟩
  | succ n ih =>
    obtain ⟨i, hi, h⟩ := ih
    cases hf : f n with
    | false =>
      refine ⟨i, hi.trans (by rw [pow_succ]; have : 0 < 2 ^ n := by positivity
                              omega), fun j hj => ?_⟩
      rcases Nat.lt_succ_iff_lt_or_eq.1 hj with hj | rfl
      · exact h j hj
      · rw [hf, Nat.testBit_lt_two_pow hi]
    | true =>
      refine ⟨2 ^ n + i, by rw [pow_succ]; omega, fun j hj => ?_⟩
      rcases Nat.lt_succ_iff_lt_or_eq.1 hj with hj | rfl
      · rw [Nat.testBit_two_pow_add_gt hj]; exact h j hj
      · rw [Nat.testBit_two_pow_add_eq, Nat.testBit_lt_two_pow hi, hf]; rfl

/-- C53: the corners are exactly the vertices (points with every coordinate a bound of the box). -/
theorem C53_vertices (b : Box n) (x : Fin n → ℝ) :
    (∀ j, x j = b.low.elem j ∨ x j = b.high.elem j) ↔ ∃ i, i < 2 ^ n ∧ (b.getCorner i).elem = x := by
  classical
  constructor
  · intro h
    let f : Nat → Bool := fun j => if hj : j < n then decide (x ⟨j, hj⟩ ≠ b.low.elem ⟨j, hj⟩) else false
    obtain ⟨i, hi, hb⟩ := exists_bits f n
    refine ⟨i, hi, funext fun j => ?_⟩
    rw [C53_bits _ _ hi, hb j j.isLt]
    simp only [f, j.isLt, dif_pos, Fin.eta]
    rcases h j with hj | hj
    · simp [hj]
    · by_cases hl : x j = b.low.elem j
      · simp [hl]
      · simp [hl, hj]
        intro e; exact absurd (hj.trans e) hl
  · rintro ⟨i, hi, rfl⟩ j
    rw [C53_bits b i hi]
    split_ifs
    · exact Or.inr rfl
    · exact Or.inl rfl

/-- C53: different indices give different corners of a box with positive extent on every axis. -/
theorem C53_injective (b : Box n) (h : Solid b) (i k : Nat) (hi : i < 2 ^ n) (hk : k < 2 ^ n)
    (e : (b.getCorner i).elem = (b.getCorner k).elem) : i = k := by
  apply Nat.eq_of_testBit_eq
  intro j
  by_cases hj : j < n
  · have := congrFun e ⟨j, hj⟩
    rw [C53_bits b i hi, C53_bits b k hk] at this
    have hs := (h ⟨j, hj⟩).ne
    simp only at this
    cases h1 : i.testBit j <;> cases h2 : k.testBit j <;> simp [h1, h2] at this ⊢
    · exact absurd this hs
    · exact absurd this hs.symm
  · rw [Nat.testBit_lt_two_pow (lt_of_lt_of_le hi (Nat.pow_le_pow_right (by norm_num) (not_lt.1 hj))),
      Nat.testBit_lt_two_pow (lt_of_lt_of_le hk (Nat.pow_le_pow_right (by norm_num) (not_lt.1 hj)))]

/-- C53: corners `i` and `2^dim - 1 - i` are opposite: they are symmetric about the centre. -/
theorem C53_opposite (b : Box n) (i : Nat) (hi : i < 2 ^ n) :
    Pt.midpoint (b.getCorner i) (b.getCorner (2 ^ n - 1 - i)) (1 / 2) = ⟨b.getCenter.elem,
      (b.getCorner i).valid && (b.getCorner (2 ^ n - 1 - i)).valid⟩ := by
  have hp : 0 < 2 ^ n := by positivity
  refine Pt.ext (funext fun j => ?_) rfl
  simp only [Pt.midpoint, Box.getCenter]
  rw [C53_bits b i hi, C53_bits b _ (by omega)]
  have hb : (2 ^ n - 1 - i).testBit j = !i.testBit j := by
    rw [show 2 ^ n - 1 - i = 2 ^ n - (i + 1) by omega, Nat.testBit_two_pow_sub_succ hi]
    simp [j.isLt]
  rw [hb]
  cases i.testBit j <;> simp <;> ring

/-- C53: the centre of an ordered box is in it. -/
theorem C53_center (b : Box n) (h : Ordered b) : b.getCenter.elem ∈ boxSet b := by
  intro j
  have := h j
  simp only [Box.getCenter, Pt.midpoint]
  constructor <;> linarith

/-- C53: a corner is valid exactly when the points it is made from are. -/
theorem C53_valid (b : Box n) (i : Nat) (h : b.valid = true) : (b.getCorner i).valid = true := by
  unfold Box.valid at h
  rw [Bool.and_eq_true] at h
  unfold Box.getCorner
  split_ifs <;> simp [h.1, h.2]

example : ((⟨⟨![0, 0, 0], true⟩, ⟨![1, 2, 3], true⟩⟩ : Box 3).getCorner 5).elem = ![1, 0, 3] := by
  funext j; rw [C53_bits _ _ (by norm_num)]; fin_cases j <;> simp [Nat.testBit]

example : Solid (⟨⟨![0, 0, 0], true⟩, ⟨![1, 2, 3], true⟩⟩ : Box 3) := fun i => by fin_cases i <;> simp

end WFMath
