/- Property theorems C54 about the intersection and containment tests of axis-parallel boxes. -/
import Verif.Props.AxisBox

namespace WFMath
open Spec
variable {n : Nat}

@[simp] theorem less_true {x y : ℝ} : less x y true = true ↔ x ≤ y := by simp [less]
@[simp] theorem less_false {x y : ℝ} : less x y false = true ↔ x + epsilon < y := by
  simp only [less, Bool.false_eq_true, if_false, decide_eq_true_eq]; constructor <;> intro h <;> linarith
@[simp] theorem greater_true {x y : ℝ} : greater x y true = true ↔ y ≤ x := by simp [greater]
@[simp] theorem greater_false {x y : ℝ} : greater x y false = true ↔ y + epsilon < x := by
  simp only [greater, Bool.false_eq_true, if_false, decide_eq_true_eq]; constructor <;> intro h <;> linarith
@[simp] theorem lessEq_true {x y : ℝ} : lessEq x y true = true ↔ x < y := by simp [lessEq]
@[simp] theorem lessEq_false {x y : ℝ} : lessEq x y false = true ↔ x ≤ y := by simp [lessEq]
@[simp] theorem greaterEq_true {x y : ℝ} : greaterEq x y true = true ↔ y < x := by simp [greaterEq]
@[simp] theorem greaterEq_false {x y : ℝ} : greaterEq x y false = true ↔ y ≤ x := by simp [greaterEq]

theorem not_or_bool {a b : Bool} : (!(a || b)) = true ↔ ¬ a = true ∧ ¬ b = true := by cases a <;> cases b <;> simp

theorem interBP_true {b : Box n} {p : Pt n} :
    interBP b p true = true ↔ ∀ i, b.low.elem i < p.elem i ∧ p.elem i < b.high.elem i := by
  unfold interBP
  simp only [List.all_eq_true, List.mem_finRange, true_implies, not_or_bool, greater_true, less_true, not_le]
theorem interBP_false {b : Box n} {p : Pt n} :
    interBP b p false = true ↔ ∀ i, b.low.elem i - epsilon ≤ p.elem i ∧ p.elem i ≤ b.high.elem i + epsilon := by
  unfold interBP
  simp only [List.all_eq_true, List.mem_finRange, true_implies, not_or_bool, greater_false, less_false, not_lt, sub_le_iff_le_add]
theorem interBB_true {a b : Box n} :
    interBB a b true = true ↔ ∀ i, a.low.elem i < b.high.elem i ∧ b.low.elem i < a.high.elem i := by
  unfold interBB
  simp only [List.all_eq_true, List.mem_finRange, true_implies, not_or_bool, greater_true, less_true, not_le]
theorem interBB_false {a b : Box n} :
    interBB a b false = true ↔ ∀ i, a.low.elem i ≤ b.high.elem i + epsilon ∧ b.low.elem i ≤ a.high.elem i + epsilon := by
  unfold interBB
  simp only [List.all_eq_true, List.mem_finRange, true_implies, not_or_bool, greater_false, less_false, not_lt]
theorem containsBB_true {a b : Box n} :
    containsBB a b true = true ↔ ∀ i, a.low.elem i < b.low.elem i ∧ b.high.elem i < a.high.elem i := by
  unfold containsBB
  simp only [List.all_eq_true, List.mem_finRange, true_implies, not_or_bool, greater_true, less_true, not_le]
theorem containsBB_false {a b : Box n} :
    containsBB a b false = true ↔ ∀ i, a.low.elem i ≤ b.low.elem i + epsilon ∧ b.high.elem i ≤ a.high.elem i + epsilon := by
  unfold containsBB
  simp only [List.all_eq_true, List.mem_finRange, true_implies, not_or_bool, greater_false, less_false, not_lt]

/-- The points near a box form the enlarged box. -/
theorem mem_near_box {b : Box n} (h : Ordered b) {δ : ℝ} (hδ : 0 ≤ δ) {x : Fin n → ℝ} :
    x ∈ near δ (boxSet b) ↔ ∀ i, b.low.elem i - δ ≤ x i ∧ x i ≤ b.high.elem i + δ := by
  constructor
  · rintro ⟨y, hy, hd⟩ i
    have h1 := abs_le.1 (hd i)
    have h2 := hy i
    constructor <;> linarith
  · intro hx
    refine ⟨fun i => max (b.low.elem i) (min (x i) (b.high.elem i)), fun i => ⟨le_max_left _ _, max_le (h i) (min_le_right _ _)⟩, fun i => ?_⟩
    have hi := hx i
    have := h i
    rw [abs_le]
    show -δ ≤ x i - max (b.low.elem i) (min (x i) (b.high.elem i)) ∧ x i - max (b.low.elem i) (min (x i) (b.high.elem i)) ≤ δ
    rcases max_cases (b.low.elem i) (min (x i) (b.high.elem i)) with ⟨e, h1⟩ | ⟨e, h1⟩ <;>
    rcases min_cases (x i) (b.high.elem i) with ⟨e', h1'⟩ | ⟨e', h1'⟩ <;> rw [e] <;> (try rw [e'] at h1 ⊢) <;> constructor <;> linarith

/-- C54, membership: the proper test is membership in the open box, the other membership in the closed box with every
coordinate allowed to be off by epsilon. -/
theorem C54_point (b : Box n) (p : Pt n) :
    (interBP b p true = true ↔ p.elem ∈ boxInterior b) ∧
    (Ordered b → (interBP b p false = true ↔ p.elem ∈ near epsilon (boxSet b))) ∧
    (p.elem ∈ boxSet b → interBP b p false = true) := by
  refine ⟨interBP_true, fun h => ?_, fun h => interBP_false.2 fun i => ?_⟩
  · rw [interBP_false, mem_near_box h epsilon_pos.le]
  · have := h i; have := epsilon_pos
    constructor <;> linarith

/-- C54, overlap, tolerant test: some point of one box has every coordinate within epsilon of some point of the other. -/
theorem C54_overlap (a b : Box n) (ha : Ordered a) (hb : Ordered b) :
    (interBB a b false = true ↔ (boxSet a ∩ near epsilon (boxSet b)).Nonempty) ∧
    ((boxSet a ∩ boxSet b).Nonempty → interBB a b false = true) := by
  have he := epsilon_pos
  have key : interBB a b false = true ↔ (boxSet a ∩ near epsilon (boxSet b)).Nonempty := by
    rw [interBB_false]
    constructor
    · intro h
      refine ⟨fun i => max (a.low.elem i) (b.low.elem i - epsilon), fun i => ⟨le_max_left _ _, max_le (ha i) ?_⟩, ?_⟩
      · linarith [(h i).2]
      · rw [mem_near_box hb he.le]
        refine fun i => ⟨le_max_right _ _, max_le (h i).1 ?_⟩
        linarith [hb i]
    · rintro ⟨x, hx, hy⟩ i
      rw [mem_near_box hb he.le] at hy
      have := hx i; have := hy i
      constructor <;> linarith
  refine ⟨key, fun ⟨x, h1, h2⟩ => key.2 ⟨x, h1, x, h2, fun i => by simp [he.le]⟩⟩

/-- C54, overlap, proper test: the boxes still meet after every small enough displacement of one of them. -/
theorem C54_overlap_proper (a b : Box n) (ha : Ordered a) (hb : Ordered b) :
    interBB a b true = true ↔
      ∃ δ > 0, ∀ v : Fin n → ℝ, (∀ i, |v i| < δ) → (boxSet a ∩ moved v (boxSet b)).Nonempty := by
  rw [interBB_true]
  constructor
  · intro h
    obtain ⟨δ, hδ, hd⟩ : ∃ δ > 0, ∀ i, δ ≤ b.high.elem i - a.low.elem i ∧ δ ≤ a.high.elem i - b.low.elem i := by
      rcases isEmpty_or_nonempty (Fin n) with he | he
      · exact ⟨1, one_pos, fun i => he.elim i⟩
      · obtain ⟨i0, h0⟩ := Finite.exists_min fun i => min (b.high.elem i - a.low.elem i) (a.high.elem i - b.low.elem i)
        refine ⟨_, lt_min (sub_pos.2 (h i0).1) (sub_pos.2 (h i0).2), fun i => ?_⟩
        exact le_min_iff.1 (h0 i)
    refine ⟨δ, hδ, fun v hv => ?_⟩
    have key : ∀ i, a.low.elem i ≤ b.high.elem i + v i ∧ b.low.elem i + v i ≤ a.high.elem i := fun i => by
      have := abs_lt.1 (hv i); have := hd i
      constructor <;> linarith
    refine ⟨fun i => max (a.low.elem i) (b.low.elem i + v i), fun i => ⟨le_max_left _ _, max_le (ha i) (key i).2⟩,
      fun i => max (a.low.elem i) (b.low.elem i + v i) - v i, fun i => ⟨?_, ?_⟩, by funext i; simp⟩
    · linarith [le_max_right (a.low.elem i) (b.low.elem i + v i)]
    · rw [sub_le_iff_le_add]; exact max_le (key i).1 (by linarith [hb i])
  · rintro ⟨δ, hδ, h⟩ i
    constructor
    · obtain ⟨x, hx, y, hy, e⟩ := h (fun _ => -(δ / 2)) fun i => by rw [abs_neg, abs_of_pos (by linarith)]; linarith
      have h1 := hx i; have h2 := hy i; have h3 := congrFun e i
      simp only [Pi.add_apply] at h3
      linarith
    · obtain ⟨x, hx, y, hy, e⟩ := h (fun _ => δ / 2) fun i => by rw [abs_of_pos (by linarith)]; linarith
      have h1 := hx i; have h2 := hy i; have h3 := congrFun e i
      simp only [Pi.add_apply] at h3
      linarith

/-- C54, overlap, proper test, for boxes with positive extent on every axis: the interiors share a point. -/
theorem C54_overlap_solid (a b : Box n) (ha : Solid a) (hb : Solid b) :
    interBB a b true = true ↔ (boxInterior a ∩ boxInterior b).Nonempty := by
  rw [interBB_true]
  constructor
  · intro h
    have key : ∀ i, max (a.low.elem i) (b.low.elem i) < min (a.high.elem i) (b.high.elem i) := fun i =>
      max_lt (lt_min (ha i) (h i).1) (lt_min (h i).2 (hb i))
    refine ⟨fun i => (max (a.low.elem i) (b.low.elem i) + min (a.high.elem i) (b.high.elem i)) / 2, fun i => ?_, fun i => ?_⟩ <;>
    · have := key i
      have := le_max_left (a.low.elem i) (b.low.elem i); have := le_max_right (a.low.elem i) (b.low.elem i)
      have := min_le_left (a.high.elem i) (b.high.elem i); have := min_le_right (a.high.elem i) (b.high.elem i)
      constructor <;> linarith
  · rintro ⟨x, hx, hy⟩ i
    exact ⟨(hx i).1.trans (hy i).2, (hy i).1.trans (hx i).2⟩

/-- C54, containment: the proper test is inclusion of the closed inner box in the open outer box, the other inclusion in
the outer box with every coordinate allowed to be off by epsilon. -/
theorem C54_contains (outer inner : Box n) (hi : Ordered inner) :
    (containsBB outer inner true = true ↔ boxSet inner ⊆ boxInterior outer) ∧
    (Ordered outer → (containsBB outer inner false = true ↔ boxSet inner ⊆ near epsilon (boxSet outer))) ∧
    (boxSet inner ⊆ boxSet outer → containsBB outer inner false = true) := by
  have he := epsilon_pos
  refine ⟨?_, fun ho => ?_, fun h => containsBB_false.2 fun i => ?_⟩
  · rw [containsBB_true]
    exact ⟨fun h x hx i => ⟨(h i).1.trans_le (hx i).1, (hx i).2.trans_lt (h i).2⟩,
      fun h i => ⟨(h (low_mem hi) i).1, (h (high_mem hi) i).2⟩⟩
  · rw [containsBB_false]
    constructor
    · intro h x hx
      rw [mem_near_box ho he.le]
      intro i
      have := h i; have := hx i
      constructor <;> linarith
    · intro h i
      have h1 := (mem_near_box ho he.le).1 (h (low_mem hi)) i
      have h2 := (mem_near_box ho he.le).1 (h (high_mem hi)) i
      constructor <;> linarith
  · have := (h (low_mem hi) i).1; have := (h (high_mem hi) i).2
    constructor <;> linarith

/-- C54: intersection is symmetric. -/
theorem C54_symm (a b : Box n) (proper : Bool) : interBB a b proper = interBB b a proper := by
  rw [Bool.eq_iff_iff]
  cases proper
  · rw [interBB_false, interBB_false]; exact forall_congr' fun i => and_comm
  · rw [interBB_true, interBB_true]; exact forall_congr' fun i => and_comm

/-- C54: containment implies intersection. -/
theorem C54_contains_intersect (outer inner : Box n) (hi : Ordered inner) (proper : Bool)
    (h : containsBB outer inner proper = true) (ho : Ordered outer) : interBB outer inner proper = true := by
  have he := epsilon_pos
  cases proper
  · rw [containsBB_false] at h
    rw [interBB_false]
    intro i; have := h i; have := hi i; have := ho i
    constructor <;> linarith
  · rw [containsBB_true] at h
    rw [interBB_true]
    intro i; have := h i; have := hi i
    constructor <;> linarith

/-- C54: proper containment is transitive, and so is containment when one of the two is exact inclusion. In general the
tolerances add up; together with `C54_trans_false` this is what remains of transitivity. -/
theorem C54_trans_partial (a b c : Box n) (hb : Ordered b) (hc : Ordered c) :
    (containsBB a b true = true → containsBB b c true = true → containsBB a c true = true) ∧
    (boxSet b ⊆ boxSet a → containsBB b c false = true → containsBB a c false = true) ∧
    (containsBB a b false = true → boxSet c ⊆ boxSet b → containsBB a c false = true) ∧
    (Ordered a → containsBB a b false = true → containsBB b c false = true → boxSet c ⊆ near (2 * epsilon) (boxSet a)) := by
  have he := epsilon_pos
  simp only [containsBB_true, containsBB_false]
  refine ⟨fun h1 h2 i => ⟨(h1 i).1.trans (h2 i).1, (h2 i).2.trans (h1 i).2⟩, fun h1 h2 i => ?_, fun h1 h2 i => ?_,
    fun ha h1 h2 x hx => ?_⟩
  · have := (boxSet_subset hb).1 h1 i; have := h2 i
    constructor <;> linarith
  · have := (boxSet_subset hc).1 h2 i; have := h1 i
    constructor <;> linarith
  · rw [mem_near_box ha (by linarith)]
    intro i; have := h1 i; have := h2 i; have := hx i
    constructor <;> linarith

/-- C54: transitivity of the tolerant containment test is false of the code, because the tolerance is absolute. -/
theorem C54_trans_false : ¬ ∀ a b c : Box 1, Ordered a → Ordered b → Ordered c →
    containsBB a b false = true → containsBB b c false = true → containsBB a c false = true := by
  intro h
  have he := epsilon_pos
  have := h ⟨⟨![0], true⟩, ⟨![1], true⟩⟩ ⟨⟨![-epsilon], true⟩, ⟨![1], true⟩⟩ ⟨⟨![-(2 * epsilon)], true⟩, ⟨![1], true⟩⟩
    (fun i => by simp) (fun i => by simp; linarith) (fun i => by simp; linarith)
    (containsBB_false.2 fun i => by simp [he.le]) (containsBB_false.2 fun i => by simp; constructor <;> linarith)
  rw [containsBB_false] at this
  have := (this 0).1
  simp at this
  linarith

/-- C54, a point containing a box: never properly; otherwise both corners equal the point under the tolerant equality of
points, as they do when the valid box is just that valid point. -/
theorem C54_point_contains (p : Pt n) (b : Box n) :
    containsPB p b true = false ∧
    (containsPB p b false = true ↔ p.isEqualTo b.low epsilon = true ∧ p.isEqualTo b.high epsilon = true) ∧
    (p.valid = true → b.valid = true → Ordered b → boxSet b = {p.elem} → containsPB p b false = true) := by
  refine ⟨by simp [containsPB], by simp [containsPB], fun hp hb ho h => ?_⟩
  have h1 : b.low.elem = p.elem := by have := low_mem ho; rw [h] at this; exact this
  have h2 : b.high.elem = p.elem := by have := high_mem ho; rw [h] at this; exact this
  unfold Box.valid at hb
  rw [Bool.and_eq_true] at hb
  simp only [containsPB, Bool.not_false, Bool.true_and, Bool.and_eq_true, C28_point_iff]
  refine ⟨⟨hp, hb.1, fun i => ?_⟩, hp, hb.2, fun i => ?_⟩ <;> simp [h1, h2, scaleEpsilonArr_nonneg epsilon_pos.le]

/-- A box containing another properly. -/
example : containsBB (⟨⟨![0, 0], true⟩, ⟨![4, 4], true⟩⟩ : Box 2) ⟨⟨![1, 1], true⟩, ⟨![2, 3], true⟩⟩ true = true := by
  rw [containsBB_true]; intro i; fin_cases i <;> simp <;> norm_num

/-- Touching boxes intersect, but not properly. -/
example : interBB (⟨⟨![0, 0], true⟩, ⟨![1, 1], true⟩⟩ : Box 2) ⟨⟨![1, 0], true⟩, ⟨![2, 1], true⟩⟩ false = true ∧
    ¬ interBB (⟨⟨![0, 0], true⟩, ⟨![1, 1], true⟩⟩ : Box 2) ⟨⟨![1, 0], true⟩, ⟨![2, 1], true⟩⟩ true = true := by
  have he := epsilon_pos
  rw [interBB_true, interBB_false]
  constructor
  · intro i; fin_cases i <;> simp [he.le] <;> linarith
  · intro h; have := (h 0).2; simp at this

end WFMath
