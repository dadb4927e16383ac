/- Property theorems C59-C63 about segments. -/
import Verif.Props.BoundingSphere
import Mathlib.Topology.Order.DenselyOrdered
import Mathlib.Topology.Instances.Real.Lemmas
import Mathlib.Topology.Algebra.Ring.Real

namespace WFMath
open Spec Matrix
variable {n : Nat}

/-- The point of the segment's line with parameter `t`. -/
noncomputable def segPt (s : Seg n) (t : ℝ) : Fin n → ℝ := (1 - t) • s.p1.elem + t • s.p2.elem

theorem segPt_apply (s : Seg n) (t : ℝ) (i : Fin n) : segPt s t i = s.p1.elem i + t * (s.p2.elem i - s.p1.elem i) := by
  simp only [segPt, Pi.add_apply, Pi.smul_apply, smul_eq_mul]; ring

theorem segPt_mem (s : Seg n) {t : ℝ} (h0 : 0 ≤ t) (h1 : t ≤ 1) : segPt s t ∈ segSet s := ⟨t, h0, h1, rfl⟩

/-! ### C59 segment and box -/

/-- The bounds on the parameter from one axis. -/
theorem axis_param {lo hi a d t : ℝ} (hd : d ≠ 0) (h : lo ≤ hi) :
    let low := (lo - a) / d
    let high := (hi - a) / d
    let p := if low > high then (high, low) else (low, high)
    ((p.1 ≤ t ∧ t ≤ p.2) ↔ lo ≤ a + t * d ∧ a + t * d ≤ hi) ∧ ((p.1 < t ∧ t < p.2) ↔ lo < a + t * d ∧ a + t * d < hi) := by
  intro low high p
  rcases lt_or_gt_of_ne hd with hd | hd
  · have h1 : ∀ c : ℝ, (c - a) / d ≤ t ↔ a + t * d ≤ c := fun c => by
      rw [div_le_iff_of_neg hd]; constructor <;> intro h <;> linarith
    have h2 : ∀ c : ℝ, t ≤ (c - a) / d ↔ c ≤ a + t * d := fun c => by
      rw [le_div_iff_of_neg hd]; constructor <;> intro h <;> linarith
    have hp : p.1 = high ∧ p.2 = low := by
      simp only [p]; split_ifs with hlt
      · exact ⟨rfl, rfl⟩
      · have : high ≤ low := by
          simp only [high, low]; exact div_le_div_of_nonpos_of_le hd.le (by linarith)
        have := le_antisymm (not_lt.1 hlt) this
        exact ⟨this, this.symm⟩
    rw [hp.1, hp.2, h1, h2, ← not_le, ← not_le, h1, h2]
    constructor
    · tauto
    · rw [not_le, not_le]; tauto
  · have h1 : ∀ c : ℝ, (c - a) / d ≤ t ↔ c ≤ a + t * d := fun c => by
      rw [div_le_iff₀ hd]; constructor <;> intro h <;> linarith
    have h2 : ∀ c : ℝ, t ≤ (c - a) / d ↔ a + t * d ≤ c := fun c => by
      rw [le_div_iff₀ hd]; constructor <;> intro h <;> linarith
    have hp : p.1 = low ∧ p.2 = high := by
      simp only [p]; split_ifs with hlt
      · have : low ≤ high := by simp only [high, low]; exact div_le_div_of_nonneg_right (by linarith) hd.le
        exact absurd hlt (not_lt.2 this)
      · exact ⟨rfl, rfl⟩
    rw [hp.1, hp.2, h1, h2, ← not_le, ← not_le, h1, h2]
    constructor
    · tauto
    · rw [not_le, not_le]

theorem segBoxLoop_spec (s : Seg n) (b : Box n) (ho : Ordered b) (proper : Bool) (l : List (Fin n)) (mn mx : ℝ) :
    (segBoxLoop s b proper l (mn, mx) = none ∧ ∃ i ∈ l, s.p2.elem i = s.p1.elem i ∧
      (less (s.p1.elem i) (b.low.elem i) proper = true ∨ greater (s.p1.elem i) (b.high.elem i) proper = true)) ∨
    ∃ mn' mx', segBoxLoop s b proper l (mn, mx) = some (mn', mx') ∧
      (∀ i ∈ l, s.p2.elem i = s.p1.elem i →
        ¬ less (s.p1.elem i) (b.low.elem i) proper = true ∧ ¬ greater (s.p1.elem i) (b.high.elem i) proper = true) ∧
      (∀ t, (mn' ≤ t ∧ t ≤ mx') ↔ (mn ≤ t ∧ t ≤ mx) ∧ ∀ i ∈ l, s.p2.elem i ≠ s.p1.elem i →
        b.low.elem i ≤ segPt s t i ∧ segPt s t i ≤ b.high.elem i) ∧
      (∀ t, (mn' < t ∧ t < mx') ↔ (mn < t ∧ t < mx) ∧ ∀ i ∈ l, s.p2.elem i ≠ s.p1.elem i →
        b.low.elem i < segPt s t i ∧ segPt s t i < b.high.elem i) := by
  induction l generalizing mn mx with
  | nil => exact Or.inr ⟨mn, mx, rfl, by simp, by simp, by simp⟩
  | cons k l ih =>
    rw [segBoxLoop]
    by_cases hd : s.p2.elem k - s.p1.elem k = 0
    · have hd' : s.p2.elem k = s.p1.elem k := by linarith
      simp only [hd, if_true]
      by_cases hc : (less (s.p1.elem k) (b.low.elem k) proper || greater (s.p1.elem k) (b.high.elem k) proper) = true
      · rw [if_pos hc]
        rw [Bool.or_eq_true] at hc
        exact Or.inl ⟨rfl, k, by simp, hd', hc⟩
      · rw [if_neg hc]
        rw [Bool.or_eq_true, not_or] at hc
        rcases ih mn mx with ⟨h1, i, hi, h2⟩ | ⟨mn', mx', h1, h2, h3, h4⟩
        · exact Or.inl ⟨h1, i, List.mem_cons_of_mem _ hi, h2⟩
        · refine Or.inr ⟨mn', mx', h1, fun i hi he => ?_, fun t => ?_, fun t => ?_⟩
          · rcases List.mem_cons.1 hi with rfl | hi
            · exact hc
            · exact h2 i hi he
          · rw [h3]; simp only [List.forall_mem_cons, hd', ne_eq, not_true_eq_false, false_implies, true_and]
          · rw [h4]; simp only [List.forall_mem_cons, hd', ne_eq, not_true_eq_false, false_implies, true_and]
    · have hd' : s.p2.elem k ≠ s.p1.elem k := fun h => hd (by rw [h, sub_self])
      simp only [hd, if_false]
      have ha := fun t => axis_param (t := t) (a := s.p1.elem k) hd (ho k)
      simp only at ha
      generalize hp : (if (b.low.elem k - s.p1.elem k) / (s.p2.elem k - s.p1.elem k) >
          (b.high.elem k - s.p1.elem k) / (s.p2.elem k - s.p1.elem k) then
        ((b.high.elem k - s.p1.elem k) / (s.p2.elem k - s.p1.elem k), (b.low.elem k - s.p1.elem k) / (s.p2.elem k - s.p1.elem k))
        else ((b.low.elem k - s.p1.elem k) / (s.p2.elem k - s.p1.elem k),
          (b.high.elem k - s.p1.elem k) / (s.p2.elem k - s.p1.elem k))) = p at ha ⊢
      obtain ⟨p1, p2⟩ := p
      simp only at ha ⊢
      rcases ih (if p1 > mn then p1 else mn) (if p2 < mx then p2 else mx) with ⟨h1, i, hi, h2⟩ | ⟨mn', mx', h1, h2, h3, h4⟩
      · exact Or.inl ⟨h1, i, List.mem_cons_of_mem _ hi, h2⟩
      · refine Or.inr ⟨mn', mx', h1, fun i hi he => ?_, fun t => ?_, fun t => ?_⟩
        · rcases List.mem_cons.1 hi with rfl | hi
          · exact absurd he hd'
          · exact h2 i hi he
        · rw [h3, List.forall_mem_cons, segPt_apply s t k]
          have e1 : (if p1 > mn then p1 else mn) ≤ t ↔ p1 ≤ t ∧ mn ≤ t := by
            split_ifs <;> constructor <;> intro h <;> (try constructor) <;> linarith [h]
          have e2 : t ≤ (if p2 < mx then p2 else mx) ↔ t ≤ p2 ∧ t ≤ mx := by
            split_ifs <;> constructor <;> intro h <;> (try constructor) <;> linarith [h]
          rw [e1, e2]
          have := (ha t).1
          tauto
        · rw [h4, List.forall_mem_cons, segPt_apply s t k]
          have e1 : (if p1 > mn then p1 else mn) < t ↔ p1 < t ∧ mn < t := by
            split_ifs <;> constructor <;> intro h <;> (try constructor) <;> linarith [h]
          have e2 : t < (if p2 < mx then p2 else mx) ↔ t < p2 ∧ t < mx := by
            split_ifs <;> constructor <;> intro h <;> (try constructor) <;> linarith [h]
          rw [e1, e2]
          have := (ha t).2
          tauto

/-- C59, tolerant test, exact description: some point of the segment is within the bounds of the box on every axis on which
the segment moves, and within the bounds widened by epsilon on the axes on which it is constant. -/
theorem C59_closed (s : Seg n) (b : Box n) (ho : Ordered b) :
    interSB s b false = true ↔ ∃ x ∈ segSet s, ∀ i,
      (s.p2.elem i ≠ s.p1.elem i → b.low.elem i ≤ x i ∧ x i ≤ b.high.elem i) ∧
      (s.p2.elem i = s.p1.elem i → b.low.elem i - epsilon ≤ x i ∧ x i ≤ b.high.elem i + epsilon) := by
  unfold interSB
  have hconst : ∀ i t, s.p2.elem i = s.p1.elem i → segPt s t i = s.p1.elem i := fun i t h => by
    rw [segPt_apply, h, sub_self, mul_zero, add_zero]
  rcases segBoxLoop_spec s b ho false (List.finRange n) 0 1 with ⟨h1, i, -, h2, h3⟩ | ⟨mn, mx, h1, h2, h3, h4⟩
  · rw [h1]
    simp only [Bool.false_eq_true, false_iff]
    rintro ⟨x, ⟨t, -, -, rfl⟩, hx⟩
    have hx := (hx i).2 h2
    rw [show ((1 - t) • s.p1.elem + t • s.p2.elem) i = s.p1.elem i from hconst i t h2] at hx
    rw [less_false, greater_false] at h3
    rcases h3 with h3 | h3 <;> linarith
  · rw [h1]
    simp only [lessEq_false]
    constructor
    · intro h
      obtain ⟨⟨t0, t1⟩, ht⟩ := (h3 mn).1 ⟨le_rfl, h⟩
      refine ⟨segPt s mn, segPt_mem s t0 t1, fun i => ⟨fun hi => ht i (by simp) hi, fun hi => ?_⟩⟩
      have := h2 i (by simp) hi
      rw [less_false, greater_false] at this
      rw [hconst i mn hi]
      constructor <;> linarith [this.1, this.2]
    · rintro ⟨x, ⟨t, t0, t1, rfl⟩, hx⟩
      have := (h3 t).2 ⟨⟨t0, t1⟩, fun i _ hi => (hx i).1 hi⟩
      linarith [this.1, this.2]

/-- C59, tolerant test: true whenever a point of the segment is in the box; when true, some point of the segment is within
epsilon of the box on every axis; exact when the segment is not constant on any axis. -/
theorem C59_tolerance (s : Seg n) (b : Box n) (ho : Ordered b) :
    ((segSet s ∩ boxSet b).Nonempty → interSB s b false = true) ∧
    (interSB s b false = true → (segSet s ∩ near epsilon (boxSet b)).Nonempty) ∧
    ((∀ i, s.p2.elem i ≠ s.p1.elem i) → (interSB s b false = true ↔ (segSet s ∩ boxSet b).Nonempty)) := by
  have he := epsilon_pos
  have hfull : (segSet s ∩ boxSet b).Nonempty → interSB s b false = true := by
    rintro ⟨x, h1, h2⟩
    rw [C59_closed s b ho]
    refine ⟨x, h1, fun i => ⟨fun _ => h2 i, fun _ => ?_⟩⟩
    have := h2 i
    constructor <;> linarith
  refine ⟨hfull, fun h => ?_, fun hne => ⟨fun h => ?_, hfull⟩⟩
  · obtain ⟨x, h1, h2⟩ := (C59_closed s b ho).1 h
    refine ⟨x, h1, (mem_near_box ho he.le).2 fun i => ?_⟩
    by_cases hi : s.p2.elem i = s.p1.elem i
    · exact (h2 i).2 hi
    · have := (h2 i).1 hi
      constructor <;> linarith
  · obtain ⟨x, h1, h2⟩ := (C59_closed s b ho).1 h
    exact ⟨x, h1, fun i => (h2 i).1 (hne i)⟩

/-- C59, proper test: exactly whether a point of the segment is in the interior of the box. -/
theorem C59_proper (s : Seg n) (b : Box n) (ho : Ordered b) :
    interSB s b true = true ↔ (segSet s ∩ boxInterior b).Nonempty := by
  unfold interSB
  have hconst : ∀ i t, s.p2.elem i = s.p1.elem i → segPt s t i = s.p1.elem i := fun i t h => by
    rw [segPt_apply, h, sub_self, mul_zero, add_zero]
  rcases segBoxLoop_spec s b ho true (List.finRange n) 0 1 with ⟨h1, i, -, h2, h3⟩ | ⟨mn, mx, h1, h2, h3, h4⟩
  · rw [h1]
    simp only [Bool.false_eq_true, false_iff]
    rintro ⟨x, ⟨t, -, -, rfl⟩, hx⟩
    have hx := hx i
    rw [show ((1 - t) • s.p1.elem + t • s.p2.elem) i = s.p1.elem i from hconst i t h2] at hx
    rw [less_true, greater_true] at h3
    rcases h3 with h3 | h3 <;> linarith
  · rw [h1]
    simp only [lessEq_true]
    constructor
    · intro h
      obtain ⟨⟨t0, t1⟩, ht⟩ := (h4 ((mn + mx) / 2)).1 ⟨by linarith, by linarith⟩
      refine ⟨segPt s ((mn + mx) / 2), segPt_mem s t0.le t1.le, fun i => ?_⟩
      by_cases hi : s.p2.elem i = s.p1.elem i
      · have := h2 i (by simp) hi
        rw [less_true, greater_true, not_le, not_le] at this
        rw [hconst i _ hi]; exact this
      · exact ht i (by simp) hi
    · rintro ⟨x, ⟨t, t0, t1, rfl⟩, hx⟩
      have hopen : IsOpen {u : ℝ | ∀ i, b.low.elem i < segPt s u i ∧ segPt s u i < b.high.elem i} := by
        simp only [Set.setOf_forall]
        refine isOpen_iInter_of_finite fun i => ?_
        have hc : Continuous fun u : ℝ => segPt s u i := by
          simp only [segPt_apply]; fun_prop
        exact (isOpen_lt continuous_const hc).inter (isOpen_lt hc continuous_const)
      have hcl : t ∈ closure (Set.Ioo (0 : ℝ) 1) := by rw [closure_Ioo (by norm_num)]; exact ⟨t0, t1⟩
      obtain ⟨u, hu, hu'⟩ := mem_closure_iff.1 hcl _ hopen hx
      have := (h4 u).2 ⟨hu', fun i _ _ => hu i⟩
      linarith [this.1, this.2]

/-- A diagonal segment crossing the unit square. -/
example : interSB (⟨⟨![-1, -1], true⟩, ⟨![2, 2], true⟩⟩ : Seg 2) ⟨⟨![0, 0], true⟩, ⟨![1, 1], true⟩⟩ true = true :=
  (C59_proper _ _ fun i => by fin_cases i <;> simp).2 ⟨![1 / 2, 1 / 2], ⟨1 / 2, by norm_num, by norm_num, by
    funext i; fin_cases i <;> simp <;> norm_num⟩, fun i => by fin_cases i <;> simp <;> norm_num⟩

/-! ### C61 segment and point -/

theorem equal_iff {x y e : ℝ} : equal x y e = true ↔ |x - y| ≤ scaleEpsilon x y e := by simp [equal]

theorem equal_self {x e : ℝ} (he : 0 ≤ e) : equal x x e = true := by rw [equal_iff, sub_self, abs_zero]; exact scaleEpsilon_nonneg he

theorem interSP_true {s : Seg n} {p : Pt n} : interSP s p true = true ↔ (s.p1.sub p).dot (s.p2.sub p) < 0 ∧
    equal ((s.p1.sub p).dot (s.p2.sub p) * (s.p1.sub p).dot (s.p2.sub p)) ((s.p1.sub p).sqrMag * (s.p2.sub p).sqrMag) epsilon = true := by
  unfold interSP
  simp only
  by_cases h : greater ((s.p1.sub p).dot (s.p2.sub p)) 0 true = true
  · rw [if_pos h]
    rw [greater_true] at h
    simp only [Bool.false_eq_true, false_iff, not_and]
    intro h'; linarith
  · rw [if_neg h]
    rw [greater_true, not_le] at h
    exact ⟨fun h' => ⟨h, h'⟩, fun h' => h'.2⟩

theorem interSP_false {s : Seg n} {p : Pt n} : interSP s p false = true ↔ (s.p1.sub p).dot (s.p2.sub p) ≤ epsilon ∧
    equal ((s.p1.sub p).dot (s.p2.sub p) * (s.p1.sub p).dot (s.p2.sub p)) ((s.p1.sub p).sqrMag * (s.p2.sub p).sqrMag) epsilon = true := by
  unfold interSP
  simp only
  by_cases h : greater ((s.p1.sub p).dot (s.p2.sub p)) 0 false = true
  · rw [if_pos h]
    rw [greater_false, zero_add] at h
    simp only [Bool.false_eq_true, false_iff, not_and]
    intro h'; linarith
  · rw [if_neg h]
    rw [greater_false, zero_add, not_lt] at h
    exact ⟨fun h' => ⟨h, h'⟩, fun h' => h'.2⟩

theorem seg_mem_dot {s : Seg n} {p : Fin n → ℝ} (h : p ∈ segSet s) :
    (s.p1.elem - p) ⬝ᵥ (s.p2.elem - p) = -(len (s.p1.elem - p) * len (s.p2.elem - p)) := by
  obtain ⟨t, t0, t1, rfl⟩ := h
  have e1 : s.p1.elem - ((1 - t) • s.p1.elem + t • s.p2.elem) = (-t) • (s.p2.elem - s.p1.elem) := by module
  have e2 : s.p2.elem - ((1 - t) • s.p1.elem + t • s.p2.elem) = (1 - t) • (s.p2.elem - s.p1.elem) := by module
  rw [e1, e2, len_smul, len_smul, smul_dotProduct, dotProduct_smul, abs_neg, abs_of_nonneg t0, abs_of_nonneg (by linarith),
    smul_eq_mul, smul_eq_mul, ← len_sq]
  ring

/-- When the library's inner product of antiparallel vectors is rounded to 0, they are microscopic. -/
theorem anti_flush {u v : Vec n} (h : u.elem ⬝ᵥ v.elem = -(len u.elem * len v.elem))
    (hf : |u.elem ⬝ᵥ v.elem| < scaleEpsilonArr u.elem v.elem epsilon) : len u.elem * len v.elem ≤ 4 * epsilon ^ 2 := by
  have he := epsilon_pos
  have hu0 := len_nonneg u.elem
  have hv0 := len_nonneg v.elem
  by_cases hu : u.elem = 0
  · rw [hu, len_zero, zero_mul]; positivity
  by_cases hv : v.elem = 0
  · rw [hv, len_zero, mul_zero]; positivity
  have h1 := hf.trans_le (scaleEpsilonArr_le he.le hu hv)
  rw [h, abs_neg, abs_of_nonneg (mul_nonneg hu0 hv0)] at h1
  have m1 : maxAbs u.elem ≤ len u.elem := Vec.maxAbs_le_mag u
  have m2 : maxAbs v.elem ≤ len v.elem := Vec.maxAbs_le_mag v
  have hup := len_pos.2 hu
  have hvp := len_pos.2 hv
  have k1 : len u.elem * len v.elem < 2 * epsilon * len u.elem :=
    h1.trans_le (mul_le_mul_of_nonneg_left ((min_le_left _ _).trans m1) (by linarith))
  have k2 : len u.elem * len v.elem < 2 * epsilon * len v.elem :=
    h1.trans_le (mul_le_mul_of_nonneg_left ((min_le_right _ _).trans m2) (by linarith))
  have l1 : len v.elem < 2 * epsilon := by nlinarith
  have l2 : len u.elem < 2 * epsilon := by nlinarith
  nlinarith

/-- C61: the test accepts every point of the segment, ends included. -/
theorem C61_accepts (s : Seg n) (p : Pt n) (h : p.elem ∈ segSet s) : interSP s p false = true := by
  have he := epsilon_pos
  have he2 := epsilon_lt
  norm_num at he2
  have hd := seg_mem_dot h
  have l1 := len_nonneg (s.p1.elem - p.elem)
  have l2 := len_nonneg (s.p2.elem - p.elem)
  have s1 : (s.p1.sub p).sqrMag = len (s.p1.elem - p.elem) ^ 2 := by rw [len_sq]; rfl
  have s2 : (s.p2.sub p).sqrMag = len (s.p2.elem - p.elem) ^ 2 := by rw [len_sq]; rfl
  rw [interSP_false, s1, s2]
  rcases Vec.dot_cases (s.p1.sub p) (s.p2.sub p) with hc | ⟨hc, hf⟩
  · rw [hc]
    simp only [Pt.sub_elem]
    rw [hd]
    refine ⟨by nlinarith [mul_nonneg l1 l2], ?_⟩
    have : -(len (s.p1.elem - p.elem) * len (s.p2.elem - p.elem)) * -(len (s.p1.elem - p.elem) * len (s.p2.elem - p.elem)) =
        len (s.p1.elem - p.elem) ^ 2 * len (s.p2.elem - p.elem) ^ 2 := by ring
    rw [this]; exact equal_self he.le
  · rw [hc]
    refine ⟨he.le, ?_⟩
    have hk := anti_flush (u := s.p1.sub p) (v := s.p2.sub p) hd hf
    simp only [Pt.sub_elem] at hk
    have h0 := mul_nonneg l1 l2
    rw [zero_mul, equal_iff, scaleEpsilon_zero (Or.inl rfl), zero_sub, abs_neg, ← mul_pow, abs_of_nonneg (sq_nonneg _)]
    generalize len (s.p1.elem - p.elem) * len (s.p2.elem - p.elem) = a at hk h0
    have : a ≤ epsilon := by nlinarith
    nlinarith

/-- C61: the proper test accepts every point strictly between the ends, unless the inner product it computes is rounded
to 0 (which needs a segment shorter than `4 ε`), and rejects the ends. -/
theorem C61_accepts_proper (s : Seg n) (p : Pt n) :
    (p.elem ∈ segSet s → p.elem ≠ s.p1.elem → p.elem ≠ s.p2.elem → DotExact (s.p1.sub p) (s.p2.sub p) → interSP s p true = true) ∧
    (p.elem = s.p1.elem ∨ p.elem = s.p2.elem → interSP s p true = false) := by
  have he := epsilon_pos
  refine ⟨fun h h1 h2 hx => ?_, fun h => ?_⟩
  · have hd := seg_mem_dot h
    have l1 : 0 < len (s.p1.elem - p.elem) := len_pos.2 (sub_ne_zero.2 (Ne.symm h1))
    have l2 : 0 < len (s.p2.elem - p.elem) := len_pos.2 (sub_ne_zero.2 (Ne.symm h2))
    have s1 : (s.p1.sub p).sqrMag = len (s.p1.elem - p.elem) ^ 2 := by rw [len_sq]; rfl
    have s2 : (s.p2.sub p).sqrMag = len (s.p2.elem - p.elem) ^ 2 := by rw [len_sq]; rfl
    unfold DotExact at hx
    rw [interSP_true, s1, s2, hx]
    simp only [Pt.sub_elem]
    rw [hd]
    refine ⟨by nlinarith [mul_pos l1 l2], ?_⟩
    have : -(len (s.p1.elem - p.elem) * len (s.p2.elem - p.elem)) * -(len (s.p1.elem - p.elem) * len (s.p2.elem - p.elem)) =
        len (s.p1.elem - p.elem) ^ 2 * len (s.p2.elem - p.elem) ^ 2 := by ring
    rw [this]; exact equal_self he.le
  · rw [Bool.eq_false_iff, Ne, interSP_true]
    rintro ⟨hlt, -⟩
    rcases h with h | h
    · rw [Vec.dot_of_zero_left (by rw [Pt.sub_elem, h, sub_self])] at hlt; exact lt_irrefl _ hlt
    · rw [Vec.dot_of_zero_right (by rw [Pt.sub_elem, h, sub_self])] at hlt; exact lt_irrefl _ hlt

/-- The foot of the perpendicular when the angle at `p` is not acute. -/
theorem foot {a b p : Fin n → ℝ} (hd : (a - p) ⬝ᵥ (b - p) ≤ 0) {e : ℝ} (he : 0 ≤ e)
    (hP : len (a - p) ^ 2 * len (b - p) ^ 2 - ((a - p) ⬝ᵥ (b - p)) ^ 2 ≤ e * (len (a - p) ^ 2 * len (b - p) ^ 2)) :
    ∃ t : ℝ, 0 ≤ t ∧ t ≤ 1 ∧ eucl p ((1 - t) • a + t • b) ^ 2 ≤ e * eucl a b ^ 2 := by
  have hw : len (b - a) ^ 2 = len (a - p) ^ 2 + len (b - p) ^ 2 - 2 * ((a - p) ⬝ᵥ (b - p)) := by
    have : b - a = (b - p) - (a - p) := by abel
    rw [len_sq, len_sq, len_sq, this]
    generalize a - p = u
    generalize b - p = v
    rw [sub_dotProduct, dotProduct_sub, dotProduct_sub, dotProduct_comm v u]
    ring
  set u := a - p with hu
  set v := b - p with hv
  set d := u ⬝ᵥ v with hd'
  have hu0 := sq_nonneg (len u)
  have hv0 := sq_nonneg (len v)
  rcases eq_or_lt_of_le (sq_nonneg (len (b - a))) with h0 | hp
  · have hz : len u ^ 2 = 0 := by nlinarith
    refine ⟨0, le_rfl, zero_le_one, ?_⟩
    have : eucl p ((1 - (0 : ℝ)) • a + (0 : ℝ) • b) = len u := by
      rw [eucl_comm, eucl_eq_len, sub_zero, one_smul, zero_smul, add_zero]
    rw [this, hz]; positivity
  · have ht0 : 0 ≤ (len u ^ 2 - d) / len (b - a) ^ 2 := div_nonneg (by linarith) hp.le
    have ht1 : (len u ^ 2 - d) / len (b - a) ^ 2 ≤ 1 := by rw [div_le_one hp]; linarith
    refine ⟨(len u ^ 2 - d) / len (b - a) ^ 2, ht0, ht1, ?_⟩
    generalize ht : (len u ^ 2 - d) / len (b - a) ^ 2 = t at ht0 ht1
    have hte : t * len (b - a) ^ 2 = len u ^ 2 - d := by rw [← ht]; exact div_mul_cancel₀ _ hp.ne'
    have e1 : (1 - t) • a + t • b - p = (1 - t) • u + t • v := by rw [hu, hv]; module
    have e2 : eucl p ((1 - t) • a + t • b) ^ 2 = (1 - t) ^ 2 * len u ^ 2 + t ^ 2 * len v ^ 2 + 2 * t * (1 - t) * d := by
      rw [eucl_comm, eucl_eq_len, e1, len_sq, len_sq, len_sq, add_dotProduct, dotProduct_add, dotProduct_add,
        dotProduct_comm (t • v) ((1 - t) • u)]
      simp only [smul_dotProduct, dotProduct_smul, smul_eq_mul]
      rw [hd']; ring
    have e3 : eucl p ((1 - t) • a + t • b) ^ 2 * len (b - a) ^ 2 = len u ^ 2 * len v ^ 2 - d ^ 2 := by
      have e4 : eucl p ((1 - t) • a + t • b) ^ 2 = len u ^ 2 - t * (len u ^ 2 - d) := by
        rw [e2]
        have : t * (t * len (b - a) ^ 2) = t * (len u ^ 2 - d) := by rw [hte]
        rw [hw] at this
        nlinarith
      rw [e4, sub_mul, mul_right_comm, hte, hw]; ring
    have e5 : eucl a b = len (b - a) := by rw [eucl_comm, eucl_eq_len]
    rw [e5]
    have hb : len u ^ 2 * len v ^ 2 ≤ len (b - a) ^ 2 * len (b - a) ^ 2 :=
      mul_le_mul (by linarith) (by linarith) hv0 hp.le
    have h6 : eucl p ((1 - t) • a + t • b) ^ 2 * len (b - a) ^ 2 ≤ e * len (b - a) ^ 2 * len (b - a) ^ 2 := by
      rw [e3]; nlinarith
    exact le_of_mul_le_mul_right h6 hp

theorem equal_prod {d P : ℝ} (hd : d ≠ 0) (hP : P ≠ 0) (hP0 : 0 ≤ P) (h : equal (d * d) P epsilon = true) :
    P - d ^ 2 ≤ 2 * epsilon * P := by
  rw [equal_iff] at h
  have h1 := scaleEpsilon_le (x := d * d) (y := P) epsilon_pos.le (mul_self_ne_zero.2 hd) hP
  have h2 : min |d * d| |P| ≤ P := (min_le_right _ _).trans (abs_of_nonneg hP0).le
  have h3 := (abs_le.1 h).1
  have := mul_le_mul_of_nonneg_left h2 (show 0 ≤ 2 * epsilon by linarith [epsilon_pos])
  nlinarith

/-- C61: what the proper test accepts is within `√(2 ε)` times the segment's length of a point of the segment. -/
theorem C61_rejects_proper (s : Seg n) (p : Pt n) (h : interSP s p true = true) :
    ∃ x ∈ segSet s, eucl p.elem x ≤ Real.sqrt (2 * epsilon) * eucl s.p1.elem s.p2.elem := by
  have he := epsilon_pos
  rw [interSP_true] at h
  obtain ⟨hneg, heq⟩ := h
  have hc : (s.p1.sub p).dot (s.p2.sub p) = (s.p1.elem - p.elem) ⬝ᵥ (s.p2.elem - p.elem) := by
    rcases Vec.dot_cases (s.p1.sub p) (s.p2.sub p) with hc | ⟨hc, -⟩
    · exact hc
    · rw [hc] at hneg; exact absurd hneg (lt_irrefl _)
  rw [hc] at hneg heq
  have hP : len (s.p1.elem - p.elem) ^ 2 * len (s.p2.elem - p.elem) ^ 2 ≠ 0 := by
    intro h0
    have := abs_dot_le_len (s.p1.elem - p.elem) (s.p2.elem - p.elem)
    have h00 : len (s.p1.elem - p.elem) * len (s.p2.elem - p.elem) = 0 := by rw [← mul_pow] at h0; exact pow_eq_zero_iff (by norm_num) |>.1 h0
    rw [h00, abs_of_neg hneg] at this
    linarith
  have s1 : (s.p1.sub p).sqrMag = len (s.p1.elem - p.elem) ^ 2 := by rw [len_sq]; rfl
  have s2 : (s.p2.sub p).sqrMag = len (s.p2.elem - p.elem) ^ 2 := by rw [len_sq]; rfl
  rw [s1, s2] at heq
  obtain ⟨t, t0, t1, ht⟩ := foot hneg.le (show 0 ≤ 2 * epsilon by linarith) (equal_prod hneg.ne hP (by positivity) heq)
  refine ⟨_, ⟨t, t0, t1, rfl⟩, ?_⟩
  have h0 : 0 ≤ Real.sqrt (2 * epsilon) * eucl s.p1.elem s.p2.elem := mul_nonneg (Real.sqrt_nonneg _) (eucl_nonneg _ _)
  rw [← pow_le_pow_iff_left₀ (eucl_nonneg _ _) h0 (two_ne_zero), mul_pow, Real.sq_sqrt (by linarith)]
  exact ht

/-- C61, what the tolerant test accepts: a point within `√(2 ε)` times the segment's length of a point of the segment, or
one whose distances to the two ends have a product of at most `√ε`. Missing from C61: a bound relative to the size of the
segment in the latter case (`C61_false`). -/
theorem C61_rejects_partial (s : Seg n) (p : Pt n) (h : interSP s p false = true) :
    (∃ x ∈ segSet s, eucl p.elem x ≤ Real.sqrt (2 * epsilon) * eucl s.p1.elem s.p2.elem) ∨
    eucl p.elem s.p1.elem * eucl p.elem s.p2.elem ≤ Real.sqrt epsilon := by
  have he := epsilon_pos
  have he2 := epsilon_lt
  norm_num at he2
  rw [interSP_false] at h
  obtain ⟨hneg, heq⟩ := h
  have s1 : (s.p1.sub p).sqrMag = len (s.p1.elem - p.elem) ^ 2 := by rw [len_sq]; rfl
  have s2 : (s.p2.sub p).sqrMag = len (s.p2.elem - p.elem) ^ 2 := by rw [len_sq]; rfl
  rw [s1, s2] at heq
  have e1 : eucl p.elem s.p1.elem = len (s.p1.elem - p.elem) := by rw [eucl_comm, eucl_eq_len]
  have e2 : eucl p.elem s.p2.elem = len (s.p2.elem - p.elem) := by rw [eucl_comm, eucl_eq_len]
  rw [e1, e2]
  have small : len (s.p1.elem - p.elem) ^ 2 * len (s.p2.elem - p.elem) ^ 2 ≤ epsilon →
      len (s.p1.elem - p.elem) * len (s.p2.elem - p.elem) ≤ Real.sqrt epsilon := fun h => by
    apply Real.le_sqrt_of_sq_le; rw [mul_pow]; exact h
  by_cases hP : len (s.p1.elem - p.elem) ^ 2 * len (s.p2.elem - p.elem) ^ 2 = 0
  · exact Or.inr (small (by rw [hP]; exact he.le))
  by_cases hd0 : (s.p1.sub p).dot (s.p2.sub p) = 0
  · rw [hd0, zero_mul, equal_iff, scaleEpsilon_zero (Or.inl rfl), zero_sub, abs_neg, abs_of_nonneg (by positivity)] at heq
    exact Or.inr (small heq)
  have hc : (s.p1.sub p).dot (s.p2.sub p) = (s.p1.elem - p.elem) ⬝ᵥ (s.p2.elem - p.elem) := by
    rcases Vec.dot_cases (s.p1.sub p) (s.p2.sub p) with hc | ⟨hc, -⟩
    · exact hc
    · exact absurd hc hd0
  have hbound := equal_prod hd0 hP (by positivity) heq
  rw [hc] at hneg hbound
  rcases le_or_gt ((s.p1.elem - p.elem) ⬝ᵥ (s.p2.elem - p.elem)) 0 with hle | hgt
  · left
    obtain ⟨t, t0, t1, ht⟩ := foot hle (show 0 ≤ 2 * epsilon by linarith) hbound
    refine ⟨_, ⟨t, t0, t1, rfl⟩, ?_⟩
    have h0 : 0 ≤ Real.sqrt (2 * epsilon) * eucl s.p1.elem s.p2.elem := mul_nonneg (Real.sqrt_nonneg _) (eucl_nonneg _ _)
    rw [← pow_le_pow_iff_left₀ (eucl_nonneg _ _) h0 (two_ne_zero), mul_pow, Real.sq_sqrt (by linarith)]
    exact ht
  · refine Or.inr (small ?_)
    have hdd : ((s.p1.elem - p.elem) ⬝ᵥ (s.p2.elem - p.elem)) ^ 2 ≤ epsilon ^ 2 := pow_le_pow_left₀ hgt.le hneg 2
    generalize len (s.p1.elem - p.elem) ^ 2 * len (s.p2.elem - p.elem) ^ 2 = P at *
    have : P * (1 - 2 * epsilon) ≤ epsilon ^ 2 := by linarith
    nlinarith

/-- C61 is false of the code for short segments: the apex of a right-angled triangle over the segment is accepted. -/
theorem C61_false : ∃ (s : Seg 2) (p : Pt 2), s.valid = true ∧ p.valid = true ∧ interSP s p false = true ∧
    ∀ x ∈ segSet s, eucl s.p1.elem s.p2.elem / 2 ≤ eucl p.elem x := by
  have he : epsilon = 30 * 2⁻¹ ^ 52 := by unfold epsilon; norm_num
  refine ⟨⟨⟨![-(1 / 10000), 0], true⟩, ⟨![1 / 10000, 0], true⟩⟩, ⟨![0, 1 / 10000], true⟩, rfl, rfl, ?_, ?_⟩
  · rw [interSP_false]
    have h0 : Vec.dot ((⟨![-(1 / 10000), 0], true⟩ : Pt 2).sub ⟨![0, 1 / 10000], true⟩)
        ((⟨![1 / 10000, 0], true⟩ : Pt 2).sub ⟨![0, 1 / 10000], true⟩) = 0 := by
      apply Vec.dot_of_exact_zero
      simp [dotProduct, Fin.sum_univ_two]
    simp only [h0]
    refine ⟨epsilon_pos.le, ?_⟩
    rw [zero_mul, equal_iff, scaleEpsilon_zero (Or.inl rfl), he, Vec.sqrMag_eq, Vec.sqrMag_eq]
    simp [dotProduct, Fin.sum_univ_two]
    norm_num
  · rintro x ⟨t, t0, t1, rfl⟩
    have h1 : eucl (![-(1 / 10000), 0] : Fin 2 → ℝ) ![1 / 10000, 0] = 2 / 10000 := by
      rw [eucl]; simp [Fin.sum_univ_two]; rw [Real.sqrt_eq_iff_eq_sq] <;> norm_num
    have h2 := abs_sub_le_eucl (![0, 1 / 10000] : Fin 2 → ℝ) ((1 - t) • ![-(1 / 10000), 0] + t • ![1 / 10000, 0]) 1
    simp only [h1]
    simp at h2
    simp
    linarith

example : interSP (⟨⟨![0, 0], true⟩, ⟨![4, 2], true⟩⟩ : Seg 2) ⟨![2, 1], true⟩ false = true :=
  C61_accepts _ _ ⟨1 / 2, by norm_num, by norm_num, by funext i; fin_cases i <;> simp <;> norm_num⟩

/-! ### C60 segment and ball -/

theorem seg_dist_sq (s : Seg n) (c : Pt n) (t : ℝ) :
    eucl (segPt s t) c.elem ^ 2 = eucl s.p1.elem c.elem ^ 2 -
      2 * t * ((s.p2.sub s.p1).elem ⬝ᵥ (c.sub s.p1).elem) + t ^ 2 * (s.p2.sub s.p1).sqrMag := by
  have e1 : segPt s t - c.elem = t • (s.p2.elem - s.p1.elem) - (c.elem - s.p1.elem) := by unfold segPt; module
  have e2 : s.p1.elem - c.elem = -(c.elem - s.p1.elem) := by abel
  rw [eucl_eq_len, eucl_eq_len, e1, e2, len_neg, len_sq, len_sq, Vec.sqrMag_eq]
  simp only [Pt.sub_elem]
  generalize s.p2.elem - s.p1.elem = w
  generalize c.elem - s.p1.elem = o
  rw [sub_dotProduct, dotProduct_sub, dotProduct_sub, smul_dotProduct, dotProduct_smul, smul_dotProduct, dotProduct_smul,
    dotProduct_comm o w]
  simp only [smul_eq_mul]; ring

theorem segPt_zero (s : Seg n) : segPt s 0 = s.p1.elem := by simp [segPt]
theorem segPt_one (s : Seg n) : segPt s 1 = s.p2.elem := by simp [segPt]

theorem seg_perp (s : Seg n) (c : Pt n) (k : ℝ) :
    ((c.sub s.p1) - (s.p2.sub s.p1).scale k).sqrMag = eucl (segPt s k) c.elem ^ 2 := by
  have e1 : segPt s k - c.elem = -((c.elem - s.p1.elem) - k • (s.p2.elem - s.p1.elem)) := by unfold segPt; module
  rw [eucl_eq_len, e1, len_neg, len_sq, Vec.sqrMag_eq]
  have : ((c.sub s.p1) - (s.p2.sub s.p1).scale k).elem = (c.elem - s.p1.elem) - k • (s.p2.elem - s.p1.elem) := by
    funext i
    show c.elem i - s.p1.elem i - (s.p2.elem i - s.p1.elem i) * k = c.elem i - s.p1.elem i - k * (s.p2.elem i - s.p1.elem i)
    ring
  rw [this]

/-- C60: whatever the test accepts has a point of the segment in the ball with the radius enlarged by `√(1 + ε)`, unless
an end is so close to the centre that the library rounds the distance to 0. -/
theorem C60_rejects (s : Seg n) (b : Ball n) (hr : 0 ≤ b.radius) :
    (interSBall s b false = true → (segSet s ∩ ballSet (grown b)).Nonempty ∨ Flushed b.center s.p1 ∨ Flushed b.center s.p2) ∧
    (interSBall s b true = true → (segSet s ∩ ballInterior (grown b)).Nonempty ∨
      (0 < b.radius ∧ (Flushed b.center s.p1 ∨ Flushed b.center s.p2))) := by
  have hg := one_le_grow
  have hle : b.radius ≤ Real.sqrt (1 + epsilon) * b.radius := le_mul_of_one_le_left hr hg
  have c1 := C55_point b s.p1 hr
  have c2 := C55_point b s.p2 hr
  have m1 : s.p1.elem ∈ segSet s := p1_mem s
  have m2 : s.p2.elem ∈ segSet s := p2_mem s
  unfold interSBall
  simp only
  split_ifs with h1 h2
  · rw [c1.1, c1.2.1]
    exact ⟨fun h => h.elim (fun h => Or.inl ⟨_, m1, h⟩) fun h => Or.inr (Or.inl h),
      fun h => h.elim (fun h => Or.inl ⟨_, m1, h⟩) fun h => Or.inr ⟨h.1, Or.inl h.2⟩⟩
  · rw [c2.1, c2.2.1]
    exact ⟨fun h => h.elim (fun h => Or.inl ⟨_, m2, h⟩) fun h => Or.inr (Or.inr h),
      fun h => h.elim (fun h => Or.inl ⟨_, m2, h⟩) fun h => Or.inr ⟨h.1, Or.inr h.2⟩⟩
  · rw [not_le] at h1
    rw [ge_iff_le, not_le] at h2
    have hL : 0 < (s.p2.sub s.p1).sqrMag := h1.trans h2
    have k0 : 0 ≤ (s.p2.sub s.p1).dot (b.center.sub s.p1) / (s.p2.sub s.p1).sqrMag := div_nonneg h1.le hL.le
    have k1 : (s.p2.sub s.p1).dot (b.center.sub s.p1) / (s.p2.sub s.p1).sqrMag ≤ 1 := by rw [div_le_one hL]; exact h2.le
    rw [seg_perp, lessEq_false, lessEq_true, ← sq]
    have e0 := eucl_nonneg (segPt s ((s.p2.sub s.p1).dot (b.center.sub s.p1) / (s.p2.sub s.p1).sqrMag)) b.center.elem
    refine ⟨fun h => Or.inl ⟨_, segPt_mem s k0 k1, ?_⟩, fun h => Or.inl ⟨_, segPt_mem s k0 k1, ?_⟩⟩
    · exact ((pow_le_pow_iff_left₀ e0 hr two_ne_zero).1 h).trans hle
    · exact ((pow_lt_pow_iff_left₀ e0 hr two_ne_zero).1 h).trans_le hle

/-- The test in terms of squared distances, for a given segment point in the ball; `c ≤ R` is `<` or `≤`. -/
theorem sball_key {O d L R t : ℝ} (ht0 : 0 ≤ t) (ht1 : t ≤ 1) :
    (d ≤ 0 → 0 ≤ L → O ≤ O - 2 * t * d + t ^ 2 * L) ∧ (L ≤ d → 0 ≤ L → O - 2 * d + L ≤ O - 2 * t * d + t ^ 2 * L) ∧
    (0 < L → O - 2 * (d / L) * d + (d / L) ^ 2 * L ≤ O - 2 * t * d + t ^ 2 * L) := by
  refine ⟨fun h hL => ?_, fun h hL => ?_, fun hL => ?_⟩
  · nlinarith [mul_nonneg ht0 (neg_nonneg.2 h), mul_nonneg (sq_nonneg t) hL]
  · nlinarith [mul_nonneg (sub_nonneg.2 ht1) (sub_nonneg.2 h), mul_nonneg (mul_nonneg (sub_nonneg.2 ht1) (sub_nonneg.2 ht1)) hL]
  · have e : O - 2 * t * d + t ^ 2 * L - (O - 2 * (d / L) * d + (d / L) ^ 2 * L) = L * (t - d / L) ^ 2 := by
      field_simp; ring
    have := mul_nonneg hL.le (sq_nonneg (t - d / L))
    linarith

/-- C60: the test is true whenever a point of the segment is in the ball (in the open ball when `proper`), if the inner
product of the segment and the offset of the centre is not rounded to 0, or the radius or the length is at least `√(8 ε)`
(about `2.4e-7`). Missing from C60: segments and balls that are both smaller than that (`C60_false`). -/
theorem C60_accepts_partial (s : Seg n) (b : Ball n) (hr : 0 ≤ b.radius)
    (h : DotExact (s.p2.sub s.p1) (b.center.sub s.p1) ∨ 8 * epsilon ≤ b.radius ^ 2 ∨ 8 * epsilon ≤ eucl s.p1.elem s.p2.elem ^ 2) :
    ((segSet s ∩ ballSet b).Nonempty → interSBall s b false = true) ∧
    ((segSet s ∩ ballInterior b).Nonempty → interSBall s b true = true) := by
  have he := epsilon_pos
  have he2 := epsilon_lt
  norm_num at he2
  have hL0 : 0 ≤ (s.p2.sub s.p1).sqrMag := by rw [sub_sqrMag]; positivity
  have c1 := C55_point b s.p1 hr
  have c2 := C55_point b s.p2 hr
  have hgr : 0 ≤ Real.sqrt (1 + epsilon) * b.radius := mul_nonneg (Real.sqrt_nonneg _) hr
  rcases Vec.dot_cases (s.p2.sub s.p1) (b.center.sub s.p1) with hc | ⟨hc, hf⟩
  · -- exact inner product
    have key : ∀ t, 0 ≤ t → t ≤ 1 →
        ((eucl (segPt s t) b.center.elem ≤ b.radius → interSBall s b false = true) ∧
         (eucl (segPt s t) b.center.elem < b.radius → interSBall s b true = true)) := by
      intro t t0 t1
      have hk := sball_key (O := eucl s.p1.elem b.center.elem ^ 2) (d := (s.p2.sub s.p1).elem ⬝ᵥ (b.center.sub s.p1).elem)
        (L := (s.p2.sub s.p1).sqrMag) (R := b.radius) t0 t1
      rw [← seg_dist_sq] at hk
      have hp2 : eucl s.p2.elem b.center.elem ^ 2 = eucl s.p1.elem b.center.elem ^ 2 -
          2 * ((s.p2.sub s.p1).elem ⬝ᵥ (b.center.sub s.p1).elem) + (s.p2.sub s.p1).sqrMag := by
        have := seg_dist_sq s b.center 1
        rw [segPt_one] at this
        rw [this]; ring
      have hk' : ∀ k, eucl (segPt s k) b.center.elem ^ 2 = eucl s.p1.elem b.center.elem ^ 2 -
          2 * k * ((s.p2.sub s.p1).elem ⬝ᵥ (b.center.sub s.p1).elem) + k ^ 2 * (s.p2.sub s.p1).sqrMag := seg_dist_sq s b.center
      unfold interSBall
      simp only [hc]
      split_ifs with h1 h2
      · have hle : eucl s.p1.elem b.center.elem ≤ eucl (segPt s t) b.center.elem :=
          (pow_le_pow_iff_left₀ (eucl_nonneg _ _) (eucl_nonneg _ _) two_ne_zero).1 (hk.1 h1 hL0)
        exact ⟨fun h => c1.2.2.1 (hle.trans h), fun h => c1.2.2.2 (hle.trans_lt h)⟩
      · have hle : eucl s.p2.elem b.center.elem ≤ eucl (segPt s t) b.center.elem :=
          (pow_le_pow_iff_left₀ (eucl_nonneg _ _) (eucl_nonneg _ _) two_ne_zero).1 (by rw [hp2]; exact hk.2.1 h2 hL0)
        exact ⟨fun h => c2.2.2.1 (hle.trans h), fun h => c2.2.2.2 (hle.trans_lt h)⟩
      · rw [not_le] at h1
        rw [ge_iff_le, not_le] at h2
        have hL : 0 < (s.p2.sub s.p1).sqrMag := h1.trans h2
        rw [seg_perp, lessEq_false, lessEq_true, ← sq]
        have hle := hk.2.2 hL
        rw [← hk'] at hle
        have e0 := eucl_nonneg (segPt s t) b.center.elem
        exact ⟨fun h => hle.trans (pow_le_pow_left₀ e0 h 2), fun h => hle.trans_lt (pow_lt_pow_left₀ h e0 two_ne_zero)⟩
    refine ⟨?_, ?_⟩
    · rintro ⟨x, ⟨t, t0, t1, rfl⟩, hx⟩
      exact (key t t0 t1).1 hx
    · rintro ⟨x, ⟨t, t0, t1, rfl⟩, hx⟩
      exact (key t t0 t1).2 hx
  · -- inner product rounded to 0: the first end is tested
    have hif : ∀ pr, interSBall s b pr = interBallP b s.p1 pr := fun pr => by
      unfold interSBall; simp only [hc, le_refl, if_true]
    rw [hif, hif, c1.1, c1.2.1]
    have hd0 : DotExact (s.p2.sub s.p1) (b.center.sub s.p1) → (s.p2.sub s.p1).elem ⬝ᵥ (b.center.sub s.p1).elem = 0 := fun h => by
      rw [← h, hc]
    have hL : (s.p2.sub s.p1).sqrMag = len (s.p2.sub s.p1).elem ^ 2 := by rw [len_sq]; rfl
    have hO : eucl s.p1.elem b.center.elem = len (b.center.sub s.p1).elem := by
      rw [eucl_comm, eucl_eq_len]; rfl
    have hLe : eucl s.p1.elem s.p2.elem = len (s.p2.sub s.p1).elem := by
      rw [eucl_comm, eucl_eq_len]; rfl
    -- the bound on the inner product
    have hb := Vec.dot_err (s.p2.sub s.p1) (b.center.sub s.p1)
    rw [hc, zero_sub, abs_neg] at hb
    have m1 : maxAbs (s.p2.sub s.p1).elem ≤ len (s.p2.sub s.p1).elem := Vec.maxAbs_le_mag _
    have m2 : maxAbs (b.center.sub s.p1).elem ≤ len (b.center.sub s.p1).elem := Vec.maxAbs_le_mag _
    have d1 : (s.p2.sub s.p1).elem ⬝ᵥ (b.center.sub s.p1).elem ≤ 2 * epsilon * len (s.p2.sub s.p1).elem :=
      (le_abs_self _).trans (hb.trans (mul_le_mul_of_nonneg_left ((min_le_left _ _).trans m1) (by linarith)))
    have d2 : (s.p2.sub s.p1).elem ⬝ᵥ (b.center.sub s.p1).elem ≤ 2 * epsilon * len (b.center.sub s.p1).elem :=
      (le_abs_self _).trans (hb.trans (mul_le_mul_of_nonneg_left ((min_le_right _ _).trans m2) (by linarith)))
    -- the first end is at most slightly farther than any other point
    have key : ∀ t, 0 ≤ t → t ≤ 1 → 
        eucl s.p1.elem b.center.elem ^ 2 ≤ eucl (segPt s t) b.center.elem ^ 2 * (1 + epsilon) ∨
        eucl s.p1.elem b.center.elem ^ 2 ≤ eucl (segPt s t) b.center.elem ^ 2 + epsilon * b.radius ^ 2 / 2 := by
      intro t t0 t1
      have hdist := seg_dist_sq s b.center t
      rw [hL] at hdist
      rw [hO] at hdist ⊢
      rw [hLe] at h
      have hr2 := sq_nonneg b.radius
      generalize (s.p2.sub s.p1).elem ⬝ᵥ (b.center.sub s.p1).elem = d at *
      generalize hLL : len (s.p2.sub s.p1).elem = L at *
      have hLn : 0 ≤ L := hLL ▸ len_nonneg _
      generalize hOO : len (b.center.sub s.p1).elem = O at *
      have hOn : 0 ≤ O := hOO ▸ len_nonneg _
      rcases h with h | h | h
      · right
        rw [hd0 h] at hdist
        nlinarith [mul_nonneg (sq_nonneg t) (sq_nonneg L)]
      · right
        rw [hdist]
        nlinarith [sq_nonneg (t * L - 2 * epsilon), mul_nonneg t0 hLn, mul_le_mul_of_nonneg_left d1 t0]
      · left
        rw [hdist]
        have h1 : 2 * t * d ≤ 2 * t * (2 * epsilon * O) := by nlinarith
        have h2 : 2 * t * (2 * epsilon * O) ≤ t ^ 2 * L ^ 2 + epsilon * O ^ 2 / 2 := by
          have h3 : t ^ 2 * (8 * epsilon) ≤ t ^ 2 * L ^ 2 := mul_le_mul_of_nonneg_left h (sq_nonneg t)
          have h4 := mul_nonneg he.le (sq_nonneg (8 * t - 2 * O))
          nlinarith [mul_nonneg he.le (sq_nonneg (4 * t - O))]
        have h5 : O ^ 2 ≤ (O ^ 2 - 2 * t * d + t ^ 2 * L ^ 2) * (1 + epsilon) := by
          have h6 : O ^ 2 * (1 - epsilon / 2) ≤ O ^ 2 - 2 * t * d + t ^ 2 * L ^ 2 := by linarith
          have h7 := mul_le_mul_of_nonneg_right h6 (show (0 : ℝ) ≤ 1 + epsilon by linarith)
          have h8 : O ^ 2 ≤ O ^ 2 * (1 - epsilon / 2) * (1 + epsilon) := by
            have : O ^ 2 * (1 - epsilon / 2) * (1 + epsilon) - O ^ 2 = O ^ 2 * (epsilon / 2 * (1 - epsilon)) := by ring
            have : 0 ≤ O ^ 2 * (epsilon / 2 * (1 - epsilon)) := mul_nonneg (sq_nonneg _) (mul_nonneg (by linarith) (by linarith))
            linarith
          linarith
        exact h5
    have e1 := eucl_nonneg s.p1.elem b.center.elem
    have hr2 := sq_nonneg b.radius
    refine ⟨?_, ?_⟩
    · rintro ⟨x, ⟨t, t0, t1, rfl⟩, hx⟩
      have hx' : eucl (segPt s t) b.center.elem ≤ b.radius := hx
      left
      have hx2 := pow_le_pow_left₀ (eucl_nonneg _ _) hx' 2
      show eucl s.p1.elem b.center.elem ≤ Real.sqrt (1 + epsilon) * b.radius
      rw [← pow_le_pow_iff_left₀ e1 hgr two_ne_zero, ← grow_sq, ← sq]
      rcases key t t0 t1 with hk | hk <;> nlinarith
    · rintro ⟨x, ⟨t, t0, t1, rfl⟩, hx⟩
      have hx' : eucl (segPt s t) b.center.elem < b.radius := hx
      left
      have hx2 := pow_lt_pow_left₀ hx' (eucl_nonneg _ _) two_ne_zero
      show eucl s.p1.elem b.center.elem < Real.sqrt (1 + epsilon) * b.radius
      rw [← pow_lt_pow_iff_left₀ e1 hgr two_ne_zero, ← grow_sq, ← sq]
      rcases key t t0 t1 with hk | hk <;> nlinarith

/-- C60 is false of the code for microscopic segments and balls: this ball touches the segment. -/
theorem C60_false : ∃ (s : Seg 2) (b : Ball 2), s.valid = true ∧ b.valid = true ∧ 0 < b.radius ∧
    (segSet s ∩ ballSet b).Nonempty ∧ interSBall s b false = false := by
  have he : epsilon = 30 * 2⁻¹ ^ 52 := by unfold epsilon; norm_num
  refine ⟨⟨⟨![1 / 10 ^ 9, 0], true⟩, ⟨![2 / 10 ^ 9, 0], true⟩⟩, ⟨⟨![1 / 10 ^ 9 + 1 / 10 ^ 15, 1 / 10 ^ 9], true⟩, 1 / 10 ^ 9⟩,
    rfl, rfl, by norm_num, ?_, ?_⟩
  · refine ⟨![1 / 10 ^ 9 + 1 / 10 ^ 15, 0], ⟨1 / 10 ^ 6, by norm_num, by norm_num, ?_⟩, ?_⟩
    · funext i; fin_cases i <;> simp <;> norm_num
    · show eucl _ _ ≤ _
      rw [eucl_le_iff (by norm_num)]
      simp [Fin.sum_univ_two]
  · unfold interSBall
    simp only
    have hd : Vec.dot ((⟨![2 / 10 ^ 9, 0], true⟩ : Pt 2).sub ⟨![1 / 10 ^ 9, 0], true⟩)
        ((⟨![1 / 10 ^ 9 + 1 / 10 ^ 15, 1 / 10 ^ 9], true⟩ : Pt 2).sub ⟨![1 / 10 ^ 9, 0], true⟩) = 0 := by
      rw [Vec.dot_def, if_neg]
      rw [ge_iff_le, not_le]
      refine lt_of_lt_of_le ?_ (le_scaleEpsilonArr epsilon_pos.le)
      · have a1 : 1 / 10 ^ 9 ≤ maxAbs ((⟨![2 / 10 ^ 9, 0], true⟩ : Pt 2).sub ⟨![1 / 10 ^ 9, 0], true⟩).elem := by
          refine le_trans ?_ (le_maxAbs _ 0)
          simp [Pt.sub_elem]; norm_num
        have a2 : 1 / 10 ^ 9 ≤ maxAbs ((⟨![1 / 10 ^ 9 + 1 / 10 ^ 15, 1 / 10 ^ 9], true⟩ : Pt 2).sub ⟨![1 / 10 ^ 9, 0], true⟩).elem := by
          refine le_trans ?_ (le_maxAbs _ 1)
          simp [Pt.sub_elem]
        have a3 := mul_le_mul_of_nonneg_left (le_min a1 a2) epsilon_pos.le
        refine lt_of_lt_of_le ?_ a3
        rw [he]
        simp [Pt.sub_elem, dotProduct, Fin.sum_univ_two]
        norm_num
    simp only [hd, le_refl, if_true]
    rw [Bool.eq_false_iff, Ne, (C55_point _ _ (by norm_num)).1, not_or]
    constructor
    · show ¬ eucl _ _ ≤ _
      rw [not_le]
      have h0 := eucl_nonneg (![1 / 10 ^ 9, 0] : Fin 2 → ℝ) ![1 / 10 ^ 9 + 1 / 10 ^ 15, 1 / 10 ^ 9]
      refine lt_of_pow_lt_pow_left₀ 2 h0 ?_
      simp only [grown]
      rw [← grow_sq, eucl_sq, he]
      simp [Fin.sum_univ_two]
      norm_num
    · unfold Flushed
      rw [not_lt]
      refine (scaleEpsilonArr_le epsilon_pos.le ?_ ?_).trans ?_
      · intro h; have := congrFun h 1; simp at this
      · intro h; have := congrFun h 0; simp at this
      · have hm : maxAbs (![1 / 10 ^ 9, 0] : Fin 2 → ℝ) ≤ 1 / 10 ^ 9 := maxAbs_le (by norm_num) fun i => by
          fin_cases i <;> simp
        refine (mul_le_mul_of_nonneg_left ((min_le_right _ _).trans hm) (by linarith [epsilon_pos])).trans ?_
        rw [eucl_sq, he]
        simp [Fin.sum_univ_two]
        norm_num

/-- A segment through the unit ball. -/
example : interSBall (⟨⟨![-2, 0], true⟩, ⟨![2, 1], true⟩⟩ : Seg 2) ⟨⟨![0, 0], true⟩, 1⟩ true = true := by
  refine (C60_accepts_partial _ _ (by norm_num) (Or.inr (Or.inl ?_))).2 ⟨![0, 1 / 2], ⟨1 / 2, by norm_num, by norm_num, ?_⟩, ?_⟩
  · have := epsilon_lt; norm_num at this ⊢; linarith
  · funext i; fin_cases i <;> simp <;> norm_num
  · show eucl _ _ < _
    rw [eucl_lt_iff (by norm_num)]
    simp [Fin.sum_univ_two]
    norm_num

end WFMath
