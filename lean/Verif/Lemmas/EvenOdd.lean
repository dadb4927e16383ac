/- The even-odd rule: it does not depend on the direction of the ray, and changes only across the boundary. -/
import Verif.Spec.PolyShapes
import Mathlib.Tactic.Linarith
import Mathlib.Tactic.Module
import Mathlib.Tactic.FieldSimp
import Mathlib.Topology.Connected.Basic
import Mathlib.Analysis.Normed.Module.Convex
import Mathlib.Algebra.Ring.Parity

namespace WFMath
open Spec

abbrev V2 := Fin 2 → ℝ

theorem ext2 {u v : V2} (h0 : u 0 = v 0) (h1 : u 1 = v 1) : u = v := by funext i; fin_cases i <;> assumption

/-! ### One side -/

theorem cr_identity (d a b : V2) : cr d b • a - cr d a • b = cr a b • d := by
  apply ext2 <;> simp [cr] <;> ring

theorem mem_seg {a b x : V2} : x ∈ segment ℝ a b ↔ ∃ s : ℝ, 0 ≤ s ∧ s ≤ 1 ∧ x = (1 - s) • a + s • b := by
  rw [segment_eq_image]
  constructor
  · rintro ⟨s, ⟨h0, h1⟩, rfl⟩; exact ⟨s, h0, h1, rfl⟩
  · rintro ⟨s, h0, h1, rfl⟩; exact ⟨s, ⟨h0, h1⟩, rfl⟩

theorem smul_left_inj {d : V2} (hd : d ≠ 0) {s t : ℝ} (h : s • d = t • d) : s = t := by
  by_contra hne
  apply hd
  have : (s - t) • d = 0 := by rw [sub_smul, h, sub_self]
  exact (smul_eq_zero.1 this).resolve_left (sub_ne_zero.2 hne)

/-- Where the line through `p` in direction `d` meets a side that it separates. -/
theorem line_meets {d p a b : V2} (hd : d ≠ 0) (ha : cr d (a - p) ≤ 0) (hb : 0 < cr d (b - p)) (t : ℝ) :
    p + t • d ∈ segment ℝ a b ↔ t * (cr d (b - p) - cr d (a - p)) = cr (a - p) (b - p) := by
  have hid := cr_identity d (a - p) (b - p)
  generalize hA : cr d (a - p) = ya at *
  generalize hB : cr d (b - p) = yb at *
  generalize hD : cr (a - p) (b - p) = D at *
  have hpos : 0 < yb - ya := by linarith
  rw [mem_seg]
  constructor
  · rintro ⟨s, h0, h1, h⟩
    have h' : t • d = (1 - s) • (a - p) + s • (b - p) := by
      have : t • d = (p + t • d) - p := by module
      rw [this, h]; module
    have hc : 0 = (1 - s) * ya + s * yb := by
      rw [← hA, ← hB]
      have e1 := congrFun h' 0
      have e2 := congrFun h' 1
      simp only [Pi.add_apply, Pi.smul_apply, smul_eq_mul] at e1 e2
      unfold cr
      linear_combination d 0 * e2 - d 1 * e1
    apply smul_left_inj hd
    rw [← hid, mul_comm, mul_smul, h', smul_add, smul_smul, smul_smul]
    have e1 : (yb - ya) * (1 - s) = yb := by linarith
    have e2 : (yb - ya) * s = -ya := by linarith
    rw [e1, e2]; module
  · intro h
    refine ⟨-ya / (yb - ya), div_nonneg (by linarith) hpos.le, (div_le_one hpos).2 (by linarith), ?_⟩
    have e : t = D / (yb - ya) := by rw [eq_div_iff hpos.ne']; exact h
    have e2 : t • d = (1 - -ya / (yb - ya)) • (a - p) + (-ya / (yb - ya)) • (b - p) := by
      rw [e, div_eq_mul_inv, mul_comm, mul_smul, ← hid, smul_sub, smul_smul, smul_smul]
      have e3 : 1 - -ya / (yb - ya) = (yb - ya)⁻¹ * yb := by field_simp; ring
      rw [e3, neg_div, neg_smul, div_eq_mul_inv, mul_comm ya, sub_eq_add_neg]
    rw [e2]; module

theorem seg_comm (a b : V2) : segment ℝ a b = segment ℝ b a := segment_symm ℝ a b

theorem cr_swap (u v : V2) : cr u v = -cr v u := by unfold cr; ring

/-- The rule in terms of signs. -/
theorem rayCrosses_iff {d p a b : V2} (hd : d ≠ 0) : RayCrosses d p a b ↔
    (cr d (a - p) ≤ 0 ∧ 0 < cr d (b - p) ∧ 0 < cr (a - p) (b - p)) ∨ (cr d (b - p) ≤ 0 ∧ 0 < cr d (a - p) ∧ cr (a - p) (b - p) < 0) := by
  have key : ∀ {a b : V2}, cr d (a - p) ≤ 0 → 0 < cr d (b - p) → ((∃ t > (0 : ℝ), p + t • d ∈ segment ℝ a b) ↔ 0 < cr (a - p) (b - p)) := by
    intro a b h1 h2
    constructor
    · rintro ⟨t, ht, h⟩
      rw [line_meets hd h1 h2] at h
      rw [← h]; exact mul_pos ht (by linarith)
    · intro h
      refine ⟨cr (a - p) (b - p) / (cr d (b - p) - cr d (a - p)), div_pos h (by linarith), ?_⟩
      rw [line_meets hd h1 h2, div_mul_cancel₀]
      linarith
  unfold RayCrosses Separates
  rcases lt_or_ge 0 (cr d (a - p)) with h1 | h1 <;> rcases lt_or_ge 0 (cr d (b - p)) with h2 | h2
  · simp [h1, h2, not_le.2 h1, not_le.2 h2]
  · rw [seg_comm, key h2 h1, cr_swap (b - p)]
    simp [h1, h2, not_le.2 h1, not_lt.2 h2]
  · rw [key h1 h2]
    simp [h1, h2, not_lt.2 h1, not_le.2 h2]
  · simp [h1, h2, not_lt.2 h1, not_lt.2 h2]

theorem rayCrosses_symm {d p a b : V2} : RayCrosses d p a b ↔ RayCrosses d p b a := by
  unfold RayCrosses Separates
  rw [seg_comm, ne_comm]

/-- The point is on the side if the side is separated and has no room on either part of the line. -/
theorem cr_ne_zero {d p a b : V2} (hd : d ≠ 0) (hp : p ∉ segment ℝ a b) (ha : cr d (a - p) ≤ 0) (hb : 0 < cr d (b - p)) :
    cr (a - p) (b - p) ≠ 0 := by
  intro h
  apply hp
  have := (line_meets hd ha hb 0).2 (by rw [h, zero_mul])
  simpa using this

/-- Turning the ray to the left changes the crossings of a side exactly when one of its ends is in the sector passed over. -/
theorem turn_ray {d e p a b : V2} (hde : 0 < cr e d) (hp : p ∉ segment ℝ a b) :
    (RayCrosses e p a b ↔ RayCrosses d p a b) ↔
      ((0 < cr e (a - p) ∧ cr d (a - p) ≤ 0) ↔ (0 < cr e (b - p) ∧ cr d (b - p) ≤ 0)) := by
  have he0 : e ≠ 0 := by rintro rfl; simp [cr] at hde
  have hd0 : d ≠ 0 := by rintro rfl; simp [cr] at hde
  have hp' : p ∉ segment ℝ b a := by rwa [seg_comm]
  have n1 := fun h1 h2 => cr_ne_zero (a := a) (b := b) he0 hp h1 h2
  have n2 := fun h1 h2 => cr_ne_zero (a := b) (b := a) he0 hp' h1 h2
  have n3 := fun h1 h2 => cr_ne_zero (a := a) (b := b) hd0 hp h1 h2
  have n4 := fun h1 h2 => cr_ne_zero (a := b) (b := a) hd0 hp' h1 h2
  have hpl : cr e d * cr (a - p) (b - p) = cr e (a - p) * cr d (b - p) - cr e (b - p) * cr d (a - p) := by unfold cr; ring
  rw [rayCrosses_iff he0, rayCrosses_iff hd0]
  rw [cr_swap (b - p) (a - p)] at n2 n4
  generalize cr e (a - p) = ya at *
  generalize cr e (b - p) = yb at *
  generalize cr d (a - p) = za at *
  generalize cr d (b - p) = zb at *
  generalize cr (a - p) (b - p) = D at *
  generalize cr e d = k at *
  rcases lt_or_ge 0 ya with h1 | h1 <;> rcases lt_or_ge 0 yb with h2 | h2 <;> rcases lt_or_ge 0 za with h3 | h3 <;>
    rcases lt_or_ge 0 zb with h4 | h4 <;> simp only [h1, h2, h3, h4, not_le.2, not_lt.2, true_and, and_true, false_and, and_false, or_false, false_or, iff_true, true_iff, iff_false, false_iff, not_true, not_false_iff, iff_self]
  all_goals
    have hD : D ≠ 0 := by
      first | exact n1 h1 h2 | exact n3 h3 h4 | exact neg_ne_zero.1 (n2 h2 h1) | exact neg_ne_zero.1 (n4 h4 h3)
    rcases lt_or_gt_of_ne hD with h | h <;> first
      | simp [h, not_lt.2 h.le]; done
      | exfalso
        have hk : k * D < 0 := by first | exact mul_neg_of_pos_of_neg hde h | exact absurd h (lt_irrefl _)
        nlinarith
      | exfalso
        have hk : 0 < k * D := mul_pos hde h
        nlinarith

/-! ### Going round the polygon -/

/-- Round a closed chain, a property that changes at every side that `f` marks changes an even number of times. -/
theorem even_closed {α : Type} (f : α × α → Bool) (g : α → Bool) (l : List α) (h : ∀ e ∈ l.zip (l.rotate 1), f e = (g e.1 != g e.2)) :
    Even ((l.zip (l.rotate 1)).countP f) := by
  cases l with
  | nil => simp
  | cons a l =>
    have key : ∀ (l : List α) (a x : α), (∀ e ∈ (a :: l).zip (l ++ [x]), f e = (g e.1 != g e.2)) →
        (Odd (((a :: l).zip (l ++ [x])).countP f) ↔ (g a != g x) = true) := by
      intro l
      induction l with
      | nil =>
        intro a x h
        have := h (a, x) (by simp)
        simp only [List.nil_append, List.zip_cons_cons, List.zip_nil_right, List.countP_cons, List.countP_nil, this]
        cases g a <;> cases g x <;> simp
      | cons b l ih =>
        intro a x h
        have h1 := h (a, b) (by simp)
        have h2 := ih b x (fun e he => h e (by simp only [List.cons_append, List.zip_cons_cons, List.mem_cons] at he ⊢; exact Or.inr he))
        simp only [List.cons_append] at h2 ⊢
        rw [List.zip_cons_cons, List.countP_cons, h1]
        simp only at h1
        cases ha : g a <;> cases hb : g b <;> cases hx : g x <;> simp_all [Nat.odd_add_one]
    have := key l a a (by simpa using h)
    simp only [bne_self_eq_false, Bool.false_eq_true, iff_false] at this
    simpa using this

theorem parity_of {α : Type} (f g h : α → Bool) (l : List α) (hf : ∀ e ∈ l, h e = (f e != g e)) (he : Even (l.countP h)) :
    (Odd (l.countP f) ↔ Odd (l.countP g)) := by
  have : (Odd (l.countP f) ↔ Odd (l.countP g)) ↔ Even (l.countP h) := by
    clear he
    induction l with
    | nil => simp
    | cons a l ih =>
      have := ih (fun e he => hf e (List.mem_cons_of_mem _ he))
      have h1 := hf a List.mem_cons_self
      rw [List.countP_cons, List.countP_cons, List.countP_cons, h1]
      cases f a <;> cases g a <;> 
        simp only [bne_self_eq_false, Bool.false_eq_true, if_false, if_true, add_zero, Nat.odd_add_one, Nat.even_add_one, Bool.true_bne, Bool.false_bne,
          Bool.not_false, Bool.not_true] <;>
        rw [← this] <;> by_cases h5 : Odd (l.countP f) <;> by_cases h6 : Odd (l.countP g) <;> simp only [h5, h6] <;> simp
  exact this.2 he

theorem sides_eq (ps : List (Pt 2)) : sides ps = (ps.map Pt.elem).zip ((ps.map Pt.elem).rotate 1) := by
  unfold sides
  rw [← List.map_rotate, List.zip_map]
  rfl

theorem turn_odd {d e p : V2} {ps : List (Pt 2)} (hde : 0 < cr e d) (hp : p ∉ boundary ps) :
    Odd (rayCrossings e ps p) ↔ Odd (rayCrossings d ps p) := by
  classical
  have hs : ∀ s ∈ sides ps, p ∉ segment ℝ s.1 s.2 := fun s hs h => hp ⟨s, hs, h⟩
  unfold rayCrossings
  apply parity_of _ _ (fun s => decide (0 < cr e (s.1 - p) ∧ cr d (s.1 - p) ≤ 0) != decide (0 < cr e (s.2 - p) ∧ cr d (s.2 - p) ≤ 0))
  · intro s h
    have := turn_ray hde (hs s h)
    by_cases h1 : RayCrosses e p s.1 s.2 <;> by_cases h2 : RayCrosses d p s.1 s.2 <;> simp only [h1, h2] at this ⊢ <;>
      simp at this <;> by_cases h3 : 0 < cr e (s.1 - p) ∧ cr d (s.1 - p) ≤ 0 <;>
      by_cases h4 : 0 < cr e (s.2 - p) ∧ cr d (s.2 - p) ≤ 0 <;> simp [h3, h4] at this ⊢ <;> tauto
  · rw [sides_eq]
    apply even_closed _ (fun v => decide (0 < cr e (v - p) ∧ cr d (v - p) ≤ 0))
    intro e _; rfl

/-- A direction to the left of both of two others that do not point the same way, or to the right of both, or between them. -/
theorem dir_odd {d e p : V2} {ps : List (Pt 2)} (hd : d ≠ 0) (he : e ≠ 0) (hp : p ∉ boundary ps) :
    Odd (rayCrossings e ps p) ↔ Odd (rayCrossings d ps p) := by
  rcases lt_trichotomy (cr e d) 0 with h | h | h
  · exact (turn_odd (by rw [cr_swap]; linarith) hp).symm
  · -- parallel directions: go through a perpendicular one
    have h2 : ∃ u : V2, 0 < cr e u := by
      refine ⟨![-(e 1), e 0], ?_⟩
      simp only [cr, Matrix.cons_val_zero, Matrix.cons_val_one]
      have : e 0 ≠ 0 ∨ e 1 ≠ 0 := by
        by_contra hc
        push Not at hc
        exact he (ext2 hc.1 hc.2)
      rcases this with h0 | h0
      · have := mul_self_pos.2 h0; nlinarith [mul_self_nonneg (e 1)]
      · have := mul_self_pos.2 h0; nlinarith [mul_self_nonneg (e 0)]
    obtain ⟨u, hu⟩ := h2
    have hdu : cr d u ≠ 0 := by
      intro hz
      -- d is parallel to e and to u, which are independent
      have := cr_identity d e u
      rw [hz, cr_swap d e, h] at this
      simp only [zero_smul, neg_zero, sub_zero] at this
      exact (smul_ne_zero hu.ne' hd) this.symm
    rw [turn_odd hu hp]
    rcases lt_or_gt_of_ne hdu with h3 | h3
    · exact turn_odd (by rw [cr_swap]; linarith) hp
    · exact (turn_odd h3 hp).symm
  · exact turn_odd h hp

/-! ### Moving the point -/

theorem cr_along (d p a : V2) (t : ℝ) : cr d (a - (p + t • d)) = cr d (a - p) := by
  simp only [cr, Pi.sub_apply, Pi.add_apply, Pi.smul_apply, smul_eq_mul]; ring

/-- The sides that the ray from `p` through `q` crosses are those that it crosses before `q` and those that it crosses after. -/
theorem ray_split {p q a b : V2} (hpq : q ≠ p) (hp : p ∉ segment ℝ a b) (hq : q ∉ segment ℝ a b) :
    (RayCrosses (q - p) p a b ↔ RayCrosses (q - p) q a b ∨ SegCrosses p q a b) ∧ ¬ (RayCrosses (q - p) q a b ∧ SegCrosses p q a b) := by
  have hd : q - p ≠ 0 := sub_ne_zero.2 hpq
  have hq1 : q = p + (1 : ℝ) • (q - p) := by module
  have hsep : Separates (q - p) q a b ↔ Separates (q - p) p a b := by
    unfold Separates
    have h1 := cr_along (q - p) p a 1
    have h2 := cr_along (q - p) p b 1
    rw [← hq1] at h1 h2
    rw [h1, h2]
  have htq : ∀ t : ℝ, q + t • (q - p) = p + (1 + t) • (q - p) := fun t => by module
  have hseg : (segment ℝ p q ∩ segment ℝ a b).Nonempty ↔ ∃ t : ℝ, 0 ≤ t ∧ t ≤ 1 ∧ p + t • (q - p) ∈ segment ℝ a b := by
    constructor
    · rintro ⟨x, h1, h2⟩
      obtain ⟨s, hs0, hs1, rfl⟩ := mem_seg.1 h1
      refine ⟨s, hs0, hs1, ?_⟩
      convert h2 using 1
      module
    · rintro ⟨t, h0, h1, h2⟩
      refine ⟨_, mem_seg.2 ⟨t, h0, h1, ?_⟩, h2⟩
      module
  -- the crossing point is unique
  have huniq : Separates (q - p) p a b → ∀ s t : ℝ, p + s • (q - p) ∈ segment ℝ a b → p + t • (q - p) ∈ segment ℝ a b → s = t := by
    intro hs s t h1 h2
    have key : ∀ {a b : V2}, cr (q - p) (a - p) ≤ 0 → 0 < cr (q - p) (b - p) → p + s • (q - p) ∈ segment ℝ a b →
        p + t • (q - p) ∈ segment ℝ a b → s = t := by
      intro a b ha hb h1 h2
      rw [line_meets hd ha hb] at h1 h2
      exact mul_right_cancel₀ (by linarith : cr (q - p) (b - p) - cr (q - p) (a - p) ≠ 0) (h1.trans h2.symm)
    unfold Separates at hs
    rcases lt_or_ge 0 (cr (q - p) (a - p)) with ha | ha <;> rcases lt_or_ge 0 (cr (q - p) (b - p)) with hb | hb
    · exact absurd (by simp [ha, hb]) hs
    · rw [seg_comm] at h1 h2; exact key hb ha h1 h2
    · exact key ha hb h1 h2
    · exact absurd (by simp [not_lt.2 ha, not_lt.2 hb]) hs
  have h0 : ∀ t : ℝ, p + t • (q - p) ∈ segment ℝ a b → t ≠ 0 := by
    rintro t h rfl
    apply hp; simpa using h
  have h1 : ∀ t : ℝ, p + t • (q - p) ∈ segment ℝ a b → t ≠ 1 := by
    rintro t h rfl
    rw [← hq1] at h
    exact hq h
  unfold RayCrosses SegCrosses
  rw [hsep, hseg]
  by_cases hs : Separates (q - p) p a b
  · simp only [hs, true_and]
    constructor
    · constructor
      · rintro ⟨t, ht, h⟩
        rcases le_or_gt t 1 with h2 | h2
        · exact Or.inr ⟨t, le_of_lt ht, h2, h⟩
        · refine Or.inl ⟨t - 1, by linarith, ?_⟩
          rw [htq]
          convert h using 3
          ring
      · rintro (⟨t, ht, h⟩ | ⟨t, ht, _, h⟩)
        · rw [htq] at h; exact ⟨1 + t, by linarith, h⟩
        · exact ⟨t, lt_of_le_of_ne ht (Ne.symm (h0 t h)), h⟩
    · rintro ⟨⟨t, ht, h⟩, ⟨s, _, hs1, h'⟩⟩
      rw [htq] at h
      have := huniq hs _ _ h h'
      linarith
  · simp [hs]

/-- Walking from one point to another, the answer changes with every side crossed. -/
theorem walk_odd {d p q : V2} {ps : List (Pt 2)} (hd : d ≠ 0) (hpq : q ≠ p) (hp : p ∉ boundary ps) (hq : q ∉ boundary ps) :
    (Odd (rayCrossings d ps p) ↔ Odd (rayCrossings d ps q)) ↔ Even (segCrossings p q ps) := by
  classical
  have hd' : q - p ≠ 0 := sub_ne_zero.2 hpq
  rw [dir_odd hd' hd hp, dir_odd hd' hd hq]
  have : rayCrossings (q - p) ps p = rayCrossings (q - p) ps q + segCrossings p q ps := by
    unfold rayCrossings segCrossings
    have hs : ∀ s ∈ sides ps, p ∉ segment ℝ s.1 s.2 ∧ q ∉ segment ℝ s.1 s.2 := fun s hs => ⟨fun h => hp ⟨s, hs, h⟩, fun h => hq ⟨s, hs, h⟩⟩
    clear hp hq
    revert hs
    generalize sides ps = L
    intro hs
    induction L with
    | nil => simp
    | cons s l ih =>
      have h1 := ih (fun e he => hs e (List.mem_cons_of_mem _ he))
      obtain ⟨h2, h3⟩ := hs s List.mem_cons_self
      obtain ⟨h4, h5⟩ := ray_split hpq h2 h3
      simp only [List.countP_cons]
      rw [h1]
      by_cases ha : RayCrosses (q - p) q s.1 s.2 <;> by_cases hb : SegCrosses p q s.1 s.2 <;> simp only [ha, hb] at h4 h5 ⊢ <;> simp at h4 h5 <;> simp [h4] <;> omega
  rw [this, Nat.odd_add]
  constructor
  · intro h
    by_contra hc
    rw [Nat.not_even_iff_odd] at hc
    by_cases h1 : Odd (rayCrossings (q - p) ps q)
    · exact (Nat.not_even_iff_odd.2 hc) ((h.2 h1).1 h1)
    · have := (Nat.not_odd_iff_even.1 h1)
      have h3 := h.1
      apply h1; apply h3
      constructor
      · intro h4; exact absurd h4 h1
      · intro h4; exact absurd h4 (Nat.not_even_iff_odd.2 hc)
  · intro h; simp [h]

theorem boundary_closed (ps : List (Pt 2)) : IsClosed (boundary ps) := by
  have : boundary ps = ⋃ e ∈ {e | e ∈ sides ps}, segment ℝ e.1 e.2 := by
    ext x; simp [boundary]
  rw [this]
  apply Set.Finite.isClosed_biUnion
  · exact List.finite_toSet _
  · intro e _
    rw [← convexHull_pair]
    exact ((Set.finite_singleton _).insert _).isClosed_convexHull ℝ

/-- The answer is the same everywhere in a connected region without boundary points. -/
theorem region_odd {d : V2} {ps : List (Pt 2)} (hd : d ≠ 0) {U : Set V2} (hU : IsPreconnected U) (hb : Disjoint U (boundary ps))
    {p q : V2} (hp : p ∈ U) (hq : q ∈ U) : Odd (rayCrossings d ps p) ↔ Odd (rayCrossings d ps q) := by
  classical
  have hc : ContinuousOn (fun x => decide (Odd (rayCrossings d ps x))) U := by
    intro x hx
    have hxb : x ∉ boundary ps := Set.disjoint_left.1 hb hx
    have ho : (boundary ps)ᶜ ∈ nhds x := (boundary_closed ps).isOpen_compl.mem_nhds hxb
    obtain ⟨r, hr, hball⟩ := Metric.mem_nhds_iff.1 ho
    apply ContinuousAt.continuousWithinAt
    apply ContinuousAt.congr (f := fun _ => decide (Odd (rayCrossings d ps x))) continuousAt_const
    filter_upwards [Metric.ball_mem_nhds x hr] with y hy
    rw [decide_eq_decide]
    by_cases hxy : y = x
    · rw [hxy]
    have hyb := hball hy
    rw [walk_odd hd hxy hxb hyb]
    have : segCrossings x y ps = 0 := by
      unfold segCrossings
      rw [List.countP_eq_zero]
      intro e he hcr
      obtain ⟨_, z, hz1, hz2⟩ := of_decide_eq_true hcr
      exact hball ((convex_ball x r).segment_subset (Metric.mem_ball_self hr) hy hz1) ⟨e, he, hz2⟩
    rw [this]; exact Even.zero
  have := hU.constant hc hp hq
  simpa using this

theorem mem_sides {ps : List (Pt 2)} {e : V2 × V2} (h : e ∈ sides ps) : (∃ c ∈ ps, e.1 = c.elem) ∧ ∃ c ∈ ps, e.2 = c.elem := by
  unfold sides at h
  obtain ⟨⟨a, b⟩, h1, rfl⟩ := List.mem_map.1 h
  have := List.of_mem_zip h1
  exact ⟨⟨a, this.1, rfl⟩, b, List.mem_rotate.1 this.2, rfl⟩

/-- A point that has all corners on one side of a line through it is outside. -/
theorem outside_half {d u p : V2} {ps : List (Pt 2)} (hd : d ≠ 0) (h : ∀ c ∈ ps, u ⬝ᵥ c.elem < u ⬝ᵥ p) : ¬ Odd (rayCrossings d ps p) := by
  have hseg : ∀ e ∈ sides ps, ∀ x ∈ segment ℝ e.1 e.2, u ⬝ᵥ x < u ⬝ᵥ p := by
    intro e he x hx
    obtain ⟨⟨a, ha, h1⟩, b, hb, h2⟩ := mem_sides he
    obtain ⟨s, h0, h1', rfl⟩ := mem_seg.1 hx
    rw [h1, h2, dotProduct_add, dotProduct_smul, dotProduct_smul, smul_eq_mul, smul_eq_mul]
    have ea := h a ha
    have eb := h b hb
    rcases h0.eq_or_lt with rfl | h0
    · simpa using ea
    · nlinarith
  by_cases hu : u = 0
  · cases ps with
    | nil => simp [rayCrossings, sides]
    | cons c l => exact absurd (h c List.mem_cons_self) (by simp [hu])
  have hpb : p ∉ boundary ps := by
    rintro ⟨e, he, hx⟩
    exact lt_irrefl _ (hseg e he p hx)
  rw [dir_odd hu hd hpb]
  have : rayCrossings u ps p = 0 := by
    classical
    unfold rayCrossings
    rw [List.countP_eq_zero]
    intro e he hcr
    obtain ⟨_, t, ht, hx⟩ := of_decide_eq_true hcr
    have := hseg e he _ hx
    rw [dotProduct_add, dotProduct_smul, smul_eq_mul] at this
    have h2 : 0 ≤ u ⬝ᵥ u := by simp [dotProduct, Fin.sum_univ_two]; nlinarith
    nlinarith [mul_nonneg ht.le h2]
  rw [this]; simp

end WFMath
