/- The loops of `Intersect(Polygon<2>, AxisBox<2>)` and `Contains(Polygon<2>, AxisBox<2>)` in terms of the sides of the polygon. -/
import Verif.Props.PolyBall

namespace WFMath
open Spec Matrix

/-! ### What the loops test for one edge -/

/-- Where the line through the ends of the edge has height `y`. -/
noncomputable def xAt (i j : Pt 2) (y : ℝ) : ℝ := i.elem 0 + (y - i.elem 1) * (j.elem 0 - i.elem 0) / (j.elem 1 - i.elem 1)
/-- The height of the line through the ends of the edge above `x`. -/
noncomputable def yAt (i j : Pt 2) (x : ℝ) : ℝ := i.elem 1 + (x - i.elem 0) * (j.elem 1 - i.elem 1) / (j.elem 0 - i.elem 0)

/-- The edge passes within tolerance of an end of a horizontal side of the box. -/
noncomputable def tH (a b y : ℝ) (i j : Pt 2) : Bool :=
  between (i.elem 1) (j.elem 1) y && (equal a (xAt i j y) epsilon || equal b (xAt i j y) epsilon)
/-- The edge crosses a horizontal side of the box between its ends. -/
noncomputable def cH (a b y : ℝ) (i j : Pt 2) : Bool :=
  between (i.elem 1) (j.elem 1) y && (decide (a < xAt i j y) && decide (b > xAt i j y))
/-- The edge passes within tolerance of an end of a vertical side of the box. -/
noncomputable def tV (a b x : ℝ) (i j : Pt 2) : Bool :=
  between (i.elem 0) (j.elem 0) x && (equal a (yAt i j x) epsilon || equal b (yAt i j x) epsilon)
/-- The edge crosses a vertical side of the box between its ends. -/
noncomputable def cV (a b x : ℝ) (i j : Pt 2) : Bool :=
  between (i.elem 0) (j.elem 0) x && (decide (a < yAt i j x) && decide (b > yAt i j x))

noncomputable def touchE (l0 l1 h0 h1 : ℝ) (e : Pt 2 × Pt 2) : Bool :=
  tH l0 h0 l1 e.1 e.2 || tV l1 h1 l0 e.1 e.2 || tH l0 h0 h1 e.1 e.2 || tV l1 h1 h0 e.1 e.2
noncomputable def cutE (l0 l1 h0 h1 : ℝ) (e : Pt 2 × Pt 2) : Bool :=
  cH l0 h0 l1 e.1 e.2 || cV l1 h1 l0 e.1 e.2 || cH l0 h0 h1 e.1 e.2 || cV l1 h1 h0 e.1 e.2
noncomputable def passE (l0 l1 : ℝ) (e : Pt 2 × Pt 2) : Bool := between (e.1.elem 1) (e.2.elem 1) l1 && decide (l0 < xAt e.1 e.2 l1)

theorem polyBLoop_cons (l0 l1 h0 h1 : ℝ) (proper : Bool) (e : Pt 2 × Pt 2) (es : List (Pt 2 × Pt 2)) (hit : Bool) :
    polyBLoop l0 l1 h0 h1 proper (e :: es) hit =
      if tH l0 h0 l1 e.1 e.2 then !proper else if cH l0 h0 l1 e.1 e.2 then true
      else if tV l1 h1 l0 e.1 e.2 then !proper else if cV l1 h1 l0 e.1 e.2 then true
      else if tH l0 h0 h1 e.1 e.2 then !proper else if cH l0 h0 h1 e.1 e.2 then true
      else if tV l1 h1 h0 e.1 e.2 then !proper else if cV l1 h1 h0 e.1 e.2 then true
      else polyBLoop l0 l1 h0 h1 proper es (if passE l0 l1 e then !hit else hit) := rfl

theorem polyBLoop_true {l0 l1 h0 h1 : ℝ} {proper : Bool} (es : List (Pt 2 × Pt 2)) (hit : Bool)
    (hp : proper = false ∨ ∀ e ∈ es, touchE l0 l1 h0 h1 e = false) :
    polyBLoop l0 l1 h0 h1 proper es hit = true ↔
      (∃ e ∈ es, touchE l0 l1 h0 h1 e = true ∨ cutE l0 l1 h0 h1 e = true) ∨ (hit != decide (Odd (es.countP (passE l0 l1)))) = true := by
  induction es generalizing hit with
  | nil => simp [polyBLoop]
  | cons e es ih =>
    rw [polyBLoop_cons]
    have hp' : proper = false ∨ ∀ e ∈ es, touchE l0 l1 h0 h1 e = false := hp.imp_right fun h e he => h e (List.mem_cons_of_mem _ he)
    by_cases hx : touchE l0 l1 h0 h1 e = true ∨ cutE l0 l1 h0 h1 e = true
    · have hA : (∃ e' ∈ e :: es, touchE l0 l1 h0 h1 e' = true ∨ cutE l0 l1 h0 h1 e' = true) := ⟨e, List.mem_cons_self, hx⟩
      simp only [hA, true_or, iff_true]
      have h2 : proper = false ∨ touchE l0 l1 h0 h1 e = false := hp.imp_right fun h => h e List.mem_cons_self
      unfold touchE at h2 hx
      unfold cutE at hx
      generalize tH l0 h0 l1 e.1 e.2 = t1 at h2 hx ⊢
      generalize tV l1 h1 l0 e.1 e.2 = t2 at h2 hx ⊢
      generalize tH l0 h0 h1 e.1 e.2 = t3 at h2 hx ⊢
      generalize tV l1 h1 h0 e.1 e.2 = t4 at h2 hx ⊢
      generalize cH l0 h0 l1 e.1 e.2 = c1 at h2 hx ⊢
      generalize cV l1 h1 l0 e.1 e.2 = c2 at h2 hx ⊢
      generalize cH l0 h0 h1 e.1 e.2 = c3 at h2 hx ⊢
      generalize cV l1 h1 h0 e.1 e.2 = c4 at h2 hx ⊢
      rcases h2 with rfl | h2
      · revert hx
        cases t1 <;> cases t2 <;> cases t3 <;> cases t4 <;> cases c1 <;> cases c2 <;> cases c3 <;> cases c4 <;> simp
      · simp only [Bool.or_eq_false_iff] at h2
        obtain ⟨⟨⟨rfl, rfl⟩, rfl⟩, rfl⟩ := h2
        revert hx
        cases c1 <;> cases c2 <;> cases c3 <;> cases c4 <;> simp
    · have hiff : (∃ e' ∈ e :: es, touchE l0 l1 h0 h1 e' = true ∨ cutE l0 l1 h0 h1 e' = true) ↔
          ∃ e' ∈ es, touchE l0 l1 h0 h1 e' = true ∨ cutE l0 l1 h0 h1 e' = true := by
        constructor
        · rintro ⟨e', h, h'⟩
          rcases List.mem_cons.1 h with rfl | h
          · exact absurd h' hx
          · exact ⟨e', h, h'⟩
        · rintro ⟨e', h, h'⟩; exact ⟨e', List.mem_cons_of_mem _ h, h'⟩
      rw [hiff]
      push Not at hx
      simp only [ne_eq, Bool.not_eq_true, touchE, cutE, Bool.or_eq_false_iff] at hx
      obtain ⟨⟨⟨⟨t1, t2⟩, t3⟩, t4⟩, ⟨⟨c1, c2⟩, c3⟩, c4⟩ := hx
      simp only [t1, t2, t3, t4, c1, c2, c3, c4, Bool.false_eq_true, if_false]
      rw [ih _ hp', List.countP_cons]
      congr! 1
      by_cases h : passE l0 l1 e = true
      · simp only [h, if_true, Nat.odd_add_one, decide_not]
        cases hit <;> simp
      · simp only [h, Bool.false_eq_true, if_false, add_zero]

/-- Whatever the loop accepts: an edge crosses a side of the box, or one passes near a corner and `proper` is false, or the lower corner is in the
polygon. -/
theorem polyBLoop_sound {l0 l1 h0 h1 : ℝ} {proper : Bool} (es : List (Pt 2 × Pt 2)) (hit : Bool) (h : polyBLoop l0 l1 h0 h1 proper es hit = true) :
    (proper = false ∧ ∃ e ∈ es, touchE l0 l1 h0 h1 e = true) ∨ (∃ e ∈ es, cutE l0 l1 h0 h1 e = true) ∨
      ((∀ e ∈ es, touchE l0 l1 h0 h1 e = false) ∧ (hit != decide (Odd (es.countP (passE l0 l1)))) = true) := by
  induction es generalizing hit with
  | nil => simpa [polyBLoop] using h
  | cons e es ih =>
    by_cases ht : proper = false ∧ touchE l0 l1 h0 h1 e = true
    · exact Or.inl ⟨ht.1, e, List.mem_cons_self, ht.2⟩
    by_cases hc : cutE l0 l1 h0 h1 e = true
    · exact Or.inr (Or.inl ⟨e, List.mem_cons_self, hc⟩)
    rw [polyBLoop_cons] at h
    simp only [Bool.not_eq_true, cutE, Bool.or_eq_false_iff] at hc
    obtain ⟨⟨⟨c1, c2⟩, c3⟩, c4⟩ := hc
    simp only [c1, c2, c3, c4, Bool.false_eq_true, if_false] at h
    have ht' : touchE l0 l1 h0 h1 e = false := by
      by_contra hn
      rw [Bool.not_eq_false] at hn
      have hpt : proper = true := by
        by_contra hp
        exact ht ⟨by simpa using hp, hn⟩
      subst hpt
      unfold touchE at hn
      generalize tH l0 h0 l1 e.1 e.2 = t1 at h hn
      generalize tV l1 h1 l0 e.1 e.2 = t2 at h hn
      generalize tH l0 h0 h1 e.1 e.2 = t3 at h hn
      generalize tV l1 h1 h0 e.1 e.2 = t4 at h hn
      revert h hn
      cases t1 <;> cases t2 <;> cases t3 <;> cases t4 <;> simp
    have ht2 := ht'
    simp only [touchE, Bool.or_eq_false_iff] at ht2
    obtain ⟨⟨⟨t1, t2⟩, t3⟩, t4⟩ := ht2
    simp only [t1, t2, t3, t4, Bool.false_eq_true, if_false] at h
    rcases ih _ h with ⟨hA, e', h2, h3⟩ | ⟨e', h2, h3⟩ | ⟨h2, h3⟩
    · exact Or.inl ⟨hA, e', List.mem_cons_of_mem _ h2, h3⟩
    · exact Or.inr (Or.inl ⟨e', List.mem_cons_of_mem _ h2, h3⟩)
    · refine Or.inr (Or.inr ⟨fun e' he' => ?_, ?_⟩)
      · rcases List.mem_cons.1 he' with rfl | he'
        · exact ht'
        · exact h2 e' he'
      · rw [← h3, List.countP_cons]
        by_cases h : passE l0 l1 e = true
        · simp only [h, if_true, Nat.odd_add_one, decide_not]
          cases hit <;> simp
        · simp only [h, Bool.false_eq_true, if_false, add_zero]

theorem polyCBLoop_cons (l0 l1 h0 h1 : ℝ) (proper : Bool) (e : Pt 2 × Pt 2) (es : List (Pt 2 × Pt 2)) (hit : Bool) (ht : touchE l0 l1 h0 h1 e = false) :
    polyCBLoop l0 l1 h0 h1 proper (e :: es) hit =
      if cutE l0 l1 h0 h1 e then false else polyCBLoop l0 l1 h0 h1 proper es (if passE l0 l1 e then !hit else hit) := by
  obtain ⟨i, j⟩ := e
  have hbad : ∀ (btw on c : Bool), (btw && on) = false → (btw && ((on && proper) || (!on && c))) = (btw && c) := by
    intro btw on c; cases btw <;> cases on <;> cases c <;> cases proper <;> simp
  simp only [touchE, Bool.or_eq_false_iff] at ht
  obtain ⟨⟨⟨t1, t2⟩, t3⟩, t4⟩ := ht
  unfold tH at t1 t3
  unfold tV at t2 t4
  have e1 : i.elem 0 + (l1 - i.elem 1) * (j.elem 0 - i.elem 0) / (j.elem 1 - i.elem 1) = xAt i j l1 := rfl
  have e2 : i.elem 1 + (l0 - i.elem 0) * (j.elem 1 - i.elem 1) / (j.elem 0 - i.elem 0) = yAt i j l0 := rfl
  have e3 : i.elem 0 + (h1 - i.elem 1) * (j.elem 0 - i.elem 0) / (j.elem 1 - i.elem 1) = xAt i j h1 := rfl
  have e4 : i.elem 1 + (h0 - i.elem 0) * (j.elem 1 - i.elem 1) / (j.elem 0 - i.elem 0) = yAt i j h0 := rfl
  rw [polyCBLoop]
  simp only [e1, e2, e3, e4, Bool.and_assoc, hbad _ _ _ t1, hbad _ _ _ t2, hbad _ _ _ t3, hbad _ _ _ t4]
  unfold cutE passE cH cV
  generalize (between (i.elem 0) (j.elem 0) l0 && (decide (l1 < yAt i j l0) && decide (h1 > yAt i j l0))) = c2
  generalize (between (i.elem 1) (j.elem 1) h1 && (decide (l0 < xAt i j h1) && decide (h0 > xAt i j h1))) = c3
  generalize (between (i.elem 0) (j.elem 0) h0 && (decide (l1 < yAt i j h0) && decide (h1 > yAt i j h0))) = c4
  generalize between (i.elem 1) (j.elem 1) l1 = b1 at t1 ⊢
  generalize (equal l0 (xAt i j l1) epsilon || equal h0 (xAt i j l1) epsilon) = on at t1 ⊢
  generalize decide (l0 < xAt i j l1) = q1
  generalize decide (h0 > xAt i j l1) = q2
  revert t1
  cases b1 <;> cases on <;> cases q1 <;> cases q2 <;> cases c2 <;> cases c3 <;> cases c4 <;> simp

theorem polyCBLoop_true {l0 l1 h0 h1 : ℝ} {proper : Bool} (es : List (Pt 2 × Pt 2)) (hit : Bool) (hp : ∀ e ∈ es, touchE l0 l1 h0 h1 e = false) :
    polyCBLoop l0 l1 h0 h1 proper es hit = true ↔
      (∀ e ∈ es, cutE l0 l1 h0 h1 e = false) ∧ (hit != decide (Odd (es.countP (passE l0 l1)))) = true := by
  induction es generalizing hit with
  | nil => simp [polyCBLoop]
  | cons e es ih =>
    rw [polyCBLoop_cons _ _ _ _ _ _ _ _ (hp e List.mem_cons_self)]
    by_cases hc : cutE l0 l1 h0 h1 e = true
    · simp [hc]
    · rw [if_neg hc, ih _ fun e he => hp e (List.mem_cons_of_mem _ he), List.countP_cons]
      simp only [List.mem_cons, forall_eq_or_imp, hc, true_and]
      congr! 1
      by_cases h : passE l0 l1 e = true
      · simp only [h, if_true, Nat.odd_add_one, decide_not]
        cases hit <;> simp
      · simp only [h, Bool.false_eq_true, if_false, add_zero]

/-! ### The tests as statements about the points of the edge -/

/-- Coordinates exchanged. -/
def swp (v : V2) : V2 := ![v 1, v 0]

theorem swp_seg {a b x : V2} : swp x ∈ segment ℝ (swp a) (swp b) ↔ x ∈ segment ℝ a b := by
  constructor
  · intro h
    obtain ⟨s, h0, h1, h2, h3⟩ := seg_coord h
    exact mem_seg.2 ⟨s, h0, h1, by apply ext2 <;> simp [swp] at h2 h3 ⊢ <;> assumption⟩
  · intro h
    obtain ⟨s, h0, h1, h2, h3⟩ := seg_coord h
    exact mem_seg.2 ⟨s, h0, h1, by apply ext2 <;> simp [swp] <;> assumption⟩

theorem xAt_mem {i j : Pt 2} {y : ℝ} (h : between (i.elem 1) (j.elem 1) y = true) (x : ℝ) :
    ![x, y] ∈ segment ℝ j.elem i.elem ↔ x = xAt i j y := by
  have h' := (between_iff j.elem i.elem ![0, y]).1 (by simpa using h)
  have := crossing_at h' x
  rw [show (![0, y] : V2) 1 = y from rfl, mul_comm] at this
  exact this

theorem yAt_mem {i j : Pt 2} {x : ℝ} (h : between (i.elem 0) (j.elem 0) x = true) (y : ℝ) :
    ![x, y] ∈ segment ℝ j.elem i.elem ↔ y = yAt i j x := by
  have h' := (between_iff (swp j.elem) (swp i.elem) ![0, x]).1 (by simpa [swp] using h)
  have := crossing_at h' y
  rw [show (![0, x] : V2) 1 = x from rfl, mul_comm] at this
  rw [← swp_seg]
  exact this

theorem passE_iff (q : V2) (e : Pt 2 × Pt 2) : passE (q 0) (q 1) e = true ↔ RayCrosses east q e.2.elem e.1.elem := by
  unfold passE
  rw [Bool.and_eq_true, decide_eq_true_iff]
  by_cases h : Separates east q e.2.elem e.1.elem
  · rw [east_crosses h, ← between_iff] at *
    unfold xAt
    rw [mul_comm (q 1 - e.1.elem 1)]
    simp [h]
  · constructor
    · rintro ⟨h1, -⟩; exact absurd ((between_iff _ _ _).1 h1) h
    · intro h1; exact absurd h1.1 h

theorem count_pass (ps : Corners 2) (q : V2) : (edges ps).countP (passE (q 0) (q 1)) = rayCrossings east ps q := by
  classical
  unfold rayCrossings
  rw [← (edges_sides ps).countP_eq, List.countP_map]
  apply List.countP_congr
  intro e _
  simp only [Function.comp, decide_eq_true_eq]
  exact passE_iff q e

/-- A crossing that the loop finds is a point of the side in the box. -/
theorem cut_point {b : Box 2} (ho : Ordered b) {e : Pt 2 × Pt 2}
    (h : cutE (b.low.elem 0) (b.low.elem 1) (b.high.elem 0) (b.high.elem 1) e = true) :
    (segment ℝ e.2.elem e.1.elem ∩ boxSet b).Nonempty := by
  have o0 := ho 0
  have o1 := ho 1
  have fin : ∀ x y, b.low.elem 0 ≤ x → x ≤ b.high.elem 0 → b.low.elem 1 ≤ y → y ≤ b.high.elem 1 → ![x, y] ∈ boxSet b := by
    intro x y h1 h2 h3 h4 i
    fin_cases i
    · exact ⟨h1, h2⟩
    · exact ⟨h3, h4⟩
  unfold cutE cH cV at h
  simp only [Bool.or_eq_true, Bool.and_eq_true, decide_eq_true_eq] at h
  rcases h with ((⟨h1, h2, h3⟩ | ⟨h1, h2, h3⟩) | ⟨h1, h2, h3⟩) | ⟨h1, h2, h3⟩
  · exact ⟨_, (xAt_mem h1 _).2 rfl, fin _ _ h2.le (le_of_lt h3) le_rfl o1⟩
  · exact ⟨_, (yAt_mem h1 _).2 rfl, fin _ _ le_rfl o0 h2.le (le_of_lt h3)⟩
  · exact ⟨_, (xAt_mem h1 _).2 rfl, fin _ _ h2.le (le_of_lt h3) o1 le_rfl⟩
  · exact ⟨_, (yAt_mem h1 _).2 rfl, fin _ _ o0 le_rfl h2.le (le_of_lt h3)⟩

/-! ### Leaving the box -/

/-- How far one can go from `z` towards `p` until the coordinate leaves the interval. -/
noncomputable def stay (l h z p : ℝ) : ℝ := if p < l then (z - l) / (z - p) else if h < p then (h - z) / (p - z) else 1

theorem stay_spec {l h z p : ℝ} (h1 : l ≤ z) (h2 : z ≤ h) : 0 ≤ stay l h z p ∧ stay l h z p ≤ 1 ∧
    (∀ t, 0 ≤ t → t ≤ stay l h z p → l ≤ z + t * (p - z) ∧ z + t * (p - z) ≤ h) ∧
    (¬ (l ≤ p ∧ p ≤ h) → stay l h z p < 1) ∧
    (stay l h z p < 1 → (p < l ∧ z + stay l h z p * (p - z) = l) ∨ (h < p ∧ z + stay l h z p * (p - z) = h)) := by
  unfold stay
  split_ifs with h3 h4
  · have hz : 0 < z - p := by linarith
    have e : (z - l) / (z - p) * (z - p) = z - l := div_mul_cancel₀ _ hz.ne'
    refine ⟨div_nonneg (by linarith) hz.le, (div_le_one hz).2 (by linarith), fun t t0 t1 => ?_, fun _ => (div_lt_one hz).2 (by linarith),
      fun _ => Or.inl ⟨h3, by linarith⟩⟩
    have := mul_le_mul_of_nonneg_right t1 hz.le
    have := mul_nonneg t0 hz.le
    constructor <;> nlinarith
  · have hz : 0 < p - z := by linarith
    have e : (h - z) / (p - z) * (p - z) = h - z := div_mul_cancel₀ _ hz.ne'
    refine ⟨div_nonneg (by linarith) hz.le, (div_le_one hz).2 (by linarith), fun t t0 t1 => ?_, fun _ => (div_lt_one hz).2 (by linarith),
      fun _ => Or.inr ⟨h4, by linarith⟩⟩
    have := mul_le_mul_of_nonneg_right t1 hz.le
    have := mul_nonneg t0 hz.le
    constructor <;> nlinarith
  · push Not at h3 h4
    refine ⟨by norm_num, le_rfl, fun t t0 t1 => ?_, fun h => absurd ⟨h3, h4⟩ h, fun h => absurd h (lt_irrefl _)⟩
    constructor <;> nlinarith

/-- A segment from a point of the box to a point outside leaves the box through a face that the end is beyond. -/
theorem exit_point {b : Box 2} {z p : V2} (hz : z ∈ boxSet b) (hp : p ∉ boxSet b) :
    ∃ w ∈ segment ℝ z p, w ∈ boxSet b ∧ ∃ k, (p k < b.low.elem k ∧ w k = b.low.elem k) ∨ (b.high.elem k < p k ∧ w k = b.high.elem k) := by
  have s := fun k => stay_spec (p := p k) (hz k).1 (hz k).2
  generalize hτ : (fun k => stay (b.low.elem k) (b.high.elem k) (z k) (p k)) = τ at s
  have s' : ∀ k, 0 ≤ τ k ∧ τ k ≤ 1 ∧
    (∀ t, 0 ≤ t → t ≤ τ k → b.low.elem k ≤ z k + t * (p k - z k) ∧ z k + t * (p k - z k) ≤ b.high.elem k) ∧
    (¬ (b.low.elem k ≤ p k ∧ p k ≤ b.high.elem k) → τ k < 1) ∧
    (τ k < 1 → (p k < b.low.elem k ∧ z k + τ k * (p k - z k) = b.low.elem k) ∨
      (b.high.elem k < p k ∧ z k + τ k * (p k - z k) = b.high.elem k)) := by
    intro k; rw [← hτ]; exact stay_spec (hz k).1 (hz k).2
  obtain ⟨k, hk⟩ : ∃ k, ∀ m, τ k ≤ τ m := by
    rcases le_total (τ 0) (τ 1) with h | h
    · exact ⟨0, fun m => by fin_cases m; exacts [le_rfl, h]⟩
    · exact ⟨1, fun m => by fin_cases m; exacts [h, le_rfl]⟩
  obtain ⟨m, hm⟩ : ∃ m, ¬ (b.low.elem m ≤ p m ∧ p m ≤ b.high.elem m) := by
    by_contra hc; push Not at hc; exact hp hc
  have hlt : τ k < 1 := lt_of_le_of_lt (hk m) ((s' m).2.2.2.1 hm)
  refine ⟨fun m => z m + τ k * (p m - z m), mem_seg.2 ⟨τ k, (s' k).1, (s' k).2.1, ?_⟩, fun m => (s' m).2.2.1 _ (s' k).1 (hk m), k, (s' k).2.2.2.2 hlt⟩
  funext m
  simp only [Pi.add_apply, Pi.smul_apply, smul_eq_mul]
  ring

theorem between_of {p q y s : ℝ} (hs0 : 0 ≤ s) (hs1 : s ≤ 1) (h : y = (1 - s) * q + s * p) (hp : p ≠ y) (hq : q ≠ y) :
    between q p y = true ∧ between p q y = true := by
  have h' : (1 - s) * (q - y) = s * (y - p) := by linarith
  have key : (q < y ∧ y < p) ∨ (p < y ∧ y < q) := by
    rcases lt_or_gt_of_ne hp with h1 | h1 <;> rcases lt_or_gt_of_ne hq with h2 | h2
    · rcases hs0.eq_or_lt with rfl | hs0
      · linarith
      · have := mul_pos hs0 (sub_pos.2 h1); have := mul_nonneg (sub_nonneg.2 hs1) (sub_pos.2 h2).le; nlinarith
    · exact Or.inr ⟨h1, h2⟩
    · exact Or.inl ⟨h2, h1⟩
    · rcases hs0.eq_or_lt with rfl | hs0
      · linarith
      · have := mul_pos hs0 (sub_pos.2 h1); have := mul_nonneg (sub_nonneg.2 hs1) (sub_pos.2 h2).le; nlinarith
  unfold between
  rw [decide_eq_true_iff, decide_eq_true_iff]
  rcases key with ⟨h1, h2⟩ | ⟨h1, h2⟩
  · exact ⟨Or.inl ⟨h1.le, h2⟩, Or.inr ⟨h1.le, h2⟩⟩
  · exact ⟨Or.inr ⟨h1.le, h2⟩, Or.inl ⟨h1.le, h2⟩⟩

/-- The loop finds every side with a point in the box and an end outside, if the other end is not on the rim of the box. -/
theorem exit_found {b : Box 2} {e : Pt 2 × Pt 2} {z : V2} (hz : z ∈ segment ℝ e.2.elem e.1.elem) (hzb : z ∈ boxSet b)
    (he : (e.1.elem ∉ boxSet b ∧ (e.2.elem ∈ boxSet b → e.2.elem ∈ boxInterior b)) ∨
      (e.2.elem ∉ boxSet b ∧ (e.1.elem ∈ boxSet b → e.1.elem ∈ boxInterior b))) :
    touchE (b.low.elem 0) (b.low.elem 1) (b.high.elem 0) (b.high.elem 1) e = true ∨
    cutE (b.low.elem 0) (b.low.elem 1) (b.high.elem 0) (b.high.elem 1) e = true := by
  obtain ⟨w, hw, hwb, k, hk⟩ : ∃ w ∈ segment ℝ e.2.elem e.1.elem, w ∈ boxSet b ∧
      ∃ k, (w k = b.low.elem k ∨ w k = b.high.elem k) ∧ between (e.1.elem k) (e.2.elem k) (w k) = true := by
    have key : ∀ p q : V2, z ∈ segment ℝ q p → p ∉ boxSet b → (q ∈ boxSet b → q ∈ boxInterior b) →
        ∃ w ∈ segment ℝ q p, w ∈ boxSet b ∧ ∃ k, (w k = b.low.elem k ∨ w k = b.high.elem k) ∧
          between (q k) (p k) (w k) = true ∧ between (p k) (q k) (w k) = true := by
      intro p q hz hp hq
      obtain ⟨w, hw, hwb, k, hk⟩ := exit_point hzb hp
      have hw' : w ∈ segment ℝ q p := (convex_segment q p).segment_subset hz (right_mem_segment ℝ q p) hw
      obtain ⟨s, s0, s1, hs⟩ := mem_seg.1 hw'
      have hs' : w k = (1 - s) * q k + s * p k := by rw [hs]; simp
      have hpk : p k ≠ w k := by
        rcases hk with ⟨h1, h2⟩ | ⟨h1, h2⟩ <;> rw [h2]
        · exact h1.ne
        · exact h1.ne'
      have hqk : q k ≠ w k := by
        intro hqk
        have hs0 : s * (p k - w k) = 0 := by rw [hqk] at hs'; linarith
        rcases mul_eq_zero.1 hs0 with hs0 | hs0
        · have hwq : w = q := by rw [hs, hs0]; simp
          have := hq (hwq ▸ hwb) k
          rw [hqk] at this
          rcases hk with ⟨h1, h2⟩ | ⟨h1, h2⟩ <;> linarith [this.1, this.2]
        · exact hpk (sub_eq_zero.1 hs0)
      exact ⟨w, hw', hwb, k, hk.imp And.right And.right, between_of s0 s1 hs' hpk hqk⟩
    rcases he with ⟨h1, h2⟩ | ⟨h1, h2⟩
    · obtain ⟨w, a, b, k, c, d, d'⟩ := key _ _ hz h1 h2
      exact ⟨w, a, b, k, c, d'⟩
    · rw [seg_comm] at hz ⊢
      obtain ⟨w, a, b, k, c, d, d'⟩ := key _ _ hz h1 h2
      exact ⟨w, a, b, k, c, d⟩
  have hw2 : ![w 0, w 1] = w := by apply ext2 <;> rfl
  rw [← hw2] at hw
  have g : ∀ a b x : ℝ, a ≤ x → x ≤ b → (equal a x epsilon || equal b x epsilon) = true ∨ (decide (a < x) && decide (b > x)) = true := by
    intro a b x h1 h2
    rcases h1.eq_or_lt with rfl | h1
    · left; rw [equal_refl]; rfl
    · rcases h2.eq_or_lt with rfl | h2
      · left; rw [equal_refl]; simp
      · right; simp [h1, h2]
  obtain ⟨hk, hb⟩ := hk
  have w0 := hwb 0
  have w1 := hwb 1
  unfold touchE cutE
  fin_cases k
  · simp only [Fin.zero_eta] at hk hb
    have := (yAt_mem hb _).1 hw
    rw [this] at w1
    have hg := g _ _ _ w1.1 w1.2
    unfold tV cV
    rcases hk with hk | hk <;> rw [hk] at hb hg <;> rw [hb] <;> rcases hg with hg | hg <;> rw [hg] <;> simp
  · simp only [Fin.mk_one] at hk hb
    have := (xAt_mem hb _).1 hw
    rw [this] at w0
    have hg := g _ _ _ w0.1 w0.2
    unfold tH cH
    rcases hk with hk | hk <;> rw [hk] at hb hg <;> rw [hb] <;> rcases hg with hg | hg <;> rw [hg] <;> simp

/-- Around a closed line of corners a statement that holds for some and not for all changes along a side. -/
theorem changes {P : Pt 2 → Prop} {ps : Corners 2} {c d : Pt 2} (hc : c ∈ ps) (hd : d ∈ ps) (h1 : P c) (h2 : ¬ P d) :
    ∃ e ∈ edges ps, (P e.1 ∧ ¬ P e.2) ∨ (P e.2 ∧ ¬ P e.1) := by
  by_contra hn
  push Not at hn
  have key : ∀ (l : Corners 2) (j : Pt 2), (∀ e ∈ edgesFrom j l, (P e.1 → P e.2) ∧ (P e.2 → P e.1)) → ∀ x ∈ l, P x ↔ P j := by
    intro l
    induction l with
    | nil => intro j _ x hx; simp at hx
    | cons i l ih =>
      intro j h x hx
      have hij : P i ↔ P j := ⟨(h (i, j) List.mem_cons_self).1, (h (i, j) List.mem_cons_self).2⟩
      rcases List.mem_cons.1 hx with rfl | hx
      · exact hij
      · exact (ih i (fun e he => h e (List.mem_cons_of_mem _ he)) x hx).trans hij
  have h := key ps _ hn
  exact h2 ((h d hd).2 ((h c hc).1 h1))

end WFMath
