/- Property theorem C97: `Intersect(Polygon<2>, Ball<2>)` and `Contains(Polygon<2>, Ball<2>)`. -/
import Verif.Props.PolyContains
import Verif.Props.PolyPoint
import Verif.Props.Segment

namespace WFMath
open Spec Matrix

/-! ### The sides of the polygon and the segments of the loops -/

theorem edgeSegs_mem {es : List (Pt 2 × Pt 2)} {b : Bool} {s : Seg 2} (h : s ∈ edgeSegs es b) : ∃ e ∈ es, s = ⟨e.1, e.2⟩ ∨ s = ⟨e.2, e.1⟩ := by
  induction es generalizing b with
  | nil => simp [edgeSegs] at h
  | cons e es ih =>
    rw [edgeSegs] at h
    rcases List.mem_cons.1 h with h | h
    · refine ⟨e, List.mem_cons_self, ?_⟩
      cases b <;> simp at h <;> simp [h]
    · obtain ⟨e', h1, h2⟩ := ih h
      exact ⟨e', List.mem_cons_of_mem _ h1, h2⟩

theorem edgeSegs_of_mem {es : List (Pt 2 × Pt 2)} (b : Bool) {e : Pt 2 × Pt 2} (h : e ∈ es) :
    ∃ s ∈ edgeSegs es b, s = ⟨e.1, e.2⟩ ∨ s = ⟨e.2, e.1⟩ := by
  induction es generalizing b with
  | nil => simp at h
  | cons e' es ih =>
    rw [edgeSegs]
    rcases List.mem_cons.1 h with rfl | h
    · refine ⟨_, List.mem_cons_self, ?_⟩
      cases b <;> simp
    · obtain ⟨s, h1, h2⟩ := ih (!b) h
      exact ⟨s, List.mem_cons_of_mem _ h1, h2⟩

theorem segSet_eq (s : Seg 2) : segSet s = segment ℝ s.p1.elem s.p2.elem := by
  ext x; rw [mem_seg]; rfl

theorem mem_sides_edges {ps : Corners 2} {a b : V2} : (a, b) ∈ sides ps ↔ ∃ e ∈ edges ps, e.2.elem = a ∧ e.1.elem = b := by
  rw [← (edges_sides ps).mem_iff, List.mem_map]
  simp only [Prod.mk.injEq]

/-- The segments that the loops go through are the sides. -/
theorem boundary_segs (ps : Corners 2) (b : Bool) (x : V2) : x ∈ boundary ps ↔ ∃ s ∈ edgeSegs (edges ps) b, x ∈ segSet s := by
  constructor
  · rintro ⟨⟨u, v⟩, he, hx⟩
    obtain ⟨e, he', rfl, rfl⟩ := mem_sides_edges.1 he
    obtain ⟨s, h1, h2⟩ := edgeSegs_of_mem b he'
    refine ⟨s, h1, ?_⟩
    rw [segSet_eq]
    rcases h2 with rfl | rfl
    · rw [seg_comm]; exact hx
    · exact hx
  · rintro ⟨s, h1, h2⟩
    obtain ⟨e, he, h3⟩ := edgeSegs_mem h1
    refine ⟨(e.2.elem, e.1.elem), mem_sides_edges.2 ⟨e, he, rfl, rfl⟩, ?_⟩
    rw [segSet_eq] at h2
    rcases h3 with rfl | rfl
    · rw [seg_comm]; exact h2
    · exact h2

theorem edges_corner {ps : Corners 2} {e : Pt 2 × Pt 2} (h : e ∈ edges ps) : e.1 ∈ ps ∧ e.2 ∈ ps := by
  have := (edges_perm ps).mem_iff.1 h
  obtain ⟨⟨u, v⟩, h1, rfl⟩ := List.mem_map.1 this
  have := List.of_mem_zip h1
  exact ⟨List.mem_rotate.1 this.2, this.1⟩

theorem edgeSegs_corner {ps : Corners 2} {b : Bool} {s : Seg 2} (h : s ∈ edgeSegs (edges ps) b) : s.p1 ∈ ps ∧ s.p2 ∈ ps := by
  obtain ⟨e, he, h⟩ := edgeSegs_mem h
  have := edges_corner he
  rcases h with rfl | rfl
  · exact this
  · exact this.symm

/-- A connected set with a point of the polygon and a point that is not inside meets the boundary. -/
theorem meets_boundary {ps : Corners 2} {U : Set V2} (hU : IsPreconnected U) {x y : V2} (hx : x ∈ U) (hx' : x ∈ filled ps) (hy : y ∈ U)
    (hy' : y ∉ inside ps) : (U ∩ boundary ps).Nonempty := by
  by_contra h
  have hd : Disjoint U (boundary ps) := Set.disjoint_iff_inter_eq_empty.2 (Set.not_nonempty_iff_eq_empty.1 h)
  have hb : ∀ z ∈ U, z ∉ boundary ps := fun z hz hb => h ⟨z, hz, hb⟩
  rcases hx' with hx' | hx'
  · exact hy' ⟨hb y hy, (region_odd east_ne hU hd hx hy).1 hx'.2⟩
  · exact hb x hx hx'

theorem near_of_boundary_nil (x : V2) : x ∉ boundary ([] : Corners 2) := by
  rintro ⟨e, he, -⟩; simp [sides] at he

theorem filled_nil (x : V2) : x ∉ filled ([] : Corners 2) := by
  rintro (⟨-, h⟩ | h)
  · simp [rayCrossings, sides] at h
  · exact near_of_boundary_nil x h

theorem interPolyP_nil (p : Pt 2) (proper : Bool) : interPolyP [] p proper = false := rfl

/-- The polygon has only long sides, or the ball is not tiny: then the test of a segment and a ball misses nothing. -/
def Spec.BallFits (p : Corners 2) (b : Ball 2) : Prop :=
  8 * epsilon ≤ b.radius ^ 2 ∨ ∀ e ∈ sides p, 8 * epsilon ≤ eucl e.1 e.2 ^ 2

theorem Spec.BallFits.seg {p : Corners 2} {b : Ball 2} (h : BallFits p b) {s : Seg 2} {nx : Bool} (hs : s ∈ edgeSegs (edges p) nx) :
    DotExact (s.p2.sub s.p1) (b.center.sub s.p1) ∨ 8 * epsilon ≤ b.radius ^ 2 ∨ 8 * epsilon ≤ eucl s.p1.elem s.p2.elem ^ 2 := by
  rcases h with h | h
  · exact Or.inr (Or.inl h)
  · obtain ⟨e, he, h1⟩ := edgeSegs_mem hs
    have := h (e.2.elem, e.1.elem) (mem_sides_edges.2 ⟨e, he, rfl, rfl⟩)
    right; right
    rcases h1 with rfl | rfl
    · rw [eucl_comm]; exact this
    · exact this

/-- C97: when the ball meets the polygon, `Intersect(polygon, ball)` says so; with `proper` the inside of the ball has to meet the polygon,
and the centre must not be within tolerance of a side. -/
theorem C97_accepts (p : Corners 2) (b : Ball 2) (hr : 0 ≤ b.radius) (hf : BallFits p b) :
    ((filled p ∩ ballSet b).Nonempty → interPolyBall p b false = some true) ∧
    (¬ NearSide p b.center.elem → (filled p ∩ ballInterior b).Nonempty → interPolyBall p b true = some true) := by
  have key : ∀ (proper : Bool) (U : Set V2), IsPreconnected U → (U.Nonempty → b.center.elem ∈ U) →
      (∀ s ∈ edgeSegs (edges p) true, (segSet s ∩ U).Nonempty → interSBall s b proper = true) →
      (NearSide p b.center.elem → proper = false) → (filled p ∩ U).Nonempty → interPolyBall p b proper = some true := by
    intro proper U hU hc hs hn ⟨x, hx, hxU⟩
    unfold interPolyBall
    by_cases h1 : interPolyP p b.center proper = true
    · rw [if_pos h1]
    · rw [if_neg h1, if_neg (by rintro rfl; exact filled_nil x hx)]
      have h2 : b.center.elem ∉ inside p := by
        intro h2
        by_cases h3 : NearSide p b.center.elem
        · rw [(C74_exact p b.center proper).1 h3, hn h3] at h1; exact h1 rfl
        · exact h1 (((C74_exact p b.center proper).2 h3).2 h2.2)
      obtain ⟨y, hyU, hy⟩ := meets_boundary hU hxU hx (hc ⟨x, hxU⟩) h2
      obtain ⟨s, h3, h4⟩ := (boundary_segs p true y).1 hy
      have : ((edgeSegs (edges p) true).any fun s => interSBall s b proper) = true := List.any_eq_true.2 ⟨s, h3, hs s h3 ⟨y, h4, hyU⟩⟩
      rw [this]
  refine ⟨key false _ (convex_ballSet b).isPreconnected (fun _ => ?_) (fun s hs => (C60_accepts_partial s b hr (hf.seg hs)).1) (fun _ => rfl),
    fun hn => key true _ (convex_ballInterior b).isPreconnected (fun hne => ?_) (fun s hs => (C60_accepts_partial s b hr (hf.seg hs)).2)
      (fun h => absurd h hn)⟩
  · show eucl _ _ ≤ _
    rw [(eucl_eq_zero).2 rfl]; exact hr
  · obtain ⟨y, hy⟩ := hne
    show eucl _ _ < _
    rw [(eucl_eq_zero).2 rfl]
    exact lt_of_le_of_lt (eucl_nonneg _ _) hy

/-- C97: when `Intersect(polygon, ball)` holds, the ball with its radius enlarged by the factor `√(1 + ε)` meets the polygon, unless the centre is
within tolerance of a side or so close to a corner that the library rounds the distance to 0. -/
theorem C97_rejects (p : Corners 2) (b : Ball 2) (hr : 0 ≤ b.radius) (hf : ∀ c ∈ p, ¬ Flushed b.center c) :
    (¬ NearSide p b.center.elem → interPolyBall p b false = some true → (filled p ∩ ballSet (grown b)).Nonempty) ∧
    (0 < b.radius → interPolyBall p b true = some true → (filled p ∩ ballInterior (grown b)).Nonempty) := by
  have hg : 0 ≤ (grown b).radius := mul_nonneg (Real.sqrt_nonneg _) hr
  have hg' : 0 < b.radius → 0 < (grown b).radius := fun h => lt_of_lt_of_le h (le_mul_of_one_le_left hr one_le_grow)
  have hodd : ¬ NearSide p b.center.elem → ∀ proper, interPolyP p b.center proper = true → b.center.elem ∈ filled p := by
    intro hn proper h
    by_cases hb : b.center.elem ∈ boundary p
    · exact Or.inr hb
    · exact Or.inl ⟨hb, ((C74_exact p b.center proper).2 hn).1 h⟩
  have hany : ∀ proper, interPolyBall p b proper = some true →
      interPolyP p b.center proper = true ∨ ∃ s ∈ edgeSegs (edges p) true, interSBall s b proper = true := by
    intro proper h
    unfold interPolyBall at h
    split_ifs at h with h1
    · exact Or.inl h1
    · exact Or.inr (List.any_eq_true.1 (Option.some.inj h))
  constructor
  · intro hn h
    rcases hany _ h with h | ⟨s, hs, h⟩
    · refine ⟨b.center.elem, hodd hn _ h, ?_⟩
      show eucl b.center.elem b.center.elem ≤ _
      rw [eucl_eq_zero.2 rfl]; exact hg
    · have hc := edgeSegs_corner hs
      rcases (C60_rejects s b hr).1 h with ⟨x, hx, hx'⟩ | h | h
      · exact ⟨x, Or.inr ((boundary_segs p true x).2 ⟨s, hs, hx⟩), hx'⟩
      · exact absurd h (hf _ hc.1)
      · exact absurd h (hf _ hc.2)
  · intro hpos h
    rcases hany _ h with h | ⟨s, hs, h⟩
    · refine ⟨b.center.elem, hodd (fun hn => ?_) _ h, ?_⟩
      · rw [(C74_exact p b.center true).1 hn] at h; exact absurd h (by simp)
      · show eucl b.center.elem b.center.elem < _
        rw [eucl_eq_zero.2 rfl]; exact hg' hpos
    · have hc := edgeSegs_corner hs
      rcases (C60_rejects s b hr).2 h with ⟨x, hx, hx'⟩ | ⟨-, h | h⟩
      · exact ⟨x, Or.inr ((boundary_segs p true x).2 ⟨s, hs, hx⟩), hx'⟩
      · exact absurd h (hf _ hc.1)
      · exact absurd h (hf _ hc.2)

/-- C97: the only polygon for which `Intersect(polygon, ball)` gives no answer is the one without corners; there the code reads the last element of
an empty vector. -/
theorem C97_answers (p : Corners 2) (b : Ball 2) (proper : Bool) :
    (interPolyBall p b proper = none ↔ p = []) ∧ containsPolyBall p b proper ≠ none := by
  constructor
  · unfold interPolyBall
    constructor
    · intro h
      split_ifs at h with h1 h2
      exact h2
    · rintro rfl
      rw [interPolyP_nil]; rfl
  · unfold containsPolyBall
    by_cases h1 : interPolyP p b.center proper = true
    · have h2 : p ≠ [] := by rintro rfl; rw [interPolyP_nil] at h1; exact absurd h1 (by simp)
      simp [h1, h2]
    · simp [h1]

theorem containsPolyBall_true {p : Corners 2} {b : Ball 2} {proper : Bool} : containsPolyBall p b proper = some true ↔
    interPolyP p b.center proper = true ∧ ∀ s ∈ edgeSegs (edges p) true, interSBall s b (!proper) = false := by
  unfold containsPolyBall
  by_cases h1 : interPolyP p b.center proper = true
  · have h2 : p ≠ [] := by rintro rfl; rw [interPolyP_nil] at h1; exact absurd h1 (by simp)
    simp [h1, h2]
  · simp [h1]

/-- C97: when `Contains(polygon, ball)` holds every point inside the ball belongs to the polygon, and with `proper` every point of the ball is
inside the polygon. -/
theorem C97_contains (p : Corners 2) (b : Ball 2) (hr : 0 ≤ b.radius) (hf : BallFits p b) :
    (¬ NearSide p b.center.elem → containsPolyBall p b false = some true → ballInterior b ⊆ inside p) ∧
    (containsPolyBall p b true = some true → ballSet b ⊆ inside p) := by
  simp only [containsPolyBall_true]
  have key : ∀ U : Set V2, IsPreconnected U → (U.Nonempty → b.center.elem ∈ U) → Odd (rayCrossings east p b.center.elem) →
      (∀ s ∈ edgeSegs (edges p) true, ¬ (segSet s ∩ U).Nonempty) → U ⊆ inside p := by
    intro U hU hc ho hs y hy
    by_contra hy'
    have hcU := hc ⟨y, hy⟩
    have hcf : b.center.elem ∈ filled p := by
      by_cases hb : b.center.elem ∈ boundary p
      · exact Or.inr hb
      · exact Or.inl ⟨hb, ho⟩
    obtain ⟨z, hz, hz'⟩ := meets_boundary hU hcU hcf hy hy'
    obtain ⟨s, h3, h4⟩ := (boundary_segs p true z).1 hz'
    exact hs s h3 ⟨z, h4, hz⟩
  constructor
  · rintro hn ⟨h1, h2⟩
    refine key _ (convex_ballInterior b).isPreconnected (fun ⟨y, hy⟩ => ?_) (((C74_exact p b.center false).2 hn).1 h1) fun s hs hne => ?_
    · show eucl b.center.elem b.center.elem < _
      rw [eucl_eq_zero.2 rfl]
      exact lt_of_le_of_lt (eucl_nonneg _ _) hy
    · have := (C60_accepts_partial s b hr (hf.seg hs)).2 hne
      rw [show (!false) = true from rfl] at h2
      rw [h2 s hs] at this
      exact absurd this (by simp)
  · rintro ⟨h1, h2⟩
    have hn : ¬ NearSide p b.center.elem := by
      intro hn
      rw [(C74_exact p b.center true).1 hn] at h1
      exact absurd h1 (by simp)
    refine key _ (convex_ballSet b).isPreconnected (fun _ => ?_) (((C74_exact p b.center true).2 hn).1 h1) fun s hs hne => ?_
    · show eucl b.center.elem b.center.elem ≤ _
      rw [eucl_eq_zero.2 rfl]; exact hr
    · have := (C60_accepts_partial s b hr (hf.seg hs)).1 hne
      rw [show (!true) = false from rfl] at h2
      rw [h2 s hs] at this
      exact absurd this (by simp)

/-- C97: `Contains(polygon, ball)` holds for every ball that is inside the polygon with its radius enlarged by the factor `√(1 + ε)`, unless the
centre is within tolerance of a side or so close to a corner that the library rounds the distance to 0. -/
theorem C97_contained (p : Corners 2) (b : Ball 2) (hr : 0 ≤ b.radius) (hn : ¬ NearSide p b.center.elem) (hf : ∀ c ∈ p, ¬ Flushed b.center c)
    (h : ballSet (grown b) ⊆ inside p) (proper : Bool) : containsPolyBall p b proper = some true := by
  have hg : 0 ≤ (grown b).radius := mul_nonneg (Real.sqrt_nonneg _) hr
  rw [containsPolyBall_true]
  refine ⟨((C74_exact p b.center proper).2 hn).2 (h (show eucl b.center.elem b.center.elem ≤ _ by rw [eucl_eq_zero.2 rfl]; exact hg)).2, ?_⟩
  intro s hs
  have hc := edgeSegs_corner hs
  have hno : ∀ x ∈ segSet s, x ∉ ballSet (grown b) := fun x hx hx' => (h hx').1 ((boundary_segs p true x).2 ⟨s, hs, hx⟩)
  rw [← Bool.not_eq_true]
  intro hi
  cases proper
  · rcases (C60_rejects s b hr).2 hi with ⟨x, hx, hx'⟩ | ⟨-, h | h⟩
    · exact hno x hx (le_of_lt (show eucl _ _ < _ from hx'))
    · exact hf _ hc.1 h
    · exact hf _ hc.2 h
  · rcases (C60_rejects s b hr).1 hi with ⟨x, hx, hx'⟩ | h | h
    · exact hno x hx hx'
    · exact hf _ hc.1 h
    · exact hf _ hc.2 h

/-! ### Example: the unit square -/

theorem unitSquare_boundary {x : V2} (h : x ∈ boundary unitSquare) :
    (x 0 = 0 ∨ x 0 = 1 ∨ x 1 = 0 ∨ x 1 = 1) ∧ 0 ≤ x 0 ∧ x 0 ≤ 1 ∧ 0 ≤ x 1 ∧ x 1 ≤ 1 := by
  obtain ⟨e, he, hx⟩ := h
  rw [unitSquare_sides] at he
  obtain ⟨s, h0, h1, h2, h3⟩ := seg_coord hx
  simp only [List.mem_cons, List.not_mem_nil, or_false] at he
  rcases he with rfl | rfl | rfl | rfl <;> simp at h2 h3
  · exact ⟨Or.inr (Or.inr (Or.inl h3)), by linarith, by linarith, by linarith, by linarith⟩
  · exact ⟨Or.inr (Or.inl h2), by linarith, by linarith, by linarith, by linarith⟩
  · exact ⟨Or.inr (Or.inr (Or.inr h3)), by linarith, by linarith, by linarith, by linarith⟩
  · exact ⟨Or.inl h2, by linarith, by linarith, by linarith, by linarith⟩

/-- The points inside the unit square. -/
theorem unitSquare_inside {x : V2} (h0 : 0 < x 0) (h0' : x 0 < 1) (h1 : 0 < x 1) (h1' : x 1 < 1) : x ∈ inside unitSquare := by
  have hm : Odd (rayCrossings east unitSquare ![1 / 2, 1 / 2]) := by
    have := C74_even_odd unitSquare ⟨![1 / 2, 1 / 2], true⟩ false unitSquare_far east east_ne
    rw [square_eval] at this
    exact this.1 (by norm_num)
  let U : Set V2 := {x | 0 < x 0 ∧ x 0 < 1 ∧ 0 < x 1 ∧ x 1 < 1}
  have hU : Convex ℝ U := by
    intro x hx y hy a b ha hb hab
    obtain ⟨x1, x2, x3, x4⟩ := hx
    obtain ⟨y1, y2, y3, y4⟩ := hy
    have hb' : b = 1 - a := by linarith
    subst hb'
    refine ⟨?_, ?_, ?_, ?_⟩ <;> simp only [Pi.add_apply, Pi.smul_apply, smul_eq_mul]
    · rcases ha.eq_or_lt with rfl | ha
      · simpa using y1
      · nlinarith [mul_pos ha x1, mul_nonneg hb y1.le]
    · rcases ha.eq_or_lt with rfl | ha
      · simpa using y2
      · nlinarith [mul_pos ha (sub_pos.2 x2), mul_nonneg hb (sub_pos.2 y2).le]
    · rcases ha.eq_or_lt with rfl | ha
      · simpa using y3
      · nlinarith [mul_pos ha x3, mul_nonneg hb y3.le]
    · rcases ha.eq_or_lt with rfl | ha
      · simpa using y4
      · nlinarith [mul_pos ha (sub_pos.2 x4), mul_nonneg hb (sub_pos.2 y4).le]
  have hd : ∀ y ∈ U, y ∉ boundary unitSquare := by
    rintro y ⟨y1, y2, y3, y4⟩ hb
    rcases (unitSquare_boundary hb).1 with h | h | h | h <;> linarith
  exact ⟨hd x ⟨h0, h0', h1, h1'⟩, (region_odd east_ne hU.isPreconnected (Set.disjoint_left.2 hd) (show ![1 / 2, 1 / 2] ∈ U by
    refine ⟨?_, ?_, ?_, ?_⟩ <;> norm_num) ⟨h0, h0', h1, h1'⟩).1 hm⟩

/-- A ball that touches a side of the unit square from outside meets it. -/
example : interPolyBall unitSquare ⟨⟨![2, 1 / 2], true⟩, 1⟩ false = some true := by
  have he := epsilon_lt
  norm_num at he
  refine (C97_accepts _ _ (by norm_num) (Or.inl (by norm_num; linarith))).1 ⟨![1, 1 / 2], Or.inr ⟨(![1, 0], ![1, 1]), ?_, ?_⟩, ?_⟩
  · rw [unitSquare_sides]; simp
  · exact mem_seg.2 ⟨1 / 2, by norm_num, by norm_num, by apply ext2 <;> simp⟩
  · show eucl _ _ ≤ _
    rw [eucl_le_iff (by norm_num)]
    simp [Fin.sum_univ_two]
    norm_num

theorem flushed_far {c q : Pt 2} (h0 : ∀ i, |c.elem i| ≤ 1) (h : 1 / 4 ≤ eucl c.elem q.elem ^ 2) : ¬ Flushed c q := by
  unfold Flushed
  have he := epsilon_lt
  norm_num at he
  rw [not_lt]
  refine le_trans ?_ h
  have hp := epsilon_pos
  by_cases hz : c.elem = 0 ∨ q.elem = 0
  · rw [scaleEpsilonArr_zero hz]; linarith
  · push Not at hz
    refine le_trans (scaleEpsilonArr_le epsilon_pos.le hz.1 hz.2) ?_
    have h1 : maxAbs c.elem ≤ 1 := maxAbs_le (by norm_num) h0
    have := min_le_left (maxAbs c.elem) (maxAbs q.elem)
    nlinarith

/-- The ball of radius 1/4 about the middle of the unit square is contained in it. -/
example (proper : Bool) : containsPolyBall unitSquare ⟨⟨![1 / 2, 1 / 2], true⟩, 1 / 4⟩ proper = some true := by
  have he := epsilon_lt
  have hp := epsilon_pos
  norm_num at he
  refine C97_contained _ _ (by norm_num) ?_ ?_ ?_ proper
  · rintro ⟨e, he, -, x, hx, h⟩
    rw [unitSquare_far e he x hx] at h
    exact absurd h (by simp)
  · intro c hc
    apply flushed_far
    · intro i; fin_cases i <;> norm_num [abs_of_pos]
    · rw [eucl_sq]
      simp only [unitSquare, List.mem_cons, List.not_mem_nil, or_false] at hc
      rcases hc with rfl | rfl | rfl | rfl <;> simp [Fin.sum_univ_two] <;> norm_num
  · intro x hx
    have hs : Real.sqrt (1 + epsilon) ≤ 1 + epsilon := by
      rw [Real.sqrt_le_left (by linarith)]; nlinarith
    have hx' : eucl x ![1 / 2, 1 / 2] ≤ 3 / 8 := le_trans (show eucl x ![1 / 2, 1 / 2] ≤ Real.sqrt (1 + epsilon) * (1 / 4) from hx) (by linarith)
    have h0 := abs_le.1 (le_trans (abs_sub_le_eucl x ![1 / 2, 1 / 2] 0) hx')
    have h1 := abs_le.1 (le_trans (abs_sub_le_eucl x ![1 / 2, 1 / 2] 1) hx')
    simp at h0 h1
    norm_num at h0 h1
    apply unitSquare_inside <;> linarith

end WFMath
