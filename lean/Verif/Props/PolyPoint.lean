/- Property theorem C74: `Intersect(Polygon<2>, Point<2>)` follows the even-odd rule. -/
import Verif.Model.PolyIntersect
import Verif.Lemmas.EvenOdd
import Verif.Lemmas.Const
import Mathlib.Analysis.LocallyConvex.Separation
import Mathlib.Data.List.Perm.Basic

namespace WFMath
open Spec Matrix

theorem east_ne : east ≠ 0 := fun h => by have := congrFun h 0; simp at this

theorem equal_refl (x : ℝ) : equal x x epsilon = true := by
  simp [equal, scaleEpsilon_nonneg epsilon_pos.le]

/-! ### The loop of the code goes through the sides -/

theorem edgesFrom_append (a : Pt 2) (l : Corners 2) (x : Pt 2) : edgesFrom a (l ++ [x]) = edgesFrom a l ++ [(x, l.getLastD a)] := by
  induction l generalizing a with
  | nil => rfl
  | cons b l ih => simp only [List.cons_append, edgesFrom, ih, List.getLastD_cons]

theorem zip_edges (a : Pt 2) (l : Corners 2) (x : Pt 2) : ((a :: l).zip (l ++ [x])).map Prod.swap = edgesFrom a (l ++ [x]) := by
  induction l generalizing a with
  | nil => rfl
  | cons b l ih => simp only [List.cons_append, edgesFrom, ← ih, List.zip_cons_cons, List.map_cons, Prod.swap]

theorem edges_perm (ps : Corners 2) : (edges ps).Perm ((ps.zip (ps.rotate 1)).map Prod.swap) := by
  cases ps with
  | nil => exact List.Perm.refl _
  | cons a l =>
    rw [List.rotate_cons_succ, List.rotate_zero, zip_edges, edgesFrom_append]
    unfold edges
    rw [edgesFrom, List.getLastD_cons]
    exact (List.perm_append_singleton _ _).symm

theorem edges_sides (ps : Corners 2) : ((edges ps).map fun e => (e.2.elem, e.1.elem)).Perm (sides ps) := by
  have := (edges_perm ps).map fun e : Pt 2 × Pt 2 => (e.2.elem, e.1.elem)
  rwa [List.map_map] at this

/-- polygon_intersect.cpp 1203-1210 in terms of the side: the test on the heights, and the place where the side crosses the height of the point. -/
theorem between_iff (a b p : V2) : between (b 1) (a 1) (p 1) = true ↔ Separates east p a b := by
  have e : ∀ v : V2, cr east (v - p) = v 1 - p 1 := by intro v; simp [cr]
  unfold between Separates
  rw [e, e, decide_eq_true_iff]
  rcases lt_or_ge (p 1) (a 1) with h1 | h1 <;> rcases lt_or_ge (p 1) (b 1) with h2 | h2
  · simp [h1, h2, not_le.2 h1, not_le.2 h2]
  · simp [h1, h2, not_le.2 h1, not_lt.2 h2]
  · simp [h1, h2, not_lt.2 h1, not_le.2 h2]
  · simp [h1, h2, not_lt.2 h1, not_lt.2 h2]

theorem crossing_at {a b p : V2} (h : Separates east p a b) (x : ℝ) :
    ![x, p 1] ∈ segment ℝ a b ↔ x = b 0 + (a 0 - b 0) * (p 1 - b 1) / (a 1 - b 1) := by
  have e : ∀ v : V2, cr east (v - p) = v 1 - p 1 := by intro v; simp [cr]
  have ex : ![x, p 1] = p + (x - p 0) • east := by apply ext2 <;> simp
  rw [ex]
  unfold Separates at h
  rcases lt_or_ge 0 (cr east (a - p)) with h1 | h1 <;> rcases lt_or_ge 0 (cr east (b - p)) with h2 | h2
  · exact absurd (by simp [h1, h2]) h
  · rw [seg_comm, line_meets east_ne h2 h1]
    rw [e] at h1 h2
    rw [e, e]
    have hne : a 1 - b 1 ≠ 0 := by intro hc; linarith
    simp only [cr, Pi.sub_apply]
    constructor
    · intro h; field_simp; linarith
    · intro h; field_simp at h; linarith
  · rw [line_meets east_ne h1 h2]
    rw [e] at h1 h2
    rw [e, e]
    have hne : a 1 - b 1 ≠ 0 := by intro hc; linarith
    simp only [cr, Pi.sub_apply]
    constructor
    · intro h; field_simp; linarith
    · intro h; field_simp at h; linarith
  · exact absurd (by simp [not_lt.2 h1, not_lt.2 h2]) h

theorem east_crosses {a b p : V2} (h : Separates east p a b) :
    RayCrosses east p a b ↔ p 0 < b 0 + (a 0 - b 0) * (p 1 - b 1) / (a 1 - b 1) := by
  unfold RayCrosses
  simp only [h, true_and]
  have ex : ∀ t : ℝ, p + t • east = ![p 0 + t, p 1] := fun t => by apply ext2 <;> simp
  constructor
  · rintro ⟨t, ht, hx⟩
    rw [ex, crossing_at h] at hx
    rw [← hx]; linarith
  · intro hx
    refine ⟨_ - p 0, sub_pos.2 hx, ?_⟩
    rw [ex, crossing_at h]
    ring

open Classical in
/-- What the loop of the code returns. -/
theorem polyPLoop_eq (p : Pt 2) (proper : Bool) (es : List (Pt 2 × Pt 2)) (hit : Bool) : polyPLoop p proper es hit =
    if ∃ e ∈ es, Separates east p.elem e.2.elem e.1.elem ∧ ∃ x : ℝ, ![x, p.elem 1] ∈ segment ℝ e.2.elem e.1.elem ∧ equal (p.elem 0) x epsilon = true
    then !proper
    else hit != decide (Odd (es.countP fun e => decide (RayCrosses east p.elem e.2.elem e.1.elem))) := by
  induction es generalizing hit with
  | nil => simp [polyPLoop]
  | cons e es ih =>
    obtain ⟨i, j⟩ := e
    rw [polyPLoop]
    by_cases hb : Separates east p.elem j.elem i.elem
    · have hb' := (between_iff j.elem i.elem p.elem).2 hb
      rw [if_neg (by rw [hb']; simp)]
      simp only
      have hx := crossing_at hb
      have hc := east_crosses hb
      generalize i.elem 0 + (j.elem 0 - i.elem 0) * (p.elem 1 - i.elem 1) / (j.elem 1 - i.elem 1) = x at hx hc ⊢
      by_cases he : equal (p.elem 0) x epsilon = true
      · rw [if_pos he, if_pos]
        exact ⟨(i, j), List.mem_cons_self, hb, x, (hx x).2 rfl, he⟩
      · rw [if_neg he]
        have hiff : (∃ e ∈ (i, j) :: es, Separates east p.elem e.2.elem e.1.elem ∧
            ∃ x : ℝ, ![x, p.elem 1] ∈ segment ℝ e.2.elem e.1.elem ∧ equal (p.elem 0) x epsilon = true) ↔
            ∃ e ∈ es, Separates east p.elem e.2.elem e.1.elem ∧
            ∃ x : ℝ, ![x, p.elem 1] ∈ segment ℝ e.2.elem e.1.elem ∧ equal (p.elem 0) x epsilon = true := by
          constructor
          · rintro ⟨e, hm, h1, y, h2, h3⟩
            rcases List.mem_cons.1 hm with rfl | hm
            · rw [(hx y).1 h2] at h3; exact absurd h3 he
            · exact ⟨e, hm, h1, y, h2, h3⟩
          · rintro ⟨e, hm, h⟩; exact ⟨e, List.mem_cons_of_mem _ hm, h⟩
        rw [List.countP_cons]
        by_cases hlt : p.elem 0 < x
        · rw [if_pos hlt, ih]
          simp only [hiff, hc.2 hlt, decide_true, if_true]
          congr 1
          simp only [Nat.odd_add_one, decide_not]
          cases hit <;> simp
        · rw [if_neg hlt, ih]
          have : ¬ RayCrosses east p.elem j.elem i.elem := fun h => hlt (hc.1 h)
          simp only [hiff, this, decide_false, Bool.false_eq_true, if_false, add_zero]
    · have hb' : between (i.elem 1) (j.elem 1) (p.elem 1) = false := by
        rw [← Bool.not_eq_true, between_iff]; exact hb
      rw [if_pos hb', ih]
      have hiff : (∃ e ∈ (i, j) :: es, Separates east p.elem e.2.elem e.1.elem ∧
            ∃ x : ℝ, ![x, p.elem 1] ∈ segment ℝ e.2.elem e.1.elem ∧ equal (p.elem 0) x epsilon = true) ↔
            ∃ e ∈ es, Separates east p.elem e.2.elem e.1.elem ∧
            ∃ x : ℝ, ![x, p.elem 1] ∈ segment ℝ e.2.elem e.1.elem ∧ equal (p.elem 0) x epsilon = true := by
        constructor
        · rintro ⟨e, hm, h1, h⟩
          rcases List.mem_cons.1 hm with rfl | hm
          · exact absurd h1 hb
          · exact ⟨e, hm, h1, h⟩
        · rintro ⟨e, hm, h⟩; exact ⟨e, List.mem_cons_of_mem _ hm, h⟩
      have : ¬ RayCrosses east p.elem j.elem i.elem := fun h => hb h.1
      simp only [hiff, List.countP_cons, this, decide_false, Bool.false_eq_true, if_false, add_zero]

/-- C74, for every polygon and every point, in terms of the ray to the right: a point within tolerance of a side gives the answer `!proper`,
otherwise the answer tells whether the ray crosses an odd number of sides. -/
theorem C74_exact (ps : Corners 2) (p : Pt 2) (proper : Bool) :
    (NearSide ps p.elem → interPolyP ps p proper = !proper) ∧
    (¬ NearSide ps p.elem → (interPolyP ps p proper = true ↔ Odd (rayCrossings east ps p.elem))) := by
  classical
  have hp := edges_sides ps
  have h1 : NearSide ps p.elem ↔ ∃ e ∈ edges ps, Separates east p.elem e.2.elem e.1.elem ∧
      ∃ x : ℝ, ![x, p.elem 1] ∈ segment ℝ e.2.elem e.1.elem ∧ equal (p.elem 0) x epsilon = true := by
    unfold NearSide
    constructor
    · rintro ⟨e, he, h⟩
      obtain ⟨e', he', rfl⟩ := List.mem_map.1 (hp.mem_iff.2 he)
      exact ⟨e', he', h⟩
    · rintro ⟨e, he, h⟩
      exact ⟨_, hp.mem_iff.1 (List.mem_map.2 ⟨e, he, rfl⟩), h⟩
  have h2 : rayCrossings east ps p.elem = (edges ps).countP fun e => decide (RayCrosses east p.elem e.2.elem e.1.elem) := by
    unfold rayCrossings
    rw [← hp.countP_eq, List.countP_map]
    rfl
  unfold interPolyP
  rw [polyPLoop_eq, h1, h2]
  constructor
  · intro h; rw [if_pos h]
  · intro h; rw [if_neg h]; simp

/-- C74: for a point that is not within tolerance of a side, `Intersect(polygon, p)` is true exactly when a ray from `p`, in any direction,
crosses the boundary an odd number of times. -/
theorem C74_even_odd (ps : Corners 2) (p : Pt 2) (proper : Bool) (hfar : FarFromSides ps p.elem) (d : Fin 2 → ℝ) (hd : d ≠ 0) :
    interPolyP ps p proper = true ↔ Odd (rayCrossings d ps p.elem) := by
  have hb : p.elem ∉ boundary ps := by
    rintro ⟨e, he, hx⟩
    have h2 : ![p.elem 0, p.elem 1] = p.elem := by apply ext2 <;> rfl
    have := hfar e he (p.elem 0) (by rw [h2]; exact hx)
    rw [equal_refl] at this
    exact absurd this (by simp)
  have hn : ¬ NearSide ps p.elem := by
    rintro ⟨e, he, _, x, hx, h⟩
    rw [hfar e he x hx] at h
    exact absurd h (by simp)
  rw [(C74_exact ps p proper).2 hn, dir_odd hd east_ne hb]

theorem sides_rotate (ps : List (Pt 2)) (k : Nat) : (sides (ps.rotate k)).Perm (sides ps) := by
  unfold sides
  apply List.Perm.map
  have : (ps.rotate k).rotate 1 = (ps.rotate 1).rotate k := by rw [List.rotate_rotate, List.rotate_rotate, add_comm]
  rw [this]
  have := List.zipWith_rotate_distrib Prod.mk ps (ps.rotate 1) k (by simp)
  unfold List.zip
  rw [← this]
  exact List.rotate_perm _ _

theorem sides_reverse (ps : List (Pt 2)) : (sides ps.reverse).Perm ((sides ps).map Prod.swap) := by
  have key : ((ps.zip (ps.rotate 1)).map Prod.swap).reverse.rotate 1 = ps.reverse.zip (ps.reverse.rotate 1) := by
    rw [List.zip_swap]
    unfold List.zip
    rw [List.reverse_zipWith (by simp), List.zipWith_rotate_distrib _ _ _ _ (by simp)]
    congr 1
    cases ps with
    | nil => rfl
    | cons a l => simp
  unfold sides
  rw [← key]
  have : ((ps.zip (ps.rotate 1)).map fun e => (e.1.elem, e.2.elem)).map Prod.swap =
      ((ps.zip (ps.rotate 1)).map Prod.swap).map fun e => (e.1.elem, e.2.elem) := by
    rw [List.map_map, List.map_map]; rfl
  rw [this]
  exact ((List.rotate_perm _ _).trans (List.reverse_perm _)).map _

theorem near_perm {ps qs : List (Pt 2)} (h : (sides ps).Perm (sides qs)) (p : V2) : NearSide ps p ↔ NearSide qs p := by
  unfold NearSide
  simp only [h.mem_iff]

/-- C74: numbering the corners from another one changes no answer, for any point, on the boundary or not. -/
theorem C74_renumber (ps : Corners 2) (k : Nat) (p : Pt 2) (proper : Bool) : interPolyP (ps.rotate k) p proper = interPolyP ps p proper := by
  have hn := near_perm (sides_rotate ps k) p.elem
  have hc : rayCrossings east (ps.rotate k) p.elem = rayCrossings east ps p.elem := (sides_rotate ps k).countP_eq _
  by_cases h : NearSide ps p.elem
  · rw [(C74_exact _ _ _).1 h, (C74_exact _ _ _).1 (hn.2 h)]
  · rw [Bool.eq_iff_iff, (C74_exact _ _ _).2 h, (C74_exact _ _ _).2 (fun h' => h (hn.1 h')), hc]

/-- C74: listing the corners in the opposite order changes no answer, for any point, on the boundary or not. -/
theorem C74_reverse (ps : Corners 2) (p : Pt 2) (proper : Bool) : interPolyP ps.reverse p proper = interPolyP ps p proper := by
  classical
  have hp := sides_reverse ps
  have hn : NearSide ps.reverse p.elem ↔ NearSide ps p.elem := by
    unfold NearSide
    simp only [hp.mem_iff, List.mem_map]
    constructor
    · rintro ⟨e, ⟨e', he, rfl⟩, h1, x, h2, h3⟩
      refine ⟨e', he, Ne.symm h1, x, ?_, h3⟩
      rw [seg_comm]; exact h2
    · rintro ⟨e, he, h1, x, h2, h3⟩
      refine ⟨e.swap, ⟨e, he, rfl⟩, Ne.symm h1, x, ?_, h3⟩
      rw [seg_comm] at h2; exact h2
  have hc : rayCrossings east ps.reverse p.elem = rayCrossings east ps p.elem := by
    unfold rayCrossings
    rw [hp.countP_eq, List.countP_map]
    congr 1
    funext e
    simp only [Function.comp, Prod.fst_swap, Prod.snd_swap]
    rw [decide_eq_decide]
    exact rayCrosses_symm
  by_cases h : NearSide ps p.elem
  · rw [(C74_exact _ _ _).1 h, (C74_exact _ _ _).1 (hn.2 h)]
  · rw [Bool.eq_iff_iff, (C74_exact _ _ _).2 h, (C74_exact _ _ _).2 (fun h' => h (hn.1 h')), hc]

theorem Spec.FarFromSides.off {ps : List (Pt 2)} {p : V2} (h : FarFromSides ps p) : p ∉ boundary ps := by
  rintro ⟨e, he, hx⟩
  have h2 : ![p 0, p 1] = p := by apply ext2 <;> rfl
  have := h e he (p 0) (by rw [h2]; exact hx)
  rw [equal_refl] at this
  exact absurd this (by simp)

/-- C74: on the way from one point to another, the answer changes with every side that is crossed. -/
theorem C74_walk (ps : Corners 2) (p q : Pt 2) (hpq : q.elem ≠ p.elem) (hp : FarFromSides ps p.elem) (hq : FarFromSides ps q.elem) (proper : Bool) :
    interPolyP ps p proper = interPolyP ps q proper ↔ Even (segCrossings p.elem q.elem ps) := by
  rw [Bool.eq_iff_iff, C74_even_odd ps p proper hp east east_ne, C74_even_odd ps q proper hq east east_ne, walk_odd east_ne hpq hp.off hq.off]

/-- C74: the answer is the same for all points of a connected region that the boundary does not enter. -/
theorem C74_region (ps : Corners 2) (U : Set (Fin 2 → ℝ)) (hU : IsPreconnected U) (hb : Disjoint U (boundary ps))
    (p q : Pt 2) (hp : p.elem ∈ U) (hq : q.elem ∈ U) (hp' : FarFromSides ps p.elem) (hq' : FarFromSides ps q.elem) (proper : Bool) :
    interPolyP ps p proper = interPolyP ps q proper := by
  rw [Bool.eq_iff_iff, C74_even_odd ps p proper hp' east east_ne, C74_even_odd ps q proper hq' east east_ne]
  exact region_odd east_ne hU hb hp hq

/-- C74: no point outside the convex hull of the corners is in the polygon. -/
theorem C74_outside (ps : Corners 2) (p : Pt 2) (proper : Bool) (hp : p.elem ∉ convexHull ℝ (cornerSet ps)) (hf : proper = true ∨ FarFromSides ps p.elem) :
    interPolyP ps p proper = false := by
  have hset : cornerSet ps = {x | x ∈ ps.map Pt.elem} := by
    ext x
    simp only [cornerSet, Corners.getCorner, Set.mem_setOf_eq, List.mem_map]
    constructor
    · rintro ⟨i, c, hc, rfl⟩
      exact ⟨c, List.mem_of_getElem? hc, rfl⟩
    · rintro ⟨c, hc, rfl⟩
      obtain ⟨i, hi⟩ := List.mem_iff_getElem?.1 hc
      exact ⟨i, c, hi, rfl⟩
  have hfin : (cornerSet ps).Finite := by rw [hset]; exact List.finite_toSet _
  have hcl : IsClosed (convexHull ℝ (cornerSet ps)) := hfin.isClosed_convexHull ℝ
  obtain ⟨f, u, hu1, hu2⟩ := geometric_hahn_banach_closed_point (convex_convexHull ℝ (cornerSet ps)) hcl hp
  have hodd : ¬ Odd (rayCrossings east ps p.elem) := by
    have hf : ∀ x : V2, f x = ![f (Pi.single 0 1), f (Pi.single 1 1)] ⬝ᵥ x := by
      intro x
      have hx : x = x 0 • (Pi.single 0 1 : V2) + x 1 • (Pi.single 1 1 : V2) := by apply ext2 <;> simp
      conv_lhs => rw [hx]
      rw [map_add, map_smul, map_smul]
      simp [dotProduct, Fin.sum_univ_two]
      ring
    apply outside_half (u := ![f (Pi.single 0 1), f (Pi.single 1 1)]) east_ne
    intro c hc
    rw [← hf, ← hf]
    refine lt_trans (hu1 _ (subset_convexHull ℝ _ ?_)) hu2
    rw [hset]
    exact List.mem_map.2 ⟨c, hc, rfl⟩
  by_cases hn : NearSide ps p.elem
  · rcases hf with rfl | hf
    · exact (C74_exact _ _ _).1 hn
    · obtain ⟨e, he, _, x, hx, h⟩ := hn
      rw [hf e he x hx] at h
      exact absurd h (by simp)
  · rw [← Bool.not_eq_true, (C74_exact _ _ _).2 hn]
    exact hodd

/-! ### Triangles -/

/-- For three signs that are not all equal, exactly one step goes up. -/
theorem one_up (x y z : ℝ) (h1 : ¬ (0 < x ∧ 0 < y ∧ 0 < z)) (h2 : ¬ (x ≤ 0 ∧ y ≤ 0 ∧ z ≤ 0)) :
    ((if x ≤ 0 ∧ 0 < y then 1 else 0) + (if y ≤ 0 ∧ 0 < z then 1 else 0) + (if z ≤ 0 ∧ 0 < x then 1 else 0) : ℕ) = 1 := by
  rcases lt_or_ge 0 x with hx | hx <;> rcases lt_or_ge 0 y with hy | hy <;> rcases lt_or_ge 0 z with hz | hz
  · exact absurd ⟨hx, hy, hz⟩ h1
  · simp [hx, hy, hz, not_lt.2 hz]
  · simp [hx, hy, hz, not_le.2 hx, not_le.2 hz, not_lt.2 hy]
  · simp [hx, hy, hz, not_le.2 hx, not_lt.2 hy, not_lt.2 hz]
  · simp [hx, hy, hz, not_lt.2 hx, not_le.2 hy, not_le.2 hz]
  · simp [hx, hy, hz, not_lt.2 hx, not_le.2 hy, not_lt.2 hz]
  · simp [hx, hy, hz, not_lt.2 hx, not_lt.2 hy, not_le.2 hz]
  · exact absurd ⟨hx, hy, hz⟩ h2

theorem triangle_odd {a b c p : V2} (h1 : 0 < cr (a - p) (b - p)) (h2 : 0 < cr (b - p) (c - p)) (h3 : 0 < cr (c - p) (a - p)) :
    ∀ l : List (Pt 2), l.map Pt.elem = [a, b, c] → Odd (rayCrossings east l p) := by
  classical
  intro l hl
  have e : ∀ {u v : V2}, 0 < cr (u - p) (v - p) → (RayCrosses east p u v ↔ cr east (u - p) ≤ 0 ∧ 0 < cr east (v - p)) := by
    intro u v h
    rw [rayCrosses_iff east_ne]
    simp [h, not_lt.2 h.le]
  unfold rayCrossings
  rw [sides_eq, hl]
  simp only [List.rotate_cons_succ, List.rotate_zero, List.cons_append, List.nil_append, List.zip_cons_cons, List.zip_nil_right, List.countP_cons,
    List.countP_nil, e h1, e h2, e h3, decide_eq_true_eq, zero_add]
  have hid : cr (b - p) (c - p) * cr east (a - p) + cr (c - p) (a - p) * cr east (b - p) + cr (a - p) (b - p) * cr east (c - p) = 0 := by
    unfold cr; ring
  have hpl : ∀ u v : V2, cr east u = 0 → cr east v = 0 → cr u v = 0 := by
    intro u v hu hv
    simp [cr] at hu hv ⊢
    rw [hu, hv]; ring
  have := one_up (cr east (a - p)) (cr east (b - p)) (cr east (c - p))
    (by rintro ⟨x, y, z⟩; nlinarith [mul_pos h2 x, mul_pos h3 y, mul_pos h1 z])
    (by
      rintro ⟨x, y, z⟩
      have x' : cr east (a - p) = 0 := by
        by_contra hne
        have := lt_of_le_of_ne x hne
        nlinarith [mul_neg_of_pos_of_neg h2 this, mul_nonneg h3.le (neg_nonneg.2 y), mul_nonneg h1.le (neg_nonneg.2 z)]
      have y' : cr east (b - p) = 0 := by
        by_contra hne
        have := lt_of_le_of_ne y hne
        nlinarith [mul_neg_of_pos_of_neg h3 this, mul_nonneg h2.le (neg_nonneg.2 x), mul_nonneg h1.le (neg_nonneg.2 z)]
      exact h1.ne' (hpl _ _ x' y'))
  refine ⟨0, ?_⟩
  omega

/-- C74: a point strictly inside a triangle (strictly to the left of all three sides, when they go round to the left) is in it. -/
theorem C74_triangle (a b c p : Pt 2) (h1 : 0 < cr (a.elem - p.elem) (b.elem - p.elem)) (h2 : 0 < cr (b.elem - p.elem) (c.elem - p.elem))
    (h3 : 0 < cr (c.elem - p.elem) (a.elem - p.elem)) (hf : FarFromSides [a, b, c] p.elem) (proper : Bool) :
    interPolyP [a, b, c] p proper = true := by
  rw [C74_even_odd _ _ _ hf east east_ne]
  exact triangle_odd h1 h2 h3 _ rfl

/-! ### Example: the unit square -/

noncomputable def unitSquare : Corners 2 := [⟨![0, 0], true⟩, ⟨![1, 0], true⟩, ⟨![1, 1], true⟩, ⟨![0, 1], true⟩]

theorem unitSquare_sides : sides unitSquare = [(![0, 0], ![1, 0]), (![1, 0], ![1, 1]), (![1, 1], ![0, 1]), (![0, 1], ![0, 0])] := by
  simp [sides, unitSquare]

theorem seg_coord {a b x : V2} (h : x ∈ segment ℝ a b) : ∃ s : ℝ, 0 ≤ s ∧ s ≤ 1 ∧ x 0 = (1 - s) * a 0 + s * b 0 ∧ x 1 = (1 - s) * a 1 + s * b 1 := by
  obtain ⟨s, h0, h1, rfl⟩ := mem_seg.1 h
  exact ⟨s, h0, h1, by simp, by simp⟩

theorem equal_half_false {x : ℝ} (h : x = 0 ∨ x = 1) : equal (1 / 2) x epsilon = false := by
  have he := epsilon_lt
  norm_num at he
  unfold equal
  rw [decide_eq_false_iff_not, not_le]
  rcases h with rfl | rfl
  · rw [scaleEpsilon_zero (Or.inr rfl)]; norm_num; linarith
  · have := scaleEpsilon_le (x := 1 / 2) (y := 1) epsilon_pos.le (by norm_num) (by norm_num)
    have h2 : |(1 / 2 : ℝ) - 1| = 1 / 2 := by norm_num [abs_of_neg]
    rw [h2]
    have h3 : min |(1 / 2 : ℝ)| |(1 : ℝ)| = 1 / 2 := by norm_num [abs_of_pos]
    rw [h3] at this
    linarith

theorem unitSquare_far : FarFromSides unitSquare ![1 / 2, 1 / 2] := by
  intro e he x hx
  rw [unitSquare_sides] at he
  obtain ⟨s, _, _, h0, h1⟩ := seg_coord hx
  apply equal_half_false
  simp only [List.mem_cons, List.not_mem_nil, or_false] at he
  simp at h0 h1
  rcases he with rfl | rfl | rfl | rfl <;> simp at h0 h1 <;> first | (left; linarith) | (right; linarith) | (exfalso; linarith)

theorem square_eval (y : ℝ) (proper : Bool) : interPolyP unitSquare ⟨![1 / 2, y], true⟩ proper = decide (0 ≤ y ∧ y < 1) := by
  have h0 := equal_half_false (x := 0) (Or.inl rfl)
  have h1 := equal_half_false (x := 1) (Or.inr rfl)
  norm_num at h0 h1
  simp [interPolyP, edges, unitSquare, edgesFrom, polyPLoop, between, h0, h1]
  by_cases hy0 : 0 ≤ y <;> by_cases hy1 : y < 1
  · have a1 : ¬ (1 ≤ y ∧ y < 0) := by rintro ⟨_, _⟩; linarith
    have a2 : ¬ (y < 0) := by linarith
    have a3 : ¬ (1 ≤ y) := by linarith
    simp [hy0, hy1, a2, a3]
    norm_num
    rw [equal_half_false (x := 0) (Or.inl rfl), equal_half_false (x := 1) (Or.inr rfl)]
    simp
  · have a1 : ¬ (y < 0) := by linarith
    simp [hy0, hy1, a1]
  · have a3 : ¬ (1 ≤ y) := by linarith
    simp [hy0, hy1, a3]
  · linarith

/-- The middle of the square is far from the sides, the answer is yes, and a point beside the square is far from the sides and outside. -/
example : FarFromSides unitSquare ![1 / 2, 1 / 2] ∧ (∀ proper, interPolyP unitSquare ⟨![1 / 2, 1 / 2], true⟩ proper = true) ∧
    (∀ proper, interPolyP unitSquare ⟨![1 / 2, 2], true⟩ proper = false) :=
  ⟨unitSquare_far, fun proper => by rw [square_eval]; norm_num, fun proper => by rw [square_eval]; norm_num⟩

/-- A triangle and a point in it. -/
example : 0 < cr (![-1, -1] - ![0, 0]) (![1, -1] - ![0, 0]) ∧ 0 < cr (![1, -1] - ![0, 0]) (![0, 1] - ![0, 0]) ∧
    0 < cr (![0, 1] - ![0, 0]) (![-1, -1] - ![0, 0]) := by
  simp [cr]

/-! ### Points on the boundary -/

/-- C93, the part that holds: a point within tolerance of a side that is not horizontal, and below its upper end, is hit exactly when `proper` is
false. Missing: points on horizontal sides and at upper ends, where it is false (`C93_false`). -/
theorem C93_slanted_partial (ps : Corners 2) (p : Pt 2) (proper : Bool) (e : (Fin 2 → ℝ) × (Fin 2 → ℝ)) (he : e ∈ sides ps) (hp : p.elem ∈ segment ℝ e.1 e.2)
    (h : min (e.1 1) (e.2 1) ≤ p.elem 1 ∧ p.elem 1 < max (e.1 1) (e.2 1)) : interPolyP ps p proper = !proper := by
  apply (C74_exact ps p proper).1
  have h2 : ![p.elem 0, p.elem 1] = p.elem := by apply ext2 <;> rfl
  refine ⟨e, he, ?_, p.elem 0, by rw [h2]; exact hp, equal_refl _⟩
  rw [← between_iff]
  unfold between
  rw [decide_eq_true_iff]
  rcases le_total (e.1 1) (e.2 1) with h3 | h3
  · rw [min_eq_left h3, max_eq_right h3] at h; exact Or.inr h
  · rw [min_eq_right h3, max_eq_left h3] at h; exact Or.inl h

/-- The left side of the square, at half height. -/
example (proper : Bool) : interPolyP unitSquare ⟨![0, 1 / 2], true⟩ proper = !proper := by
  apply C93_slanted_partial unitSquare _ proper (![0, 1], ![0, 0])
  · rw [unitSquare_sides]; simp
  · refine mem_seg.2 ⟨1 / 2, by norm_num, by norm_num, ?_⟩
    apply ext2 <;> simp; norm_num
  · simp; norm_num

/-- C93 is false: the middle of the lower side of a square counts as properly inside, the middle of the upper side as outside even without
`proper`. -/
theorem C93_false : ∃ (ps : Corners 2) (p q : Pt 2), p.elem ∈ boundary ps ∧ q.elem ∈ boundary ps ∧
    interPolyP ps p true = true ∧ interPolyP ps q false = false := by
  refine ⟨unitSquare, ⟨![1 / 2, 0], true⟩, ⟨![1 / 2, 1], true⟩, ⟨(![0, 0], ![1, 0]), ?_, ?_⟩, ⟨(![1, 1], ![0, 1]), ?_, ?_⟩, ?_, ?_⟩
  · rw [unitSquare_sides]; simp
  · refine mem_seg.2 ⟨1 / 2, by norm_num, by norm_num, ?_⟩
    apply ext2 <;> simp
  · rw [unitSquare_sides]; simp
  · refine mem_seg.2 ⟨1 / 2, by norm_num, by norm_num, ?_⟩
    apply ext2 <;> simp
    norm_num
  · rw [square_eval]; norm_num
  · rw [square_eval]; norm_num

end WFMath
