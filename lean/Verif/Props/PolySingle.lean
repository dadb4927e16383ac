/-
Properties C110 and C111 for polygons all of whose corners are the same point.
-/
import Verif.Props.PolyLine

namespace WFMath
open Spec Matrix
variable {n : Nat}

/-- All corners of the polygon are the same point: there is an origin and no axis, and the plane coordinates of the corners are 0. -/
structure _root_.WFMath.Spec.Single (q : Poly n) : Prop where
  origin : q.orient.origin.valid = true
  invalid0 : q.orient.ax0.valid = false
  flat : ∀ c ∈ q.poly, c.elem = 0
  some : q.poly ≠ []

theorem single_edges (p : Pt 2) (proper : Bool) : ∀ (es : List (Pt 2 × Pt 2)) (hit : Bool), (∀ e ∈ es, e.1.elem 1 = e.2.elem 1) →
    polyPLoop p proper es hit = hit
  | [], _, _ => rfl
  | (i, j) :: es, hit, h => by
    have hb : between (i.elem 1) (j.elem 1) (p.elem 1) = false := by
      have := h (i, j) (List.mem_cons_self ..)
      simp only at this
      unfold between
      rw [this, decide_eq_false_iff_not]
      rintro (⟨a, b⟩ | ⟨a, b⟩) <;> linarith
    unfold polyPLoop
    rw [if_pos hb]
    exact single_edges p proper es hit fun e he => h e (List.mem_cons_of_mem _ he)

theorem edgesFrom_mem : ∀ (ps : Corners 2) (j : Pt 2) (e : Pt 2 × Pt 2), e ∈ edgesFrom j ps → e.1 ∈ ps ∧ (e.2 = j ∨ e.2 ∈ ps)
  | [], _, _, h => by simp [edgesFrom] at h
  | i :: is, j, e, h => by
    simp only [edgesFrom, List.mem_cons] at h
    rcases h with rfl | h
    · simp
    · obtain ⟨h1, h2⟩ := edgesFrom_mem is i e h
      refine ⟨List.mem_cons_of_mem _ h1, Or.inr ?_⟩
      rcases h2 with h2 | h2
      · rw [h2]; exact List.mem_cons_self ..
      · exact List.mem_cons_of_mem _ h2

/-- The plane test finds no point in a polygon whose corners are at one height. -/
theorem flat_misses {ps : Corners 2} {y : ℝ} (h : ∀ c ∈ ps, c.elem 1 = y) (p : Pt 2) (proper : Bool) : interPolyP ps p proper = false := by
  refine single_edges p proper _ _ fun e he => ?_
  obtain ⟨h1, h2⟩ := edgesFrom_mem _ _ _ he
  have hne : ps ≠ [] := List.ne_nil_of_mem h1
  have h3 : e.2 ∈ ps := by
    rcases h2 with h2 | h2
    · rw [h2, List.getLastD_eq_getLast?, List.getLast?_eq_some_getLast hne]; exact List.getLast_mem hne
    · exact h2
  rw [h _ h1, h _ h3]

theorem checkContained_coords {o : Orient n} {pd : Pt n} {c : Bool} {p : Pt 2} (h : o.checkContained pd = some (c, p)) : p.valid = false := by
  unfold Orient.checkContained Orient.offset at h
  split_ifs at h with ho
  · simp at h
  · simp only [Option.map_some, Option.some.injEq, Prod.mk.injEq] at h
    rw [← h.2]

/-- When one of the polygons has no axis, the planes meet in a point at most, and the point handed on is never marked valid. -/
theorem planesMeet_single {p q : Poly n} (h : Single p ∨ Single q) {dim : ℤ} {d : PlanesData} (hm : planesMeet p.orient q.orient = some (dim, d)) :
    dim = -1 ∨ (dim = 0 ∧ d.p2.valid = false) := by
  unfold planesMeet at hm
  simp only at hm
  by_cases g1 : p.orient.origin.valid = false ∨ q.orient.origin.valid = false
  · rw [if_pos g1] at hm
    simp only [Option.some.injEq, Prod.mk.injEq] at hm; exact Or.inl hm.1.symm
  rw [if_neg g1] at hm
  by_cases g2 : p.orient.ax0.valid = false
  · rw [if_pos g2, Option.map_eq_some_iff] at hm
    obtain ⟨⟨c, p2⟩, hc, e⟩ := hm
    simp only at e
    split_ifs at e
    · exact Or.inl (congrArg Prod.fst e).symm
    · refine Or.inr ⟨(congrArg Prod.fst e).symm, ?_⟩
      have := congrArg Prod.snd e
      simp only at this
      rw [← this]; exact checkContained_coords hc
  rw [if_neg g2] at hm
  by_cases g3 : q.orient.ax0.valid = false
  · rw [if_pos g3, Option.map_eq_some_iff] at hm
    obtain ⟨⟨c, p2⟩, hc, e⟩ := hm
    simp only at e
    split_ifs at e
    · exact Or.inl (congrArg Prod.fst e).symm
    · refine Or.inr ⟨(congrArg Prod.fst e).symm, ?_⟩
      have := congrArg Prod.snd e
      simp only at this
      rw [← this]; rfl
  exact absurd (h.elim (fun h => Or.inl h.invalid0) fun h => Or.inr h.invalid0) (not_or.2 ⟨g2, g3⟩)

/-- C110 fails for polygons all of whose corners are one point: such a polygon meets no polygon at all, in either position, although its point may
well lie in the other one (`C110_single_false`). -/
theorem C110_single (p q : Poly n) (h : Single p ∨ Single q) (proper : Bool) : interPolyPolyN p q proper ≠ some true := by
  intro hh
  unfold interPolyPolyN at hh
  rw [Option.bind_eq_some_iff] at hh
  obtain ⟨⟨dim, d⟩, hm, hr⟩ := hh
  have key : ∀ s : Poly n, Single s → ∀ x, interPolyP s.poly x proper = false := fun s hs x =>
    flat_misses (y := 0) (fun c hc => by rw [hs.flat c hc]; rfl) x proper
  simp only [polyPolyIntersect] at hr
  rcases planesMeet_single h hm with rfl | ⟨rfl, -⟩
  · simp at hr
  · rcases h with h | h
    · simp [key p h] at hr
    · simp [key q h] at hr

/-- C111 fails for polygons all of whose corners are one point: none of them is contained in any polygon that has corners, not even in itself, and
none of them contains a polygon that has corners (`C111_single_false`). -/
theorem C111_single (p q : Poly n) (h : Single p ∨ Single q) (hq : q.poly ≠ []) (proper : Bool) : containsPolyPolyN p q proper ≠ some true := by
  intro hh
  unfold containsPolyPolyN at hh
  split_ifs at hh with e1 e2
  · simp at hh; exact hq hh.2
  · exact hq (List.length_eq_zero_iff.1 e2)
  rw [Option.bind_eq_some_iff] at hh
  obtain ⟨⟨dim, d⟩, hm, hr⟩ := hh
  simp only [polyPolyContains] at hr
  rcases planesMeet_single h hm with rfl | ⟨rfl, hv⟩
  · simp at hr
  · have : containsPPoly d.p2 q.poly false = false := by
      obtain ⟨c, cs, hc⟩ := List.exists_cons_of_ne_nil hq
      unfold containsPPoly
      rw [if_neg (by simp), hc, List.all_cons]
      have : d.p2.isEqualTo c epsilon = false := by unfold Pt.isEqualTo; simp [hv]
      rw [this, Bool.false_and]
    simp [this] at hr

/-- The polygon with the one corner (1/4, 1/4, 0). -/
noncomputable def onePoint : Poly 3 := ⟨⟨⟨![1 / 4, 1 / 4, 0], true⟩, Vec.default, Vec.default⟩, [⟨![0, 0], true⟩]⟩
theorem onePoint_single : Single onePoint := ⟨rfl, rfl, by intro c hc; simp [onePoint] at hc; rw [hc]; funext i; fin_cases i <;> rfl, by simp [onePoint]⟩
/-- It is what one call of `addCorner` on an empty polygon makes. -/
theorem onePoint_built : Poly.empty.addCorner 0 ⟨![1 / 4, 1 / 4, 0], true⟩ epsilon = some (true, onePoint) := rfl

theorem flat_meets : planesMeet flatSquare.orient onePoint.orient = some (0, ⟨⟨![1 / 4, 1 / 4], false⟩, ⟨![0, 0], false⟩, Vec.default, Vec.default, Vec.default, false, false⟩) := by
  have hc := flat_contained (x := 1 / 4) (y := 1 / 4) (by norm_num) (by norm_num) true
  unfold planesMeet
  rw [if_neg (by simp [flatSquare, threeCorners, onePoint]), if_neg (by simp [flatSquare, threeCorners]),
    if_pos (show onePoint.orient.ax0.valid = false from rfl)]
  rw [show onePoint.orient.origin = ⟨![1 / 4, 1 / 4, 0], true⟩ from rfl, hc]
  rfl

/-- C110 and C111 are false for the unit square in space and the polygon whose only corner is the point (1/4, 1/4, 0) inside it: the square meets the
point (and contains it) as a point, but not as a polygon. -/
theorem C110_single_false : (∃ k, Edited true flatSquare k) ∧ Poly.empty.addCorner 0 ⟨![1 / 4, 1 / 4, 0], true⟩ epsilon = some (true, onePoint) ∧
    (∀ proper, interPolyPn flatSquare ⟨![1 / 4, 1 / 4, 0], true⟩ proper = some true) ∧ ∀ proper, interPolyPolyN flatSquare onePoint proper = some false := by
  refine ⟨flatSquare_edited, onePoint_built, fun proper => ?_, fun proper => ?_⟩
  · have hc := flat_contained (x := 1 / 4) (y := 1 / 4) (by norm_num) (by norm_num) true
    unfold interPolyPn
    rw [if_neg (by simp [flatSquare, unitSquare]), hc, Option.map_some]
    show some (true && interPolyP unitSquare _ proper) = some true
    have h1 : equal (1 / 4) 1 epsilon = false := equal_apart (by norm_num) (by norm_num)
    have h2 : equal (1 / 4) 0 epsilon = false := equal_apart (by norm_num) (by norm_num)
    unfold interPolyP
    simp [edges, edgesFrom, unitSquare, polyPLoop, between]
    norm_num
    rw [h1, h2]; simp
  · unfold interPolyPolyN
    rw [flat_meets, Option.bind_some]
    simp [polyPolyIntersect, flat_misses (y := 0) (fun c hc => by rw [onePoint_single.flat c hc]; rfl)]

/-- See `C110_single_false`. -/
theorem C111_single_false : (∃ k, Edited true flatSquare k) ∧ Poly.empty.addCorner 0 ⟨![1 / 4, 1 / 4, 0], true⟩ epsilon = some (true, onePoint) ∧
    polyCornerSet onePoint = {![1 / 4, 1 / 4, 0]} ∧
    (∀ proper, interPolyPn flatSquare ⟨![1 / 4, 1 / 4, 0], true⟩ proper = some true) ∧ ∀ proper, containsPolyPolyN flatSquare onePoint proper = some false := by
  refine ⟨flatSquare_edited, onePoint_built, ?_, C110_single_false.2.2.1, fun proper => ?_⟩
  · ext x
    rw [mem_polyCornerSet, Set.mem_singleton_iff]
    constructor
    · rintro ⟨c, hc, y, hy, rfl⟩
      have := onePoint_single.flat c hc
      have hy' := hy
      rw [convert_eq rfl (Or.inr (by rw [this]; rfl)) (Or.inr (by rw [this]; rfl)), Option.some.injEq] at hy'
      rw [← hy']
      simp [this, onePoint, Orient.at]
    · rintro rfl
      refine ⟨⟨![0, 0], true⟩, by simp [onePoint], _, convert_eq rfl (Or.inr rfl) (Or.inr rfl), ?_⟩
      simp [onePoint, Orient.at]
  · unfold containsPolyPolyN
    rw [if_neg (by simp [flatSquare, unitSquare]), if_neg (by simp [onePoint]), flat_meets, Option.bind_some]
    simp [polyPolyContains, containsPPoly, onePoint, Pt.isEqualTo]

end WFMath
