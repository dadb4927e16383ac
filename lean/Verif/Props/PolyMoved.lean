/- The even-odd rule is invariant under invertible affine maps; C74 for moved polygons; C98 and C99 for rotated boxes. -/
import Verif.Props.PolyBox
import Verif.Props.RotBox

namespace WFMath
open Spec Matrix

/-! ### Affine maps -/

theorem cr_mulVec (M : Matrix (Fin 2) (Fin 2) ℝ) (u v : V2) : cr (M *ᵥ u) (M *ᵥ v) = M.det * cr u v := by
  rw [Matrix.det_fin_two]
  simp only [cr, mulVec, dotProduct, Fin.sum_univ_two]
  ring

theorem edges_first {ps : Corners 2} {c : Pt 2} (h : c ∈ ps) : ∃ e ∈ edges ps, e.1 = c := by
  have key : ∀ (l : Corners 2) (j : Pt 2), c ∈ l → ∃ e ∈ edgesFrom j l, e.1 = c := by
    intro l
    induction l with
    | nil => intro j h; simp at h
    | cons i l ih =>
      intro j h
      rcases List.mem_cons.1 h with rfl | h
      · exact ⟨_, List.mem_cons_self, rfl⟩
      · obtain ⟨e, h1, h2⟩ := ih i h
        exact ⟨e, List.mem_cons_of_mem _ h1, h2⟩
  exact key ps _ h

theorem corner_boundary {ps : Corners 2} {c : Pt 2} (h : c ∈ ps) : c.elem ∈ boundary ps := by
  obtain ⟨e, he, rfl⟩ := edges_first h
  exact ⟨(e.2.elem, e.1.elem), mem_sides_edges.2 ⟨e, he, rfl, rfl⟩, right_mem_segment ℝ _ _⟩

/-- For a point off the boundary there is a direction such that the line in this direction goes through no corner. -/
theorem clear_direction (ps : Corners 2) {p : V2} (hp : p ∉ boundary ps) : ∃ d : V2, d ≠ 0 ∧ ∀ c ∈ ps, cr d (c.elem - p) ≠ 0 := by
  have hne : ∀ c ∈ ps, c.elem - p ≠ 0 := fun c hc h => hp (sub_eq_zero.1 h ▸ corner_boundary hc)
  obtain ⟨t, ht⟩ := Set.Infinite.exists_notMem_finset (s := (Set.univ : Set ℝ)) Set.infinite_univ
    ((ps.map fun c => (c.elem - p) 1 / (c.elem - p) 0).toFinset)
  refine ⟨![1, t], fun h => by simpa using congrFun h 0, fun c hc h0 => ?_⟩
  have hcn := hne c hc
  have h1 : (c.elem - p) 1 = t * (c.elem - p) 0 := by
    simp only [cr, Matrix.cons_val_zero, Matrix.cons_val_one] at h0
    linarith
  by_cases hz : (c.elem - p) 0 = 0
  · apply hcn
    apply ext2
    · simpa using hz
    · rw [h1, hz]; simp
  · apply ht.2
    rw [List.mem_toFinset, List.mem_map]
    exact ⟨c, hc, by rw [h1]; field_simp⟩

/-- The corners moved by a map of the plane. -/
theorem sides_map {f : Pt 2 → Pt 2} {T : V2 → V2} (hf : ∀ c, (f c).elem = T c.elem) (ps : Corners 2) :
    sides (ps.map f) = (sides ps).map fun e => (T e.1, T e.2) := by
  rw [sides_eq, sides_eq, List.map_map]
  have : ps.map (Pt.elem ∘ f) = (ps.map Pt.elem).map T := by
    rw [List.map_map]; exact List.map_congr_left fun c _ => hf c
  rw [this, ← List.map_rotate, List.zip_map]
  rfl

section
variable {f : Pt 2 → Pt 2} {T : V2 → V2} {M : Matrix (Fin 2) (Fin 2) ℝ}

theorem affine_seg (hM : M.det ≠ 0) (hT : ∀ x y, T x - T y = M *ᵥ (x - y)) {a b x : V2} :
    T x ∈ segment ℝ (T a) (T b) ↔ x ∈ segment ℝ a b := by
  have hTs : ∀ s : ℝ, T ((1 - s) • a + s • b) = (1 - s) • T a + s • T b := by
    intro s
    have h1 : T ((1 - s) • a + s • b) - T a = s • (T b - T a) := by
      rw [hT, hT, ← mulVec_smul]
      congr 1
      module
    rw [sub_eq_iff_eq_add.1 h1]
    module
  have hinj : Function.Injective M.mulVec := Matrix.mulVec_injective_of_isUnit ((Matrix.isUnit_iff_isUnit_det M).2 (isUnit_iff_ne_zero.2 hM))
  constructor
  · intro h
    obtain ⟨s, s0, s1, hs⟩ := mem_seg.1 h
    refine mem_seg.2 ⟨s, s0, s1, ?_⟩
    rw [← hTs] at hs
    have : M *ᵥ (x - ((1 - s) • a + s • b)) = M *ᵥ 0 := by rw [← hT, hs, sub_self, mulVec_zero]
    exact sub_eq_zero.1 (hinj this)
  · intro h
    obtain ⟨s, s0, s1, rfl⟩ := mem_seg.1 h
    exact mem_seg.2 ⟨s, s0, s1, hTs s⟩

theorem affine_boundary (hM : M.det ≠ 0) (hT : ∀ x y, T x - T y = M *ᵥ (x - y)) (hf : ∀ c, (f c).elem = T c.elem) (ps : Corners 2) (x : V2) :
    T x ∈ boundary (ps.map f) ↔ x ∈ boundary ps := by
  unfold boundary
  simp only [sides_map hf, List.mem_map, Set.mem_setOf_eq]
  constructor
  · rintro ⟨_, ⟨e, he, rfl⟩, h⟩
    exact ⟨e, he, (affine_seg hM hT).1 h⟩
  · rintro ⟨e, he, h⟩
    exact ⟨_, ⟨e, he, rfl⟩, (affine_seg hM hT).2 h⟩

/-- The parity of the crossings is invariant under invertible affine maps. -/
theorem affine_odd (hM : M.det ≠ 0) (hT : ∀ x y, T x - T y = M *ᵥ (x - y)) (hf : ∀ c, (f c).elem = T c.elem) (ps : Corners 2) {p : V2}
    (hp : p ∉ boundary ps) : Odd (rayCrossings east (ps.map f) (T p)) ↔ Odd (rayCrossings east ps p) := by
  classical
  obtain ⟨d, hd, hc⟩ := clear_direction ps hp
  have hinj : Function.Injective M.mulVec := Matrix.mulVec_injective_of_isUnit ((Matrix.isUnit_iff_isUnit_det M).2 (isUnit_iff_ne_zero.2 hM))
  have hd' : M *ᵥ d ≠ 0 := fun h => hd (hinj (by rw [h, mulVec_zero]))
  have hp' : T p ∉ boundary (ps.map f) := fun h => hp ((affine_boundary hM hT hf ps p).1 h)
  rw [dir_odd hd' east_ne hp', dir_odd hd east_ne hp]
  have : rayCrossings (M *ᵥ d) (ps.map f) (T p) = rayCrossings d ps p := by
    unfold rayCrossings
    rw [sides_map hf, List.countP_map]
    apply List.countP_congr
    intro e he
    simp only [Function.comp, decide_eq_true_eq]
    obtain ⟨⟨c1, hc1, h1⟩, c2, hc2, h2⟩ := mem_sides he
    have n1 := hc c1 hc1
    have n2 := hc c2 hc2
    rw [← h1] at n1
    rw [← h2] at n2
    rw [rayCrosses_iff hd', rayCrosses_iff hd]
    simp only [hT, cr_mulVec]
    rcases lt_or_gt_of_ne hM with hM | hM
    · constructor
      · rintro (⟨a, b, c⟩ | ⟨a, b, c⟩)
        · right
          exact ⟨le_of_lt (by nlinarith), lt_of_le_of_ne (by nlinarith) (Ne.symm n1), by nlinarith⟩
        · left
          exact ⟨le_of_lt (by nlinarith), lt_of_le_of_ne (by nlinarith) (Ne.symm n2), by nlinarith⟩
      · rintro (⟨a, b, c⟩ | ⟨a, b, c⟩)
        · right
          have a' := lt_of_le_of_ne a n1
          exact ⟨by nlinarith, by nlinarith, by nlinarith⟩
        · left
          have a' := lt_of_le_of_ne a n2
          exact ⟨by nlinarith, by nlinarith, by nlinarith⟩
    · have k1 : ∀ x : ℝ, M.det * x ≤ 0 ↔ x ≤ 0 := fun x => by constructor <;> intro h <;> nlinarith
      have k2 : ∀ x : ℝ, 0 < M.det * x ↔ 0 < x := fun x => by rw [mul_pos_iff_of_pos_left hM]
      have k3 : ∀ x : ℝ, M.det * x < 0 ↔ x < 0 := fun x => by rw [mul_neg_iff]; constructor; · rintro (h | h) <;> [exact h.2; linarith [h.1]]
                                                              · intro h; exact Or.inl ⟨hM, h⟩
      rw [k1, k1, k2, k2, k2, k3]
  rw [this]

theorem affine_inside (hM : M.det ≠ 0) (hT : ∀ x y, T x - T y = M *ᵥ (x - y)) (hf : ∀ c, (f c).elem = T c.elem) (ps : Corners 2) (x : V2) :
    T x ∈ inside (ps.map f) ↔ x ∈ inside ps := by
  show (T x ∉ boundary _ ∧ _) ↔ (x ∉ boundary _ ∧ _)
  rw [affine_boundary hM hT hf]
  exact and_congr_right fun h => affine_odd hM hT hf ps h

theorem affine_filled (hM : M.det ≠ 0) (hT : ∀ x y, T x - T y = M *ᵥ (x - y)) (hf : ∀ c, (f c).elem = T c.elem) (ps : Corners 2) (x : V2) :
    T x ∈ filled (ps.map f) ↔ x ∈ filled ps := by
  show (_ ∨ _) ↔ (_ ∨ _)
  rw [affine_boundary hM hT hf, affine_inside hM hT hf]

/-- C74: the answer for a polygon and a point does not change when both are moved by the same invertible affine map of the plane (a shift, a rotation, a
reflection, a change of scale), as long as the point is not within tolerance of a side before and after. -/
theorem C74_moved (hM : M.det ≠ 0) (hT : ∀ x y, T x - T y = M *ᵥ (x - y)) (hf : ∀ c, (f c).elem = T c.elem) (ps : Corners 2) (p : Pt 2)
    (h1 : FarFromSides ps p.elem) (h2 : FarFromSides (ps.map f) (f p).elem) (proper : Bool) :
    interPolyP (ps.map f) (f p) proper = interPolyP ps p proper := by
  have hp : p.elem ∉ boundary ps := by
    rintro ⟨e, he, hx⟩
    have h3 : ![p.elem 0, p.elem 1] = p.elem := by apply ext2 <;> rfl
    have := h1 e he (p.elem 0) (by rw [h3]; exact hx)
    rw [equal_refl] at this
    exact absurd this (by simp)
  rw [Bool.eq_iff_iff, C74_even_odd _ _ _ h1 east east_ne, C74_even_odd _ _ _ h2 east east_ne, hf, affine_odd hM hT hf ps hp]
end

/-- C74 for the library's own motions: shifting polygon and point by the same vector, or rotating both about the same point. -/
theorem C74_moves (ps : Corners 2) (p : Pt 2) (proper : Bool) (h1 : FarFromSides ps p.elem) :
    (∀ v : Vec 2, FarFromSides (ps.shift v) (p.addVec v).elem → interPolyP (ps.shift v) (p.addVec v) proper = interPolyP ps p proper) ∧
    (∀ (m : RotMat 2) (c : Pt 2), IsRotation m → FarFromSides (ps.rotatePoint m c) (p.rotate m c).elem →
      interPolyP (ps.rotatePoint m c) (p.rotate m c) proper = interPolyP ps p proper) := by
  constructor
  · intro v h2
    refine C74_moved (M := 1) (T := fun x => x + v.elem) (by simp) (fun x y => by rw [one_mulVec]; abel) (fun c => ?_) ps p h1 h2 proper
    exact Pt.addVec_elem c v
  · intro m c hm h2
    refine C74_moved (M := m.elemᵀ) (T := fun x => c.elem + m.elemᵀ *ᵥ (x - c.elem)) ?_ (fun x y => ?_) (fun q => ?_) ps p h1 h2 proper
    · rw [det_transpose, hm.det]; split_ifs <;> norm_num
    · rw [add_sub_add_left_eq_sub, ← mulVec_sub, sub_sub_sub_cancel_right]
    · show c.elem + ((q.sub c).rotateM m).elem = _
      rw [RotMat.rotateM_elem, mulVec_transpose, Pt.sub_elem]

/-! ### Rotated boxes -/

theorem between_comm (a b y : ℝ) : between a b y = between b a y := by
  unfold between
  rw [decide_eq_decide, or_comm]

theorem between_ne {a b y : ℝ} (h : between a b y = true) : a ≠ b := by
  rintro rfl
  unfold between at h
  rw [decide_eq_true_iff] at h
  rcases h with ⟨h1, h2⟩ | ⟨h1, h2⟩ <;> linarith

theorem xAt_comm {i j : Pt 2} {y : ℝ} (h : i.elem 1 ≠ j.elem 1) : xAt i j y = xAt j i y := by
  unfold xAt
  have h1 : j.elem 1 - i.elem 1 ≠ 0 := sub_ne_zero.2 h.symm
  have h2 : i.elem 1 - j.elem 1 ≠ 0 := sub_ne_zero.2 h
  field_simp
  ring

theorem yAt_comm {i j : Pt 2} {x : ℝ} (h : i.elem 0 ≠ j.elem 0) : yAt i j x = yAt j i x := by
  unfold yAt
  have h1 : j.elem 0 - i.elem 0 ≠ 0 := sub_ne_zero.2 h.symm
  have h2 : i.elem 0 - j.elem 0 ≠ 0 := sub_ne_zero.2 h
  field_simp
  ring

theorem tests_comm (i j : Pt 2) : (∀ a b y, tH a b y i j = tH a b y j i) ∧ (∀ a b y, cH a b y i j = cH a b y j i) ∧
    (∀ a b y, tV a b y i j = tV a b y j i) ∧ (∀ a b y, cV a b y i j = cV a b y j i) ∧ ∀ a b, passE a b (i, j) = passE a b (j, i) := by
  refine ⟨fun a b y => ?_, fun a b y => ?_, fun a b y => ?_, fun a b y => ?_, fun a b => ?_⟩
  · unfold tH
    rw [between_comm (j.elem 1)]
    by_cases h : between (i.elem 1) (j.elem 1) y = true
    · rw [xAt_comm (between_ne h)]
    · rw [Bool.not_eq_true] at h; rw [h]; rfl
  · unfold cH
    rw [between_comm (j.elem 1)]
    by_cases h : between (i.elem 1) (j.elem 1) y = true
    · rw [xAt_comm (between_ne h)]
    · rw [Bool.not_eq_true] at h; rw [h]; rfl
  · unfold tV
    rw [between_comm (j.elem 0)]
    by_cases h : between (i.elem 0) (j.elem 0) y = true
    · rw [yAt_comm (between_ne h)]
    · rw [Bool.not_eq_true] at h; rw [h]; rfl
  · unfold cV
    rw [between_comm (j.elem 0)]
    by_cases h : between (i.elem 0) (j.elem 0) y = true
    · rw [yAt_comm (between_ne h)]
    · rw [Bool.not_eq_true] at h; rw [h]; rfl
  · unfold passE
    simp only
    rw [between_comm (j.elem 1)]
    by_cases h : between (i.elem 1) (j.elem 1) b = true
    · rw [xAt_comm (between_ne h)]
    · rw [Bool.not_eq_true] at h; rw [h]; rfl

/-- The polygon turned into the coordinates of the box. -/
noncomputable def Spec.seenBy (r : RBox 2) (p : Corners 2) : Corners 2 := p.map fun c => c.rotate r.orient.inverse r.corner

theorem seen_elem (r : RBox 2) (c : Pt 2) : (c.rotate r.orient.inverse r.corner).elem = turn r c.elem := by
  show r.corner.elem + ((c.sub r.corner).rotateM r.orient.inverse).elem = _
  rw [RotMat.rotateM_elem, RotMat.inverse_elem, vecMul_transpose, Pt.sub_elem]; rfl

theorem edges_map (f : Pt 2 → Pt 2) {p : Corners 2} (hp : p ≠ []) : edges (p.map f) = (edges p).map fun e => (f e.1, f e.2) := by
  have key : ∀ (l : Corners 2) (j : Pt 2), edgesFrom (f j) (l.map f) = (edgesFrom j l).map fun e => (f e.1, f e.2) := by
    intro l
    induction l with
    | nil => intro j; rfl
    | cons i l ih => intro j; simp [edgesFrom, ih]
  unfold edges
  rw [← key]
  congr 1
  rw [List.getLastD_eq_getLast?, List.getLastD_eq_getLast?, List.getLast?_map, List.getLast?_eq_some_getLast hp]
  rfl

theorem turnedEdges_loop (r : RBox 2) (l0 l1 h0 h1 : ℝ) (proper : Bool) (es : List (Pt 2 × Pt 2)) (nx hit : Bool) :
    polyBLoop l0 l1 h0 h1 proper (turnedEdges r es nx) hit =
      polyBLoop l0 l1 h0 h1 proper (es.map fun e => (e.1.rotate r.orient.inverse r.corner, e.2.rotate r.orient.inverse r.corner)) hit := by
  induction es generalizing nx hit with
  | nil => rfl
  | cons e es ih =>
    obtain ⟨i, j⟩ := e
    rw [turnedEdges, List.map_cons]
    generalize i.rotate r.orient.inverse r.corner = i'
    generalize j.rotate r.orient.inverse r.corner = j'
    obtain ⟨a, b, c, d, e⟩ := tests_comm i' j'
    cases nx
    · simp only [Bool.false_eq_true, if_false, polyBLoop_cons, ih]
    · simp only [if_true, polyBLoop_cons, ih, a, b, c, d, e]

theorem polyCBLoop_cons' (l0 l1 h0 h1 : ℝ) (proper : Bool) (i j : Pt 2) (es : List (Pt 2 × Pt 2)) (hit : Bool) :
    polyCBLoop l0 l1 h0 h1 proper ((i, j) :: es) hit =
      if (tH l0 h0 l1 i j && proper) || (!tH l0 h0 l1 i j && cH l0 h0 l1 i j) then false
      else if (tV l1 h1 l0 i j && proper) || (!tV l1 h1 l0 i j && cV l1 h1 l0 i j) then false
      else if (tH l0 h0 h1 i j && proper) || (!tH l0 h0 h1 i j && cH l0 h0 h1 i j) then false
      else if (tV l1 h1 h0 i j && proper) || (!tV l1 h1 h0 i j && cV l1 h1 h0 i j) then false
      else polyCBLoop l0 l1 h0 h1 proper es (if !tH l0 h0 l1 i j && passE l0 l1 (i, j) then !hit else hit) := by
  have e1 : i.elem 0 + (l1 - i.elem 1) * (j.elem 0 - i.elem 0) / (j.elem 1 - i.elem 1) = xAt i j l1 := rfl
  have e2 : i.elem 1 + (l0 - i.elem 0) * (j.elem 1 - i.elem 1) / (j.elem 0 - i.elem 0) = yAt i j l0 := rfl
  have e3 : i.elem 0 + (h1 - i.elem 1) * (j.elem 0 - i.elem 0) / (j.elem 1 - i.elem 1) = xAt i j h1 := rfl
  have e4 : i.elem 1 + (h0 - i.elem 0) * (j.elem 1 - i.elem 1) / (j.elem 0 - i.elem 0) = yAt i j h0 := rfl
  have g : ∀ btw on c : Bool, (btw && ((on && proper) || (!on && c))) = (((btw && on) && proper) || (!(btw && on) && (btw && c))) := by
    intro btw on c; cases btw <;> cases on <;> cases c <;> cases proper <;> rfl
  have g2 : ∀ btw on c : Bool, (btw && (!on && c)) = (!(btw && on) && (btw && c)) := by
    intro btw on c; cases btw <;> cases on <;> cases c <;> rfl
  rw [polyCBLoop]
  simp only [e1, e2, e3, e4, Bool.and_assoc]
  simp only [g, g2]
  rfl

theorem turnedEdges_loop_contains (r : RBox 2) (l0 l1 h0 h1 : ℝ) (proper : Bool) (es : List (Pt 2 × Pt 2)) (nx hit : Bool) :
    polyCBLoop l0 l1 h0 h1 proper (turnedEdges r es nx) hit =
      polyCBLoop l0 l1 h0 h1 proper (es.map fun e => (e.1.rotate r.orient.inverse r.corner, e.2.rotate r.orient.inverse r.corner)) hit := by
  induction es generalizing nx hit with
  | nil => rfl
  | cons e es ih =>
    obtain ⟨i, j⟩ := e
    rw [turnedEdges, List.map_cons]
    generalize i.rotate r.orient.inverse r.corner = i'
    generalize j.rotate r.orient.inverse r.corner = j'
    obtain ⟨a, b, c, d, e⟩ := tests_comm i' j'
    cases nx
    · simp only [Bool.false_eq_true, if_false, polyCBLoop_cons', ih]
    · simp only [if_true, polyCBLoop_cons', ih, a, b, c, d, e]

theorem bounds_flat (r : RBox 2) (k : Fin 2) : (r.bounds k).1 = r.flat.low.elem k ∧ (r.bounds k).2 = r.flat.high.elem k := by
  rw [flat_low, flat_high]
  unfold RBox.bounds
  split_ifs with h
  · rw [min_eq_left (le_of_lt h), max_eq_right (le_of_lt h)]; simp
  · rw [min_eq_right (by linarith), max_eq_left (by linarith)]; simp

/-- The test with a rotated box is the test with an axis box, for the polygon seen in the coordinates of the box. -/
theorem interPolyR_eq (p : Corners 2) (r : RBox 2) (proper : Bool) (hp : p ≠ []) :
    interPolyR p r proper = some (interPolyB (seenBy r p) r.flat proper) ∧
    containsPolyR p r proper = some (containsPolyB (seenBy r p) r.flat proper) := by
  unfold interPolyR containsPolyR interPolyB containsPolyB seenBy
  rw [if_neg hp, if_neg hp, turnedEdges_loop, turnedEdges_loop_contains, edges_map _ hp]
  simp only [bounds_flat, and_self]

theorem det_ne {m : RotMat 2} (hm : IsRotation m) : m.elem.det ≠ 0 := by
  rw [hm.det]; split_ifs <;> norm_num

theorem seen_filled {r : RBox 2} (hm : IsRotation r.orient) (p : Corners 2) (x : V2) :
    (turn r x ∈ filled (seenBy r p) ↔ x ∈ filled p) ∧ (turn r x ∈ inside (seenBy r p) ↔ x ∈ inside p) :=
  ⟨affine_filled (det_ne hm) (turn_sub r) (seen_elem r) p x, affine_inside (det_ne hm) (turn_sub r) (seen_elem r) p x⟩

/-- C98 for rotated boxes, the part that holds: for a polygon that sticks out of the box and touches, in the coordinates of the box, neither its
corners nor, with its own corners, its rim, the answer is whether polygon and box have a point in common. -/
theorem C98_rotbox_partial (p : Corners 2) (r : RBox 2) (proper : Bool) (hm : IsRotation r.orient) (hout : ∃ c ∈ p, c.elem ∉ rboxSet r)
    (hr : ∀ c ∈ p, c.elem ∈ rboxSet r → c.elem ∈ rboxInterior r) (hg : ¬ Grazes (seenBy r p) r.flat) :
    interPolyR p r proper = some true ↔ (filled p ∩ rboxSet r).Nonempty := by
  have hp : p ≠ [] := by rintro rfl; obtain ⟨c, hc, -⟩ := hout; simp at hc
  rw [(interPolyR_eq p r proper hp).1, Option.some_inj, C98_exact_partial _ _ proper (flat_ordered r) ?_ ?_ hg]
  · constructor
    · rintro ⟨x, h1, h2⟩
      rw [← turn_unturn hm x] at h1 h2
      exact ⟨unturn r x, (seen_filled hm p _).1.1 h1, (turn_mem hm _).1 h2⟩
    · rintro ⟨x, h1, h2⟩
      exact ⟨turn r x, (seen_filled hm p _).1.2 h1, (turn_mem hm _).2 h2⟩
  · obtain ⟨c, hc, h⟩ := hout
    refine ⟨_, List.mem_map.2 ⟨c, hc, rfl⟩, ?_⟩
    rw [seen_elem, turn_mem hm]; exact h
  · rintro _ hc' h
    obtain ⟨c, hc, rfl⟩ := List.mem_map.1 hc'
    rw [seen_elem] at h ⊢
    rw [turn_mem hm] at h
    rw [turn_mem_interior hm]
    exact hr c hc h

/-- C98 for rotated boxes: a polygon without corners gives no answer (the code reads the last element of an empty vector); a polygon inside the box is
never found. -/
theorem C98_rotbox_inside (p : Corners 2) (r : RBox 2) (proper : Bool) (hm : IsRotation r.orient) :
    (interPolyR p r proper = none ↔ p = []) ∧ (p ≠ [] → (∀ c ∈ p, c.elem ∈ rboxInterior r) → interPolyR p r proper = some false) := by
  constructor
  · unfold interPolyR
    by_cases h : p = [] <;> simp [h]
  · intro hp h
    rw [(interPolyR_eq p r proper hp).1, C98_inside]
    rintro _ hc'
    obtain ⟨c, hc, rfl⟩ := List.mem_map.1 hc'
    rw [seen_elem, turn_mem_interior hm]
    exact h c hc

/-- C99 for rotated boxes, the part that holds. -/
theorem C99_rotbox_partial (p : Corners 2) (r : RBox 2) (proper : Bool) (hm : IsRotation r.orient) (hp : p ≠ [])
    (hr : ∀ c ∈ p, c.elem ∈ rboxSet r → c.elem ∈ rboxInterior r) (hg : ¬ Grazes (seenBy r p) r.flat) :
    containsPolyR p r proper = some true ↔ rboxSet r ⊆ inside p := by
  rw [(interPolyR_eq p r proper hp).2, Option.some_inj, C99_exact_partial _ _ proper (flat_ordered r) ?_ hg]
  · constructor
    · intro h x hx
      exact (seen_filled hm p x).2.1 (h ((turn_mem hm x).2 hx))
    · intro h x hx
      rw [← turn_unturn hm x] at hx ⊢
      exact (seen_filled hm p _).2.2 (h ((turn_mem hm _).1 hx))
  · rintro _ hc' h
    obtain ⟨c, hc, rfl⟩ := List.mem_map.1 hc'
    rw [seen_elem] at h ⊢
    rw [turn_mem hm] at h
    rw [turn_mem_interior hm]
    exact hr c hc h

/-! ### Example: the unit square and a box turned by a quarter -/

/-- A box with a corner in the middle of the unit square that sticks out of it. -/
noncomputable def exampleRBox (w : ℝ) : RBox 2 := ⟨⟨![1 / 2, 1 / 2], true⟩, ⟨![w, 1 / 4], true⟩, quarter⟩

theorem exampleRBox_turn (w : ℝ) (x : V2) : turn (exampleRBox w) x = ![x 1, 1 - x 0] := by
  apply ext2 <;> simp [turn, exampleRBox, quarter, mulVec, dotProduct, Fin.sum_univ_two, Matrix.vecHead, Matrix.vecTail] <;> ring

theorem exampleRBox_flat {w : ℝ} (hw : 0 ≤ w) : (exampleRBox w).flat.low.elem = ![1 / 2, 1 / 2] ∧
    (exampleRBox w).flat.high.elem = ![1 / 2 + w, 3 / 4] := by
  constructor
  · apply ext2
    · rw [flat_low]; simp [exampleRBox, hw]
    · rw [flat_low]; simp [exampleRBox]
  · apply ext2
    · rw [flat_high]; simp [exampleRBox, hw]
    · rw [flat_high]; simp [exampleRBox]; norm_num

theorem exampleRBox_mem {w : ℝ} (hw : 0 ≤ w) (x : V2) :
    x ∈ rboxSet (exampleRBox w) ↔ 1 / 2 ≤ x 1 ∧ x 1 ≤ 1 / 2 + w ∧ 1 / 4 ≤ x 0 ∧ x 0 ≤ 1 / 2 := by
  rw [← turn_mem (show IsRotation (exampleRBox w).orient from quarter_isRotation), exampleRBox_turn]
  have h := exampleRBox_flat hw
  constructor
  · intro hx
    have h0 := hx 0
    have h1 := hx 1
    rw [h.1, h.2] at h0 h1
    simp at h0 h1
    norm_num at h0 h1
    exact ⟨by linarith [h0.1], by linarith [h0.2], by linarith [h1.2], by linarith [h1.1]⟩
  · rintro ⟨a, b, c, d⟩ i
    rw [h.1, h.2]
    fin_cases i
    · exact ⟨a, b⟩
    · constructor
      · show (1 / 2 : ℝ) ≤ 1 - x 0; linarith
      · show 1 - x 0 ≤ (3 / 4 : ℝ); linarith

theorem exampleRBox_grazes {w : ℝ} (hw : 1 / 16 ≤ w) (hw3 : w ≤ 3) (hw2 : 1 / 8 ≤ |1 / 2 + w - 1|) :
    ¬ Grazes (seenBy (exampleRBox w) unitSquare) (exampleRBox w).flat := by
  have hs : ∀ e, e ∈ sides (seenBy (exampleRBox w) unitSquare) ↔ e ∈ sides unitSquare := by
    intro e
    unfold seenBy
    rw [sides_map (seen_elem _), unitSquare_sides]
    simp only [exampleRBox_turn, List.map_cons, List.map_nil, List.mem_cons, List.not_mem_nil, or_false]
    norm_num
    tauto
  have h := exampleRBox_flat (w := w) (by linarith)
  have hg := unitSquare_grazes (b := (exampleRBox w).flat) (by
    rw [h.1, h.2]
    intro i z hz
    fin_cases i <;> simp at hz <;> rcases hz with rfl | rfl
    · norm_num [abs_of_pos, abs_of_neg, abs_le, le_abs]
    · norm_num at hw2 ⊢
      refine ⟨abs_le.2 ⟨by linarith, by linarith⟩, ?_, hw2⟩
      rw [abs_of_pos (by linarith)]; linarith
    · norm_num [abs_of_pos, abs_of_neg, abs_le, le_abs]
    · norm_num [abs_of_pos, abs_of_neg, abs_le, le_abs])
  unfold Grazes NearSide NearSideV at hg ⊢
  simpa only [hs] using hg

example (proper : Bool) : interPolyR unitSquare (exampleRBox 2) proper = some true := by
  have out : ∀ c ∈ unitSquare, c.elem ∉ rboxSet (exampleRBox 2) := by
    intro c hc h
    rw [exampleRBox_mem (by norm_num)] at h
    simp only [unitSquare, List.mem_cons, List.not_mem_nil, or_false] at hc
    rcases hc with rfl | rfl | rfl | rfl <;> norm_num at h
  refine (C98_rotbox_partial _ _ _ quarter_isRotation ⟨⟨![0, 0], true⟩, by simp [unitSquare], out _ (by simp [unitSquare])⟩
    (fun c hc h => absurd h (out c hc)) (exampleRBox_grazes (by norm_num) (by norm_num) (by norm_num [abs_of_pos]))).2 ⟨![3 / 8, 3 / 4], Or.inl (unitSquare_inside ?_ ?_ ?_ ?_), ?_⟩
  · norm_num
  · norm_num
  · norm_num
  · norm_num
  · rw [exampleRBox_mem (by norm_num)]; norm_num

example (proper : Bool) : containsPolyR unitSquare (exampleRBox (1 / 4)) proper = some true := by
  refine (C99_rotbox_partial _ _ _ quarter_isRotation (by simp [unitSquare]) (fun c hc h => ?_)
    (exampleRBox_grazes (by norm_num) (by norm_num) (by norm_num [abs_of_neg]))).2 fun x hx => ?_
  · rw [exampleRBox_mem (by norm_num)] at h
    simp only [unitSquare, List.mem_cons, List.not_mem_nil, or_false] at hc
    rcases hc with rfl | rfl | rfl | rfl <;> norm_num at h
  · rw [exampleRBox_mem (by norm_num)] at hx
    apply unitSquare_inside <;> linarith

end WFMath
