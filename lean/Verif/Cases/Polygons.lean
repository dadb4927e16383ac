/- Cases of the theorems about polygons: their hypotheses hold for concrete objects. -/
import Verif.Cases.Points
import Verif.Props.PolyContains
import Verif.Props.PolyEdit
import Verif.Props.PolyLine
import Verif.Props.PolyMoved
import Verif.Props.PolyPairs
import Verif.Props.PolySpace
import Verif.Props.PolySphere

namespace WFMath.Cases
open WFMath Spec Matrix

/-! ### Props/PolyBall, Props/PolyBox -/

theorem ballM_fits : BallFits unitSquare ballM := by
  have he := epsilon_lt
  norm_num at he
  left; norm_num [ballM]; linarith
example := C97_contains unitSquare ballM (by norm_num [ballM]) ballM_fits
/-- The box [1/2, 2] × [1/2, 3]: it and the unit square overlap. -/
noncomputable def boxM : Box 2 := ⟨⟨![1 / 2, 1 / 2], true⟩, ⟨![2, 3], true⟩⟩
theorem boxM_ordered : Ordered boxM := by intro i; fin_cases i <;> norm_num [boxM]
theorem boxM_grazes : ¬ Grazes unitSquare boxM := by
  refine unitSquare_grazes fun i z hz => ?_
  fin_cases i <;> simp [boxM] at hz <;> rcases hz with rfl | rfl <;> norm_num [abs_of_pos, abs_of_neg, abs_le, le_abs]
theorem boxM_hit (proper : Bool) : interPolyB unitSquare boxM proper = true := by
  refine C98_accepts_partial _ _ _ boxM_ordered ⟨⟨![0, 0], true⟩, by simp [unitSquare], fun h => ?_⟩ ?_ (Or.inr boxM_grazes)
    ⟨![3 / 4, 3 / 4], Or.inl (unitSquare_inside ?_ ?_ ?_ ?_), ?_⟩
  · have := (h 0).1; norm_num [boxM] at this
  · intro c hc h
    simp only [unitSquare, List.mem_cons, List.not_mem_nil, or_false] at hc
    rcases hc with rfl | rfl | rfl | rfl
    · have := (h 0).1; norm_num [boxM] at this
    · have := (h 1).1; norm_num [boxM] at this
    · intro i; fin_cases i <;> norm_num [boxM]
    · have := (h 0).1; norm_num [boxM] at this
  all_goals first | (intro i; fin_cases i <;> norm_num [boxM]; done) | norm_num
example : (filled unitSquare ∩ boxSet boxM).Nonempty := C98_rejects _ _ false boxM_ordered (Or.inr boxM_grazes) (boxM_hit false)
/-- The unit square inside the box [-1, 2]². -/
example (proper : Bool) : interPolyB unitSquare ⟨⟨![-1, -1], true⟩, ⟨![2, 2], true⟩⟩ proper = false := by
  refine C98_inside _ _ _ fun c hc i => ?_
  simp only [unitSquare, List.mem_cons, List.not_mem_nil, or_false] at hc
  rcases hc with rfl | rfl | rfl | rfl <;> fin_cases i <;> norm_num

/-! ### Props/PolyContains -/

example := C75_rotbox ⟨⟨![1, 2], true⟩, ⟨![3, 4], true⟩, turnA⟩ unitSquare turnA_rotation
example := C75_ball ballM unitSquare (by norm_num [ballM]) ballM_far
example := C75_ball_general ballM unitSquare (by norm_num [ballM])
theorem threeCorners_edited (dbg : Bool) : Edited dbg threeCorners 3 := by
  obtain ⟨k, hk⟩ := threeCorners_built.edited (dbg := dbg) epsilon_pos.le
  have h3 : (3 : Nat) = k := (edited_ok hk).2
  exact h3 ▸ hk
theorem threeCorners_readable : Readable threeCorners := readable_of_edited (threeCorners_edited true)
example := C75_box_space ⟨⟨![-1, -1, -1], true⟩, ⟨![2, 2, 2], true⟩⟩ threeCorners threeCorners_readable
example := C75_rotbox_space ⟨⟨![1, 2, 0], true⟩, ⟨![3, 4, 5], true⟩, turnB⟩ threeCorners threeCorners_readable turnB_rotation rfl rfl

/-! ### Props/PolyEdit, Props/PolySphere -/

example := C90_readable true threeCorners 3 (threeCorners_edited true)
example := C90_basis true threeCorners 3 (threeCorners_edited true)
theorem threeCorners_apart : ∀ kept, threeCorners.poly.removeCorner 0 = some kept → Apart kept := by
  have he2 := epsilon_lt
  norm_num at he2
  have hp := epsilon_pos
  intro kept hkept f ps hf x hx
  have : kept = [⟨![1, 0], true⟩, ⟨![0, 1], true⟩] := (Option.some.inj hkept).symm
  subst this
  have hE : Orient.reduceEps [⟨![1, 0], true⟩, ⟨![0, 1], true⟩] = 2 * epsilon := by
    unfold Orient.reduceEps
    simp only [List.foldl]
    norm_num [frexpExp_one, ldexp]; ring
  obtain ⟨rfl, rfl⟩ := List.cons.inj hf
  rcases List.mem_cons.1 hx with rfl | hx
  · exact Or.inl rfl
  · rw [List.mem_singleton] at hx
    subst hx
    right
    rw [hE]
    simp [Vec.sqrMag_eq, Pt.sub, dotProduct, Fin.sum_univ_two]
    nlinarith
/-- Removing the first of three corners leaves the other two where they were, up to the bound. -/
example : ∃ t, threeCorners.removeCorner false 0 = some t ∧ ∃ c', t.getCorner 1 = some c' ∧ eucl c'.elem ![0, 1, 0] ≤ 3 * epsilon * eucl ![0, 1, 0] ![1, 0, 0] := by
  obtain ⟨t, ht⟩ := Option.ne_none_iff_exists'.1 ((C90_total threeCorners 0 ⟨0, true⟩ 0).1.2 (by decide))
  have g : ∀ j (x : Pt 2) (v : Fin 3 → ℝ), threeCorners.poly.getCorner j = some x → threeCorners.orient.at (x.elem 0) (x.elem 1) = v →
      ∃ c, threeCorners.getCorner j = some c ∧ c.elem = v := fun j x v h hv =>
    ⟨_, (getCorner_of h).trans (convert_eq rfl (Or.inl rfl) (Or.inl rfl)), hv⟩
  obtain ⟨c, hc, hc'⟩ := g 2 ⟨![0, 1], true⟩ ![0, 1, 0] rfl (by unfold Orient.at threeCorners; funext i; fin_cases i <;> simp)
  obtain ⟨f, hf, hf'⟩ := g 1 ⟨![1, 0], true⟩ ![1, 0, 0] rfl (by unfold Orient.at threeCorners; funext i; fin_cases i <;> simp)
  obtain ⟨c', h1, -, h2⟩ := C73_remove_partial false threeCorners t 3 0 (threeCorners_edited false) ht threeCorners_apart 1 c f (by simpa using hc) (by simpa using hf)
  rw [hc', hf'] at h2
  exact ⟨t, ht, c', h1, h2⟩
example : ∃ b t, threeCorners.moveCorner false 0 ⟨![0, 0, 0], true⟩ epsilon = some (b, t) ∧ (b = false → t = threeCorners) := by
  obtain ⟨⟨b, t⟩, ht⟩ := Option.ne_none_iff_exists'.1 ((C90_total threeCorners 0 ⟨![0, 0, 0], true⟩ epsilon).2.2 (by decide))
  exact ⟨b, t, ht, (C73_move_partial false threeCorners t 3 0 _ epsilon epsilon_pos.le b (threeCorners_edited false) ht).1⟩
example := C57_polygon true threeCorners 3 (threeCorners_edited true) (by norm_num)

/-! ### Props/PolyCross, Props/PolyLine -/

/-- The unit square of the plane of the first two axes and the same square turned about the first axis by the angle of the triangle (3, 4, 5). -/
theorem turned_slope : 1 / 10 ^ 10 ≤ |normal flatSquare ⬝ᵥ normal (turned (3 / 5) (4 / 5) ⟨![1, 0, 1 / 2], true⟩)| := by
  rw [flat_normal', turned_normal _ _ rfl]; simp [dotProduct, Fin.sum_univ_three]; norm_num
example (proper : Bool) := C110_oblique_partial flatSquare (turned (3 / 5) (4 / 5) ⟨![1, 0, 1 / 2], true⟩) flatSquare_spans (turned_spans (by norm_num) rfl) turned_slope
  (turned_axes (Or.inr (by norm_num [abs_of_pos])) rfl (by norm_num)) proper
example (proper : Bool) := C111_oblique_partial flatSquare (turned (3 / 5) (4 / 5) ⟨![1, 0, 1 / 2], true⟩) flatSquare_spans (turned_spans (by norm_num) rfl)
  (by simp [flatSquare, unitSquare]) (by rw [turned_eq _ _ _ rfl]; simp [unitSquare]) turned_slope (turned_axes (Or.inr (by norm_num [abs_of_pos])) rfl (by norm_num)) proper
theorem rod_in : LineIn flatSquare (lineRod (1 / 2) 2) ![1 / 2, 0] ![1, 0] := by
  have b0 : ∀ i, |(![1, 0, 0] : Fin 3 → ℝ) i| ≤ 8 := fun i => by fin_cases i <;> norm_num
  have b1 : ∀ i, |(![0, 1, 0] : Fin 3 → ℝ) i| ≤ 8 := fun i => by fin_cases i <;> norm_num
  have b2 : ∀ i, |((lineRod (1 / 2) 2).orient.origin.sub flatSquare.orient.origin).elem i| ≤ 8 := fun i => by
    fin_cases i <;> simp [lineRod, flatSquare, threeCorners, Pt.sub] <;> norm_num [abs_le]
  constructor
  · funext i; fin_cases i <;> simp [lineRod, spacePoint, flatSquare, threeCorners]
  · funext i; fin_cases i <;> simp [lineRod, flatSquare, threeCorners]
  · refine dotExact_coarse3 b0 (Or.inr ?_); simp [lineRod, flatSquare, threeCorners, dotProduct, Fin.sum_univ_three]; norm_num
  · refine dotExact_coarse3 b1 (Or.inl ?_); simp [lineRod, flatSquare, threeCorners, dotProduct, Fin.sum_univ_three]
  · refine dotExact_coarse3 b2 (Or.inr ?_); simp [lineRod, flatSquare, threeCorners, dotProduct, Fin.sum_univ_three, Pt.sub]; norm_num
  · refine dotExact_coarse3 b2 (Or.inl ?_); simp [lineRod, flatSquare, threeCorners, dotProduct, Fin.sum_univ_three, Pt.sub]
example := C110_line_partial flatSquare (lineRod (1 / 2) 2) flatSquare_spans (lineRod_straight _ _) _ _ rod_in
example := C110_line_first_partial flatSquare (lineRod (1 / 2) 2) flatSquare_spans (lineRod_straight _ _) _ _ rod_in
example (proper : Bool) : containsPolyPolyN flatSquare (turned 0 1 ⟨0, true⟩) proper = some false := by
  refine (C111_perpendicular flatSquare (turned 0 1 ⟨0, true⟩) flatSquare_spans (turned_spans (by norm_num) rfl) (by simp [flatSquare, unitSquare]) ?_
    (turned_axes (Or.inl rfl) rfl (by norm_num)) ⟨![0, 0, 1], ?_, ?_⟩ proper).1
  · rw [flat_normal', turned_normal 0 1 rfl]; simp [dotProduct, Fin.sum_univ_three]
  · rw [mem_polyCornerSet]
    refine ⟨⟨![0, 1], true⟩, by rw [turned_eq 0 1 _ rfl]; simp [unitSquare], _, convert_eq (by rw [turned_eq 0 1 _ rfl]) (Or.inl (by rw [turned_eq 0 1 _ rfl])) (Or.inl (by rw [turned_eq 0 1 _ rfl])), ?_⟩
    rw [turned_eq 0 1 _ rfl]
    funext i; fin_cases i <;> simp [Orient.at]
  · rw [flat_normal']; simp [dotProduct, Fin.sum_univ_three, flatSquare, threeCorners]
example (proper : Bool) := C108_axes_partial flatSquare flatSquare flatSquare_spans flatSquare_spans rfl rfl proper

/-! ### Props/PolyMoved -/

/-- Points that are off the lines of the unit square. -/
theorem unitSquare_off {p : Fin 2 → ℝ} (h : |p 0| ≤ 4 ∧ 1 / 8 ≤ |p 0 - 0| ∧ 1 / 8 ≤ |p 0 - 1|) (h0 : p 1 ≠ 0) (h1 : p 1 ≠ 1) : FarFromSides unitSquare p := by
  intro e he x hx
  rw [unitSquare_sides] at he
  obtain ⟨s, s0, s1, h2, h3⟩ := seg_coord hx
  simp only [List.mem_cons, List.not_mem_nil, or_false] at he
  have hx' : x = 0 ∨ x = 1 := by
    rcases he with rfl | rfl | rfl | rfl <;> simp at h2 h3
    · exact absurd h3 h0
    · exact Or.inr h2
    · exact absurd h3 h1
    · exact Or.inl h2
  rcases hx' with rfl | rfl
  · exact equal_apart h.1 h.2.1
  · exact equal_apart h.1 h.2.2
/-- The unit square and its middle stretched by 2: the answer is the same. -/
example (proper : Bool) : interPolyP [⟨![0, 0], true⟩, ⟨![2, 0], true⟩, ⟨![2, 2], true⟩, ⟨![0, 2], true⟩] ⟨![1, 1], true⟩ proper =
    interPolyP unitSquare ⟨![1 / 2, 1 / 2], true⟩ proper := by
  have hl : (unitSquare.map fun c : Pt 2 => (⟨![2 * c.elem 0, 2 * c.elem 1], c.valid⟩ : Pt 2)) = [⟨![0, 0], true⟩, ⟨![2, 0], true⟩, ⟨![2, 2], true⟩, ⟨![0, 2], true⟩] := by
    simp [unitSquare]
  have hp : (⟨![1, 1], true⟩ : Pt 2) = ⟨![2 * (1 / 2), 2 * (1 / 2)], true⟩ := by norm_num
  have h := C74_moved (M := !![2, 0; 0, 2]) (T := fun x => ![2 * x 0, 2 * x 1]) (f := fun c => ⟨![2 * c.elem 0, 2 * c.elem 1], c.valid⟩) (by simp [det_fin_two])
    (fun x y => by apply ext2 <;> simp [mulVec, dotProduct, Fin.sum_univ_two] <;> ring) (fun c => rfl) unitSquare ⟨![1 / 2, 1 / 2], true⟩ unitSquare_far (by
    rw [hl]
    intro e he x hx
    obtain ⟨s, s0, s1, h2, h3⟩ := seg_coord hx
    simp only [sides, List.length_cons, List.mem_cons, List.not_mem_nil, or_false] at he
    simp at he h2 h3
    have hx' : x = 0 ∨ x = 2 := by
      rcases he with rfl | rfl | rfl | rfl <;> simp at h2 h3 <;>
        first | (exfalso; linarith; done) | (left; linarith; done) | (right; linarith; done)
    have h4 : ∀ x : ℝ, x = 0 ∨ x = 2 → equal (1 : ℝ) x epsilon = false := by
      rintro x (rfl | rfl) <;> refine equal_apart (by norm_num) ?_ <;> norm_num
    simpa using h4 x hx') proper
  rw [hl] at h
  simpa using h
/-- The unit square and its middle shifted by (2, 0). -/
example (proper : Bool) := C74_moves unitSquare ⟨![1 / 2, 1 / 2], true⟩ proper unitSquare_far

example := C98_rotbox_inside unitSquare (exampleRBox 2) true quarter_isRotation

/-! ### Props/PolyPairs, Props/PolyPoint -/

example (d : Fin 2 → ℝ) (hd : d ≠ 0) := C74_even_odd unitSquare ⟨![1 / 2, 1 / 2], true⟩ true unitSquare_far d hd
example (proper : Bool) : interPolyP unitSquare ⟨![3, 7], true⟩ proper = false := by
  have hn : (![3, 7] : Fin 2 → ℝ) ∉ convexHull ℝ (cornerSet unitSquare) := by
    intro h
    have hsub : cornerSet unitSquare ⊆ {x : Fin 2 → ℝ | x 0 ≤ 1} := by
      rintro x ⟨j, c, hj, rfl⟩
      have hc : c ∈ unitSquare := List.mem_of_getElem? hj
      simp only [unitSquare, List.mem_cons, List.not_mem_nil, or_false] at hc
      rcases hc with rfl | rfl | rfl | rfl <;> simp
    have hcv : Convex ℝ {x : Fin 2 → ℝ | x 0 ≤ 1} := convex_halfSpace_le (LinearMap.isLinear (LinearMap.proj (0 : Fin 2))) 1
    have := convexHull_min hsub hcv h
    norm_num at this
  refine C74_outside unitSquare _ proper hn (Or.inr fun e he x hx => ?_)
  rw [unitSquare_sides] at he
  obtain ⟨t, h0, h1, hx⟩ := mem_seg.1 hx
  have := congrFun hx 1
  simp only [List.mem_cons, List.not_mem_nil, or_false] at he
  rcases he with rfl | rfl | rfl | rfl <;> simp at this <;> linarith

/-- From the middle to a point outside, and to another point inside. -/
example (proper : Bool) := C74_walk unitSquare ⟨![1 / 2, 1 / 2], true⟩ ⟨![3, 1 / 4], true⟩ (fun h => by have := congrFun h 0; norm_num at this) unitSquare_far
  (unitSquare_off (by norm_num) (by norm_num) (by norm_num)) proper
example (proper : Bool) : interPolyP unitSquare ⟨![1 / 2, 1 / 2], true⟩ proper = interPolyP unitSquare ⟨![1 / 4, 3 / 4], true⟩ proper := by
  refine C74_region unitSquare (segment ℝ ![1 / 2, 1 / 2] ![1 / 4, 3 / 4]) (convex_segment _ _).isPreconnected (Set.disjoint_left.2 fun x hx hb => ?_) _ _
    (left_mem_segment ℝ _ _) (right_mem_segment ℝ _ _) unitSquare_far (unitSquare_off (by norm_num [abs_of_pos, abs_of_neg]) (by norm_num) (by norm_num)) proper
  obtain ⟨t, h0, h1, rfl⟩ := mem_seg.1 hx
  have := (unitSquare_boundary hb).1
  simp at this
  rcases this with h | h | h | h <;> linarith
example (proper : Bool) : interPolyP [⟨![-1, -1], true⟩, ⟨![1, -1], true⟩, ⟨![0, 1], true⟩] ⟨![0, 0], true⟩ proper = true := by
  have he := epsilon_lt
  norm_num at he
  refine C74_triangle _ _ _ _ (by simp [cr]) (by simp [cr]) (by simp [cr]) (fun e he' x hx => ?_) proper
  obtain ⟨s, s0, s1, h2, h3⟩ := seg_coord hx
  simp [sides] at he' h2 h3
  have hx' : x = 1 / 2 ∨ x = -1 / 2 := by
    rcases he' with rfl | rfl | rfl <;> simp at h2 h3 <;>
      first | (exfalso; linarith; done) | (left; linarith; done) | (right; linarith; done)
  rcases hx' with rfl | rfl <;> refine equal_apart (by simp) ?_ <;> norm_num
example : containsPolyS unitSquare ⟨⟨![1 / 2, 1 / 2], true⟩, ⟨![1 / 2, 1 / 4], true⟩⟩ true = some true → (![1 / 2, 1 / 2] : Fin 2 → ℝ) ∈ inside unitSquare :=
  C100_contains_partial unitSquare ⟨⟨![1 / 2, 1 / 2], true⟩, ⟨![1 / 2, 1 / 4], true⟩⟩ unitSquare_far

/-! ### Props/PolySpace -/

theorem flat_proj' {p : Pt 3} (h : ∀ i, |p.elem i| ≤ 8) (hx0 : p.elem 0 = 0 ∨ 1 / 64 ≤ |p.elem 0|) (hx1 : p.elem 1 = 0 ∨ 1 / 64 ≤ |p.elem 1|) :
    ProjExact flatSquare.orient p := flat_proj h hx0 hx1
/-- The segment from (1/2, 1/2, 0) to (1/4, 3/4, 0) in the plane of the square. -/
noncomputable def flatSeg : Seg 3 := ⟨⟨![1 / 2, 1 / 2, 0], true⟩, ⟨![1 / 4, 3 / 4, 0], true⟩⟩
theorem flatSeg_one : ProjExact flatSquare.orient flatSeg.p1 :=
  flat_proj' (fun i => by fin_cases i <;> norm_num [flatSeg, abs_le]) (by norm_num [flatSeg, abs_of_pos]) (by norm_num [flatSeg, abs_of_pos])
theorem flatSeg_two : ProjExact flatSquare.orient flatSeg.p2 :=
  flat_proj' (fun i => by fin_cases i <;> norm_num [flatSeg, abs_le]) (by norm_num [flatSeg, abs_of_pos]) (by norm_num [flatSeg, abs_of_pos])
example (proper : Bool) : interPolySn flatSquare flatSeg proper = interPolyS unitSquare ⟨⟨![1 / 2, 1 / 2], false⟩, ⟨![1 / 4, 3 / 4], false⟩⟩ proper :=
  C106_flat flatSquare flatSquare_spans (by simp [flatSquare, unitSquare]) flatSeg flatSeg_one flatSeg_two (y1 := ![1 / 2, 1 / 2]) (y2 := ![1 / 4, 3 / 4])
    (by rw [flatSquare_point]; rfl) (by rw [flatSquare_point]; rfl) proper
example (proper : Bool) : containsPolySn flatSquare flatSeg proper = containsPolyS unitSquare ⟨⟨![1 / 2, 1 / 2], false⟩, ⟨![1 / 4, 3 / 4], false⟩⟩ proper :=
  (C106_contains flatSquare flatSquare_spans (by simp [flatSquare, unitSquare]) flatSeg flatSeg_one flatSeg_two proper).2 ![1 / 2, 1 / 2] ![1 / 4, 3 / 4]
    (by rw [flatSquare_point]; rfl) (by rw [flatSquare_point]; rfl) (fun h => by have := congrFun h 0; norm_num [flatSeg] at this)
    (fun h => by have := congrFun h 0; norm_num [flatSeg] at this)

example (b : Ball 3) := C105_contains (by norm_num) flatSquare b true
example := C107_sound_partial flatSquare flatSquare_spans ⟨⟨![0, 0, -1], true⟩, ⟨![1, 2, 3], true⟩⟩ (fun i => by fin_cases i <;> norm_num)
example := C107_rotbox_partial flatSquare flatSquare_spans ⟨⟨![1, 2, 0], true⟩, ⟨![3, 4, 5], true⟩, turnB⟩ turnB_rotation rfl rfl
example := C107_rotbox_contains flatSquare ⟨⟨![1, 2, 0], true⟩, ⟨![3, 4, 5], true⟩, turnB⟩ (fun i => by fin_cases i <;> norm_num) true

end WFMath.Cases
