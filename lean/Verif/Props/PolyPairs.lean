/- Property theorems C100 and C101: plane polygons against segments and polygons. -/
import Verif.Props.PolyBox
import Verif.Props.SegmentPairs
import Verif.Props.PolyContains
import Verif.Props.PolyMoved

namespace WFMath
open Spec Matrix

/-! ### Evaluating the test of two segments -/

/-- The three inner products of the test of two segments are not affected by the cut-off, and the segments are not parallel. -/
theorem ss_side {s1 s2 : Seg 2} (h12 : DotExact (s1.p2.sub s1.p1) (s2.p2.sub s2.p1)) (h1 : DotExact (s1.p2.sub s1.p1) (s2.p1.sub s1.p1))
    (h2 : DotExact (s2.p2.sub s2.p1) (s2.p1.sub s1.p1))
    (hn : ((s1.p2.elem - s1.p1.elem) ⬝ᵥ (s2.p2.elem - s2.p1.elem)) ^ 2 <
      eucl s1.p1.elem s1.p2.elem ^ 2 * eucl s2.p1.elem s2.p2.elem ^ 2) (proper : Bool) (h : interSS s1 s2 proper = true) :
    ∃ a c : ℝ, a ≤ 0 ∧ 1 ≤ c ∧ (1 - a) • s1.p1.elem + a • s1.p2.elem = (1 - c) • s2.p1.elem + c • s2.p2.elem := by
  obtain ⟨k1, k2⟩ := C62_lines_partial s1 s2 h12 h1 h2 hn
  cases proper
  · exact k1.1 h
  · obtain ⟨a, c, ha, hc, h⟩ := k2.1 h
    exact ⟨a, c, ha.le, hc.le, h⟩

theorem ss_side_proper {s1 s2 : Seg 2} (h12 : DotExact (s1.p2.sub s1.p1) (s2.p2.sub s2.p1)) (h1 : DotExact (s1.p2.sub s1.p1) (s2.p1.sub s1.p1))
    (h2 : DotExact (s2.p2.sub s2.p1) (s2.p1.sub s1.p1))
    (hn : ((s1.p2.elem - s1.p1.elem) ⬝ᵥ (s2.p2.elem - s2.p1.elem)) ^ 2 <
      eucl s1.p1.elem s1.p2.elem ^ 2 * eucl s2.p1.elem s2.p2.elem ^ 2) (h : interSS s1 s2 true = true) :
    ∃ a c : ℝ, a < 0 ∧ 1 < c ∧ (1 - a) • s1.p1.elem + a • s1.p2.elem = (1 - c) • s2.p1.elem + c • s2.p2.elem :=
  (C62_lines_partial s1 s2 h12 h1 h2 hn).2.1 h

/-- An inner product of vectors with coordinates at most 8 that is 0 or at least 1/64 is not affected by the cut-off. -/
theorem dotExact_coarse {u v : Vec 2} (hu : ∀ i, |u.elem i| ≤ 8) (h : u.elem ⬝ᵥ v.elem = 0 ∨ 1 / 64 ≤ |u.elem ⬝ᵥ v.elem|) : DotExact u v := by
  have he := epsilon_lt
  have hp := epsilon_pos
  norm_num at he
  rcases h with h | h
  · exact dotExact_of_zero h
  · exact dotExact_of_max (M := 8) (maxAbs_le (by norm_num) hu) (by linarith)

macro "dot_ok" : tactic => `(tactic|
  (apply dotExact_coarse
   · intro i; fin_cases i <;> norm_num [Pt.sub_elem, abs_le]
   · norm_num [Pt.sub_elem, dotProduct, Fin.sum_univ_two, le_abs]))

macro "ss_false" : tactic => `(tactic|
  (rw [Bool.eq_false_iff]
   intro hss
   obtain ⟨a, c, ha, hc, h⟩ := ss_side (by dot_ok) (by dot_ok) (by dot_ok)
     (by rw [eucl_sq, eucl_sq]; norm_num [dotProduct, Fin.sum_univ_two]) _ hss
   have h0 := congrFun h 0
   have h1 := congrFun h 1
   simp at h0 h1
   linarith))

macro "ss_false_proper" : tactic => `(tactic|
  (rw [Bool.eq_false_iff]
   intro hss
   obtain ⟨a, c, ha, hc, h⟩ := ss_side_proper (by dot_ok) (by dot_ok) (by dot_ok)
     (by rw [eucl_sq, eucl_sq]; norm_num [dotProduct, Fin.sum_univ_two]) hss
   have h0 := congrFun h 0
   have h1 := congrFun h 1
   simp at h0 h1
   linarith))

/-- A point from which both ends of the segment lie on the same side is rejected. -/
theorem sp_false {s : Seg 2} {p : Pt 2} (hx : DotExact (s.p1.sub p) (s.p2.sub p)) (h : 1 / 8 ≤ (s.p1.elem - p.elem) ⬝ᵥ (s.p2.elem - p.elem)) :
    interSP s p false = false := by
  have he := epsilon_lt
  norm_num at he
  rw [Bool.eq_false_iff, Ne, interSP_false]
  rintro ⟨h1, -⟩
  rw [hx] at h1
  simp only [Pt.sub_elem] at h1
  linarith

/-- Points with a coordinate that differs by 1/8 are different. -/
theorem pt_apart {p q : Pt 2} (hp : ∀ i, |p.elem i| ≤ 8) (hq : ∀ i, |q.elem i| ≤ 8) (i : Fin 2) (h : 1 / 8 ≤ |p.elem i - q.elem i|) :
    p.isEqualTo q epsilon = false := by
  have he := epsilon_lt
  have hpos := epsilon_pos
  norm_num at he
  rw [Bool.eq_false_iff, Ne, C28_point_iff]
  rintro ⟨-, -, h1⟩
  have h2 := h1 i
  have h3 : scaleEpsilonArr p.elem q.elem epsilon ≤ 16 * epsilon := by
    by_cases h0 : p.elem = 0 ∨ q.elem = 0
    · rw [scaleEpsilonArr_zero h0]; linarith
    · push Not at h0
      refine (scaleEpsilonArr_le hpos.le h0.1 h0.2).trans ?_
      have := (min_le_left (maxAbs p.elem) (maxAbs q.elem)).trans (maxAbs_le (by norm_num) hp)
      nlinarith
  linarith

/-! ### C100 polygon and segment -/

/-- A polygon lies in every half plane that has all its corners. -/
theorem filled_half {p : Corners 2} {u : Fin 2 → ℝ} {k : ℝ} (h : ∀ c ∈ p, u ⬝ᵥ c.elem ≤ k) {x : Fin 2 → ℝ} (hx : x ∈ filled p) : u ⬝ᵥ x ≤ k := by
  rcases hx with hx | ⟨e, he, hx⟩
  · by_contra hc
    exact outside_half (u := u) east_ne (fun c hc' => lt_of_le_of_lt (h c hc') (not_le.1 hc)) hx.2
  · obtain ⟨⟨c, hc, h1⟩, d, hd, h2⟩ := mem_sides he
    obtain ⟨s, s0, s1, rfl⟩ := mem_seg.1 hx
    have k1 := h c hc
    have k2 := h d hd
    rw [← h1] at k1
    rw [← h2] at k2
    rw [dotProduct_add, dotProduct_smul, dotProduct_smul, smul_eq_mul, smul_eq_mul]
    nlinarith

/-- C100, the part that holds: when the first end of the segment is in the polygon, `Intersect(polygon, segment)` says that they meet. Missing: segments
whose first end is outside, where the answer may be wrong in both directions (`C100_false`). -/
theorem C100_end_partial (p : Corners 2) (s : Seg 2) (proper : Bool) (hf : FarFromSides p s.p1.elem) (h : s.p1.elem ∈ inside p) :
    interPolyS p s proper = some true := by
  unfold interPolyS
  rw [if_pos ((C74_even_odd p s.p1 proper hf east east_ne).2 h.2)]

/-- C100: the only polygon for which `Intersect(polygon, segment)` gives no answer is the one without corners. -/
theorem C100_answers (p : Corners 2) (s : Seg 2) (proper : Bool) : interPolyS p s proper = none ↔ p = [] := by
  unfold interPolyS
  constructor
  · intro h
    split_ifs at h with h1 h2
    exact h2
  · rintro rfl
    rw [interPolyP_nil]; rfl

theorem unitSquare_segs : edgeSegs (edges unitSquare) true = [⟨⟨![0, 1], true⟩, ⟨![0, 0], true⟩⟩, ⟨⟨![1, 0], true⟩, ⟨![0, 0], true⟩⟩,
    ⟨⟨![1, 0], true⟩, ⟨![1, 1], true⟩⟩, ⟨⟨![0, 1], true⟩, ⟨![1, 1], true⟩⟩] := by
  simp [edges, edgesFrom, edgeSegs, unitSquare]

/-- A point at height between 0 and 1, 1/8 away from the square on the left or on the right, is outside. -/
theorem unitSquare_beside {v : Bool} {x y : ℝ} (hx : |x| ≤ 4) (h : x ≤ -1 / 8 ∨ 9 / 8 ≤ x) (proper : Bool) :
    interPolyP unitSquare ⟨![x, y], v⟩ proper = false := by
  have e0 : equal x 0 epsilon = false := equal_apart hx (by rw [sub_zero, le_abs]; rcases h with h | h; · right; linarith
                                                            · left; linarith)
  have e1 : equal x 1 epsilon = false := equal_apart hx (by rw [le_abs]; rcases h with h | h; · right; linarith
                                                            · left; linarith)
  have hn : ¬ NearSide unitSquare ![x, y] := by
    rintro ⟨e, he, hs, x', hx', heq⟩
    rw [unitSquare_sides] at he
    obtain ⟨s, s0, s1, h2, h3⟩ := seg_coord hx'
    rw [← between_iff] at hs
    simp only [List.mem_cons, List.not_mem_nil, or_false] at he
    have hx'' : x' = 0 ∨ x' = 1 := by
      rcases he with rfl | rfl | rfl | rfl <;> simp at h2 h3
      · simp [between] at hs; linarith
      · exact Or.inr h2
      · simp [between] at hs; linarith
      · exact Or.inl h2
    rcases hx'' with rfl | rfl <;> simp [e0, e1] at heq
  rw [← Bool.not_eq_true, (C74_exact _ _ proper).2 hn]
  rcases h with h | h
  · refine outside_half (u := ![-1, 0]) east_ne fun c hc => ?_
    simp only [unitSquare, List.mem_cons, List.not_mem_nil, or_false] at hc
    rcases hc with rfl | rfl | rfl | rfl <;> simp [dotProduct, Fin.sum_univ_two] <;> linarith
  · refine outside_half (u := ![1, 0]) east_ne fun c hc => ?_
    simp only [unitSquare, List.mem_cons, List.not_mem_nil, or_false] at hc
    rcases hc with rfl | rfl | rfl | rfl <;> simp [dotProduct, Fin.sum_univ_two] <;> linarith

/-- A segment that goes right through the unit square is said to miss it. -/
theorem square_crossed {v : Bool} (proper : Bool) : interPolyS unitSquare ⟨⟨![-1, 3 / 4], v⟩, ⟨![2, 1 / 4], v⟩⟩ proper = some false := by
  unfold interPolyS
  rw [if_neg (by rw [unitSquare_beside (by norm_num [abs_of_neg]) (Or.inl (by norm_num))]; simp), if_neg (by simp [unitSquare]), unitSquare_segs]
  have a1 : interSS (⟨⟨![-1, 3 / 4], v⟩, ⟨![2, 1 / 4], v⟩⟩ : Seg 2) ⟨⟨![0, 1], true⟩, ⟨![0, 0], true⟩⟩ proper = false := by ss_false
  have a2 : interSS (⟨⟨![-1, 3 / 4], v⟩, ⟨![2, 1 / 4], v⟩⟩ : Seg 2) ⟨⟨![1, 0], true⟩, ⟨![0, 0], true⟩⟩ proper = false := by ss_false
  have a3 : interSS (⟨⟨![-1, 3 / 4], v⟩, ⟨![2, 1 / 4], v⟩⟩ : Seg 2) ⟨⟨![1, 0], true⟩, ⟨![1, 1], true⟩⟩ proper = false := by ss_false
  have a4 : interSS (⟨⟨![-1, 3 / 4], v⟩, ⟨![2, 1 / 4], v⟩⟩ : Seg 2) ⟨⟨![0, 1], true⟩, ⟨![1, 1], true⟩⟩ proper = false := by ss_false
  simp only [List.any_cons, List.any_nil, a1, a2, a3, a4, Bool.or_false]

/-- C100 is false of the code: a segment that goes right through the unit square is said to miss it, and one that is far from it is said to meet it. -/
theorem C100_false :
    (∃ (p : Corners 2) (s : Seg 2), s.valid = true ∧ (inside p ∩ segSet s).Nonempty ∧ ∀ proper, interPolyS p s proper = some false) ∧
    (∃ (p : Corners 2) (s : Seg 2), s.valid = true ∧ (∀ x ∈ filled p, ∀ y ∈ segSet s, 1 ≤ eucl x y) ∧ interPolyS p s false = some true) := by
  constructor
  · refine ⟨unitSquare, ⟨⟨![-1, 3 / 4], true⟩, ⟨![2, 1 / 4], true⟩⟩, rfl,
      ⟨![1 / 2, 1 / 2], unitSquare_inside (by norm_num) (by norm_num) (by norm_num) (by norm_num),
        1 / 2, by norm_num, by norm_num, by apply ext2 <;> norm_num⟩, fun proper => ?_⟩
    exact square_crossed (v := true) proper
  · refine ⟨unitSquare, ⟨⟨![2, 2], true⟩, ⟨![3, 3], true⟩⟩, rfl, ?_, ?_⟩
    · intro x hx y hy
      have hx1 : x 0 ≤ 1 := by
        rcases hx with hx | hx
        · by_contra hc
          push Not at hc
          refine outside_half (u := ![1, 0]) (ps := unitSquare) east_ne (fun c hc' => ?_) hx.2
          simp only [unitSquare, List.mem_cons, List.not_mem_nil, or_false] at hc'
          rcases hc' with rfl | rfl | rfl | rfl <;> simp [dotProduct, Fin.sum_univ_two, Matrix.vecHead] <;> linarith
        · exact (unitSquare_boundary hx).2.2.1
      obtain ⟨t, t0, t1, rfl⟩ := hy
      have := abs_sub_le_eucl x ((1 - t) • ![2, 2] + t • ![3, 3]) 0
      refine le_trans ?_ this
      rw [le_abs]
      right
      simp
      linarith
    · unfold interPolyS
      rw [if_neg (by rw [unitSquare_beside (by norm_num [abs_of_pos]) (Or.inr (by norm_num))]; simp), if_neg (by simp [unitSquare]), unitSquare_segs]
      have a1 : interSS (⟨⟨![2, 2], true⟩, ⟨![3, 3], true⟩⟩ : Seg 2) ⟨⟨![0, 1], true⟩, ⟨![0, 0], true⟩⟩ false = true := by
        rw [(C62_lines_partial _ _ (by dot_ok) (by dot_ok) (by dot_ok) (by rw [eucl_sq, eucl_sq]; norm_num [dotProduct, Fin.sum_univ_two])).1]
        exact ⟨-2, 1, by norm_num, by norm_num, by apply ext2 <;> norm_num⟩
      simp [a1]

/-- C100, the containment test: what it accepts has its first end in the polygon when the test is proper. -/
theorem C100_contains_partial (p : Corners 2) (s : Seg 2) (hf : FarFromSides p s.p1.elem) (h : containsPolyS p s true = some true) : s.p1.elem ∈ inside p := by
  unfold containsPolyS at h
  refine ⟨fun hb => ?_, (C74_even_odd p s.p1 true hf east east_ne).1 ?_⟩
  · obtain ⟨e, he, hx⟩ := hb
    have h1 := hf e he (s.p1.elem 0) (by convert hx using 1; apply ext2 <;> rfl)
    rw [equal_refl] at h1
    exact Bool.false_ne_true h1.symm
  · by_contra hc
    rw [Bool.not_eq_true] at hc
    rw [hc] at h
    simp at h

/-- For a segment from the last corner of the unit square to its middle, the tolerant test reads past the end. -/
theorem square_past_end : containsPolyS unitSquare ⟨⟨![0, 1], true⟩, ⟨![1 / 2, 1 / 2], true⟩⟩ false = none := by
  unfold containsPolyS
  rw [if_neg (by simp), if_neg (by simp [unitSquare])]
  have a1 : interSS (⟨⟨![0, 1], true⟩, ⟨![0, 0], true⟩⟩ : Seg 2) ⟨⟨![0, 1], true⟩, ⟨![1 / 2, 1 / 2], true⟩⟩ true = false := by ss_false
  have a2 : interSS (⟨⟨![1, 0], true⟩, ⟨![0, 0], true⟩⟩ : Seg 2) ⟨⟨![0, 1], true⟩, ⟨![1 / 2, 1 / 2], true⟩⟩ true = false := by ss_false_proper
  have a3 : interSS (⟨⟨![1, 0], true⟩, ⟨![1, 1], true⟩⟩ : Seg 2) ⟨⟨![0, 1], true⟩, ⟨![1 / 2, 1 / 2], true⟩⟩ true = false := by ss_false_proper
  have a4 : interSS (⟨⟨![0, 1], true⟩, ⟨![1, 1], true⟩⟩ : Seg 2) ⟨⟨![0, 1], true⟩, ⟨![1 / 2, 1 / 2], true⟩⟩ true = false := by ss_false
  have b1 : interSP (⟨⟨![0, 1], true⟩, ⟨![1 / 2, 1 / 2], true⟩⟩ : Seg 2) ⟨![0, 0], true⟩ false = false :=
    sp_false (by dot_ok) (by norm_num [dotProduct, Fin.sum_univ_two])
  have b2 : interSP (⟨⟨![0, 1], true⟩, ⟨![1 / 2, 1 / 2], true⟩⟩ : Seg 2) ⟨![1, 0], true⟩ false = false :=
    sp_false (by dot_ok) (by norm_num [dotProduct, Fin.sum_univ_two])
  have b3 : interSP (⟨⟨![0, 1], true⟩, ⟨![1 / 2, 1 / 2], true⟩⟩ : Seg 2) ⟨![1, 1], true⟩ false = false :=
    sp_false (by dot_ok) (by norm_num [dotProduct, Fin.sum_univ_two])
  have b4 : interSP (⟨⟨![0, 1], true⟩, ⟨![1 / 2, 1 / 2], true⟩⟩ : Seg 2) ⟨![0, 1], true⟩ false = true :=
    C61_accepts _ _ ⟨0, le_refl _, by norm_num, by apply ext2 <;> norm_num⟩
  have b5 : (⟨![0, 1], true⟩ : Pt 2).isEqualTo ⟨![1 / 2, 1 / 2], true⟩ epsilon = false :=
    pt_apart (fun i => by fin_cases i <;> norm_num [abs_le]) (fun i => by fin_cases i <;> norm_num [abs_le]) 0 (by norm_num [le_abs])
  have hl : unitSquare.getLastD Pt.default = ⟨![0, 1], true⟩ := by simp [unitSquare]
  rw [hl]
  simp only [unitSquare, polySLoop, polySStep, if_true, Bool.not_true, Bool.not_false, if_false, Bool.false_eq_true, a1, a2, a3, a4, b1, b2, b3, b4, b5]
  simp [polySParity, between]

/-- C100 is false of `Contains(polygon, segment)`: it says of a segment well inside the unit square that it is not contained, of one that ends outside
that it is, and for one that starts at the last corner it reads past the end of the vector of corners. -/
theorem C100_contains_false :
    (∃ (p : Corners 2) (s : Seg 2), s.valid = true ∧ segSet s ⊆ inside p ∧ containsPolyS p s true = some false) ∧
    (∃ (p : Corners 2) (s : Seg 2), s.valid = true ∧ (∃ x ∈ segSet s, x ∉ filled p) ∧ containsPolyS p s true = some true) ∧
    (∃ (p : Corners 2) (s : Seg 2), s.valid = true ∧ segSet s ⊆ filled p ∧ containsPolyS p s false = none) := by
  refine ⟨⟨unitSquare, ⟨⟨![1 / 2, 1 / 2], true⟩, ⟨![3 / 8, 11 / 16], true⟩⟩, rfl, ?_, ?_⟩,
    ⟨unitSquare, ⟨⟨![1 / 2, 1 / 2], true⟩, ⟨![2, 3 / 4], true⟩⟩, rfl, ⟨![2, 3 / 4], ⟨1, by norm_num, by norm_num, by apply ext2 <;> norm_num⟩, ?_⟩, ?_⟩,
    ⟨unitSquare, ⟨⟨![0, 1], true⟩, ⟨![1 / 2, 1 / 2], true⟩⟩, rfl, ?_, ?_⟩⟩
  · rintro x ⟨t, t0, t1, rfl⟩
    apply unitSquare_inside <;> simp <;> linarith
  · unfold containsPolyS
    rw [if_neg (by rw [square_eval]; norm_num), if_neg (by simp [unitSquare])]
    have a1 : interSS (⟨⟨![0, 1], true⟩, ⟨![0, 0], true⟩⟩ : Seg 2) ⟨⟨![1 / 2, 1 / 2], true⟩, ⟨![3 / 8, 11 / 16], true⟩⟩ false = true := by
      rw [(C62_lines_partial _ _ (by dot_ok) (by dot_ok) (by dot_ok) (by rw [eucl_sq, eucl_sq]; norm_num [dotProduct, Fin.sum_univ_two])).1]
      exact ⟨-1 / 4, 4, by norm_num, by norm_num, by apply ext2 <;> norm_num⟩
    have hl : unitSquare.getLastD Pt.default = ⟨![0, 1], true⟩ := by simp [unitSquare]
    rw [hl]
    simp only [unitSquare, polySLoop, if_true, Bool.not_true, a1]
  · intro h
    have : ![1, 0] ⬝ᵥ ![2, 3 / 4] ≤ (1 : ℝ) := filled_half (fun c hc => by
        simp only [unitSquare, List.mem_cons, List.not_mem_nil, or_false] at hc
        rcases hc with rfl | rfl | rfl | rfl <;> simp [dotProduct, Fin.sum_univ_two]) h
    norm_num [dotProduct, Fin.sum_univ_two] at this
  · unfold containsPolyS
    rw [if_neg (by rw [square_eval]; norm_num), if_neg (by simp [unitSquare])]
    have a1 : interSS (⟨⟨![0, 1], true⟩, ⟨![0, 0], true⟩⟩ : Seg 2) ⟨⟨![1 / 2, 1 / 2], true⟩, ⟨![2, 3 / 4], true⟩⟩ false = false := by ss_false
    have a2 : interSS (⟨⟨![1, 0], true⟩, ⟨![0, 0], true⟩⟩ : Seg 2) ⟨⟨![1 / 2, 1 / 2], true⟩, ⟨![2, 3 / 4], true⟩⟩ false = false := by ss_false
    have a3 : interSS (⟨⟨![1, 0], true⟩, ⟨![1, 1], true⟩⟩ : Seg 2) ⟨⟨![1 / 2, 1 / 2], true⟩, ⟨![2, 3 / 4], true⟩⟩ false = false := by ss_false
    have a4 : interSS (⟨⟨![0, 1], true⟩, ⟨![1, 1], true⟩⟩ : Seg 2) ⟨⟨![1 / 2, 1 / 2], true⟩, ⟨![2, 3 / 4], true⟩⟩ false = false := by ss_false
    have hl : unitSquare.getLastD Pt.default = ⟨![0, 1], true⟩ := by simp [unitSquare]
    rw [hl]
    simp only [unitSquare, polySLoop, if_true, Bool.not_true, Bool.not_false, if_false, Bool.false_eq_true, a1, a2, a3, a4, Bool.true_or]
  · rintro x ⟨t, t0, t1, rfl⟩
    rcases t0.eq_or_lt with rfl | t0
    · right
      refine ⟨(![0, 1], ![0, 0]), by rw [unitSquare_sides]; simp, mem_seg.2 ⟨0, le_refl _, by norm_num, by apply ext2 <;> norm_num⟩⟩
    · left
      apply unitSquare_inside <;> simp <;> linarith
  · exact square_past_end

/-! ### C101 two polygons -/

/-- C101, the part that holds: when the first corner of one polygon is inside the other, `Intersect(polygon, polygon)` says that they meet. Missing: other
polygons, where the answer may be wrong in both directions (`C101_false`). -/
theorem C101_corner_partial (p q : Corners 2) (c d : Pt 2) (p' q' : Corners 2) (hp : p = c :: p') (hq : q = d :: q') (proper : Bool)
    (h : (FarFromSides p d.elem ∧ d.elem ∈ inside p) ∨ (FarFromSides q c.elem ∧ c.elem ∈ inside q)) : interPolyPoly2 p q proper = some true := by
  have h' : (interPolyP p (q.headD Pt.default) proper || interPolyP q (p.headD Pt.default) proper) = true := by
    rw [Bool.or_eq_true]
    rcases h with ⟨h1, h2⟩ | ⟨h1, h2⟩
    · left; rw [hq]; exact (C74_even_odd p d proper h1 east east_ne).2 h2.2
    · right
      have : p.headD Pt.default = c := by rw [hp]; rfl
      rw [this]
      exact (C74_even_odd q c proper h1 east east_ne).2 h2.2
  unfold interPolyPoly2
  rw [if_neg (by rw [hp, hq]; simp)]
  split_ifs
  · rfl
  · rw [h']

/-- A triangle with corners (0,0), (4,0), (0,4). -/
noncomputable def triA : Corners 2 := [⟨![0, 0], true⟩, ⟨![4, 0], true⟩, ⟨![0, 4], true⟩]
/-- A triangle with corners (-1,1), (1,0), (2,2), which overlaps `triA`. -/
noncomputable def triB : Corners 2 := [⟨![-1, 1], true⟩, ⟨![1, 0], true⟩, ⟨![2, 2], true⟩]


theorem triA_segs : edgeSegs (edges triA) true = [⟨⟨![0, 4], true⟩, ⟨![0, 0], true⟩⟩, ⟨⟨![4, 0], true⟩, ⟨![0, 0], true⟩⟩,
    ⟨⟨![4, 0], true⟩, ⟨![0, 4], true⟩⟩] := by
  simp [edges, edgesFrom, edgeSegs, triA]

theorem triB_segs : edgeSegs (edges triB) true = [⟨⟨![2, 2], true⟩, ⟨![-1, 1], true⟩⟩, ⟨⟨![1, 0], true⟩, ⟨![-1, 1], true⟩⟩,
    ⟨⟨![1, 0], true⟩, ⟨![2, 2], true⟩⟩] := by
  simp [edges, edgesFrom, edgeSegs, triB]

theorem triB_segs' : edgeSegs (edges triB) false = [⟨⟨![-1, 1], true⟩, ⟨![2, 2], true⟩⟩, ⟨⟨![-1, 1], true⟩, ⟨![1, 0], true⟩⟩,
    ⟨⟨![2, 2], true⟩, ⟨![1, 0], true⟩⟩] := by
  simp [edges, edgesFrom, edgeSegs, triB]

theorem triA_sides : sides triA = [(![0, 0], ![4, 0]), (![4, 0], ![0, 4]), (![0, 4], ![0, 0])] := by
  simp [sides, triA]

theorem triB_sides : sides triB = [(![-1, 1], ![1, 0]), (![1, 0], ![2, 2]), (![2, 2], ![-1, 1])] := by
  simp [sides, triB]

/-- A point that lies in a half plane without corners, and is not next to a side at its height, is outside for the code. -/
theorem outside_code {p : Corners 2} {x y : ℝ} (hx : |x| ≤ 4) (u : Fin 2 → ℝ) (hu : ∀ c ∈ p, u ⬝ᵥ c.elem < u ⬝ᵥ ![x, y])
    (hs : ∀ e ∈ sides p, ∀ s : ℝ, 0 ≤ s → s ≤ 1 → y = (1 - s) * e.1 1 + s * e.2 1 → 1 / 8 ≤ |x - ((1 - s) * e.1 0 + s * e.2 0)|) (proper : Bool) :
    interPolyP p ⟨![x, y], true⟩ proper = false := by
  have hn : ¬ NearSide p ![x, y] := by
    rintro ⟨e, he, -, x', hx', heq⟩
    obtain ⟨s, s0, s1, h2, h3⟩ := seg_coord hx'
    have := hs e he s s0 s1 h3
    have h2' : x' = (1 - s) * e.1 0 + s * e.2 0 := h2
    rw [← h2'] at this
    have heq' : equal x x' epsilon = true := heq
    rw [equal_apart hx this] at heq'
    exact Bool.false_ne_true heq'
  rw [← Bool.not_eq_true, (C74_exact _ _ proper).2 hn]
  exact outside_half (u := u) east_ne hu

/-- C101 is false of the code: two triangles that overlap are said not to meet, and two that are far apart are said to meet. -/
theorem C101_false :
    (∃ p q : Corners 2, (inside p ∩ inside q).Nonempty ∧ ∀ proper, interPolyPoly2 p q proper = some false) ∧
    (∃ p q : Corners 2, (∀ x ∈ filled p, ∀ y ∈ filled q, 1 ≤ eucl x y) ∧ interPolyPoly2 p q false = some true) := by
  constructor
  · refine ⟨triA, triB, ⟨![1, 1], ?_, ?_⟩, fun proper => ?_⟩
    · refine ⟨?_, triangle_odd (a := ![0, 0]) (b := ![4, 0]) (c := ![0, 4]) ?_ ?_ ?_ _ rfl⟩
      · rintro ⟨e, he, hx⟩
        obtain ⟨s, s0, s1, h2, h3⟩ := seg_coord hx
        rw [triA_sides] at he
        simp only [List.mem_cons, List.not_mem_nil, or_false] at he
        rcases he with rfl | rfl | rfl <;> simp at h2 h3 <;> linarith
      all_goals simp [cr]
      all_goals norm_num
    · refine ⟨?_, triangle_odd (a := ![-1, 1]) (b := ![1, 0]) (c := ![2, 2]) ?_ ?_ ?_ _ rfl⟩
      · rintro ⟨e, he, hx⟩
        obtain ⟨s, s0, s1, h2, h3⟩ := seg_coord hx
        rw [triB_sides] at he
        simp only [List.mem_cons, List.not_mem_nil, or_false] at he
        rcases he with rfl | rfl | rfl <;> simp at h2 h3 <;> linarith
      all_goals simp [cr]
      all_goals norm_num
    unfold interPolyPoly2
    rw [if_neg (by simp [triA, triB])]
    have hl : polyPolyLoop (edges triB) proper (edgeSegs (edges triA) true) true = false := by
      have a1 : interSS (⟨⟨![0, 4], true⟩, ⟨![0, 0], true⟩⟩ : Seg 2) ⟨⟨![2, 2], true⟩, ⟨![-1, 1], true⟩⟩ proper = false := by ss_false
      have a2 : interSS (⟨⟨![0, 4], true⟩, ⟨![0, 0], true⟩⟩ : Seg 2) ⟨⟨![1, 0], true⟩, ⟨![-1, 1], true⟩⟩ proper = false := by ss_false
      have a3 : interSS (⟨⟨![0, 4], true⟩, ⟨![0, 0], true⟩⟩ : Seg 2) ⟨⟨![1, 0], true⟩, ⟨![2, 2], true⟩⟩ proper = false := by ss_false
      have b1 : interSS (⟨⟨![4, 0], true⟩, ⟨![0, 0], true⟩⟩ : Seg 2) ⟨⟨![-1, 1], true⟩, ⟨![2, 2], true⟩⟩ proper = false := by ss_false
      have b2 : interSS (⟨⟨![4, 0], true⟩, ⟨![0, 0], true⟩⟩ : Seg 2) ⟨⟨![-1, 1], true⟩, ⟨![1, 0], true⟩⟩ proper = false := by ss_false
      have b3 : interSS (⟨⟨![4, 0], true⟩, ⟨![0, 0], true⟩⟩ : Seg 2) ⟨⟨![2, 2], true⟩, ⟨![1, 0], true⟩⟩ proper = false := by ss_false
      have c1 : interSS (⟨⟨![4, 0], true⟩, ⟨![0, 4], true⟩⟩ : Seg 2) ⟨⟨![2, 2], true⟩, ⟨![-1, 1], true⟩⟩ proper = false := by ss_false
      have c2 : interSS (⟨⟨![4, 0], true⟩, ⟨![0, 4], true⟩⟩ : Seg 2) ⟨⟨![1, 0], true⟩, ⟨![-1, 1], true⟩⟩ proper = false := by ss_false
      have c3 : interSS (⟨⟨![4, 0], true⟩, ⟨![0, 4], true⟩⟩ : Seg 2) ⟨⟨![1, 0], true⟩, ⟨![2, 2], true⟩⟩ proper = false := by ss_false
      have hlen : (edges triB).length % 2 = 1 := by simp [edges, edgesFrom, triB]
      simp only [triA_segs, polyPolyLoop, hlen, if_true, triB_segs, triB_segs', List.any_cons, List.any_nil, a1, a2, a3, b1, b2, b3, c1, c2, c3, Bool.or_false,
        Bool.not_true, Bool.not_false, Bool.false_eq_true, if_false]
    have h1 : interPolyP triA (triB.headD Pt.default) proper = false := by
      refine outside_code (x := -1) (y := 1) (by norm_num) ![-1, 0] (fun c hc => ?_) (fun e he s s0 s1 h => ?_) proper
      · simp only [triA, List.mem_cons, List.not_mem_nil, or_false] at hc
        rcases hc with rfl | rfl | rfl <;> simp [dotProduct, Fin.sum_univ_two]
        norm_num
      · rw [triA_sides] at he
        simp only [List.mem_cons, List.not_mem_nil, or_false] at he
        rw [le_abs]
        right
        rcases he with rfl | rfl | rfl <;> simp <;> linarith
    have h2 : interPolyP triB (triA.headD Pt.default) proper = false := by
      refine outside_code (x := 0) (y := 0) (by norm_num) ![-1, -2] (fun c hc => ?_) (fun e he s s0 s1 h => ?_) proper
      · simp only [triB, List.mem_cons, List.not_mem_nil, or_false] at hc
        rcases hc with rfl | rfl | rfl <;> simp [dotProduct, Fin.sum_univ_two] <;> norm_num
      · rw [triB_sides] at he
        simp only [List.mem_cons, List.not_mem_nil, or_false] at he
        rw [le_abs]
        right
        rcases he with rfl | rfl | rfl <;> simp at h ⊢ <;> linarith
    rw [hl, h1, h2]; simp
  · refine ⟨unitSquare, [⟨![2, 4], true⟩, ⟨![5, 4], true⟩, ⟨![3, 5], true⟩], fun x hx y hy => ?_, ?_⟩
    · have h1 : ![1, 0] ⬝ᵥ x ≤ 1 := filled_half (fun c hc => by
        simp only [unitSquare, List.mem_cons, List.not_mem_nil, or_false] at hc
        rcases hc with rfl | rfl | rfl | rfl <;> simp [dotProduct, Fin.sum_univ_two]) hx
      have h2 : ![-1, 0] ⬝ᵥ y ≤ -2 := filled_half (fun c hc => by
        simp only [List.mem_cons, List.not_mem_nil, or_false] at hc
        rcases hc with rfl | rfl | rfl <;> simp [dotProduct, Fin.sum_univ_two] <;> norm_num) hy
      simp [dotProduct, Fin.sum_univ_two, Matrix.vecHead] at h1 h2
      refine le_trans ?_ (abs_sub_le_eucl x y 0)
      rw [le_abs]
      right
      linarith
    · unfold interPolyPoly2
      rw [if_neg (by simp [unitSquare])]
      have a1 : interSS (⟨⟨![0, 1], true⟩, ⟨![0, 0], true⟩⟩ : Seg 2) ⟨⟨![3, 5], true⟩, ⟨![2, 4], true⟩⟩ false = true := by
        rw [(C62_lines_partial _ _ (by dot_ok) (by dot_ok) (by dot_ok) (by rw [eucl_sq, eucl_sq]; norm_num [dotProduct, Fin.sum_univ_two])).1]
        exact ⟨-1, 3, by norm_num, by norm_num, by apply ext2 <;> norm_num⟩
      rw [if_pos]
      rw [unitSquare_segs]
      simp [polyPolyLoop, edgeSegs, edges, edgesFrom, a1]


/-- C101, the proper containment test: the first corner of what it accepts is in the outer polygon. -/
theorem C101_contains_partial (p q : Corners 2) (c : Pt 2) (q' : Corners 2) (hq : q = c :: q') (hf : FarFromSides p c.elem)
    (h : containsPolyPoly2 p q true = some true) : c.elem ∈ inside p := by
  unfold containsPolyPoly2 at h
  refine ⟨fun hb => ?_, (C74_even_odd p c true hf east east_ne).1 ?_⟩
  · obtain ⟨e, he, hx⟩ := hb
    have h1 := hf e he (c.elem 0) (by convert hx using 1; apply ext2 <;> rfl)
    rw [equal_refl] at h1
    exact Bool.false_ne_true h1.symm
  · by_contra hc
    rw [Bool.not_eq_true] at hc
    have hh : q.headD Pt.default = c := by rw [hq]; rfl
    rw [hh, hc] at h
    simp [hq] at h

/-- C101 is false of `Contains(polygon, polygon)`: it says of a triangle well inside the unit square that it is not contained, of one that leaves the
square that it is, and for one that has the last corner of the square as a corner it reads past the end of the vector of corners. -/
theorem C101_contains_false :
    (∃ p q : Corners 2, filled q ⊆ inside p ∧ containsPolyPoly2 p q true = some false) ∧
    (∃ p q : Corners 2, ¬ filled q ⊆ filled p ∧ containsPolyPoly2 p q true = some true) ∧
    (∃ p q : Corners 2, filled q ⊆ filled p ∧ containsPolyPoly2 p q false = none) := by
  refine ⟨⟨unitSquare, [⟨![1 / 2, 3 / 4], true⟩, ⟨![5 / 8, 1 / 2], true⟩, ⟨![3 / 8, 1 / 2], true⟩], fun x hx => ?_, ?_⟩,
    ⟨unitSquare, [⟨![1 / 2, 1 / 2], true⟩, ⟨![-2, -2], true⟩, ⟨![-3 / 2, 1], true⟩], fun hs => ?_, ?_⟩,
    ⟨unitSquare, [⟨![1 / 2, 1 / 2], true⟩, ⟨![1 / 4, 1 / 2], true⟩, ⟨![0, 1], true⟩], fun x hx => ?_, ?_⟩⟩
  · have hc : ∀ u : Fin 2 → ℝ, ∀ k, u 0 * (1 / 2) + u 1 * (3 / 4) ≤ k → u 0 * (5 / 8) + u 1 * (1 / 2) ≤ k → u 0 * (3 / 8) + u 1 * (1 / 2) ≤ k →
        u 0 * x 0 + u 1 * x 1 ≤ k := by
      intro u k k1 k2 k3
      have := filled_half (u := u) (k := k) (fun c hc => by
        simp only [List.mem_cons, List.not_mem_nil, or_false] at hc
        rcases hc with rfl | rfl | rfl <;> simp only [dotProduct, Fin.sum_univ_two] <;> assumption) hx
      simpa [dotProduct, Fin.sum_univ_two] using this
    have c1 := hc ![-1, 0] (-1 / 8) (by norm_num) (by norm_num) (by norm_num)
    have c2 := hc ![1, 0] (7 / 8) (by norm_num) (by norm_num) (by norm_num)
    have c3 := hc ![0, -1] (-1 / 8) (by norm_num) (by norm_num) (by norm_num)
    have c4 := hc ![0, 1] (7 / 8) (by norm_num) (by norm_num) (by norm_num)
    simp at c1 c2 c3 c4
    apply unitSquare_inside <;> linarith
  · unfold containsPolyPoly2
    rw [if_neg (by simp), if_neg (by rw [List.headD_cons, square_eval]; norm_num)]
    have a1 : interSS (⟨⟨![3 / 8, 1 / 2], true⟩, ⟨![1 / 2, 3 / 4], true⟩⟩ : Seg 2) ⟨⟨![0, 1], true⟩, ⟨![0, 0], true⟩⟩ false = true := by
      rw [(C62_lines_partial _ _ (by dot_ok) (by dot_ok) (by dot_ok) (by rw [eucl_sq, eucl_sq]; norm_num [dotProduct, Fin.sum_univ_two])).1]
      exact ⟨-3, 5 / 4, by norm_num, by norm_num, by apply ext2 <;> norm_num⟩
    have he : edgeSegs (edges [⟨![1 / 2, 3 / 4], true⟩, ⟨![5 / 8, 1 / 2], true⟩, ⟨![3 / 8, 1 / 2], true⟩]) true =
        [⟨⟨![3 / 8, 1 / 2], true⟩, ⟨![1 / 2, 3 / 4], true⟩⟩, ⟨⟨![5 / 8, 1 / 2], true⟩, ⟨![1 / 2, 3 / 4], true⟩⟩,
          ⟨⟨![5 / 8, 1 / 2], true⟩, ⟨![3 / 8, 1 / 2], true⟩⟩] := by simp [edges, edgesFrom, edgeSegs]
    rw [he]
    unfold containsPolyPolyLoop
    rw [if_neg (by simp), if_neg (by simp [unitSquare]), unitSquare_segs, if_pos (by simp only [List.any_cons, a1, Bool.true_or])]
  · have : ![-1, 0] ⬝ᵥ ![-2, -2] ≤ (1 : ℝ) := filled_half (fun c hc => by
        simp only [unitSquare, List.mem_cons, List.not_mem_nil, or_false] at hc
        rcases hc with rfl | rfl | rfl | rfl <;> norm_num [dotProduct, Fin.sum_univ_two])
        (hs (Or.inr ⟨(![1 / 2, 1 / 2], ![-2, -2]), by simp [sides], right_mem_segment ℝ _ _⟩))
    norm_num [dotProduct, Fin.sum_univ_two] at this
  · unfold containsPolyPoly2
    rw [if_neg (by simp), if_neg (by rw [List.headD_cons, square_eval]; norm_num)]
    have he : edgeSegs (edges [⟨![1 / 2, 1 / 2], true⟩, ⟨![-2, -2], true⟩, ⟨![-3 / 2, 1], true⟩]) true =
        [⟨⟨![-3 / 2, 1], true⟩, ⟨![1 / 2, 1 / 2], true⟩⟩, ⟨⟨![-2, -2], true⟩, ⟨![1 / 2, 1 / 2], true⟩⟩,
          ⟨⟨![-2, -2], true⟩, ⟨![-3 / 2, 1], true⟩⟩] := by simp [edges, edgesFrom, edgeSegs]
    rw [he]
    have hu : unitSquare ≠ [] := by simp [unitSquare]
    have a0 : interSS (⟨⟨![-3 / 2, 1], true⟩, ⟨![1 / 2, 1 / 2], true⟩⟩ : Seg 2) ⟨⟨![0, 1], true⟩, ⟨![0, 0], true⟩⟩ false = false := by ss_false
    have a1 : interSS (⟨⟨![-3 / 2, 1], true⟩, ⟨![1 / 2, 1 / 2], true⟩⟩ : Seg 2) ⟨⟨![1, 0], true⟩, ⟨![0, 0], true⟩⟩ false = false := by ss_false
    have a2 : interSS (⟨⟨![-3 / 2, 1], true⟩, ⟨![1 / 2, 1 / 2], true⟩⟩ : Seg 2) ⟨⟨![1, 0], true⟩, ⟨![1, 1], true⟩⟩ false = false := by ss_false
    have a3 : interSS (⟨⟨![-3 / 2, 1], true⟩, ⟨![1 / 2, 1 / 2], true⟩⟩ : Seg 2) ⟨⟨![0, 1], true⟩, ⟨![1, 1], true⟩⟩ false = false := by ss_false
    have b0 : interSS (⟨⟨![-2, -2], true⟩, ⟨![1 / 2, 1 / 2], true⟩⟩ : Seg 2) ⟨⟨![0, 1], true⟩, ⟨![0, 0], true⟩⟩ false = false := by ss_false
    have b1 : interSS (⟨⟨![-2, -2], true⟩, ⟨![1 / 2, 1 / 2], true⟩⟩ : Seg 2) ⟨⟨![1, 0], true⟩, ⟨![0, 0], true⟩⟩ false = false := by ss_false
    have b2 : interSS (⟨⟨![-2, -2], true⟩, ⟨![1 / 2, 1 / 2], true⟩⟩ : Seg 2) ⟨⟨![1, 0], true⟩, ⟨![1, 1], true⟩⟩ false = false := by ss_false
    have b3 : interSS (⟨⟨![-2, -2], true⟩, ⟨![1 / 2, 1 / 2], true⟩⟩ : Seg 2) ⟨⟨![0, 1], true⟩, ⟨![1, 1], true⟩⟩ false = false := by ss_false
    have c0 : interSS (⟨⟨![-2, -2], true⟩, ⟨![-3 / 2, 1], true⟩⟩ : Seg 2) ⟨⟨![0, 1], true⟩, ⟨![0, 0], true⟩⟩ false = false := by ss_false
    have c1 : interSS (⟨⟨![-2, -2], true⟩, ⟨![-3 / 2, 1], true⟩⟩ : Seg 2) ⟨⟨![1, 0], true⟩, ⟨![0, 0], true⟩⟩ false = false := by ss_false
    have c2 : interSS (⟨⟨![-2, -2], true⟩, ⟨![-3 / 2, 1], true⟩⟩ : Seg 2) ⟨⟨![1, 0], true⟩, ⟨![1, 1], true⟩⟩ false = false := by ss_false
    have c3 : interSS (⟨⟨![-2, -2], true⟩, ⟨![-3 / 2, 1], true⟩⟩ : Seg 2) ⟨⟨![0, 1], true⟩, ⟨![1, 1], true⟩⟩ false = false := by ss_false
    simp only [containsPolyPolyLoop, Bool.not_true, Bool.false_eq_true, if_false, hu, unitSquare_segs, List.any_cons, List.any_nil, a0, a1, a2, a3, b0, b1, b2, b3, c0, c1, c2, c3, Bool.or_false]
  · have hc : ∀ u : Fin 2 → ℝ, ∀ k, u 0 * (1 / 2) + u 1 * (1 / 2) ≤ k → u 0 * (1 / 4) + u 1 * (1 / 2) ≤ k → u 0 * 0 + u 1 * 1 ≤ k →
        u 0 * x 0 + u 1 * x 1 ≤ k := by
      intro u k k1 k2 k3
      have := filled_half (u := u) (k := k) (fun c hc => by
        simp only [List.mem_cons, List.not_mem_nil, or_false] at hc
        rcases hc with rfl | rfl | rfl <;> simp only [dotProduct, Fin.sum_univ_two] <;> assumption) hx
      simpa [dotProduct, Fin.sum_univ_two] using this
    have c1 := hc ![-1, 0] 0 (by norm_num) (by norm_num) (by norm_num)
    have c2 := hc ![1, 0] (1 / 2) (by norm_num) (by norm_num) (by norm_num)
    have c3 := hc ![0, -1] (-1 / 2) (by norm_num) (by norm_num) (by norm_num)
    have c4 := hc ![1, 1] 1 (by norm_num) (by norm_num) (by norm_num)
    simp at c1 c2 c3 c4
    rcases c1.eq_or_lt with h0 | h0
    · right
      exact ⟨(![0, 1], ![0, 0]), by rw [unitSquare_sides]; simp, mem_seg.2 ⟨1 - x 1, by linarith, by linarith, by apply ext2 <;> simp [← h0]⟩⟩
    · left
      apply unitSquare_inside <;> linarith
  · unfold containsPolyPoly2
    rw [if_neg (by simp), if_neg (by simp)]
    have he : edgeSegs (edges [⟨![1 / 2, 1 / 2], true⟩, ⟨![1 / 4, 1 / 2], true⟩, ⟨![0, 1], true⟩]) true =
        [⟨⟨![0, 1], true⟩, ⟨![1 / 2, 1 / 2], true⟩⟩, ⟨⟨![1 / 4, 1 / 2], true⟩, ⟨![1 / 2, 1 / 2], true⟩⟩,
          ⟨⟨![1 / 4, 1 / 2], true⟩, ⟨![0, 1], true⟩⟩] := by simp [edges, edgesFrom, edgeSegs]
    rw [he]
    unfold containsPolyPolyLoop
    rw [if_pos (by simp), square_past_end]; rfl

/-! ### C100 polygons in a segment, C102 polygons in a point -/

/-- The points within `r` of a segment form a convex set. -/
theorem convex_near_seg (s : Seg n) (r : ℝ) : Convex ℝ {x | ∃ y ∈ segSet s, eucl x y ≤ r} := by
  rintro x ⟨y, ⟨t, t0, t1, rfl⟩, hy⟩ x' ⟨y', ⟨t', t0', t1', rfl⟩, hy'⟩ a b ha hb hab
  refine ⟨a • ((1 - t) • s.p1.elem + t • s.p2.elem) + b • ((1 - t') • s.p1.elem + t' • s.p2.elem), ⟨a * t + b * t', by positivity, by nlinarith, ?_⟩, ?_⟩
  · have : b = 1 - a := by linarith
    subst this
    module
  · rw [eucl_eq_len] at hy hy' ⊢
    have he : a • x + b • x' - (a • ((1 - t) • s.p1.elem + t • s.p2.elem) + b • ((1 - t') • s.p1.elem + t' • s.p2.elem)) =
        a • (x - ((1 - t) • s.p1.elem + t • s.p2.elem)) + b • (x' - ((1 - t') • s.p1.elem + t' • s.p2.elem)) := by module
    rw [he]
    refine (len_add_le _ _).trans ?_
    rw [len_smul, len_smul, abs_of_nonneg ha, abs_of_nonneg hb]
    have h1 := mul_le_mul_of_nonneg_left hy ha
    have h2 := mul_le_mul_of_nonneg_left hy' hb
    have : r = a * r + b * r := by rw [← add_mul, hab, one_mul]
    linarith

/-- C100, polygon in a segment: a polygon all of whose points are on the segment is accepted, and all points of a polygon that is accepted as properly
inside are within `√(2 ε)` times the length of the segment. -/
theorem C100_in_segment (s : Seg 2) (p : Corners 2) :
    (filled p ⊆ segSet s → containsSPoly s p false = true) ∧
    (containsSPoly s p true = true → ∀ x ∈ convexHull ℝ (cornerSet p), ∃ y ∈ segSet s, eucl x y ≤ Real.sqrt (2 * epsilon) * eucl s.p1.elem s.p2.elem) := by
  unfold containsSPoly
  rw [List.all_eq_true, List.all_eq_true]
  refine ⟨fun h c hc => C61_accepts s c (h (Or.inr (corner_boundary hc))), fun h => ?_⟩
  have : convexHull ℝ (cornerSet p) ⊆ _ := convexHull_min (fun x hx => by
    obtain ⟨c, hc, rfl⟩ := mem_cornerSet.1 hx
    exact C61_rejects_proper s c (h c hc)) (convex_near_seg s _)
  exact this

/-- What tolerant equality of points means: the coordinates differ by at most `2 ε` times the largest coordinate, or by at most `ε`. -/
theorem pt_equal_bound {p q : Pt n} (h : p.isEqualTo q epsilon = true) (i : Fin n) : |q.elem i - p.elem i| ≤ epsilon * (1 + 2 * maxAbs p.elem) := by
  have hpos := epsilon_pos
  have hm := maxAbs_nonneg p.elem
  obtain ⟨-, -, h1⟩ := (C28_point_iff _ _ _).1 h
  rw [abs_sub_comm]
  refine (h1 i).trans ?_
  by_cases h0 : p.elem = 0 ∨ q.elem = 0
  · rw [scaleEpsilonArr_zero h0]; nlinarith
  · push Not at h0
    refine (scaleEpsilonArr_le hpos.le h0.1 h0.2).trans ?_
    have := min_le_left (maxAbs p.elem) (maxAbs q.elem)
    nlinarith

/-- The points whose coordinates differ by at most `r` from those of `c` form a convex set. -/
theorem convex_cube (c : Fin n → ℝ) (r : ℝ) : Convex ℝ {x : Fin n → ℝ | ∀ i, |x i - c i| ≤ r} := by
  intro x hx y hy a b ha hb hab i
  have h1 := hx i
  have h2 := hy i
  rw [abs_le] at h1 h2 ⊢
  have : b = 1 - a := by linarith
  subst this
  simp only [Pi.add_apply, Pi.smul_apply, smul_eq_mul]
  constructor <;> nlinarith

/-- C102: a point is never properly in a point, and two points meet exactly when they are valid and equal up to the tolerance: equal ones do, and ones
that do differ by at most `ε (1 + 2 m)`, `m` the largest coordinate. -/
theorem C102_point (p q : Pt n) :
    interPP p q true = false ∧ (p.valid = true → q.valid = true → p.elem = q.elem → interPP p q false = true) ∧
    (interPP p q false = true → p.valid = true ∧ q.valid = true ∧ ∀ i, |q.elem i - p.elem i| ≤ epsilon * (1 + 2 * maxAbs p.elem)) := by
  refine ⟨by simp [interPP], fun hp hq h => ?_, fun h => ?_⟩
  · simp only [interPP, Bool.not_false, Bool.true_and, C28_point_iff]
    exact ⟨hp, hq, fun i => by rw [h, sub_self, abs_zero]; exact scaleEpsilonArr_nonneg epsilon_pos.le⟩
  · simp only [interPP, Bool.not_false, Bool.true_and] at h
    have := (C28_point_iff _ _ _).1 h
    exact ⟨this.1, this.2.1, fun i => pt_equal_bound h i⟩

/-- C102: a segment is in a point exactly when all its points are that point, up to the tolerance; never properly. -/
theorem C102_segment (p : Pt n) (s : Seg n) :
    containsPS p s true = false ∧ (p.valid = true → s.valid = true → segSet s ⊆ {p.elem} → containsPS p s false = true) ∧
    (containsPS p s false = true → p.valid = true ∧ s.valid = true ∧ ∀ x ∈ segSet s, ∀ i, |x i - p.elem i| ≤ epsilon * (1 + 2 * maxAbs p.elem)) := by
  refine ⟨by simp [containsPS], fun hp hs h => ?_, fun h => ?_⟩
  · have hv : s.p1.valid = true ∧ s.p2.valid = true := by simpa [Seg.valid] using hs
    have h1 : s.p1.elem = p.elem := h ⟨0, by norm_num, by norm_num, by simp⟩
    have h2 : s.p2.elem = p.elem := h ⟨1, by norm_num, by norm_num, by simp⟩
    simp only [containsPS, Bool.not_false, Bool.true_and, Bool.and_eq_true, C28_point_iff]
    refine ⟨⟨hp, hv.1, fun i => ?_⟩, hp, hv.2, fun i => ?_⟩
    · rw [h1, sub_self, abs_zero]; exact scaleEpsilonArr_nonneg epsilon_pos.le
    · rw [h2, sub_self, abs_zero]; exact scaleEpsilonArr_nonneg epsilon_pos.le
  · simp only [containsPS, Bool.not_false, Bool.true_and, Bool.and_eq_true] at h
    have k1 := (C28_point_iff _ _ _).1 h.1
    have k2 := (C28_point_iff _ _ _).1 h.2
    refine ⟨k1.1, by simp [Seg.valid, k1.2.1, k2.2.1], ?_⟩
    rintro x ⟨t, t0, t1, rfl⟩
    exact convex_cube p.elem (epsilon * (1 + 2 * maxAbs p.elem)) (fun i => pt_equal_bound h.1 i) (fun i => pt_equal_bound h.2 i)
      (by linarith) t0 (by ring)

/-- C102: a plane polygon is in a point exactly when all its corners are that point, up to the tolerance; properly only when it has no corners. -/
theorem C102_polygon (p : Pt 2) (r : Corners 2) :
    (containsPPoly p r true = true ↔ r = []) ∧
    (p.valid = true → (∀ c ∈ r, c.valid = true) → filled r ⊆ {p.elem} → containsPPoly p r false = true) ∧
    (containsPPoly p r false = true → ∀ x ∈ convexHull ℝ (cornerSet r), ∀ i, |x i - p.elem i| ≤ epsilon * (1 + 2 * maxAbs p.elem)) := by
  refine ⟨by simp [containsPPoly], fun hp hv h => ?_, fun h => ?_⟩
  · simp only [containsPPoly, Bool.false_eq_true, if_false, List.all_eq_true, C28_point_iff]
    intro c hc
    have : c.elem = p.elem := h (Or.inr (corner_boundary hc))
    exact ⟨hp, hv c hc, fun i => by rw [this, sub_self, abs_zero]; exact scaleEpsilonArr_nonneg epsilon_pos.le⟩
  · simp only [containsPPoly, Bool.false_eq_true, if_false, List.all_eq_true] at h
    have : convexHull ℝ (cornerSet r) ⊆ _ := convexHull_min (fun x hx => by
      obtain ⟨c, hc, rfl⟩ := mem_cornerSet.1 hx
      exact fun i => pt_equal_bound (h c hc) i) (convex_cube p.elem (epsilon * (1 + 2 * maxAbs p.elem)))
    exact this

/-! ### Cases that meet the hypotheses -/

example : containsPPoly ⟨![3, 4], true⟩ [⟨![3, 4], true⟩, ⟨![3, 4], true⟩] false = true := by
  refine (C102_polygon _ _).2.1 rfl (by simp) fun x hx => ?_
  have hc : ∀ u : Fin 2 → ℝ, u ⬝ᵥ x ≤ u 0 * 3 + u 1 * 4 := fun u => filled_half (fun c hc => by
    simp only [List.mem_cons, List.not_mem_nil, or_false, or_self] at hc
    subst hc
    simp [dotProduct, Fin.sum_univ_two]) hx
  have c1 := hc ![1, 0]
  have c2 := hc ![-1, 0]
  have c3 := hc ![0, 1]
  have c4 := hc ![0, -1]
  simp [dotProduct, Fin.sum_univ_two, Matrix.vecHead, Matrix.vecTail] at c1 c2 c3 c4
  rw [Set.mem_singleton_iff]
  apply ext2 <;> simp <;> linarith

example : interPolyS unitSquare ⟨⟨![1 / 2, 1 / 2], true⟩, ⟨![7, 9], true⟩⟩ true = some true :=
  C100_end_partial _ _ _ unitSquare_far (unitSquare_inside (by norm_num) (by norm_num) (by norm_num) (by norm_num))

example : interPolyPoly2 unitSquare [⟨![1 / 2, 1 / 2], true⟩, ⟨![7, 9], true⟩, ⟨![8, 1], true⟩] true = some true :=
  C101_corner_partial _ _ _ _ _ _ rfl rfl _ (Or.inl ⟨unitSquare_far, unitSquare_inside (by norm_num) (by norm_num) (by norm_num) (by norm_num)⟩)

example : containsSPoly ⟨⟨![0, 0], true⟩, ⟨![4, 2], true⟩⟩ [⟨![2, 1], true⟩] false = true := by
  refine (C100_in_segment _ _).1 fun x hx => ?_
  have hc : ∀ u : Fin 2 → ℝ, u ⬝ᵥ x ≤ u 0 * 2 + u 1 * 1 := fun u => filled_half (fun c hc => by
    simp only [List.mem_cons, List.not_mem_nil, or_false] at hc
    subst hc
    simp [dotProduct, Fin.sum_univ_two]) hx
  have c1 := hc ![1, 0]
  have c2 := hc ![-1, 0]
  have c3 := hc ![0, 1]
  have c4 := hc ![0, -1]
  simp [dotProduct, Fin.sum_univ_two, Matrix.vecHead, Matrix.vecTail] at c1 c2 c3 c4
  refine ⟨1 / 2, by norm_num, by norm_num, ?_⟩
  apply ext2 <;> simp <;> linarith

end WFMath
