/- Property theorems C108, C110 and C111: two polygons in space. -/
import Verif.Model.PolyCross
import Verif.Props.PolySpace

namespace WFMath
open Spec Matrix
variable {n : Nat}

theorem comb_elem (u v : Vec n) (a b : ℝ) : (u.scale a + v.scale b).elem = a • u.elem + b • v.elem := by
  show (u.scale a).elem + (v.scale b).elem = _
  rw [scale_elem, scale_elem]

theorem comb_dot {u v : Fin n → ℝ} (hu : u ⬝ᵥ u = 1) (hv : v ⬝ᵥ v = 1) (hp : u ⬝ᵥ v = 0) (a b c d : ℝ) :
    (a • u + b • v) ⬝ᵥ (c • u + d • v) = a * c + b * d := by
  have hp' : v ⬝ᵥ u = 0 := by rw [dotProduct_comm]; exact hp
  simp only [add_dotProduct, dotProduct_add, smul_dotProduct, dotProduct_smul, hu, hv, hp, hp', smul_eq_mul]
  ring

/-- What the code computes for two planes it takes for parallel: the axes of the second plane in coordinates of the first, and no offset. -/
noncomputable def parallelData (o1 o2 : Orient n) : PlanesData :=
  { PlanesData.start with
    off := ⟨![0, 0], false⟩
    v1 := ⟨![o2.ax0.dot o1.ax0, o2.ax0.dot o1.ax1], false⟩
    v2 := ⟨![o2.ax1.dot o1.ax0, o2.ax1.dot o1.ax1], false⟩ }

theorem planesMeet_two {p q : Poly n} (hp : Spans p) (hq : Spans q) (h : (commonDir p.orient q.orient).1 = 2) :
    planesMeet p.orient q.orient = some (2, parallelData p.orient q.orient) := by
  unfold planesMeet
  simp only [hp.origin, hq.origin, hp.valid0, hq.valid0, Bool.true_eq_false, or_self, if_false]
  generalize hc : commonDir p.orient q.orient = c at h
  obtain ⟨k, b, m⟩ := c
  simp only at h
  subst h
  simp only
  unfold planesParallel
  have hm : (Vec.default : Vec 2).sqrMag = 0 := by rw [Vec.sqrMag_eq]; simp [Vec.default]
  simp only [hp.valid1, hq.valid1, Bool.true_eq_false, or_self, if_false, PlanesData.start, hm, ne_eq, not_true_eq_false, false_and]
  rfl

/-- The cross product of the axes, a unit vector perpendicular to the plane. -/
abbrev _root_.WFMath.Spec.normal (s : Poly 3) : Fin 3 → ℝ := s.orient.ax0.elem ⨯₃ s.orient.ax1.elem

theorem dot_le_one {u v : Vec n} (hu : u.elem ⬝ᵥ u.elem = 1) (hv : v.elem ⬝ᵥ v.elem = 1) : |u.elem ⬝ᵥ v.elem| ≤ 1 ∧ |u.dot v| ≤ 1 ∧
    |u.dot v - u.elem ⬝ᵥ v.elem| ≤ 2 * epsilon := by
  have l1 : len u.elem = 1 := by rw [len, hu, Real.sqrt_one]
  have l2 : len v.elem = 1 := by rw [len, hv, Real.sqrt_one]
  have h := abs_dot_le_len u.elem v.elem
  rw [l1, l2, mul_one] at h
  have hp := epsilon_pos
  refine ⟨h, (Vec.abs_dot_le u v).trans h, ?_⟩
  rcases dot_or u v with e | ⟨e, e'⟩
  · rw [e, sub_self, abs_zero]; positivity
  · rw [l1, l2, min_self, mul_one] at e'
    rwa [e, zero_sub, abs_neg]

theorem prod_close {a b a' b' e : ℝ} (ha : |a| ≤ 1) (hb : |b'| ≤ 1) (h1 : |a - a'| ≤ e) (h2 : |b - b'| ≤ e) : |a * b - a' * b'| ≤ 2 * e := by
  have : a * b - a' * b' = a * (b - b') + (a - a') * b' := by ring
  rw [this]
  refine (abs_add_le _ _).trans ?_
  rw [abs_mul, abs_mul]
  nlinarith [abs_nonneg a, abs_nonneg b', abs_nonneg (a - a'), abs_nonneg (b - b')]

/-- Two planes are taken for parallel unless they are almost perpendicular. -/
theorem commonDir_oblique {p q : Poly 3} (hp : Spans p) (hq : Spans q) (h : 1 / 10 ^ 10 ≤ |normal p ⬝ᵥ normal q|) : (commonDir p.orient q.orient).1 = 2 := by
  have hpos := epsilon_pos
  have he := epsilon_lt
  norm_num at he
  obtain ⟨po, pv0, pv1, pu0, pu1, pp⟩ := hp
  obtain ⟨qo, qv0, qv1, qu0, qu1, qp⟩ := hq
  rw [cross_dot_cross] at h
  obtain ⟨a1, a2, a3⟩ := dot_le_one qu0 pu0
  obtain ⟨b1, b2, b3⟩ := dot_le_one qu1 pu0
  obtain ⟨c1, c2, c3⟩ := dot_le_one qu0 pu1
  obtain ⟨d1, d2, d3⟩ := dot_le_one qu1 pu1
  rw [dotProduct_comm p.orient.ax0.elem, dotProduct_comm p.orient.ax1.elem, dotProduct_comm p.orient.ax0.elem, dotProduct_comm p.orient.ax1.elem] at h
  unfold commonDir
  simp only [pv1, qv1, if_true]
  generalize q.orient.ax0.dot p.orient.ax0 = x0 at *
  generalize q.orient.ax1.dot p.orient.ax0 = x1 at *
  generalize q.orient.ax0.dot p.orient.ax1 = y0 at *
  generalize q.orient.ax1.dot p.orient.ax1 = y1 at *
  generalize q.orient.ax0.elem ⬝ᵥ p.orient.ax0.elem = X0 at *
  generalize q.orient.ax1.elem ⬝ᵥ p.orient.ax0.elem = X1 at *
  generalize q.orient.ax0.elem ⬝ᵥ p.orient.ax1.elem = Y0 at *
  generalize q.orient.ax1.elem ⬝ᵥ p.orient.ax1.elem = Y1 at *
  have hdet : 1 / 10 ^ 11 ≤ |x0 * y1 - x1 * y0| := by
    have e1 := prod_close a2 d1 a3 d3
    have e2 := prod_close b2 c1 b3 c3
    have : |(x0 * y1 - x1 * y0) - (X0 * Y1 - X1 * Y0)| ≤ 8 * epsilon := by
      rw [show (x0 * y1 - x1 * y0) - (X0 * Y1 - X1 * Y0) = (x0 * y1 - X0 * Y1) - (x1 * y0 - X1 * Y0) by ring]
      refine (abs_sub _ _).trans ?_
      linarith
    have := abs_sub_abs_le_abs_sub (X0 * Y1 - X1 * Y0) (x0 * y1 - x1 * y0)
    rw [abs_sub_comm (X0 * Y1 - X1 * Y0) (x0 * y1 - x1 * y0)] at this
    norm_num at h ⊢
    linarith
  have hd2 : (1 / 10 ^ 11) ^ 2 ≤ (x0 * y1 - x1 * y0) ^ 2 := by
    rw [← sq_abs (x0 * y1 - x1 * y0)]
    exact pow_le_pow_left₀ (by positivity) hdet 2
  have s1 : (q.orient.ax0.scale x0 + q.orient.ax1.scale x1).sqrMag = x0 ^ 2 + x1 ^ 2 := by
    rw [Vec.sqrMag_eq, comb_elem, comb_dot qu0 qu1 qp]; ring
  have sq1 : ∀ {t : ℝ}, |t| ≤ 1 → t ^ 2 ≤ 1 := fun ht => (sq_le_one_iff_abs_le_one _).2 ht
  have hx := add_le_add (sq1 a2) (sq1 b2)
  have hy := add_le_add (sq1 c2) (sq1 d2)
  have lag : (x0 ^ 2 + x1 ^ 2) * (y0 ^ 2 + y1 ^ 2) = (x0 * y0 + x1 * y1) ^ 2 + (x0 * y1 - x1 * y0) ^ 2 := by ring
  have hX : epsilon * epsilon < x0 ^ 2 + x1 ^ 2 := by
    by_contra hc
    push Not at hc
    nlinarith [sq_nonneg (x0 * y0 + x1 * y1), sq_nonneg y0, sq_nonneg y1]
  have hXp : 0 < x0 ^ 2 + x1 ^ 2 := lt_trans (by positivity) hX
  have key : ∀ t : ℝ, t = 0 ∨ t = x0 * y0 + x1 * y1 → epsilon * epsilon <
      ((q.orient.ax0.scale y0 + q.orient.ax1.scale y1) - (q.orient.ax0.scale x0 + q.orient.ax1.scale x1).scale (t / (x0 ^ 2 + x1 ^ 2))).sqrMag := by
    intro t ht
    have e : ((q.orient.ax0.scale y0 + q.orient.ax1.scale y1) - (q.orient.ax0.scale x0 + q.orient.ax1.scale x1).scale (t / (x0 ^ 2 + x1 ^ 2))).elem =
        (y0 - t / (x0 ^ 2 + x1 ^ 2) * x0) • q.orient.ax0.elem + (y1 - t / (x0 ^ 2 + x1 ^ 2) * x1) • q.orient.ax1.elem := by
      rw [sub_elem', scale_elem, comb_elem, comb_elem]; module
    rw [Vec.sqrMag_eq, e, comb_dot qu0 qu1 qp]
    have hlow : (x0 * y1 - x1 * y0) ^ 2 / (x0 ^ 2 + x1 ^ 2) ≤
        (y0 - t / (x0 ^ 2 + x1 ^ 2) * x0) * (y0 - t / (x0 ^ 2 + x1 ^ 2) * x0) + (y1 - t / (x0 ^ 2 + x1 ^ 2) * x1) * (y1 - t / (x0 ^ 2 + x1 ^ 2) * x1) := by
      rw [div_le_iff₀ hXp]
      rcases ht with rfl | rfl
      · simp only [zero_div, zero_mul, sub_zero]
        nlinarith [sq_nonneg (x0 * y0 + x1 * y1)]
      · have : (x0 * y1 - x1 * y0) ^ 2 = ((y0 - (x0 * y0 + x1 * y1) / (x0 ^ 2 + x1 ^ 2) * x0) * (y0 - (x0 * y0 + x1 * y1) / (x0 ^ 2 + x1 ^ 2) * x0) +
            (y1 - (x0 * y0 + x1 * y1) / (x0 ^ 2 + x1 ^ 2) * x1) * (y1 - (x0 * y0 + x1 * y1) / (x0 ^ 2 + x1 ^ 2) * x1)) * (x0 ^ 2 + x1 ^ 2) := by
          field_simp
          ring
        exact this.le
    refine lt_of_lt_of_le ?_ hlow
    rw [lt_div_iff₀ hXp]
    nlinarith
  have hdot := Vec.dot_cases (q.orient.ax0.scale x0 + q.orient.ax1.scale x1) (q.orient.ax0.scale y0 + q.orient.ax1.scale y1)
  rw [comb_elem, comb_elem, comb_dot qu0 qu1 qp] at hdot
  rw [s1, if_pos hX, if_pos rfl, if_pos (key _ (hdot.symm.imp And.left id))]

theorem shift_eq {q : Poly n} (hq : Spans q) (v : Vec n) : q.shift v = ⟨{ q.orient with origin := q.orient.origin.addVec v }, q.poly⟩ := by
  unfold Poly.shift Orient.shift
  rw [if_pos hq.origin]

theorem shift_spans {q : Poly n} (hq : Spans q) {v : Vec n} (hv : v.valid = true) : Spans (q.shift v) := by
  rw [shift_eq hq]
  exact ⟨by simp [Pt.addVec, hq.origin, hv], hq.valid0, hq.valid1, hq.unit0, hq.unit1, hq.perp⟩

/-- C110 is false of the code for all polygons whose planes are not perpendicular (nor nearly so): the position of the second polygon is ignored, the
answer stays the same when it is moved by any vector. -/
theorem C110_position_false (p q : Poly 3) (hp : Spans p) (hq : Spans q) (h : 1 / 10 ^ 10 ≤ |normal p ⬝ᵥ normal q|) (v : Vec 3) (hv : v.valid = true)
    (proper : Bool) : interPolyPolyN p (q.shift v) proper = interPolyPolyN p q proper := by
  have hq' := shift_spans hq hv
  have h' : 1 / 10 ^ 10 ≤ |normal p ⬝ᵥ normal (q.shift v)| := by rw [shift_eq hq]; exact h
  unfold interPolyPolyN
  rw [planesMeet_two hp hq (commonDir_oblique hp hq h), planesMeet_two hp hq' (commonDir_oblique hp hq' h'), shift_eq hq]
  rfl

/-- The same for C111. -/
theorem C111_position_false (p q : Poly 3) (hp : Spans p) (hq : Spans q) (h : 1 / 10 ^ 10 ≤ |normal p ⬝ᵥ normal q|) (v : Vec 3) (hv : v.valid = true)
    (proper : Bool) : containsPolyPolyN p (q.shift v) proper = containsPolyPolyN p q proper := by
  have hq' := shift_spans hq hv
  have h' : 1 / 10 ^ 10 ≤ |normal p ⬝ᵥ normal (q.shift v)| := by rw [shift_eq hq]; exact h
  unfold containsPolyPolyN
  rw [planesMeet_two hp hq (commonDir_oblique hp hq h), planesMeet_two hp hq' (commonDir_oblique hp hq' h'), shift_eq hq]
  rfl

/-- The point with the given coordinates in the plane of `q`, when `q` is moved so that the planes have the same origin, projected to the plane of `p`,
in coordinates of the plane of `p`. -/
noncomputable def _root_.WFMath.Spec.projected (p q : Poly n) (y : Pt 2) : Pt 2 :=
  ⟨![(spacePoint q y.elem - q.orient.origin.elem) ⬝ᵥ p.orient.ax0.elem, (spacePoint q y.elem - q.orient.origin.elem) ⬝ᵥ p.orient.ax1.elem], y.valid⟩

/-- The inner products of the axes of both planes are not flushed to 0. -/
structure _root_.WFMath.Spec.AxesExact (p q : Poly n) : Prop where
  e00 : DotExact q.orient.ax0 p.orient.ax0
  e01 : DotExact q.orient.ax0 p.orient.ax1
  e10 : DotExact q.orient.ax1 p.orient.ax0
  e11 : DotExact q.orient.ax1 p.orient.ax1

theorem shiftPoly_projected {p q : Poly n} (he : AxesExact p q) : shiftPoly q.poly (parallelData p.orient q.orient) = q.poly.map (projected p q) := by
  unfold shiftPoly
  apply List.map_congr_left
  intro y _
  unfold projected spacePoint parallelData
  have e : q.orient.origin.elem + y.elem 0 • q.orient.ax0.elem + y.elem 1 • q.orient.ax1.elem - q.orient.origin.elem =
    y.elem 0 • q.orient.ax0.elem + y.elem 1 • q.orient.ax1.elem := by module
  simp only [e]
  rw [add_dotProduct, add_dotProduct, smul_dotProduct, smul_dotProduct, smul_dotProduct, smul_dotProduct, ← he.e00, ← he.e01, ← he.e10, ← he.e11]
  apply Pt.ext
  · apply ext2 <;> simp [Pt.addVec]
  · rfl

/-- C110: for polygons whose planes are not perpendicular (nor nearly so), the answer is that of the plane test for `p` and the polygon that arises from `q`
by a move that makes the origins of the planes agree, and projection to the plane of `p`. For planes that agree, with the same origin, this is right. -/
theorem C110_oblique_partial (p q : Poly 3) (hp : Spans p) (hq : Spans q) (h : 1 / 10 ^ 10 ≤ |normal p ⬝ᵥ normal q|) (he : AxesExact p q) (proper : Bool) :
    interPolyPolyN p q proper = interPolyPoly2 p.poly (q.poly.map (projected p q)) proper := by
  unfold interPolyPolyN
  rw [planesMeet_two hp hq (commonDir_oblique hp hq h), ← shiftPoly_projected he]
  simp [polyPolyIntersect]

/-- The same for C111. -/
theorem C111_oblique_partial (p q : Poly 3) (hp : Spans p) (hq : Spans q) (hpn : p.poly ≠ []) (hqn : q.poly ≠ []) (h : 1 / 10 ^ 10 ≤ |normal p ⬝ᵥ normal q|)
    (he : AxesExact p q) (proper : Bool) : containsPolyPolyN p q proper = containsPolyPoly2 p.poly (q.poly.map (projected p q)) proper := by
  unfold containsPolyPolyN
  rw [planesMeet_two hp hq (commonDir_oblique hp hq h), ← shiftPoly_projected he]
  simp [polyPolyContains, hpn, hqn]

/-- When the planes agree and have the same origin, projection does not move the corners: it only finds their coordinates. -/
theorem projected_same {p q : Poly n} (hp : Spans p) (ho : q.orient.origin.elem = p.orient.origin.elem) {y : Pt 2} {z : Fin 2 → ℝ}
    (h : spacePoint q y.elem = spacePoint p z) : (projected p q y).elem = z := by
  unfold projected
  rw [h, ho]
  have e : spacePoint p z - p.orient.origin.elem = z 0 • p.orient.ax0.elem + z 1 • p.orient.ax1.elem := by unfold spacePoint; module
  have hc : p.orient.ax1.elem ⬝ᵥ p.orient.ax0.elem = 0 := by rw [dotProduct_comm]; exact hp.perp
  simp only [e, add_dotProduct, smul_dotProduct, hp.unit0, hp.unit1, hp.perp, hc]
  apply ext2 <;> simp

/-- C108: for two polygons in space whose planes have the same axes, the origins of the planes are ignored: the answer is the one for the polygons in the
plane as if both were given in the same coordinates. -/
theorem C108_axes_partial (p q : Poly n) (hp : Spans p) (hq : Spans q) (h0 : q.orient.ax0 = p.orient.ax0) (h1 : q.orient.ax1 = p.orient.ax1) (proper : Bool) :
    interPolyPolyN p q proper = interPolyPoly2 p.poly q.poly proper := by
  have hpos := epsilon_pos
  have he := epsilon_lt
  norm_num at he
  obtain ⟨po, v0, v1, u0, u1, up⟩ := id hp
  have e00 := dot_unit u0
  have e11 := dot_unit u1
  have e01 := dot_perp up
  have e10 : p.orient.ax1.dot p.orient.ax0 = 0 := by rw [Vec.dot_comm]; exact e01
  have hb1 : (p.orient.ax0.scale 1 + p.orient.ax1.scale 0).elem = p.orient.ax0.elem := by show (p.orient.ax0.scale _).elem + (p.orient.ax1.scale _).elem = _; rw [scale_elem, scale_elem]; simp
  have hb2 : (p.orient.ax0.scale 0 + p.orient.ax1.scale 1).elem = p.orient.ax1.elem := by show (p.orient.ax0.scale _).elem + (p.orient.ax1.scale _).elem = _; rw [scale_elem, scale_elem]; simp
  have hee : ¬ 1 ≤ epsilon * epsilon := by nlinarith
  have hc : (commonDir p.orient q.orient).1 = 2 := by
    unfold commonDir
    simp only [h0, h1, v1, if_true, e00, e11, e01, e10]
    have s1 : (p.orient.ax0.scale 1 + p.orient.ax1.scale 0).sqrMag = 1 := by rw [Vec.sqrMag_eq, hb1, u0]
    have d1 : (p.orient.ax0.scale 1 + p.orient.ax1.scale 0).dot (p.orient.ax0.scale 0 + p.orient.ax1.scale 1) = 0 := dot_perp (by rw [hb1, hb2, up])
    have s2 : ((p.orient.ax0.scale 0 + p.orient.ax1.scale 1) - (p.orient.ax0.scale 1 + p.orient.ax1.scale 0).scale (0 / 1)).sqrMag = 1 := by
      rw [Vec.sqrMag_eq, sub_elem', scale_elem, hb2, hb1]; simp [u1]
    rw [s1, d1, if_pos (not_le.1 hee), if_pos rfl, s2, if_pos (not_le.1 hee)]
  have he : AxesExact p q := by
    constructor <;> unfold DotExact
    · rw [h0, e00, u0]
    · rw [h0, e01, up]
    · rw [h1, e10, dotProduct_comm, up]
    · rw [h1, e11, u1]
  unfold interPolyPolyN
  rw [planesMeet_two hp hq hc, Option.bind_some]
  show interPolyPoly2 p.poly (shiftPoly q.poly (parallelData p.orient q.orient)) proper = _
  rw [shiftPoly_projected he]
  congr 1
  conv_rhs => rw [← List.map_id q.poly]
  apply List.map_congr_left
  intro y _
  unfold projected spacePoint
  have e : q.orient.origin.elem + y.elem 0 • q.orient.ax0.elem + y.elem 1 • q.orient.ax1.elem - q.orient.origin.elem =
    y.elem 0 • p.orient.ax0.elem + y.elem 1 • p.orient.ax1.elem := by rw [h0, h1]; module
  have hup : p.orient.ax1.elem ⬝ᵥ p.orient.ax0.elem = 0 := by rw [dotProduct_comm]; exact up
  simp only [e, add_dotProduct, smul_dotProduct, u0, u1, up, hup]
  apply Pt.ext
  · apply ext2 <;> simp
  · rfl

theorem unitSquare_filled : ∀ y ∈ filled unitSquare, 0 ≤ y 0 ∧ y 0 ≤ 1 := by
  intro y hy
  rcases hy with hy | hy
  · constructor
    · by_contra hc
      push Not at hc
      refine outside_half (u := ![-1, 0]) (ps := unitSquare) (fun h => by have := congrFun h 0; simp at this) (fun c hc' => ?_) hy.2
      simp only [unitSquare, List.mem_cons, List.not_mem_nil, or_false] at hc'
      rcases hc' with rfl | rfl | rfl | rfl <;> simp [dotProduct, Fin.sum_univ_two, Matrix.vecHead] <;> linarith
    · by_contra hc
      push Not at hc
      refine outside_half (u := ![1, 0]) (ps := unitSquare) east_ne (fun c hc' => ?_) hy.2
      simp only [unitSquare, List.mem_cons, List.not_mem_nil, or_false] at hc'
      rcases hc' with rfl | rfl | rfl | rfl <;> simp [dotProduct, Fin.sum_univ_two, Matrix.vecHead] <;> linarith
  · exact ⟨(unitSquare_boundary hy).2.1, (unitSquare_boundary hy).2.2.1⟩

/-- C108 is false of the code: a square is said to meet every square that arises from it by a shift, however far it is above it or beside it. -/
theorem C108_false : ∃ (p : Poly 3) (k : Nat), Edited true p k ∧ ∀ v : Vec 3, v.valid = true →
    (∀ x ∈ spaceFilled p, ∀ y ∈ spaceFilled (p.shift v), |v.elem 0| - 1 ≤ eucl x y ∧ |v.elem 2| ≤ eucl x y) ∧
    interPolyPolyN p (p.shift v) false = some true := by
  obtain ⟨k, hk⟩ := flatSquare_edited
  refine ⟨flatSquare, k, hk, fun v hv => ?_⟩
  have hpt : ∀ y, spacePoint (flatSquare.shift v) y = ![y 0 + v.elem 0, y 1 + v.elem 1, v.elem 2] := by
    intro y
    unfold spacePoint flatSquare Poly.shift Orient.shift threeCorners
    funext i
    fin_cases i <;> simp [Pt.addVec, add_comm, Matrix.vecHead, Matrix.vecTail]
  constructor
  · have hx := unitSquare_filled
    rintro _ ⟨y, hy, rfl⟩ _ ⟨z, hz, rfl⟩
    have hy := hx y hy
    have hz := hx z hz
    have e0 := abs_sub_le_eucl (spacePoint flatSquare y) (spacePoint (flatSquare.shift v) z) 0
    have e2 := abs_sub_le_eucl (spacePoint flatSquare y) (spacePoint (flatSquare.shift v) z) 2
    rw [flatSquare_point, hpt] at e0 e2 ⊢
    simp at e0 e2
    refine ⟨le_trans ?_ e0, e2⟩
    rcases abs_cases (v.elem 0) with ⟨h, h'⟩ | ⟨h, h'⟩ <;> rcases abs_cases (y 0 - (z 0 + v.elem 0)) with ⟨g, g'⟩ | ⟨g, g'⟩ <;> linarith
  · rw [C108_axes_partial flatSquare (flatSquare.shift v) flatSquare_spans
      (by constructor <;> simp [flatSquare, Poly.shift, Orient.shift, Pt.addVec, threeCorners, dotProduct, Fin.sum_univ_three, hv]) rfl rfl]
    show interPolyPoly2 unitSquare unitSquare false = some true
    unfold interPolyPoly2
    rw [if_neg (by rintro (h | h) <;> simp [unitSquare] at h)]
    have a1 : interPolyP unitSquare ⟨![0, 0], true⟩ false = true := by
      unfold interPolyP
      simp [edges, edgesFrom, unitSquare, polyPLoop, between, equal_refl]
    split_ifs
    · rfl
    · rw [show unitSquare.headD Pt.default = ⟨![0, 0], true⟩ from rfl, a1]; rfl


theorem frame3 {a b : Fin 3 → ℝ} (ha : a ⬝ᵥ a = 1) (hb : b ⬝ᵥ b = 1) (hab : a ⬝ᵥ b = 0) (v : Fin 3 → ℝ) :
    v = (v ⬝ᵥ a) • a + (v ⬝ᵥ b) • b + (v ⬝ᵥ (a ⨯₃ b)) • (a ⨯₃ b) := by
  have hnn : (a ⨯₃ b) ⬝ᵥ (a ⨯₃ b) = 1 := by rw [cross_dot_cross, ha, hb, hab, dotProduct_comm b a, hab]; norm_num
  have h1 : Matrix.of ![a, b, a ⨯₃ b] * (Matrix.of ![a, b, a ⨯₃ b])ᵀ = 1 := by
    ext i j
    have e : (Matrix.of ![a, b, a ⨯₃ b] * (Matrix.of ![a, b, a ⨯₃ b])ᵀ) i j = (![a, b, a ⨯₃ b] i) ⬝ᵥ (![a, b, a ⨯₃ b] j) := rfl
    rw [e]
    fin_cases i <;> fin_cases j <;> simp only [Fin.zero_eta, Fin.mk_one, Fin.reduceFinMk, cons_val_zero, cons_val_one, cons_val] <;>
      first
      | (rw [ha]; rfl) | (rw [hb]; rfl) | (rw [hab]; rfl) | (rw [hnn]; rfl) | (rw [dotProduct_comm, hab]; rfl) | (rw [dot_self_cross]; rfl)
      | (rw [dot_cross_self]; rfl) | (rw [dotProduct_comm, dot_self_cross]; rfl) | (rw [dotProduct_comm, dot_cross_self]; rfl)
  have h2 := mul_eq_one_comm.1 h1
  have h3 := congrArg (· *ᵥ v) h2
  simp only [one_mulVec, ← mulVec_mulVec] at h3
  rw [eq_comm] at h3
  refine h3.trans ?_
  have e : Matrix.of ![a, b, a ⨯₃ b] *ᵥ v = ![v ⬝ᵥ a, v ⬝ᵥ b, v ⬝ᵥ (a ⨯₃ b)] := by
    funext i
    rw [dotProduct_comm v a, dotProduct_comm v b, dotProduct_comm v (a ⨯₃ b)]
    fin_cases i <;> rfl
  rw [e]
  funext i
  simp only [mulVec, dotProduct, Fin.sum_univ_three, transpose_apply, of_apply, cons_val_zero, cons_val_one, cons_val, Pi.add_apply, Pi.smul_apply, smul_eq_mul]
  ring

/-- What the planes have in common, when they are exactly perpendicular. -/
theorem commonDir_perp {p q : Poly 3} (hp : Spans p) (hq : Spans q) (h : normal p ⬝ᵥ normal q = 0) (he : AxesExact p q) :
    ∃ (b : Vec 3) (l : ℝ), l ≠ 0 ∧ commonDir p.orient q.orient = (1, b, l ^ 2) ∧
      b.elem = l • (-(normal q ⬝ᵥ p.orient.ax1.elem) • p.orient.ax0.elem + (normal q ⬝ᵥ p.orient.ax0.elem) • p.orient.ax1.elem) ∧
      (normal q ⬝ᵥ p.orient.ax0.elem) ^ 2 + (normal q ⬝ᵥ p.orient.ax1.elem) ^ 2 = 1 ∧
      normal q = (normal q ⬝ᵥ p.orient.ax0.elem) • p.orient.ax0.elem + (normal q ⬝ᵥ p.orient.ax1.elem) • p.orient.ax1.elem := by
  have hpos := epsilon_pos
  have heps := epsilon_lt
  norm_num at heps
  have hn : normal q = (normal q ⬝ᵥ p.orient.ax0.elem) • p.orient.ax0.elem + (normal q ⬝ᵥ p.orient.ax1.elem) • p.orient.ax1.elem := by
    have := frame3 hp.unit0 hp.unit1 hp.perp (normal q)
    rw [show normal q ⬝ᵥ (p.orient.ax0.elem ⨯₃ p.orient.ax1.elem) = 0 by rw [dotProduct_comm]; exact h, zero_smul, add_zero] at this
    exact this
  have hnn : normal q ⬝ᵥ normal q = 1 := by
    rw [normal, cross_dot_cross, hq.unit0, hq.unit1, hq.perp, dotProduct_comm q.orient.ax1.elem q.orient.ax0.elem, hq.perp]; norm_num
  generalize hα : normal q ⬝ᵥ p.orient.ax0.elem = α at *
  generalize hβ : normal q ⬝ᵥ p.orient.ax1.elem = β at *
  have hab : α ^ 2 + β ^ 2 = 1 := by
    rw [hn, comb_dot hp.unit0 hp.unit1 hp.perp] at hnn
    rw [← hnn]; ring
  generalize hu : -β • p.orient.ax0.elem + α • p.orient.ax1.elem = u
  have huu : u ⬝ᵥ u = 1 := by rw [← hu, comb_dot hp.unit0 hp.unit1 hp.perp]; rw [← hab]; ring
  -- projections of the axes of `p` on the plane of `q`
  have e0 : (q.orient.ax0.scale (q.orient.ax0.dot p.orient.ax0) + q.orient.ax1.scale (q.orient.ax1.dot p.orient.ax0)).elem = (-β) • u := by
    rw [comb_elem, he.e00, he.e10]
    have := frame3 hq.unit0 hq.unit1 hq.perp p.orient.ax0.elem
    rw [dotProduct_comm _ (q.orient.ax0.elem ⨯₃ q.orient.ax1.elem), show (q.orient.ax0.elem ⨯₃ q.orient.ax1.elem) ⬝ᵥ p.orient.ax0.elem = α from hα,
      show q.orient.ax0.elem ⨯₃ q.orient.ax1.elem = _ from hn] at this
    rw [dotProduct_comm q.orient.ax0.elem, dotProduct_comm q.orient.ax1.elem]
    have h2 := sub_eq_of_eq_add this
    rw [← h2, ← hu]
    have e1 : p.orient.ax0.elem = (α ^ 2 + β ^ 2) • p.orient.ax0.elem := by rw [hab, one_smul]
    nth_rw 1 [e1]
    module
  have e1 : (q.orient.ax0.scale (q.orient.ax0.dot p.orient.ax1) + q.orient.ax1.scale (q.orient.ax1.dot p.orient.ax1)).elem = α • u := by
    rw [comb_elem, he.e01, he.e11]
    have := frame3 hq.unit0 hq.unit1 hq.perp p.orient.ax1.elem
    rw [dotProduct_comm _ (q.orient.ax0.elem ⨯₃ q.orient.ax1.elem), show (q.orient.ax0.elem ⨯₃ q.orient.ax1.elem) ⬝ᵥ p.orient.ax1.elem = β from hβ,
      show q.orient.ax0.elem ⨯₃ q.orient.ax1.elem = _ from hn] at this
    rw [dotProduct_comm q.orient.ax0.elem, dotProduct_comm q.orient.ax1.elem]
    have h2 := sub_eq_of_eq_add this
    rw [← h2, ← hu]
    have e1 : p.orient.ax1.elem = (α ^ 2 + β ^ 2) • p.orient.ax1.elem := by rw [hab, one_smul]
    nth_rw 1 [e1]
    module
  have sm : ∀ {b : Vec 3} {l : ℝ}, b.elem = l • u → b.sqrMag = l ^ 2 := by
    intro b l hb
    rw [Vec.sqrMag_eq, hb, smul_dotProduct, dotProduct_smul, huu]; simp; ring
  unfold commonDir
  simp only [hp.valid1, hq.valid1, if_true]
  generalize q.orient.ax0.scale (q.orient.ax0.dot p.orient.ax0) + q.orient.ax1.scale (q.orient.ax1.dot p.orient.ax0) = b1 at *
  generalize q.orient.ax0.scale (q.orient.ax0.dot p.orient.ax1) + q.orient.ax1.scale (q.orient.ax1.dot p.orient.ax1) = b2 at *
  by_cases h1 : b1.sqrMag > epsilon * epsilon
  · have hb : β ≠ 0 := by rintro rfl; rw [sm e0] at h1; nlinarith
    refine ⟨b1, -β, neg_ne_zero.2 hb, ?_, e0, hab, hn⟩
    rw [if_pos h1, if_pos rfl]
    have hd : b1.dot b2 = -β * α := by
      have e : b1.elem ⬝ᵥ b2.elem = -β * α := by rw [e0, e1, smul_dotProduct, dotProduct_smul, huu]; simp
      rcases Vec.dot_cases b1 b2 with k | ⟨k, k'⟩
      · rw [k, e]
      · by_cases ha : α = 0
        · rw [k, ha, mul_zero]
        · exfalso
          have hu0 : u ≠ 0 := by rintro rfl; simp at huu
          have hb1 : b1.elem ≠ 0 := by rw [e0]; exact smul_ne_zero (neg_ne_zero.2 hb) hu0
          have hb2 : b2.elem ≠ 0 := by rw [e1]; exact smul_ne_zero ha hu0
          have k2 := scaleEpsilonArr_le (e := epsilon) hpos.le hb1 hb2
          have hl : len u = 1 := by rw [len, huu, Real.sqrt_one]
          have hm2 : maxAbs b2.elem ≤ |α| := by
            apply maxAbs_le (abs_nonneg _)
            intro i
            rw [e1, Pi.smul_apply, smul_eq_mul, abs_mul]
            have : |u i| ≤ 1 := by rw [← hl]; exact abs_le_len u i
            nlinarith [abs_nonneg α]
          have hm1 : maxAbs b1.elem ≤ |β| := by
            apply maxAbs_le (abs_nonneg _)
            intro i
            rw [e0, Pi.smul_apply, smul_eq_mul, abs_mul, abs_neg]
            have : |u i| ≤ 1 := by rw [← hl]; exact abs_le_len u i
            nlinarith [abs_nonneg β]
          rw [e, abs_mul, abs_neg] at k'
          have hb0 := abs_pos.2 hb
          have ha0 := abs_pos.2 ha
          have j1 : |β| * |α| < 2 * epsilon * |β| :=
            k'.trans_le (k2.trans (mul_le_mul_of_nonneg_left ((min_le_left _ _).trans hm1) (by positivity)))
          have j2 : |β| * |α| < 2 * epsilon * |α| :=
            k'.trans_le (k2.trans (mul_le_mul_of_nonneg_left ((min_le_right _ _).trans hm2) (by positivity)))
          have j3 : |α| < 2 * epsilon := by nlinarith
          have j4 : |β| < 2 * epsilon := by nlinarith
          rw [← sq_abs α, ← sq_abs β] at hab
          nlinarith
    rw [hd]
    have : (b2 - b1.scale (-β * α / b1.sqrMag)).sqrMag = 0 := by
      rw [sm e0, Vec.sqrMag_eq_zero, sub_elem', scale_elem, e0, e1, smul_smul, ← sub_smul]
      rw [show α - -β * α / (-β) ^ 2 * -β = 0 by field_simp; ring, zero_smul]
    rw [this, if_neg (by nlinarith), sm e0]
  · refine ⟨b2, α, ?_, ?_, e1, hab, hn⟩
    · rintro rfl
      rw [sm e0] at h1
      nlinarith
    · rw [if_neg h1]
      have ha : b2.sqrMag > epsilon * epsilon := by
        rw [sm e1]; rw [sm e0] at h1; nlinarith
      rw [if_neg (show ¬ (0 : Nat) = 1 by norm_num), if_pos ha, if_pos rfl, sm e1]

/-- `Cross` in the plane never returns a negative value. -/
theorem cross2_below (u v : Vec 2) : decide (cross2 u v < 0) = false := by
  rw [decide_eq_false_iff_not, not_lt]
  unfold cross2
  simp only
  split_ifs with h
  · exact (scaleEpsilonArr_nonneg epsilon_pos.le).trans h
  · exact le_rfl

theorem crossLoop_off {ps : Corners 2} {p : Pt 2} {v : Vec 2} {proper : Bool} : ∀ (cs : Corners 2) (i : Nat) (s : CrossState), s.oldBelow = false →
    (∀ c ∈ cs, onLine p v c = false) → ∃ s', crossLoop ps p v proper i cs s = some s' ∧ s'.cross = s.cross ∧ s'.lines = s.lines
  | [], _, s, _, _ => ⟨s, rfl, rfl, rfl⟩
  | c :: cs, i, s, hs, h => by
    unfold crossLoop
    rw [h c List.mem_cons_self]
    unfold stepOff
    simp only [cross2_below, hs, ne_eq, not_true_eq_false, if_false, Bool.false_eq_true, Option.bind_some]
    exact crossLoop_off cs (i + 1) ⟨p, false, s.cross, s.lines⟩ rfl fun x hx => h x (List.mem_cons_of_mem _ hx)

theorem getCrossings_off {ps : Corners 2} {p : Pt 2} {v : Vec 2} {proper : Bool} (hps : ps ≠ []) (hv : equal v.sqrMag 1 epsilon = true)
    (h : ∀ c ∈ ps, onLine p v c = false) : getCrossings ps p v proper = some [] := by
  unfold getCrossings
  rw [if_neg (by rw [hv]; simp)]
  have hl : 0 < ps.length := List.length_pos_iff.2 hps
  have : ∃ c, ps.getCorner (ps.length - 1) = some c := by
    unfold Corners.getCorner
    exact ⟨ps[ps.length - 1], List.getElem?_eq_getElem (by omega)⟩
  obtain ⟨c, hc⟩ := this
  rw [hc, Option.bind_some, cross2_below]
  obtain ⟨s', e1, e2, e3⟩ := crossLoop_off (ps := ps) (p := p) (v := v) (proper := proper) ps 0 ⟨c, false, [], []⟩ rfl h
  rw [e1, Option.bind_some]
  simp only [e2, e3, if_true, List.mergeSort_nil]

theorem planesLine_planes {p q : Poly n} (hp : Spans p) (hq : Spans q) (off b : Vec n) (m : ℝ) :
    ∃ k d, planesLine p.orient q.orient off b m PlanesData.start = (k, d) ∧ (k = -1 ∨ k = 1 ∧ d.line1 = false ∧ d.line2 = false ∧
      d.p1 = ⟨![off.dot p.orient.ax0, off.dot p.orient.ax1], false⟩ ∧
      d.v1 = ⟨![p.orient.ax0.dot (b.divBy (Real.sqrt m)), p.orient.ax1.dot (b.divBy (Real.sqrt m))], false⟩) := by
  unfold planesLine
  simp only [hp.valid1, hq.valid1, Bool.true_eq_false, and_self, if_false, Bool.not_true]
  split_ifs
  · exact ⟨_, _, rfl, Or.inl rfl⟩
  · exact ⟨_, _, rfl, Or.inr ⟨rfl, rfl, rfl, rfl, rfl⟩⟩

/-- The offset between the origins of the planes has exact inner products with the axes of `p`. -/
structure _root_.WFMath.Spec.OffExact (p q : Poly n) : Prop where
  e0 : DotExact (q.orient.origin.sub p.orient.origin) p.orient.ax0
  e1 : DotExact (q.orient.origin.sub p.orient.origin) p.orient.ax1

theorem far_off {σ α β L W0 W1 v0 v1 pr : ℝ} (hpos : 0 < epsilon) (heps : epsilon < 1 / 100000000000000) (hσ : σ ^ 2 = 1) (hab : α ^ 2 + β ^ 2 = 1)
    (hL : 0 ≤ L) (hB : W0 ^ 2 + W1 ^ 2 ≤ L ^ 2) (hx : (1 + L) / 10 ^ 6 ≤ |α * W0 + β * W1|) (d0 : |v0 - -(σ * β)| ≤ 2 * epsilon)
    (d1 : |v1 - σ * α| ≤ 2 * epsilon) (hd : pr = 0 ∨ pr = W0 * v0 + W1 * v1) : equal (W0 ^ 2 + W1 ^ 2) (pr * pr) epsilon = false := by
  have hw0 : |W0| ≤ L := abs_le_of_sq_le_sq (by nlinarith) hL
  have hw1 : |W1| ≤ L := abs_le_of_sq_le_sq (by nlinarith) hL
  generalize ht : σ * (α * W1 - β * W0) = t
  have hsum : (α * W0 + β * W1) ^ 2 + t ^ 2 = W0 ^ 2 + W1 ^ 2 := by
    rw [← ht]; linear_combination (α * W1 - β * W0) ^ 2 * hσ + (W0 ^ 2 + W1 ^ 2) * hab
  have htl : |t| ≤ L := abs_le_of_sq_le_sq (by nlinarith [sq_nonneg (α * W0 + β * W1)]) hL
  have hr : |W0 * v0 + W1 * v1 - t| ≤ 4 * epsilon * L := by
    rw [show W0 * v0 + W1 * v1 - t = W0 * (v0 - -(σ * β)) + W1 * (v1 - σ * α) by rw [← ht]; ring]
    refine (abs_add_le _ _).trans ?_
    rw [abs_mul, abs_mul]
    nlinarith [abs_nonneg W0, abs_nonneg W1, abs_nonneg (v0 - -(σ * β)), abs_nonneg (v1 - σ * α)]
  have hpr : pr * pr ≤ t ^ 2 + 9 * epsilon * L ^ 2 := by
    rcases hd with rfl | rfl
    · nlinarith [sq_nonneg t, sq_nonneg L]
    · generalize W0 * v0 + W1 * v1 = r at *
      have e : r * r = t ^ 2 + 2 * t * (r - t) + (r - t) ^ 2 := by ring
      have h1 : t * (r - t) ≤ L * (4 * epsilon * L) := by
        refine (le_abs_self _).trans ?_
        rw [abs_mul]
        exact mul_le_mul htl hr (abs_nonneg _) hL
      have h2 : (r - t) ^ 2 ≤ (4 * epsilon * L) ^ 2 := by
        rw [← sq_abs]; exact pow_le_pow_left₀ (abs_nonneg _) hr 2
      have h3 : (4 * epsilon * L) ^ 2 ≤ epsilon * L ^ 2 := by
        rw [show (4 * epsilon * L) ^ 2 = 16 * epsilon * (epsilon * L ^ 2) by ring]
        nlinarith [mul_nonneg hpos.le (sq_nonneg L)]
      nlinarith
  have hh : (1 + L ^ 2) / 10 ^ 12 ≤ (α * W0 + β * W1) ^ 2 := by
    rw [← sq_abs (α * W0 + β * W1)]
    refine le_trans ?_ (pow_le_pow_left₀ (by positivity) hx 2)
    rw [div_pow]
    norm_num
    nlinarith
  have hscale : scaleEpsilon (W0 ^ 2 + W1 ^ 2) (pr * pr) epsilon ≤ epsilon + 2 * epsilon * L ^ 2 := by
    have hn : 0 ≤ 2 * epsilon * L ^ 2 := by positivity
    by_cases z : W0 ^ 2 + W1 ^ 2 = 0 ∨ pr * pr = 0
    · rw [scaleEpsilon_zero z]; linarith
    · push Not at z
      refine (scaleEpsilon_le hpos.le z.1 z.2).trans ?_
      have : min |W0 ^ 2 + W1 ^ 2| |pr * pr| ≤ L ^ 2 := (min_le_left _ _).trans (by rw [abs_of_nonneg (by positivity)]; exact hB)
      nlinarith
  rw [Bool.eq_false_iff, Ne, equal_iff, not_le]
  refine hscale.trans_lt (lt_of_lt_of_le ?_ (le_abs_self _))
  norm_num at hh
  nlinarith [sq_nonneg L]

/-- C110 is false of the code for polygons in perpendicular planes: unless a corner of the first polygon lies in the plane of the second one (within about
a millionth), the polygons are said not to meet, whatever they are. -/
theorem C110_perpendicular_false (p q : Poly 3) (hp : Spans p) (hq : Spans q) (hn : p.poly ≠ []) (h : normal p ⬝ᵥ normal q = 0) (he : AxesExact p q)
    (ho : OffExact p q)
    (hfar : ∀ x ∈ polyCornerSet p, (1 + eucl x q.orient.origin.elem) / 10 ^ 6 ≤ |normal q ⬝ᵥ (x - q.orient.origin.elem)|) (proper : Bool) :
    interPolyPolyN p q proper = some false := by
  have hpos := epsilon_pos
  have heps := epsilon_lt
  norm_num at heps
  obtain ⟨b, l, hl, hc, hb, hab, hnq⟩ := commonDir_perp hp hq h he
  unfold interPolyPolyN planesMeet
  simp only [hp.origin, hq.origin, hp.valid0, hq.valid0, Bool.true_eq_false, or_self, if_false, hc]
  obtain ⟨k, d, hd, hk⟩ := planesLine_planes hp hq (q.orient.origin.sub p.orient.origin) b (l ^ 2)
  rw [hd, Option.bind_some]
  simp only
  rcases hk with rfl | ⟨rfl, h1, h2, hp1, hv1⟩
  · simp [polyPolyIntersect]
  · unfold polyPolyIntersect
    rw [if_neg (by norm_num), if_neg (by norm_num), if_pos rfl]
    simp only [h1, h2, Bool.or_self, Bool.and_false, Bool.false_eq_true, if_false, Bool.and_self]
    generalize hα : normal q ⬝ᵥ p.orient.ax0.elem = α at *
    generalize hβ : normal q ⬝ᵥ p.orient.ax1.elem = β at *
    have hs : Real.sqrt (l ^ 2) = |l| := Real.sqrt_sq_eq_abs l
    obtain ⟨σ, hσ, hbe⟩ : ∃ σ : ℝ, σ ^ 2 = 1 ∧ (b.divBy (Real.sqrt (l ^ 2))).elem = (-(σ * β)) • p.orient.ax0.elem + (σ * α) • p.orient.ax1.elem := by
      refine ⟨l / |l|, by rw [div_pow, sq_abs, div_self (pow_ne_zero 2 hl)], ?_⟩
      have : (b.divBy (Real.sqrt (l ^ 2))).elem = (|l|)⁻¹ • b.elem := by
        funext i; show b.elem i / _ = _; rw [hs, Pi.smul_apply, smul_eq_mul, div_eq_inv_mul]
      rw [this, hb, div_eq_inv_mul]
      module
    have hbu : (b.divBy (Real.sqrt (l ^ 2))).elem ⬝ᵥ (b.divBy (Real.sqrt (l ^ 2))).elem = 1 := by
      rw [hbe, comb_dot hp.unit0 hp.unit1 hp.perp]; linear_combination σ ^ 2 * hab + hσ
    have pc : p.orient.ax1.elem ⬝ᵥ p.orient.ax0.elem = 0 := by rw [dotProduct_comm]; exact hp.perp
    have lb : len (b.divBy (Real.sqrt (l ^ 2))).elem = 1 := by rw [len, hbu, Real.sqrt_one]
    have l0 : len p.orient.ax0.elem = 1 := by rw [len, hp.unit0, Real.sqrt_one]
    have l1 : len p.orient.ax1.elem = 1 := by rw [len, hp.unit1, Real.sqrt_one]
    have d0 := dot_or p.orient.ax0 (b.divBy (Real.sqrt (l ^ 2)))
    have d1 := dot_or p.orient.ax1 (b.divBy (Real.sqrt (l ^ 2)))
    rw [lb, l0, min_self] at d0
    rw [lb, l1, min_self] at d1
    rw [hbe] at d0 d1
    simp only [dotProduct_add, dotProduct_smul, hp.unit0, hp.unit1, hp.perp, pc, smul_eq_mul, mul_zero, mul_one, add_zero, zero_add] at d0 d1
    generalize p.orient.ax0.dot (b.divBy (Real.sqrt (l ^ 2))) = v0 at *
    generalize p.orient.ax1.dot (b.divBy (Real.sqrt (l ^ 2))) = v1 at *
    have hp1' : d.p1 = ⟨![(q.orient.origin.elem - p.orient.origin.elem) ⬝ᵥ p.orient.ax0.elem, (q.orient.origin.elem - p.orient.origin.elem) ⬝ᵥ p.orient.ax1.elem],
        false⟩ := by rw [hp1, ho.e0, ho.e1]; rfl
    rw [getCrossings_off hn ?_ ?_, Option.bind_some]
    · simp
    · rw [hv1, Vec.sqrMag_eq]
      simp only [dotProduct, Fin.sum_univ_two, cons_val_zero, cons_val_one]
      have k0 : (σ * β) ^ 2 - 4 * epsilon ^ 2 ≤ v0 * v0 ∧ v0 * v0 ≤ (σ * β) ^ 2 := by
        rcases d0 with rfl | ⟨rfl, k⟩
        · constructor <;> nlinarith
        · rw [abs_neg] at k
          have := pow_le_pow_left₀ (abs_nonneg _) k 2
          rw [sq_abs] at this
          constructor <;> nlinarith
      have k1 : (σ * α) ^ 2 - 4 * epsilon ^ 2 ≤ v1 * v1 ∧ v1 * v1 ≤ (σ * α) ^ 2 := by
        rcases d1 with rfl | ⟨rfl, k⟩
        · constructor <;> nlinarith
        · have := pow_le_pow_left₀ (abs_nonneg _) k 2
          rw [sq_abs] at this
          constructor <;> nlinarith
      have k2 : (σ * β) ^ 2 + (σ * α) ^ 2 = 1 := by linear_combination σ ^ 2 * hab + hσ
      have j1 : v0 * v0 + v1 * v1 ≤ 1 := by linarith [k0.2, k1.2]
      have j2 : 1 - 8 * epsilon ^ 2 ≤ v0 * v0 + v1 * v1 := by linarith [k0.1, k1.1]
      have j3 : 8 * epsilon ^ 2 ≤ epsilon / 2 := by nlinarith
      have j4 : 0 ≤ v0 * v0 + v1 * v1 := by nlinarith
      rw [equal_iff]
      refine le_trans ?_ (le_scaleEpsilon hpos.le)
      rw [abs_one, abs_of_nonneg j4, min_eq_left j1, abs_of_nonpos (by linarith)]
      nlinarith
    · intro c hc
      have hx := hfar (spacePoint p c.elem) (mem_polyCornerSet.2 ⟨c, hc, _, convert_lift hp c, rfl⟩)
      have er : spacePoint p c.elem - q.orient.origin.elem =
          c.elem 0 • p.orient.ax0.elem + c.elem 1 • p.orient.ax1.elem - (q.orient.origin.elem - p.orient.origin.elem) := by unfold spacePoint; module
      rw [eucl_eq_len, er] at hx
      unfold onLine
      rw [hp1', hv1]
      generalize q.orient.origin.elem - p.orient.origin.elem = o at *
      generalize hR : c.elem 0 • p.orient.ax0.elem + c.elem 1 • p.orient.ax1.elem - o = R at *
      have hW0 : R ⬝ᵥ p.orient.ax0.elem = c.elem 0 - o ⬝ᵥ p.orient.ax0.elem := by
        rw [← hR, sub_dotProduct, add_dotProduct, smul_dotProduct, smul_dotProduct, hp.unit0, pc]; simp
      have hW1 : R ⬝ᵥ p.orient.ax1.elem = c.elem 1 - o ⬝ᵥ p.orient.ax1.elem := by
        rw [← hR, sub_dotProduct, add_dotProduct, smul_dotProduct, smul_dotProduct, hp.unit1, hp.perp]; simp
      have hw : ((c.sub ⟨![o ⬝ᵥ p.orient.ax0.elem, o ⬝ᵥ p.orient.ax1.elem], false⟩).elem) = ![R ⬝ᵥ p.orient.ax0.elem, R ⬝ᵥ p.orient.ax1.elem] := by
        rw [hW0, hW1]; apply ext2 <;> simp [Pt.sub]
      have hh : normal q ⬝ᵥ R = α * (R ⬝ᵥ p.orient.ax0.elem) + β * (R ⬝ᵥ p.orient.ax1.elem) := by
        rw [hnq, add_dotProduct, smul_dotProduct, smul_dotProduct, dotProduct_comm _ R, dotProduct_comm _ R]; rfl
      have hB : (R ⬝ᵥ p.orient.ax0.elem) ^ 2 + (R ⬝ᵥ p.orient.ax1.elem) ^ 2 ≤ len R ^ 2 := by
        have h0 := dot_self_nonneg (R - ((R ⬝ᵥ p.orient.ax0.elem) • p.orient.ax0.elem + (R ⬝ᵥ p.orient.ax1.elem) • p.orient.ax1.elem))
        have hcm : ((R ⬝ᵥ p.orient.ax0.elem) • p.orient.ax0.elem + (R ⬝ᵥ p.orient.ax1.elem) • p.orient.ax1.elem) ⬝ᵥ R =
            (R ⬝ᵥ p.orient.ax0.elem) ^ 2 + (R ⬝ᵥ p.orient.ax1.elem) ^ 2 := by
          rw [add_dotProduct, smul_dotProduct, smul_dotProduct, dotProduct_comm _ R, dotProduct_comm _ R, smul_eq_mul, smul_eq_mul]; ring
        rw [sub_dotProduct, dotProduct_sub, dotProduct_sub, comb_dot hp.unit0 hp.unit1 hp.perp, dotProduct_comm R (_ + _), hcm] at h0
        rw [len_sq]
        nlinarith
      rw [hh] at hx
      have hL := len_nonneg R
      generalize len R = L at *
      generalize hu : c.sub ⟨![o ⬝ᵥ p.orient.ax0.elem, o ⬝ᵥ p.orient.ax1.elem], false⟩ = w at *
      have hS : w.sqrMag = (R ⬝ᵥ p.orient.ax0.elem) ^ 2 + (R ⬝ᵥ p.orient.ax1.elem) ^ 2 := by
        rw [Vec.sqrMag_eq, hw]; simp [dotProduct, Fin.sum_univ_two]; ring
      have hdot : w.dot ⟨![v0, v1], false⟩ = 0 ∨ w.dot ⟨![v0, v1], false⟩ = (R ⬝ᵥ p.orient.ax0.elem) * v0 + (R ⬝ᵥ p.orient.ax1.elem) * v1 := by
        rcases Vec.dot_cases w ⟨![v0, v1], false⟩ with k | k
        · right; rw [k, hw]; simp [dotProduct, Fin.sum_univ_two]
        · exact Or.inl k.1
      rw [hS]
      generalize w.dot ⟨![v0, v1], false⟩ = pr at *
      generalize R ⬝ᵥ p.orient.ax0.elem = W0 at *
      generalize R ⬝ᵥ p.orient.ax1.elem = W1 at *
      have d0' : |v0 - -(σ * β)| ≤ 2 * epsilon := by
        rcases d0 with rfl | ⟨rfl, k⟩
        · simp; positivity
        · rw [zero_sub, abs_neg]; linarith
      have d1' : |v1 - σ * α| ≤ 2 * epsilon := by
        rcases d1 with rfl | ⟨rfl, k⟩
        · simp; positivity
        · rw [zero_sub, abs_neg]; linarith
      exact far_off hpos heps hσ hab hL hB hx d0' d1' hdot

/-- Rotation about the first axis, with cosine `c` and sine `s`. -/
noncomputable def turnX (c s : ℝ) : RotMat 3 := ⟨Matrix.of ![![1, 0, 0], ![0, c, s], ![0, -s, c]], false, true, 1⟩

theorem turnX_rotation {c s : ℝ} (h : c ^ 2 + s ^ 2 = 1) : IsRotation (turnX c s) := by
  have e : (turnX c s).elem * (turnX c s).elemᵀ = 1 := by
    ext i j
    fin_cases i <;> fin_cases j <;> simp [turnX, Matrix.mul_apply, Fin.sum_univ_three] <;> nlinarith
  have d : (turnX c s).elem.det = 1 := by
    simp [turnX, Matrix.det_fin_three]; nlinarith
  exact ⟨e, by rw [d]; rfl⟩

/-- The unit square turned about its first side, then moved. -/
noncomputable def turned (c s : ℝ) (v : Vec 3) : Poly 3 := (flatSquare.rotatePoint (turnX c s) ⟨0, true⟩).shift v

theorem turned_edited {c s : ℝ} (h : c ^ 2 + s ^ 2 = 1) {v : Vec 3} (hv : v.valid = true) : ∃ k, Edited true (turned c s v) k := by
  obtain ⟨k, hk⟩ := flatSquare_edited
  exact ⟨k, .shift v hv (.rotatePoint _ _ (turnX_rotation h) rfl rfl hk)⟩

theorem turned_eq (c s : ℝ) (v : Vec 3) (hv : v.valid = true) :
    turned c s v = ⟨⟨⟨v.elem, true⟩, ⟨![1, 0, 0], true⟩, ⟨![0, c, s], true⟩⟩, unitSquare⟩ := by
  have h0 : (⟨0, true⟩ : Pt 3).rotate (turnX c s) ⟨0, true⟩ = ⟨0, true⟩ := by
    apply Pt.ext
    · funext i; simp [Pt.rotate, Pt.addVec, Pt.sub, vecMul, dotProduct]
    · rfl
  have h1 : (⟨![1, 0, 0], true⟩ : Vec 3).rotateM (turnX c s) = ⟨![1, 0, 0], true⟩ := by
    apply Vec.ext
    · rw [RotMat.rotateM_elem]; funext i; fin_cases i <;> simp [turnX, vecMul, dotProduct, Fin.sum_univ_three]
    · rfl
  have h2 : (⟨![0, 1, 0], true⟩ : Vec 3).rotateM (turnX c s) = ⟨![0, c, s], true⟩ := by
    apply Vec.ext
    · rw [RotMat.rotateM_elem]; funext i; fin_cases i <;> simp [turnX, vecMul, dotProduct, Fin.sum_univ_three]
    · rfl
  unfold turned Poly.rotatePoint Poly.shift Orient.shift Orient.rotate
  simp only [flatSquare, threeCorners, h0, h1, h2, if_true]
  congr 2
  apply Pt.ext
  · funext i; simp [Pt.addVec]
  · simp [Pt.addVec, hv]

theorem turned_spans {c s : ℝ} (h : c ^ 2 + s ^ 2 = 1) {v : Vec 3} (hv : v.valid = true) : Spans (turned c s v) := by
  rw [turned_eq c s v hv]
  constructor <;> simp [dotProduct, Fin.sum_univ_three]
  nlinarith

theorem turned_normal (c s : ℝ) {v : Vec 3} (hv : v.valid = true) : normal (turned c s v) = ![0, -s, c] := by
  rw [turned_eq c s v hv]
  funext i
  fin_cases i <;> simp [normal, cross_apply]

theorem flat_normal' : normal flatSquare = ![0, 0, 1] := by
  funext i
  fin_cases i <;> simp [normal, cross_apply, flatSquare, threeCorners]

theorem turned_at (c s : ℝ) {v : Vec 3} (hv : v.valid = true) (y : Fin 2 → ℝ) :
    spacePoint (turned c s v) y = ![v.elem 0 + y 0, v.elem 1 + y 1 * c, v.elem 2 + y 1 * s] := by
  rw [turned_eq c s v hv]
  unfold spacePoint
  funext i
  fin_cases i <;> simp [Matrix.vecHead, Matrix.vecTail]

theorem turned_axes {c s : ℝ} (hc : c = 0 ∨ 1 / 64 ≤ |c|) {v : Vec 3} (hv : v.valid = true) (h : c ^ 2 + s ^ 2 = 1) : AxesExact flatSquare (turned c s v) := by
  rw [turned_eq c s v hv]
  have b0 : ∀ i, |(![1, 0, 0] : Fin 3 → ℝ) i| ≤ 8 := fun i => by fin_cases i <;> norm_num
  have b1 : ∀ i, |(![0, c, s] : Fin 3 → ℝ) i| ≤ 8 := fun i => by
    have h1 : |c| ≤ 8 := abs_le_of_sq_le_sq (by nlinarith [sq_nonneg s]) (by norm_num)
    have h2 : |s| ≤ 8 := abs_le_of_sq_le_sq (by nlinarith [sq_nonneg c]) (by norm_num)
    fin_cases i <;> simp [h1, h2]
  constructor <;> refine dotExact_coarse3 (by first | exact b0 | exact b1) ?_
  · right; simp [flatSquare, threeCorners, dotProduct, Fin.sum_univ_three]; norm_num
  · left; simp [flatSquare, threeCorners, dotProduct, Fin.sum_univ_three]
  · left; simp [flatSquare, threeCorners, dotProduct, Fin.sum_univ_three]
  · simpa [flatSquare, threeCorners, dotProduct, Fin.sum_univ_three] using hc

theorem unitSquare_first : interPolyP unitSquare ⟨![0, 0], true⟩ false = true := by
  unfold interPolyP
  simp [edges, edgesFrom, unitSquare, polyPLoop, between, equal_refl]

/-- C110 is false of the code. Two squares in perpendicular planes that cross in the middle of both are said not to meet. Two squares whose planes meet at an
angle are said to meet however far apart they are. -/
theorem C110_false :
    (∃ (p q : Poly 3) (k l : Nat), Edited true p k ∧ Edited true q l ∧ (spaceInside p ∩ spaceInside q).Nonempty ∧
      ∀ proper, interPolyPolyN p q proper = some false) ∧
    (∃ (p : Poly 3) (k : Nat), Edited true p k ∧ ∀ v : Vec 3, v.valid = true → ∃ (q : Poly 3) (l : Nat), Edited true q l ∧
      (∀ x ∈ spaceFilled p, ∀ y ∈ spaceFilled q, |v.elem 0| - 1 ≤ eucl x y) ∧ interPolyPolyN p q false = some true) := by
  obtain ⟨k, hk⟩ := flatSquare_edited
  constructor
  · obtain ⟨l, hl⟩ := turned_edited (c := 0) (s := 1) (by norm_num) (v := ⟨![0, 1 / 2, -1 / 2], true⟩) rfl
    have hpt := turned_at 0 1 (v := ⟨![0, 1 / 2, -1 / 2], true⟩) rfl
    refine ⟨flatSquare, _, k, l, hk, hl, ⟨![1 / 2, 1 / 2, 0], ⟨![1 / 2, 1 / 2], ?_, ?_⟩, ⟨![1 / 2, 1 / 2], ?_, ?_⟩⟩, fun proper => ?_⟩
    · exact unitSquare_inside (by norm_num) (by norm_num) (by norm_num) (by norm_num)
    · rw [flatSquare_point]; rfl
    · rw [show (turned 0 1 ⟨![0, 1 / 2, -1 / 2], true⟩).poly = unitSquare from rfl]
      exact unitSquare_inside (by norm_num) (by norm_num) (by norm_num) (by norm_num)
    · rw [hpt]; funext i; fin_cases i <;> simp [Matrix.vecHead, Matrix.vecTail] <;> norm_num
    · have ho : (turned 0 1 ⟨![0, 1 / 2, -1 / 2], true⟩).orient.origin = ⟨![0, 1 / 2, -1 / 2], true⟩ := by rw [turned_eq _ _ _ rfl]
      refine C110_perpendicular_false _ _ flatSquare_spans (turned_spans (by norm_num) rfl) (by simp [flatSquare, unitSquare]) ?_
        (turned_axes (Or.inl rfl) rfl (by norm_num)) ?_ ?_ proper
      · rw [turned_normal _ _ rfl, flat_normal']; simp [dotProduct, Fin.sum_univ_three]
      · constructor <;> rw [ho] <;> refine dotExact_coarse3 (fun i => ?_) ?_
        · fin_cases i <;> norm_num [Pt.sub, flatSquare, threeCorners, abs_le]
        · left; simp [Pt.sub, flatSquare, threeCorners, dotProduct, Fin.sum_univ_three]
        · fin_cases i <;> norm_num [Pt.sub, flatSquare, threeCorners, abs_le]
        · right; simp [Pt.sub, flatSquare, threeCorners, dotProduct, Fin.sum_univ_three]; norm_num
      · intro x hx
        rw [mem_polyCornerSet] at hx
        obtain ⟨c, hc, x', hx', rfl⟩ := hx
        rw [convert_lift flatSquare_spans, Option.some.injEq] at hx'
        rw [← hx', turned_normal _ _ rfl, ho]
        show (1 + eucl (spacePoint flatSquare c.elem) _) / _ ≤ |_ ⬝ᵥ (spacePoint flatSquare c.elem - _)|
        rw [flatSquare_point]
        have hy : 0 ≤ c.elem 0 ∧ c.elem 0 ≤ 1 ∧ (c.elem 1 = 0 ∨ c.elem 1 = 1) := by
          simp only [flatSquare, unitSquare, List.mem_cons, List.not_mem_nil, or_false] at hc
          rcases hc with rfl | rfl | rfl | rfl <;> simp
        have hle : eucl ![c.elem 0, c.elem 1, 0] ![0, 1 / 2, -1 / 2] ≤ 10 := by
          apply abs_le_of_sq_le_sq' _ (by norm_num) |>.2
          rw [eucl_sq, Fin.sum_univ_three]
          simp
          rcases hy.2.2 with h | h <;> rw [h] <;> nlinarith [hy.1, hy.2.1]
        have : |(![0, -1, 0] : Fin 3 → ℝ) ⬝ᵥ (![c.elem 0, c.elem 1, 0] - ![0, 1 / 2, -1 / 2])| = 1 / 2 := by
          simp [dotProduct, Fin.sum_univ_three]
          rcases hy.2.2 with h | h <;> rw [h] <;> norm_num [abs_of_pos, abs_of_neg]
        rw [this]
        norm_num
        linarith
  · refine ⟨flatSquare, k, hk, fun v hv => ?_⟩
    obtain ⟨l, hl⟩ := turned_edited (c := 3 / 5) (s := 4 / 5) (by norm_num) hv
    refine ⟨_, l, hl, ?_, ?_⟩
    · rintro _ ⟨y, hy, rfl⟩ _ ⟨z, hz, rfl⟩
      have hy := unitSquare_filled y hy
      have hz := unitSquare_filled z hz
      have e0 := abs_sub_le_eucl (spacePoint flatSquare y) (spacePoint (turned (3 / 5) (4 / 5) v) z) 0
      rw [flatSquare_point, turned_at _ _ hv] at e0 ⊢
      simp at e0
      refine le_trans ?_ e0
      rcases abs_cases (v.elem 0) with ⟨h, h'⟩ | ⟨h, h'⟩ <;> rcases abs_cases (y 0 - (v.elem 0 + z 0)) with ⟨g, g'⟩ | ⟨g, g'⟩ <;> linarith
    · rw [C110_oblique_partial _ _ flatSquare_spans (turned_spans (by norm_num) hv) ?_ (turned_axes (Or.inr (by norm_num [abs_of_pos])) hv (by norm_num))]
      · show interPolyPoly2 unitSquare (unitSquare.map _) false = some true
        unfold interPolyPoly2
        rw [if_neg (by rintro (h | h) <;> simp [unitSquare] at h)]
        have e : projected flatSquare (turned (3 / 5) (4 / 5) v) ⟨![0, 0], true⟩ = ⟨![0, 0], true⟩ := by
          unfold projected
          apply Pt.ext
          · apply ext2 <;> simp [spacePoint]
          · rfl
        split_ifs
        · rfl
        · rw [show (unitSquare.map (projected flatSquare (turned (3 / 5) (4 / 5) v))).headD Pt.default =
            projected flatSquare (turned (3 / 5) (4 / 5) v) ⟨![0, 0], true⟩ from rfl, e, unitSquare_first]; rfl
      · rw [turned_normal _ _ hv, flat_normal']
        simp [dotProduct, Fin.sum_univ_three]
        norm_num [abs_of_pos]

/-- C111 is false of the code: the square is either said not to be in itself, or to be in itself when one of them is moved, however far. -/
theorem C111_false : ∃ (p : Poly 3) (k : Nat), Edited true p k ∧ (spaceFilled p).Nonempty ∧ ∀ v : Vec 3, v.valid = true →
    (∀ x ∈ spaceFilled p, ∀ y ∈ spaceFilled (p.shift v), |v.elem 0| - 1 ≤ eucl x y) ∧ ∀ proper, containsPolyPolyN p (p.shift v) proper = containsPolyPolyN p p proper := by
  obtain ⟨k, hk⟩ := flatSquare_edited
  refine ⟨flatSquare, k, hk, ⟨_, ![1 / 2, 1 / 2], Or.inl (unitSquare_inside (by norm_num) (by norm_num) (by norm_num) (by norm_num)), rfl⟩, fun v hv => ⟨?_, ?_⟩⟩
  · rintro _ ⟨y, hy, rfl⟩ _ ⟨z, hz, rfl⟩
    have hy := unitSquare_filled y hy
    have hz := unitSquare_filled z hz
    have hpt : spacePoint (flatSquare.shift v) z = ![z 0 + v.elem 0, z 1 + v.elem 1, v.elem 2] := by
      unfold spacePoint flatSquare Poly.shift Orient.shift threeCorners
      funext i
      fin_cases i <;> simp [Pt.addVec, add_comm, Matrix.vecHead, Matrix.vecTail]
    have e0 := abs_sub_le_eucl (spacePoint flatSquare y) (spacePoint (flatSquare.shift v) z) 0
    rw [flatSquare_point, hpt] at e0 ⊢
    simp at e0
    refine le_trans ?_ e0
    rcases abs_cases (v.elem 0) with ⟨h, h'⟩ | ⟨h, h'⟩ <;> rcases abs_cases (y 0 - (z 0 + v.elem 0)) with ⟨g, g'⟩ | ⟨g, g'⟩ <;> linarith
  · exact fun proper => C111_position_false _ _ flatSquare_spans flatSquare_spans (by rw [flat_normal']; simp [dotProduct, Fin.sum_univ_three]; norm_num) v hv proper

end WFMath
