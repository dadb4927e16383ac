/- Property theorems C149: points and polygons in space, computed with rounding. -/
import Verif.Lemmas.RoundPoly3Inter
import Verif.Props.RoundPoly3
import Verif.Props.RoundPoly
import Verif.Props.PolySpace
import Verif.Model.RoundedPoly3Move

namespace WFMath
open Spec Matrix Rounding
variable {n : Nat}

namespace Spec
/-- The plane has an origin and two axes that are unit vectors up to rounding: `C149_built`. -/
structure PlaneAxes (o : Orient n) : Prop where
  origin : o.origin.valid = true
  unit0 : |o.ax0.elem ⬝ᵥ o.ax0.elem - 1| ≤ 26 * 2 ^ (-53 : ℤ)
  unit1 : |o.ax1.elem ⬝ᵥ o.ax1.elem - 1| ≤ 26 * 2 ^ (-53 : ℤ)
/-- How far from a point `p` the answer looks into the plane of a polygon, where `f` is the origin of the plane (the corner that was added first): the tolerance of the test, which grows with the distance of the point from
the origin of space, and rounding errors, which grow with its distance from the first corner. -/
noncomputable def planeReach (p f : Fin n → ℝ) : ℝ := 101 / 100 * Real.sqrt epsilon * len p + 2 ^ (-49 : ℤ) * eucl p f
end Spec

/-- The computed test whether a point is in the plane. -/
theorem Fl.contained_test (r : Rounding 53) (hn : n ≤ 3) (off : Vec n) (p : Pt n) :
    (Fl.sqrMag r off < r (epsilon * Fl.sum r fun i => r (p.elem i * p.elem i)) → len off.elem ≤ 101 / 100 * Real.sqrt epsilon * len p.elem) ∧
    (p.elem ≠ 0 → len off.elem ≤ 9 / 10 * Real.sqrt epsilon * len p.elem → Fl.sqrMag r off < r (epsilon * Fl.sum r fun i => r (p.elem i * p.elem i))) := by
  have hpos := epsilon_pos
  have hu0 : 0 < u 53 := u_pos
  have hu : u 53 ≤ 1 / 1000000 := by rw [Fl.u53]; norm_num
  have e0 : r (epsilon * Fl.sum r fun i => r (p.elem i * p.elem i)) = r (Fl.sqrMag r ⟨p.elem, true⟩ * epsilon) := by rw [mul_comm]; rfl
  obtain ⟨b1, b2, -⟩ := Fl.bound_spec r hn (⟨p.elem, true⟩ : Vec n) hpos.le
  rw [e0]
  generalize r (Fl.sqrMag r ⟨p.elem, true⟩ * epsilon) = B at *
  have hq : off.sqrMag = len off.elem ^ 2 := by rw [len_sq]; rfl
  have hc := Fl.Close_u ((Fl.sqrMag_close r off).mono Fl.pos53 (show 1 + n ≤ 4 by omega)) (by norm_num)
  rw [hq, abs_of_nonneg (sq_nonneg (len off.elem)), _root_.abs_le] at hc
  push_cast at hc
  have hs := Real.sq_sqrt hpos.le
  have hs0 := Real.sqrt_nonneg epsilon
  have hl := len_nonneg off.elem
  have hp := len_nonneg p.elem
  have hsq := sq_nonneg (len off.elem)
  have hE : 0 ≤ epsilon * len p.elem ^ 2 := by positivity
  have e1 : ∀ k : ℝ, (k * Real.sqrt epsilon * len p.elem) ^ 2 = k ^ 2 * (epsilon * len p.elem ^ 2) := fun k => by rw [mul_pow, mul_pow, hs]; ring
  have hb1 : B ≤ (1 + 11 * u 53) * (epsilon * len p.elem ^ 2) := by rw [← mul_assoc]; exact b1
  have hb2 : (1 - 11 * u 53) * (epsilon * len p.elem ^ 2) ≤ B := by rw [← mul_assoc]; exact b2
  constructor
  · intro h
    refine abs_le_of_sq_le_sq' ?_ (by positivity) |>.2
    rw [e1]
    generalize len off.elem ^ 2 = S at *
    generalize epsilon * len p.elem ^ 2 = E at *
    nlinarith
  · intro h0 h
    have hp' : 0 < len p.elem := hp.lt_of_ne (Ne.symm (len_eq_zero.not.2 h0))
    have hE' : 0 < epsilon * len p.elem ^ 2 := by positivity
    have h2 := pow_le_pow_left₀ hl h 2
    rw [e1] at h2
    generalize len off.elem ^ 2 = S at *
    generalize epsilon * len p.elem ^ 2 = E at *
    nlinarith

/-- C149: a polygon built in doubles by adding corners, which has a second axis, has such a plane, and so it has when it is moved. -/
theorem C149_built (r : Rounding 53) (hn : n ≤ 3) (eps : ℝ) (he : 0 ≤ eps) (s : Poly n) (ps : List (Pt n)) (f : Pt n) (h : Built3 r eps s ps (some f))
    (h1 : s.orient.ax1.valid = true) :
    PlaneAxes s.orient ∧ s.orient.origin.elem = f.elem ∧ ∀ v : Vec n, v.valid = true → PlaneAxes (Fl.poly3Shift r s v).orient := by
  have hI := built3_inv r hn he h
  have h0 := hI.ok.second h1
  have hov := hI.ok.first h0
  obtain ⟨f', hf', hfe⟩ := hI.some_iff hov
  cases hf'
  have a0 := hI.ok.unit0 h0
  have a1 := hI.ok.unit1 h1
  unfold Fl.NearUnit at a0 a1
  rw [Fl.u53] at a0 a1
  refine ⟨⟨hov, a0, a1⟩, hfe, fun v hv => ?_⟩
  have e : (Fl.poly3Shift r s v).orient = { s.orient with origin := Fl.addVec r s.orient.origin v } := by
    unfold Fl.poly3Shift Fl.orShift
    rw [if_pos hov]
  rw [e]
  refine ⟨?_, a0, a1⟩
  show (_ && _) = true
  rw [hov, hv]; rfl

/-- The answer is the answer of the test in the plane for a point of the plane near the point, or it is no. -/
theorem Fl.interPolyPn_cases (r : Rounding 53) (hn : n ≤ 3) (s : Poly n) (hs : PlaneAxes s.orient) (p : Pt n) (proper : Bool) :
    ∃ y : Fin 2 → ℝ, (Fl.interPolyPn r s p proper = some false ∨
      (Fl.interPolyPn r s p proper = some (Fl.interPolyP r s.poly ⟨y, false⟩ proper) ∧ eucl p.elem (spacePoint s y) ≤ planeReach p.elem s.orient.origin.elem)) ∧
      ((∃ z δ, |s.orient.ax0.elem ⬝ᵥ s.orient.ax1.elem| ≤ δ ∧ δ ≤ 1 / 10 ∧ p.elem ≠ 0 ∧
        4 * eucl p.elem (spacePoint s z) + (2 * δ + 2 ^ (-44 : ℤ)) * eucl p.elem s.orient.origin.elem ≤ 9 / 10 * Real.sqrt epsilon * len p.elem) →
        Fl.interPolyPn r s p proper = some (Fl.interPolyP r s.poly ⟨y, false⟩ proper) ∧ eucl p.elem (spacePoint s y) ≤ planeReach p.elem s.orient.origin.elem) := by
  have n0 : Fl.NearUnit s.orient.ax0.elem := by unfold Fl.NearUnit; rw [Fl.u53]; exact hs.unit0
  have n1 : Fl.NearUnit s.orient.ax1.elem := by unfold Fl.NearUnit; rw [Fl.u53]; exact hs.unit1
  obtain ⟨off, y, g, ho, hp, hg, hx⟩ := Fl.offset_spec r hn hs.origin n0 n1 p
  have hu0 : 0 < u 53 := u_pos
  have hres : Fl.interPolyPn r s p proper =
      some (decide (Fl.sqrMag r off < r (epsilon * Fl.sum r fun i => r (p.elem i * p.elem i))) && Fl.interPolyP r s.poly ⟨y, false⟩ proper) := by
    unfold Fl.interPolyPn Fl.checkContained
    split_ifs with hl
    · rw [List.length_eq_zero_iff.1 hl, show Fl.interPolyP r [] ⟨y, false⟩ proper = false from rfl, Bool.and_false]
    · rw [ho]; rfl
  obtain ⟨t1, t2⟩ := Fl.contained_test r hn off p
  have e49 : (2 : ℝ) ^ (-49 : ℤ) = 16 * u 53 := by rw [Fl.u53]; norm_num
  have e44 : (2 : ℝ) ^ (-44 : ℤ) = 512 * u 53 := by rw [Fl.u53]; norm_num
  have hD := len_nonneg (p.elem - s.orient.origin.elem)
  have huD := mul_nonneg hu0.le hD
  have hnear : len off.elem ≤ 101 / 100 * Real.sqrt epsilon * len p.elem → eucl p.elem (spacePoint s y) ≤ planeReach p.elem s.orient.origin.elem := by
    intro ht
    have e1 : p.elem - spacePoint s y = off.elem + g := by
      unfold spacePoint
      rw [sub_eq_iff_eq_add]
      exact hp.trans (by abel)
    have e2 := len_add_le off.elem g
    unfold planeReach
    rw [eucl_eq_len, e1, eucl_eq_len, e49]
    linarith
  refine ⟨y, ?_, ?_⟩
  · by_cases ht : Fl.sqrMag r off < r (epsilon * Fl.sum r fun i => r (p.elem i * p.elem i))
    · exact .inr ⟨by rw [hres, decide_eq_true ht, Bool.true_and], hnear (t1 ht)⟩
    · exact .inl (by rw [hres, decide_eq_false ht, Bool.false_and])
  · rintro ⟨z, δ, hδ, hδ1, hp0, hz⟩
    have hδ0 := (abs_nonneg _).trans hδ
    have h2 := hx z (p.elem - spacePoint s z) δ (by unfold spacePoint; abel) hδ hδ1
    rw [← eucl_eq_len p.elem (spacePoint s z)] at h2
    rw [eucl_eq_len p.elem s.orient.origin.elem, e44] at hz
    have h3 : len off.elem ≤ 9 / 10 * Real.sqrt epsilon * len p.elem := by linarith
    have h4 := t2 hp0 h3
    refine ⟨by rw [hres, decide_eq_true h4, Bool.true_and], hnear (t1 h4)⟩

/-- C149: a point near which no point of the plane is inside the polygon or within the margin of a side is not in the polygon, in doubles. In particular no point farther from the
plane than `planeReach`. -/
theorem C149_outside (r : Rounding 53) (hn : n ≤ 3) (s : Poly n) (hs : PlaneAxes s.orient) (p : Pt n) (M : ℝ) (hM : ∀ c ∈ s.poly, |c.elem 0| ≤ M)
    (hy : ∀ y, eucl p.elem (spacePoint s y) ≤ planeReach p.elem s.orient.origin.elem → y ∉ inside s.poly ∧ ClearOfSides s.poly y (sideMargin (y 0) M)) (proper : Bool) :
    Fl.interPolyPn r s p proper = some false := by
  obtain ⟨y, hr | ⟨hr, hd⟩, -⟩ := Fl.interPolyPn_cases r hn s hs p proper
  · exact hr
  · obtain ⟨y1, y2⟩ := hy y hd
    rw [hr]
    have := C136_point r s.poly ⟨y, false⟩ proper hM y2
    rw [Option.some.injEq, ← Bool.not_eq_true, this]
    exact y1

/-- C149: a point near the plane of the polygon, such that the points of the plane near it are inside the polygon and not within the margin of a side, is in the polygon, in doubles.
How near the plane it must be depends on its distance from the origin of space; the origin itself is never found in a polygon (`C149_zero_false`). -/
theorem C149_inside_partial (r : Rounding 53) (hn : n ≤ 3) (s : Poly n) (hs : PlaneAxes s.orient) (p : Pt n) (M : ℝ) (hM : ∀ c ∈ s.poly, |c.elem 0| ≤ M)
    (hy : ∀ y, eucl p.elem (spacePoint s y) ≤ planeReach p.elem s.orient.origin.elem → y ∈ inside s.poly ∧ ClearOfSides s.poly y (sideMargin (y 0) M))
    (δ : ℝ) (hδ : |s.orient.ax0.elem ⬝ᵥ s.orient.ax1.elem| ≤ δ) (hδ1 : δ ≤ 1 / 10) (h0 : p.elem ≠ 0) (z : Fin 2 → ℝ)
    (hz : 4 * eucl p.elem (spacePoint s z) + (2 * δ + 2 ^ (-44 : ℤ)) * eucl p.elem s.orient.origin.elem ≤ 9 / 10 * Real.sqrt epsilon * len p.elem) (proper : Bool) :
    Fl.interPolyPn r s p proper = some true := by
  obtain ⟨y, -, hr⟩ := Fl.interPolyPn_cases r hn s hs p proper
  obtain ⟨hr, hd⟩ := hr ⟨z, δ, hδ, hδ1, h0, hz⟩
  obtain ⟨y1, y2⟩ := hy y hd
  rw [hr, (C136_point r s.poly ⟨y, false⟩ proper hM y2).2 y1]

/-- C149: a point that is found in the polygon is near a point inside the polygon, unless a point of the plane near it is within the margin of a side. -/
theorem C149_near (r : Rounding 53) (hn : n ≤ 3) (s : Poly n) (hs : PlaneAxes s.orient) (p : Pt n) (M : ℝ) (hM : ∀ c ∈ s.poly, |c.elem 0| ≤ M)
    (hy : ∀ y, eucl p.elem (spacePoint s y) ≤ planeReach p.elem s.orient.origin.elem → ClearOfSides s.poly y (sideMargin (y 0) M)) (proper : Bool)
    (ht : Fl.interPolyPn r s p proper = some true) : ∃ x ∈ spaceInside s, eucl p.elem x ≤ planeReach p.elem s.orient.origin.elem := by
  obtain ⟨y, hr | ⟨hr, hd⟩, -⟩ := Fl.interPolyPn_cases r hn s hs p proper
  · rw [hr] at ht; simp at ht
  · rw [ht, Option.some.injEq] at hr
    exact ⟨_, ⟨y, (C136_point r s.poly ⟨y, false⟩ proper hM (hy y hd)).1 hr.symm, rfl⟩, hd⟩

theorem Fl.sqrMag_nonneg (r : Rounding 53) (v : Vec n) : 0 ≤ Fl.sqrMag r v := by
  obtain ⟨t, ht, -, e⟩ := Fl.sqrMag_close r v
  rw [e]
  exact mul_nonneg ((pow_nonneg (by rw [Fl.u53]; norm_num) _).trans ht) (Vec.sqrMag_nonneg _)

/-- C149 is false of the origin of space: no polygon is ever found to contain it. -/
theorem C149_zero_false (r : Rounding 53) (s : Poly n) (hs : s.orient.origin.valid = true) (p : Pt n) (hp : p.elem = 0) (proper : Bool) :
    Fl.interPolyPn r s p proper = some false := by
  unfold Fl.interPolyPn Fl.checkContained Fl.offset
  split_ifs with hl ho
  · rfl
  · rw [hs] at ho; simp at ho
  · simp only [Option.map_some, hp, Pi.zero_apply, mul_zero, r.zero, Fl.sum_zero]
    rw [decide_eq_false, Bool.false_and]
    exact not_lt.2 (Fl.sqrMag_nonneg r _)

/-- C149 is false of the code: this triangle, made in doubles by adding three corners and moving it, has the origin of space inside and is not found to contain it. -/
theorem C149_false (r : Rounding 53) : ∃ (ps : List (Pt 3)) (f : Option (Pt 3)) (s : Poly 3) (v : Vec 3), Built3 r epsilon s ps f ∧ v.valid = true ∧
    (0 : Fin 3 → ℝ) ∈ spaceInside (Fl.poly3Shift r s v) ∧ ∀ proper, Fl.interPolyPn r (Fl.poly3Shift r s v) ⟨0, true⟩ proper = some false := by
  have hq : r (-1 / 4) = -1 / 4 := r.of_fl ⟨-1, -2, by norm_num, by norm_num⟩
  have e : Fl.poly3Shift r threeCorners ⟨![-1 / 4, -1 / 4, 0], true⟩ = centred := by
    unfold Fl.poly3Shift Fl.orShift centred Poly.shift Orient.shift
    have : Fl.addVec r threeCorners.orient.origin ⟨![-1 / 4, -1 / 4, 0], true⟩ = threeCorners.orient.origin.addVec ⟨![-1 / 4, -1 / 4, 0], true⟩ := by
      unfold Fl.addVec Pt.addVec
      congr 1
      funext i
      fin_cases i <;> simp [threeCorners, hq, r.zero]
    rw [this]
  refine ⟨_, _, threeCorners, ⟨![-1 / 4, -1 / 4, 0], true⟩, Fl.threeCorners_built r, rfl, ?_, fun proper => C149_zero_false r _ ?_ _ rfl proper⟩
  · rw [e]
    refine ⟨![1 / 4, 1 / 4], corner_triangle (by norm_num) (by norm_num) (by norm_num) _ rfl, ?_⟩
    rw [centred_point]; funext i; fin_cases i <;> simp
  · rw [e]; exact centred_spans.origin

/-- C149: a polygon in space never contains a ball with a positive radius, and contains a ball of radius zero when it contains its center. -/
theorem C149_ball (r : Rounding 53) (s : Poly n) (b : Ball n) (proper : Bool) :
    (0 < b.radius → Fl.containsPolyBallN r s b proper = some false) ∧
    (b.radius = 0 → Fl.containsPolyBallN r s b proper = Fl.interPolyPn r s b.center proper) := by
  unfold Fl.containsPolyBallN Fl.interPolyPn
  refine ⟨fun h => ?_, fun h => ?_⟩
  · rw [if_pos h]; simp
  · rw [if_neg (show ¬ b.radius > 0 by rw [h]; simp)]

end WFMath
