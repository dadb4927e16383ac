/- Property theorems C154: segments that meet polygons in space, computed with rounding. -/
import Verif.Lemmas.RoundPolySeg
import Verif.Props.RoundPoly3Inter

namespace WFMath
open Spec Matrix Rounding
variable {n : Nat}

namespace Spec
/-- The segment `g` ends at heights `h1` and `h2` above the points `P1` and `P2` of the plane of the polygon, along a common unit normal. In three dimensions every segment has such a
description: `C154_normal`. -/
structure Heights (s : Poly n) (g : Seg n) (w : Fin n → ℝ) (P1 P2 : Fin 2 → ℝ) (h1 h2 : ℝ) : Prop where
  unit : w ⬝ᵥ w = 1
  perp0 : w ⬝ᵥ s.orient.ax0.elem = 0
  perp1 : w ⬝ᵥ s.orient.ax1.elem = 0
  first : g.p1.elem = spacePoint s P1 + h1 • w
  second : g.p2.elem = spacePoint s P2 + h2 • w
/-- How far off the computed heights and feet may be: `δ` bounds the product of the axes, `D` the distances of the ends of the segment from the origin of the plane. -/
noncomputable def segError (δ D : ℝ) : ℝ := (2 ^ (-44 : ℤ) + 3 * δ) * D
/-- The point of the plane on the line of the segment, in plane coordinates, for ends on different sides of the plane. -/
noncomputable def crossing (P1 P2 : Fin 2 → ℝ) (h1 h2 : ℝ) : Fin 2 → ℝ := fun i => (P1 i * |h2| + P2 i * |h1|) / (|h1| + |h2|)
/-- How far off the computed crossing may be, for a segment of length `L` whose ends are at heights `h1` and `h2`. -/
noncomputable def crossError (β L h1 h2 : ℝ) : ℝ := β * (1 + 2 * L / (|h1| + |h2|))
end Spec

/-- C154: in three dimensions every point is at some height above some point of the plane. -/
theorem C154_normal (s : Poly 3) (hs : PlaneAxes s.orient) (hQ : |s.orient.ax0.elem ⬝ᵥ s.orient.ax1.elem| ≤ 1 / 10) (g : Seg 3) :
    ∃ w P1 P2 h1 h2, Heights s g w P1 P2 h1 h2 := by
  have hu := hs.unit0
  have hv := hs.unit1
  norm_num at hu hv
  rw [_root_.abs_le] at hu hv hQ
  -- the normal
  obtain ⟨w, hw, w0, w1, hall⟩ : ∃ w : Fin 3 → ℝ, w ⬝ᵥ w = 1 ∧ w ⬝ᵥ s.orient.ax0.elem = 0 ∧ w ⬝ᵥ s.orient.ax1.elem = 0 ∧
      ∀ d : Fin 3 → ℝ, ∃ (y : Fin 2 → ℝ) (k : ℝ), d = y 0 • s.orient.ax0.elem + y 1 • s.orient.ax1.elem + k • w := by
    revert hu hv hQ
    generalize s.orient.ax0.elem = a
    generalize s.orient.ax1.elem = b
    intro hQ hu hv
    obtain ⟨c, hc⟩ : ∃ c : Fin 3 → ℝ, c = ![a 1 * b 2 - a 2 * b 1, a 2 * b 0 - a 0 * b 2, a 0 * b 1 - a 1 * b 0] := ⟨_, rfl⟩
    have c0 : c 0 = a 1 * b 2 - a 2 * b 1 := by rw [hc]; rfl
    have c1 : c 1 = a 2 * b 0 - a 0 * b 2 := by rw [hc]; rfl
    have c2 : c 2 = a 0 * b 1 - a 1 * b 0 := by rw [hc]; rfl
    have G : c ⬝ᵥ c = (a ⬝ᵥ a) * (b ⬝ᵥ b) - (a ⬝ᵥ b) ^ 2 := by
      simp only [dotProduct, Fin.sum_univ_three, c0, c1, c2]; ring
    have G0 : 0 < c ⬝ᵥ c := by rw [G]; nlinarith
    have ca : c ⬝ᵥ a = 0 := by simp only [dotProduct, Fin.sum_univ_three, c0, c1, c2]; ring
    have cb : c ⬝ᵥ b = 0 := by simp only [dotProduct, Fin.sum_univ_three, c0, c1, c2]; ring
    have hq := Real.mul_self_sqrt G0.le
    have hq0 := Real.sqrt_pos.2 G0
    generalize hK : Real.sqrt (c ⬝ᵥ c) = K at *
    refine ⟨K⁻¹ • c, ?_, by rw [smul_dotProduct, ca, smul_zero], by rw [smul_dotProduct, cb, smul_zero], fun d => ?_⟩
    · rw [smul_dotProduct, dotProduct_smul, smul_eq_mul, smul_eq_mul, ← hq]
      field_simp
    · refine ⟨![((d ⬝ᵥ a) * (b ⬝ᵥ b) - (d ⬝ᵥ b) * (a ⬝ᵥ b)) / (c ⬝ᵥ c), ((d ⬝ᵥ b) * (a ⬝ᵥ a) - (d ⬝ᵥ a) * (a ⬝ᵥ b)) / (c ⬝ᵥ c)], K * ((d ⬝ᵥ c) / (c ⬝ᵥ c)), ?_⟩
      rw [smul_smul, show K * ((d ⬝ᵥ c) / (c ⬝ᵥ c)) * K⁻¹ = (d ⬝ᵥ c) / (c ⬝ᵥ c) by field_simp]
      have key : (c ⬝ᵥ c) • d = ((d ⬝ᵥ a) * (b ⬝ᵥ b) - (d ⬝ᵥ b) * (a ⬝ᵥ b)) • a + ((d ⬝ᵥ b) * (a ⬝ᵥ a) - (d ⬝ᵥ a) * (a ⬝ᵥ b)) • b + (d ⬝ᵥ c) • c := by
        funext i
        simp only [Pi.add_apply, Pi.smul_apply, smul_eq_mul, dotProduct, Fin.sum_univ_three, c0, c1, c2]
        fin_cases i
        · show _ * d 0 = _ * a 0 + _ * b 0 + _ * c 0
          rw [c0]; ring
        · show _ * d 1 = _ * a 1 + _ * b 1 + _ * c 1
          rw [c1]; ring
        · show _ * d 2 = _ * a 2 + _ * b 2 + _ * c 2
          rw [c2]; ring
      have k2 := congrArg ((c ⬝ᵥ c)⁻¹ • ·) key
      simp only [smul_smul, smul_add, inv_mul_cancel₀ G0.ne', one_smul] at k2
      simp only [cons_val_zero, cons_val_one, div_eq_inv_mul]
      exact k2
  obtain ⟨P1, h1, e1⟩ := hall (g.p1.elem - s.orient.origin.elem)
  obtain ⟨P2, h2, e2⟩ := hall (g.p2.elem - s.orient.origin.elem)
  refine ⟨w, P1, P2, h1, h2, hw, w0, w1, ?_, ?_⟩
  · rw [sub_eq_iff_eq_add] at e1
    rw [e1]; unfold spacePoint; abel
  · rw [sub_eq_iff_eq_add] at e2
    rw [e2]; unfold spacePoint; abel

namespace Fl

/-- The pieces of the computation: the dot product that decides the side, and the point that is tested. -/
theorem interPolySn_setup (r : Rounding 53) (hn : n ≤ 3) (s : Poly n) (hs : PlaneAxes s.orient) (hl : s.poly.length ≠ 0) (g : Seg n) {w : Fin n → ℝ} {P1 P2 : Fin 2 → ℝ} {h1 h2 : ℝ}
    (hg : Heights s g w P1 P2 h1 h2) {δ D : ℝ} (hδ : |s.orient.ax0.elem ⬝ᵥ s.orient.ax1.elem| ≤ δ) (hδ1 : δ ≤ 1 / 10) (hD1 : eucl g.p1.elem s.orient.origin.elem ≤ D)
    (hD2 : eucl g.p2.elem s.orient.origin.elem ≤ D) :
    ∃ (v1 v2 : Vec n), len (v1.elem - h1 • w) ≤ segError δ D ∧ len (v2.elem - h2 • w) ≤ segError δ D ∧ (0 < dot r v1 v2 → ∀ proper, interPolySn r s g proper = some false) ∧
      (¬ 0 < dot r v1 v2 → 8 * segError δ D ≤ |h1| + |h2| → 0 < |h1| + |h2| → ∃ q : Fin 2 → ℝ, (∀ proper, interPolySn r s g proper = some (interPolyP r s.poly ⟨q, false⟩ proper)) ∧
        ∀ i, |q i - crossing P1 P2 h1 h2 i| ≤ crossError (segError δ D) (eucl g.p1.elem g.p2.elem) h1 h2) := by
  have n0 : NearUnit s.orient.ax0.elem := by unfold NearUnit; rw [u53]; exact hs.unit0
  have n1 : NearUnit s.orient.ax1.elem := by unfold NearUnit; rw [u53]; exact hs.unit1
  have hu0 : 0 < u 53 := u_pos
  have hδ0 := (abs_nonneg _).trans hδ
  have hD := (eucl_nonneg _ _).trans hD1
  have e44 : (2 : ℝ) ^ (-44 : ℤ) = 512 * u 53 := by rw [u53]; norm_num
  have hβ : segError δ D = (512 * u 53 + 3 * δ) * D := by unfold segError; rw [e44]
  have hβ0 : 0 ≤ segError δ D := by rw [hβ]; positivity
  have hβu : 512 * u 53 * D ≤ segError δ D := by rw [hβ]; nlinarith
  obtain ⟨v1, y1, o1, a1, b1, c1, f1⟩ := offset_normal r hn hs.origin n0 n1 g.p1 hδ hδ1 hg.perp0 hg.perp1 (P := P1) (h := h1) hg.first
  obtain ⟨v2, y2, o2, a2, b2, c2, f2⟩ := offset_normal r hn hs.origin n0 n1 g.p2 hδ hδ1 hg.perp0 hg.perp1 (P := P2) (h := h2) hg.second
  rw [eucl_eq_len] at hD1 hD2
  have bd : ∀ {x k d : ℝ}, 0 ≤ k → x ≤ k * d → d ≤ D → x ≤ k * D := fun hk hx hd => hx.trans (mul_le_mul_of_nonneg_left hd hk)
  have F1 : len (v1.elem - h1 • w) ≤ segError δ D := by rw [hβ]; exact bd (by positivity) f1 hD1
  have F2 : len (v2.elem - h2 • w) ≤ segError δ D := by rw [hβ]; exact bd (by positivity) f2 hD2
  have res : ∀ proper, interPolySn r s g proper = if dot r v1 v2 > 0 then some false
      else if r (mag r v1 + mag r v2) = 0 then interPolyS r s.poly ⟨⟨y1, false⟩, ⟨y2, false⟩⟩ proper
      else some (interPolyP r s.poly ⟨fun i => r (r (r (y1 i * mag r v2) + r (y2 i * mag r v1)) / r (mag r v1 + mag r v2)), false⟩ proper) := fun proper => by
    unfold interPolySn
    rw [if_neg hl, o1, o2]
    rfl
  refine ⟨v1, v2, F1, F2, fun h proper => by rw [res, if_pos h], fun h hH hH0 => ?_⟩
  obtain ⟨m1, d1⟩ := height_err r hn v1 hg.unit F1 (bd (by norm_num) b1 hD1) hβu
  obtain ⟨m2, d2⟩ := height_err r hn v2 hg.unit F2 (bd (by norm_num) b2 hD2) hβu
  have half : segError δ D / 2 = (256 * u 53 + 3 / 2 * δ) * D := by rw [hβ]; ring
  have near := fun i => mean_near hβ0 (show |y1 i - P1 i| ≤ segError δ D / 2 by rw [half]; exact bd (by positivity) (c1 i) hD1)
    (show |y2 i - P2 i| ≤ segError δ D / 2 by rw [half]; exact bd (by positivity) (c2 i) hD2) m1 m2 (abs_nonneg h1) (abs_nonneg h2) d1 d2 hH hH0
  have hS : 0 < mag r v1 + mag r v2 := by have := (near 0).1; linarith
  have hS' : r (mag r v1 + mag r v2) ≠ 0 := by
    have e := _root_.abs_le.1 (r.err pos53 (mag r v1 + mag r v2))
    rw [abs_of_pos hS] at e
    have hu : u 53 ≤ 1 / 1000000 := by rw [u53]; norm_num
    have := mul_le_mul_of_nonneg_right hu hS.le
    intro h0
    linarith
  refine ⟨_, fun proper => by rw [res, if_neg h, if_neg hS'], fun i => ?_⟩
  have rd := mean_round r (bd (by norm_num) (a1 i) hD1) (bd (by norm_num) (a2 i) hD2) m1 m2 hS
  refine (abs_sub_le _ _ _).trans ((add_le_add rd (near i).2).trans ?_)
  -- the distance of the feet
  have hP : |P1 i - P2 i| ≤ 6 / 5 * eucl g.p1.elem g.p2.elem := by
    have e : g.p1.elem - g.p2.elem = ((P1 0 - P2 0) • s.orient.ax0.elem + (P1 1 - P2 1) • s.orient.ax1.elem) + (h1 - h2) • w := by
      rw [hg.first, hg.second]; unfold spacePoint; module
    have e2 : len ((P1 0 - P2 0) • s.orient.ax0.elem + (P1 1 - P2 1) • s.orient.ax1.elem) ≤ eucl g.p1.elem g.p2.elem := by
      rw [eucl_eq_len, e]
      refine abs_le_of_sq_le_sq' ?_ (len_nonneg _) |>.2
      rw [len_sq, len_sq]
      generalize hX : (P1 0 - P2 0) • s.orient.ax0.elem + (P1 1 - P2 1) • s.orient.ax1.elem = X
      have hx : w ⬝ᵥ X = 0 := by rw [← hX, dotProduct_add, dotProduct_smul, dotProduct_smul, hg.perp0, hg.perp1]; simp
      simp only [add_dotProduct, dotProduct_add, smul_dotProduct, dotProduct_smul, smul_eq_mul, hx, dotProduct_comm X w, hg.unit]
      nlinarith [sq_nonneg (h1 - h2)]
    have q := hδ.trans hδ1
    fin_cases i
    · have := coord_bound n1 n0 (by rwa [dotProduct_comm]) (P1 1 - P2 1) (P1 0 - P2 0)
      rw [add_comm] at this
      exact this.trans (by linarith)
    · exact (coord_bound n0 n1 q (P1 0 - P2 0) (P1 1 - P2 1)).trans (by linarith)
  unfold crossError
  have hL := eucl_nonneg g.p1.elem g.p2.elem
  have t : 3 / 2 * segError δ D * |P1 i - P2 i| / (|h1| + |h2|) ≤ segError δ D * (2 * eucl g.p1.elem g.p2.elem / (|h1| + |h2|)) := by
    rw [← mul_div_assoc]
    refine div_le_div_of_nonneg_right ?_ hH0.le
    have := mul_le_mul_of_nonneg_left hP hβ0
    have := mul_nonneg hβ0 hL
    linarith
  have huD := mul_nonneg hu0.le hD
  rw [mul_add, mul_one]
  linarith

end Fl

/-- C154: a segment whose ends are on one side of the plane, both farther from it than the error and one of them farther than the tolerance, is found not to meet the polygon. -/
theorem C154_apart (r : Rounding 53) (hn : n ≤ 3) (s : Poly n) (hs : PlaneAxes s.orient) (g : Seg n) {w : Fin n → ℝ} {P1 P2 : Fin 2 → ℝ} {h1 h2 : ℝ}
    (hg : Heights s g w P1 P2 h1 h2) {δ D : ℝ} (hδ : |s.orient.ax0.elem ⬝ᵥ s.orient.ax1.elem| ≤ δ) (hδ1 : δ ≤ 1 / 10) (hD1 : eucl g.p1.elem s.orient.origin.elem ≤ D)
    (hD2 : eucl g.p2.elem s.orient.origin.elem ≤ D) (hside : 0 < h1 * h2) (k1 : 4 * segError δ D ≤ |h1|) (k2 : 4 * segError δ D ≤ |h2|)
    (ht : 8 * epsilon ≤ |h1| ∨ 8 * epsilon ≤ |h2|) (proper : Bool) : Fl.interPolySn r s g proper = some false := by
  by_cases hl : s.poly.length = 0
  · unfold Fl.interPolySn; rw [if_pos hl]
  obtain ⟨v1, v2, e1, e2, hf, -⟩ := Fl.interPolySn_setup r hn s hs hl g hg hδ hδ1 hD1 hD2
  exact hf ((Fl.dot_sides r hn v1 v2 hg.unit e1 e2 k1 k2).2 hside ht) proper

/-- The answer for a segment that goes through the plane. -/
theorem Fl.interPolySn_through (r : Rounding 53) (hn : n ≤ 3) (s : Poly n) (hs : PlaneAxes s.orient) (hl : s.poly.length ≠ 0) (g : Seg n) {w : Fin n → ℝ} {P1 P2 : Fin 2 → ℝ} {h1 h2 : ℝ}
    (hg : Heights s g w P1 P2 h1 h2) {δ D : ℝ} (hδ : |s.orient.ax0.elem ⬝ᵥ s.orient.ax1.elem| ≤ δ) (hδ1 : δ ≤ 1 / 10) (hD1 : eucl g.p1.elem s.orient.origin.elem ≤ D)
    (hD2 : eucl g.p2.elem s.orient.origin.elem ≤ D) (hside : h1 * h2 < 0) (k1 : 4 * segError δ D ≤ |h1|) (k2 : 4 * segError δ D ≤ |h2|) :
    ∃ q : Fin 2 → ℝ, (∀ proper, Fl.interPolySn r s g proper = some (Fl.interPolyP r s.poly ⟨q, false⟩ proper)) ∧
      ∀ i, |q i - crossing P1 P2 h1 h2 i| ≤ crossError (segError δ D) (eucl g.p1.elem g.p2.elem) h1 h2 := by
  obtain ⟨v1, v2, e1, e2, -, hf⟩ := Fl.interPolySn_setup r hn s hs hl g hg hδ hδ1 hD1 hD2
  have p1 : 0 < |h1| := abs_pos.2 (left_ne_zero_of_mul hside.ne)
  exact hf (not_lt.2 ((Fl.dot_sides r hn v1 v2 hg.unit e1 e2 k1 k2).1 hside)) (by linarith) (by have := abs_nonneg h2; linarith)

/-- C154: a segment that goes through the plane of the polygon, with ends farther from it than the error, is found to meet the polygon when all points of the plane within
the error of the crossing are inside the polygon and not within the margin of a side, and found to miss it when none of them is. -/
theorem C154_through (r : Rounding 53) (hn : n ≤ 3) (s : Poly n) (hs : PlaneAxes s.orient) (g : Seg n) {w : Fin n → ℝ} {P1 P2 : Fin 2 → ℝ} {h1 h2 : ℝ}
    (hg : Heights s g w P1 P2 h1 h2) {δ D : ℝ} (hδ : |s.orient.ax0.elem ⬝ᵥ s.orient.ax1.elem| ≤ δ) (hδ1 : δ ≤ 1 / 10) (hD1 : eucl g.p1.elem s.orient.origin.elem ≤ D)
    (hD2 : eucl g.p2.elem s.orient.origin.elem ≤ D) (hside : h1 * h2 < 0) (k1 : 4 * segError δ D ≤ |h1|) (k2 : 4 * segError δ D ≤ |h2|) (M : ℝ) (hM : ∀ c ∈ s.poly, |c.elem 0| ≤ M)
    (hc : ∀ q : Fin 2 → ℝ, (∀ i, |q i - crossing P1 P2 h1 h2 i| ≤ crossError (segError δ D) (eucl g.p1.elem g.p2.elem) h1 h2) → ClearOfSides s.poly q (sideMargin (q 0) M))
    (proper : Bool) :
    spacePoint s (crossing P1 P2 h1 h2) ∈ segSet g ∧
    ((∀ q : Fin 2 → ℝ, (∀ i, |q i - crossing P1 P2 h1 h2 i| ≤ crossError (segError δ D) (eucl g.p1.elem g.p2.elem) h1 h2) → q ∈ inside s.poly) →
      Fl.interPolySn r s g proper = some true) ∧
    ((∀ q : Fin 2 → ℝ, (∀ i, |q i - crossing P1 P2 h1 h2 i| ≤ crossError (segError δ D) (eucl g.p1.elem g.p2.elem) h1 h2) → q ∉ inside s.poly) →
      Fl.interPolySn r s g proper = some false) := by
  have p1 : 0 < |h1| := abs_pos.2 (left_ne_zero_of_mul hside.ne)
  have p2 : 0 < |h2| := abs_pos.2 (right_ne_zero_of_mul hside.ne)
  have hH : |h1| + |h2| ≠ 0 := by positivity
  refine ⟨⟨|h1| / (|h1| + |h2|), by positivity, (div_le_one (by positivity)).2 (by linarith), ?_⟩, fun hi => ?_, fun ho => ?_⟩
  · have e1 : 1 - |h1| / (|h1| + |h2|) = |h2| / (|h1| + |h2|) := by field_simp; ring
    have hz : |h2| / (|h1| + |h2|) * h1 + |h1| / (|h1| + |h2|) * h2 = 0 := by
      have : |h2| * h1 + |h1| * h2 = 0 := by
        rcases mul_neg_iff.1 hside with ⟨a, b⟩ | ⟨a, b⟩
        · rw [abs_of_pos a, abs_of_neg b]; ring
        · rw [abs_of_neg a, abs_of_pos b]; ring
      rw [div_mul_eq_mul_div, div_mul_eq_mul_div, ← add_div, this, zero_div]
    rw [e1, hg.first, hg.second]
    have e2 : (|h2| / (|h1| + |h2|)) + (|h1| / (|h1| + |h2|)) = 1 := by rw [← e1]; ring
    generalize hA : |h2| / (|h1| + |h2|) = A at *
    generalize hB : |h1| / (|h1| + |h2|) = B at *
    have hx : ∀ i, crossing P1 P2 h1 h2 i = A * P1 i + B * P2 i := fun i => by
      unfold crossing
      rw [← hA, ← hB]; ring
    have : A • (spacePoint s P1 + h1 • w) + B • (spacePoint s P2 + h2 • w) =
        (A + B) • s.orient.origin.elem + (A * P1 0 + B * P2 0) • s.orient.ax0.elem + (A * P1 1 + B * P2 1) • s.orient.ax1.elem + (A * h1 + B * h2) • w := by
      unfold spacePoint; module
    rw [this, e2, hz, one_smul, zero_smul, add_zero]
    unfold spacePoint
    rw [hx, hx]
  · by_cases hl : s.poly.length = 0
    · exfalso
      have := hi _ (fun i => by
        rw [sub_self, abs_zero]
        unfold crossError
        have : 0 ≤ segError δ D := by
          have := (abs_nonneg _).trans hδ
          have := (eucl_nonneg _ _).trans hD1
          unfold segError; positivity
        have := eucl_nonneg g.p1.elem g.p2.elem
        positivity)
      rw [List.length_eq_zero_iff.1 hl] at this
      exact filled_nil _ (.inl this)
    · obtain ⟨q, hq, hqc⟩ := Fl.interPolySn_through r hn s hs hl g hg hδ hδ1 hD1 hD2 hside k1 k2
      rw [hq, (C136_point r s.poly ⟨q, false⟩ proper hM (hc q hqc)).2 (hi q hqc)]
  · by_cases hl : s.poly.length = 0
    · unfold Fl.interPolySn; rw [if_pos hl]
    · obtain ⟨q, hq, hqc⟩ := Fl.interPolySn_through r hn s hs hl g hg hδ hδ1 hD1 hD2 hside k1 k2
      rw [hq, Option.some.injEq, ← Bool.not_eq_true, C136_point r s.poly ⟨q, false⟩ proper hM (hc q hqc)]
      exact ho q hqc

/-- C154: when a segment is found to meet the polygon and its ends are not both within the error of the plane, then some point of the segment is near a point of the plane that is
inside the polygon or within the margin of a side. -/
theorem C154_found (r : Rounding 53) (hn : n ≤ 3) (s : Poly n) (hs : PlaneAxes s.orient) (g : Seg n) {w : Fin n → ℝ} {P1 P2 : Fin 2 → ℝ} {h1 h2 : ℝ}
    (hg : Heights s g w P1 P2 h1 h2) {δ D : ℝ} (hδ : |s.orient.ax0.elem ⬝ᵥ s.orient.ax1.elem| ≤ δ) (hδ1 : δ ≤ 1 / 10) (hD1 : eucl g.p1.elem s.orient.origin.elem ≤ D)
    (hD2 : eucl g.p2.elem s.orient.origin.elem ≤ D) (hH : 8 * segError δ D ≤ |h1| + |h2|) (hH0 : 0 < |h1| + |h2|) (M : ℝ) (hM : ∀ c ∈ s.poly, |c.elem 0| ≤ M)
    (proper : Bool) (ht : Fl.interPolySn r s g proper = some true) :
    ∃ x ∈ segSet g, ∃ q : Fin 2 → ℝ, (ClearOfSides s.poly q (sideMargin (q 0) M) → q ∈ inside s.poly) ∧
      eucl x (spacePoint s q) ≤ 3 * crossError (segError δ D) (eucl g.p1.elem g.p2.elem) h1 h2 + 8 * segError δ D + 8 * epsilon := by
  have hl : s.poly.length ≠ 0 := fun h => by unfold Fl.interPolySn at ht; rw [if_pos h] at ht; simp at ht
  obtain ⟨v1, v2, e1, e2, hf, hf2⟩ := Fl.interPolySn_setup r hn s hs hl g hg hδ hδ1 hD1 hD2
  have hdot : ¬ 0 < Fl.dot r v1 v2 := fun h => by have := hf h proper; rw [ht] at this; simp at this
  obtain ⟨q, hq, hqc⟩ := hf2 hdot hH hH0
  have a1 := abs_nonneg h1
  have a2 := abs_nonneg h2
  have hβ0 : 0 ≤ segError δ D := by
    have := (abs_nonneg _).trans hδ
    have := (eucl_nonneg _ _).trans hD1
    unfold segError; positivity
  have he := epsilon_pos
  have hne := hH0.ne'
  -- the height of the point of the segment
  have hheight : |(|h2| / (|h1| + |h2|)) * h1 + (|h1| / (|h1| + |h2|)) * h2| ≤ 8 * segError δ D + 8 * epsilon := by
    have e : (|h2| / (|h1| + |h2|)) * h1 + (|h1| / (|h1| + |h2|)) * h2 = (|h2| * h1 + |h1| * h2) / (|h1| + |h2|) := by ring
    rw [e, abs_div, abs_of_pos hH0, div_le_iff₀ hH0]
    rcases le_or_gt (h1 * h2) 0 with hneg | hpos
    · have : |h2| * h1 + |h1| * h2 = 0 := by
        rcases mul_nonpos_iff.1 hneg with ⟨a, b⟩ | ⟨a, b⟩
        · rw [abs_of_nonneg a, abs_of_nonpos b]; ring
        · rw [abs_of_nonpos a, abs_of_nonneg b]; ring
      rw [this, abs_zero]; positivity
    · have e3 : |(|h2| * h1 + |h1| * h2)| ≤ 2 * (|h1| * |h2|) := by
        refine (abs_add_le _ _).trans ?_
        rw [abs_mul, abs_mul, abs_abs, abs_abs]; linarith
      refine e3.trans ?_
      by_cases c : 4 * segError δ D ≤ |h1| ∧ 4 * segError δ D ≤ |h2|
      · have c2 : ¬ (8 * epsilon ≤ |h1| ∨ 8 * epsilon ≤ |h2|) := fun h => hdot ((Fl.dot_sides r hn v1 v2 hg.unit e1 e2 c.1 c.2).2 hpos h)
        push Not at c2
        have m1 := mul_le_mul_of_nonneg_right c2.1.le a2
        have m2 := mul_le_mul_of_nonneg_left c2.2.le a1
        have m3 := mul_nonneg hβ0 hH0.le
        linarith
      · have c3 : |h1| < 4 * segError δ D ∨ |h2| < 4 * segError δ D := by
          by_contra h
          push Not at h
          exact c h
        have m3 := mul_nonneg he.le hH0.le
        rcases c3 with c3 | c3
        · have m1 := mul_le_mul_of_nonneg_right c3.le a2
          have m2 := mul_nonneg hβ0 a1
          linarith
        · have m1 := mul_le_mul_of_nonneg_left c3.le a1
          have m2 := mul_nonneg hβ0 a2
          linarith
  refine ⟨_, ⟨|h1| / (|h1| + |h2|), by positivity, (div_le_one hH0).2 (by linarith), rfl⟩, q, fun hcl => ?_, ?_⟩
  · rw [hq, Option.some.injEq] at ht
    exact (C136_point r s.poly ⟨q, false⟩ proper hM hcl).1 ht
  · have e1 : 1 - |h1| / (|h1| + |h2|) = |h2| / (|h1| + |h2|) := by field_simp; ring
    have e2 : (|h2| / (|h1| + |h2|)) + (|h1| / (|h1| + |h2|)) = 1 := by rw [← e1]; ring
    rw [e1, hg.first, hg.second, eucl_eq_len]
    generalize hA : |h2| / (|h1| + |h2|) = A at *
    generalize hB : |h1| / (|h1| + |h2|) = B at *
    have hx : ∀ i, crossing P1 P2 h1 h2 i = A * P1 i + B * P2 i := fun i => by
      unfold crossing
      rw [← hA, ← hB]; ring
    have e3 : A • (spacePoint s P1 + h1 • w) + B • (spacePoint s P2 + h2 • w) - spacePoint s q =
        (A + B - 1) • s.orient.origin.elem + (crossing P1 P2 h1 h2 0 - q 0) • s.orient.ax0.elem + (crossing P1 P2 h1 h2 1 - q 1) • s.orient.ax1.elem + (A * h1 + B * h2) • w := by
      rw [hx, hx]
      unfold spacePoint; module
    rw [e3, e2, sub_self, zero_smul, zero_add]
    have n0 : Fl.NearUnit s.orient.ax0.elem := by unfold Fl.NearUnit; rw [Fl.u53]; exact hs.unit0
    have n1 : Fl.NearUnit s.orient.ax1.elem := by unfold Fl.NearUnit; rw [Fl.u53]; exact hs.unit1
    have hu : u 53 ≤ 1 / 1000000 := by rw [Fl.u53]; norm_num
    have l0 := n0.len
    have l1 := n1.len
    refine ((len_add_le _ _).trans (add_le_add (len_add_le _ _) le_rfl)).trans ?_
    rw [len_smul, len_smul, len_smul, len, len, len, hg.unit, Real.sqrt_one, mul_one]
    change |_| * len s.orient.ax0.elem + |_| * len s.orient.ax1.elem + _ ≤ _
    have q0 := hqc 0
    have q1 := hqc 1
    rw [abs_sub_comm] at q0 q1
    have m0 := mul_le_mul q0 (show len s.orient.ax0.elem ≤ 3 / 2 by linarith) (len_nonneg _) ((abs_nonneg _).trans q0)
    have m1 := mul_le_mul q1 (show len s.orient.ax1.elem ≤ 3 / 2 by linarith) (len_nonneg _) ((abs_nonneg _).trans q1)
    rw [hg.first, hg.second] at m0 m1
    linarith

namespace Fl

theorem round_int (r : Rounding 53) {k : ℤ} (h : |k| ≤ 1000000) : r (k : ℝ) = k := r.of_fl (IsFl.int pos53 (h.trans (by norm_num)))

/-- Products of vectors with small integers for components are exact. -/
theorem dot_ints (r : Rounding 53) {n : Nat} (a b : Vec n) (k : ℤ) (ha : ∀ i, |a.elem i| ≤ 10) (hs : sum r (fun i => r (a.elem i * b.elem i)) = k) : dot r a b = k := by
  unfold dot
  simp only [hs]
  by_cases hk : k = 0
  · rw [hk]; simp
  · rw [if_pos]
    have h1 : (1 : ℝ) ≤ |(k : ℝ)| := by exact_mod_cast Int.one_le_abs hk
    have z : ∀ v : Fin n → ℝ, (∀ i, v i = 0) → (∀ i, a.elem i * b.elem i = 0) → False := fun v _ h0 => by
      have : sum r (fun i => r (a.elem i * b.elem i)) = 0 := by
        simp only [h0, r.zero]
        unfold sum
        have : ∀ (l : List (Fin n)), l.foldl (fun s _ => r (s + 0)) 0 = 0 := fun l => by
          induction l with
          | nil => rfl
          | cons i is ih => rw [List.foldl_cons, add_zero, r.zero, ih]
        exact this _
      rw [hs] at this
      exact hk (by exact_mod_cast this)
    have na : a.elem ≠ 0 := fun h => z a.elem (fun i => by rw [h]; rfl) fun i => by rw [h]; simp
    have nb : b.elem ≠ 0 := fun h => z b.elem (fun i => by rw [h]; rfl) fun i => by rw [h]; simp
    refine (scaleEpsilonArr_le epsilon_pos.le na nb).trans ?_
    have he := epsilon_lt
    norm_num at he
    have hm : min (maxAbs a.elem) (maxAbs b.elem) ≤ 10 := (min_le_left _ _).trans (maxAbs_le (by norm_num) ha)
    have := mul_le_mul_of_nonneg_left hm (show 0 ≤ 2 * epsilon by linarith [epsilon_pos])
    linarith

theorem sum_two (r : Rounding 53) (f : Fin 2 → ℝ) : sum r f = r (r (0 + f 0) + f 1) := rfl

theorem dot_int2 (r : Rounding 53) {a b c d : ℤ} (ha : |a| ≤ 10) (hb : |b| ≤ 10) (hc : |c| ≤ 10) (hd : |d| ≤ 10) (v v' : Bool) :
    dot r (⟨![(a : ℝ), b], v⟩ : Vec 2) ⟨![(c : ℝ), d], v'⟩ = ((a * c + b * d : ℤ) : ℝ) := by
  have m : ∀ {x y : ℤ}, |x| ≤ 10 → |y| ≤ 10 → |x * y| ≤ 100 := fun hx hy => by rw [abs_mul]; exact mul_le_mul hx hy (abs_nonneg _) (by norm_num)
  have m1 := m ha hc
  have m2 := m hb hd
  refine dot_ints r _ _ _ (fun i => by fin_cases i <;> simp <;> exact_mod_cast by assumption) ?_
  rw [sum_two]
  simp only [cons_val_zero, cons_val_one]
  rw [show (a : ℝ) * c = ((a * c : ℤ) : ℝ) by push_cast; rfl, show (b : ℝ) * d = ((b * d : ℤ) : ℝ) by push_cast; rfl, round_int r (m1.trans (by norm_num)),
    round_int r (m2.trans (by norm_num)), zero_add, round_int r (m1.trans (by norm_num)), ← Int.cast_add, round_int r]
  exact (abs_add_le _ _).trans (by linarith)

theorem sqr_int2 (r : Rounding 53) {a b : ℤ} (ha : |a| ≤ 10) (hb : |b| ≤ 10) (v : Bool) : sqrMag r (⟨![(a : ℝ), b], v⟩ : Vec 2) = ((a * a + b * b : ℤ) : ℝ) := by
  have m : ∀ {x y : ℤ}, |x| ≤ 10 → |y| ≤ 10 → |x * y| ≤ 100 := fun hx hy => by rw [abs_mul]; exact mul_le_mul hx hy (abs_nonneg _) (by norm_num)
  have m1 := m ha ha
  have m2 := m hb hb
  unfold sqrMag
  rw [sum_two]
  simp only [cons_val_zero, cons_val_one]
  rw [show (a : ℝ) * a = ((a * a : ℤ) : ℝ) by push_cast; rfl, show (b : ℝ) * b = ((b * b : ℤ) : ℝ) by push_cast; rfl, round_int r (m1.trans (by norm_num)),
    round_int r (m2.trans (by norm_num)), zero_add, round_int r (m1.trans (by norm_num)), ← Int.cast_add, round_int r]
  exact (abs_add_le _ _).trans (by linarith)

/-- Where the lines of two segments meet ahead of the start of the first, the segments are found not to meet. -/
theorem interSS_ahead (r : Rounding 53) (s1 s2 : Seg 2) {a b c d e f : ℤ} {v v' v'' : Bool} (h1 : ptSub r s1.p2 s1.p1 = ⟨![(a : ℝ), b], v⟩) (h2 : ptSub r s2.p2 s2.p1 = ⟨![(c : ℝ), d], v'⟩)
    (h3 : ptSub r s2.p1 s1.p1 = ⟨![(e : ℝ), f], v''⟩) (ha : |a| ≤ 10) (hb : |b| ≤ 10) (hc : |c| ≤ 10) (hd : |d| ≤ 10) (he : |e| ≤ 10) (hf : |f| ≤ 10)
    (hpos : 0 < (a * a + b * b) * (c * c + d * d) - (a * c + b * d) * (a * c + b * d))
    (hnum : 0 < (c * c + d * d) * (a * e + b * f) - (a * c + b * d) * (c * e + d * f)) (proper : Bool) : interSS r s1 s2 proper = false := by
  have m : ∀ {x y : ℤ}, |x| ≤ 10 → |y| ≤ 10 → |x * y| ≤ 100 := fun hx hy => by rw [abs_mul]; exact mul_le_mul hx hy (abs_nonneg _) (by norm_num)
  have s : ∀ {x y z w : ℤ}, |x| ≤ 10 → |y| ≤ 10 → |z| ≤ 10 → |w| ≤ 10 → |x * y + z * w| ≤ 200 := fun hx hy hz hw => (abs_add_le _ _).trans (by linarith [m hx hy, m hz hw])
  have q : ∀ {x y : ℤ}, |x| ≤ 200 → |y| ≤ 200 → |x * y| ≤ 40000 := fun hx hy => by rw [abs_mul]; exact mul_le_mul hx hy (abs_nonneg _) (by norm_num)
  have df : ∀ {x y : ℤ}, |x| ≤ 40000 → |y| ≤ 40000 → |x - y| ≤ 1000000 := fun hx hy => (abs_sub _ _).trans (by linarith)
  unfold interSS
  simp only [h1, h2, h3, dot_int2 r ha hb hc hd, dot_int2 r ha hb he hf, dot_int2 r hc hd he hf, sqr_int2 r ha hb, sqr_int2 r hc hd]
  have b1 := s ha ha hb hb
  have b2 := s hc hc hd hd
  have b3 := s ha hc hb hd
  have b4 := s ha he hb hf
  have b5 := s hc he hd hf
  generalize a * a + b * b = A at *
  generalize c * c + d * d = C at *
  generalize a * c + b * d = K at *
  generalize a * e + b * f = X at *
  generalize c * e + d * f = Y at *
  have k1 : r (r ((A : ℝ) * C) - r ((K : ℝ) * K)) = ((A * C - K * K : ℤ) : ℝ) := by
    rw [← Int.cast_mul, ← Int.cast_mul, round_int r ((q b1 b2).trans (by norm_num)), round_int r ((q b3 b3).trans (by norm_num)), ← Int.cast_sub, round_int r (df (q b1 b2) (q b3 b3))]
  have k2 : r (r ((C : ℝ) * X) - r ((K : ℝ) * Y)) = ((C * X - K * Y : ℤ) : ℝ) := by
    rw [← Int.cast_mul, ← Int.cast_mul, round_int r ((q b2 b4).trans (by norm_num)), round_int r ((q b3 b5).trans (by norm_num)), ← Int.cast_sub, round_int r (df (q b2 b4) (q b3 b5))]
  rw [k1, k2]
  have hd2 : A * C - K * K ≤ 1000000 := (le_abs_self _).trans (df (q b1 b2) (q b3 b3))
  have p1 : (0 : ℝ) < ((A * C - K * K : ℤ) : ℝ) := by exact_mod_cast hpos
  have p2 : (0 : ℝ) < ((C * X - K * Y : ℤ) : ℝ) := by exact_mod_cast hnum
  have hq : 0 < ((C * X - K * Y : ℤ) : ℝ) / ((A * C - K * K : ℤ) : ℝ) := div_pos p2 p1
  have hr : 0 < r (((C * X - K * Y : ℤ) : ℝ) / ((A * C - K * K : ℤ) : ℝ)) := by
    have := _root_.abs_le.1 (r.err pos53 (((C * X - K * Y : ℤ) : ℝ) / ((A * C - K * K : ℤ) : ℝ)))
    rw [abs_of_pos hq] at this
    have hu : u 53 ≤ 1 / 1000000 := by rw [u53]; norm_num
    have := mul_le_mul_of_nonneg_right hu hq.le
    linarith
  rw [if_neg (by simp), if_pos p1]
  have : lessEq (r (((C * X - K * Y : ℤ) : ℝ) / ((A * C - K * K : ℤ) : ℝ))) 0 proper = false := by
    generalize r (((C * X - K * Y : ℤ) : ℝ) / ((A * C - K * K : ℤ) : ℝ)) = w at hr
    unfold lessEq
    cases proper
    · simp [hr]
    · simp [hr.le]
  rw [this]
  simp

/-- A point of the plane of the triangle with integer coordinates is projected exactly. -/
theorem offset_flat (r : Rounding 53) {a b : ℤ} (ha : |a| ≤ 10) (hb : |b| ≤ 10) :
    ∃ v : Vec 3, v.elem = 0 ∧ offset r threeCorners.orient ⟨![(a : ℝ), b, 0], true⟩ = some (v, ⟨![(a : ℝ), b], false⟩) := by
  have ra : r (a : ℝ) = a := round_int r (ha.trans (by norm_num))
  have rb : r (b : ℝ) = b := round_int r (hb.trans (by norm_num))
  have s0 : ptSub r (⟨![(a : ℝ), b, 0], true⟩ : Pt 3) threeCorners.orient.origin = ⟨![(a : ℝ), b, 0], true⟩ := by
    unfold ptSub threeCorners
    congr 1
    funext i
    fin_cases i <;> simp [ra, rb, r.zero]
  have ha' : |(a : ℝ)| ≤ 10 := by exact_mod_cast ha
  have hb' : |(b : ℝ)| ≤ 10 := by exact_mod_cast hb
  have d0 : dot r (⟨![(a : ℝ), b, 0], true⟩ : Vec 3) threeCorners.orient.ax0 = a :=
    dot_ints r _ _ _ (fun i => by fin_cases i <;> simp <;> assumption) (by rw [sum_three]; simp [threeCorners, ra, r.zero])
  have s1 : sub r (⟨![(a : ℝ), b, 0], true⟩ : Vec 3) (scale r threeCorners.orient.ax0 a) = ⟨![0, (b : ℝ), 0], true⟩ := by
    unfold sub scale threeCorners
    congr 1
    funext i
    fin_cases i <;> simp [ra, rb, r.zero]
  have d1 : dot r (⟨![0, (b : ℝ), 0], true⟩ : Vec 3) threeCorners.orient.ax1 = b :=
    dot_ints r _ _ _ (fun i => by fin_cases i <;> simp <;> assumption) (by rw [sum_three]; simp [threeCorners, rb, r.zero])
  refine ⟨sub r ⟨![0, (b : ℝ), 0], true⟩ (scale r threeCorners.orient.ax1 b), ?_, ?_⟩
  · unfold sub scale threeCorners
    funext i
    fin_cases i <;> simp [rb, r.zero]
  · unfold offset
    simp only [s0, d0, s1, d1]
    simp [threeCorners]

end Fl

/-- C154 has no theorem for segments in the plane of the polygon: one that lies in the plane of a triangle and goes through it is found to miss it, in doubles as with exact arithmetic (C106_false). -/
theorem C154_false (r : Rounding 53) : ∃ (ps : List (Pt 3)) (f : Option (Pt 3)) (s : Poly 3) (g : Seg 3), Built3 r epsilon s ps f ∧ g.valid = true ∧
    (spaceInside s ∩ segSet g).Nonempty ∧ ∀ proper, Fl.interPolySn r s g proper = some false := by
  refine ⟨_, _, threeCorners, ⟨⟨![-1, 3, 0], true⟩, ⟨![1, -2, 0], true⟩⟩, Fl.threeCorners_built r, rfl, ?_, fun proper => ?_⟩
  · refine ⟨spacePoint threeCorners ![1 / 10, 1 / 4], ⟨_, corner_triangle (by norm_num) (by norm_num) (by norm_num) _ rfl, rfl⟩, 11 / 20, by norm_num, by norm_num, ?_⟩
    unfold spacePoint threeCorners
    funext i
    fin_cases i <;> norm_num
  · obtain ⟨v1, z1, o1⟩ := Fl.offset_flat r (a := -1) (b := 3) (by norm_num) (by norm_num)
    obtain ⟨v2, z2, o2⟩ := Fl.offset_flat r (a := 1) (b := -2) (by norm_num) (by norm_num)
    push_cast at o1 o2
    have hz : ∀ v : Vec 3, v.elem = 0 → Fl.mag r v = 0 := fun v hv => by
      unfold Fl.mag Fl.sqrMag
      rw [Fl.sum_three, hv]
      simp [r.zero]
    have hd : Fl.dot r v1 v2 = 0 := by
      have := Fl.dot_ints r v1 v2 0 (fun i => by rw [z1]; simp) (by rw [Fl.sum_three, z1]; simp [r.zero])
      simpa using this
    have e : Fl.interPolySn r threeCorners ⟨⟨![-1, 3, 0], true⟩, ⟨![1, -2, 0], true⟩⟩ proper =
        Fl.interPolyS r threeCorners.poly ⟨⟨![-1, 3], false⟩, ⟨![1, -2], false⟩⟩ proper := by
      unfold Fl.interPolySn
      rw [if_neg (by simp [threeCorners]), o1, o2]
      simp only [Option.bind_some, hd, hz v1 z1, hz v2 z2, gt_iff_lt, lt_irrefl, if_false, add_zero, r.zero, if_true]
    rw [e]
    have sd : ∀ e ∈ sides threeCorners.poly, ∀ x y : ℝ, ![x, y] ∈ segment ℝ e.1 e.2 → y ≤ 1 := fun e he x y h => by
      obtain ⟨s, s0, s1, h2, h3⟩ := seg_coord h
      rw [threeCorners_poly] at he
      simp [sides] at he
      rcases he with rfl | rfl | rfl <;> simp at h2 h3 <;> linarith
    have hp : Fl.interPolyP r threeCorners.poly ⟨![-1, 3], false⟩ proper = false := by
      rw [← Bool.not_eq_true, C136_point r _ _ proper (M := 1) (fun c hc => by
        rw [threeCorners_poly] at hc
        simp only [List.mem_cons, List.not_mem_nil, or_false] at hc
        rcases hc with rfl | rfl | rfl <;> simp) (fun e he x hx => by have := sd e he _ _ hx; norm_num at this)]
      intro h
      have h2 := h.2
      have : rayCrossings east threeCorners.poly ![-1, 3] = 0 := by
        unfold rayCrossings
        rw [List.countP_eq_zero]
        intro e he
        simp only [decide_eq_true_eq]
        rintro ⟨-, t, -, ht⟩
        have e2 : (![-1, 3] : Fin 2 → ℝ) + t • east = ![-1 + t, 3] := by apply ext2 <;> simp
        rw [e2] at ht
        have := sd e he _ _ ht
        norm_num at this
      change Odd (rayCrossings east threeCorners.poly ![-1, 3]) at h2
      rw [this] at h2
      simp at h2
    unfold Fl.interPolyS
    rw [if_neg (by rw [hp]; simp), if_neg (by simp [threeCorners])]
    have r1 : r 1 = 1 := by simpa using Fl.round_int r (k := 1) (by norm_num)
    have rn : ∀ k : ℤ, |k| ≤ 1000000 → r (k : ℝ) = k := fun k hk => Fl.round_int r hk
    have c1 : ∀ (x y x' y' : ℤ) (v v' : Bool), |x - x'| ≤ 1000000 → |y - y'| ≤ 1000000 →
        Fl.ptSub r (⟨![(x : ℝ), y], v⟩ : Pt 2) ⟨![(x' : ℝ), y'], v'⟩ = ⟨![((x - x' : ℤ) : ℝ), ((y - y' : ℤ) : ℝ)], v && v'⟩ := fun x y x' y' v v' h h' => by
      unfold Fl.ptSub
      congr 1
      funext i
      fin_cases i
      · show r ((x : ℝ) - x') = _
        rw [← Int.cast_sub, rn _ h]; rfl
      · show r ((y : ℝ) - y') = _
        rw [← Int.cast_sub, rn _ h']; rfl
    have main := c1 1 (-2) (-1) 3 false false (by norm_num) (by norm_num)
    have t1 := c1 0 0 0 1 true true (by norm_num) (by norm_num)
    have t1' := c1 0 1 (-1) 3 true false (by norm_num) (by norm_num)
    have t2 := c1 0 0 1 0 true true (by norm_num) (by norm_num)
    have t2' := c1 1 0 (-1) 3 true false (by norm_num) (by norm_num)
    have t3 := c1 0 1 1 0 true true (by norm_num) (by norm_num)
    have t3' := c1 1 0 (-1) 3 true false (by norm_num) (by norm_num)
    simp only [Int.cast_neg, Int.cast_one, Int.cast_zero, Int.cast_ofNat] at main t1 t1' t2 t2' t3 t3'
    have a1 : Fl.interSS r ⟨⟨![-1, 3], false⟩, ⟨![1, -2], false⟩⟩ ⟨⟨![0, 1], true⟩, ⟨![0, 0], true⟩⟩ proper = false :=
      Fl.interSS_ahead r _ _ main t1 t1' (by norm_num) (by norm_num) (by norm_num) (by norm_num) (by norm_num) (by norm_num) (by norm_num) (by norm_num) proper
    have a2 : Fl.interSS r ⟨⟨![-1, 3], false⟩, ⟨![1, -2], false⟩⟩ ⟨⟨![1, 0], true⟩, ⟨![0, 0], true⟩⟩ proper = false :=
      Fl.interSS_ahead r _ _ main t2 t2' (by norm_num) (by norm_num) (by norm_num) (by norm_num) (by norm_num) (by norm_num) (by norm_num) (by norm_num) proper
    have a3 : Fl.interSS r ⟨⟨![-1, 3], false⟩, ⟨![1, -2], false⟩⟩ ⟨⟨![1, 0], true⟩, ⟨![0, 1], true⟩⟩ proper = false :=
      Fl.interSS_ahead r _ _ main t3 t3' (by norm_num) (by norm_num) (by norm_num) (by norm_num) (by norm_num) (by norm_num) (by norm_num) (by norm_num) proper
    have hseg : edgeSegs (edges threeCorners.poly) true = [⟨⟨![0, 1], true⟩, ⟨![0, 0], true⟩⟩, ⟨⟨![1, 0], true⟩, ⟨![0, 0], true⟩⟩, ⟨⟨![1, 0], true⟩, ⟨![0, 1], true⟩⟩] := by
      simp [edges, edgesFrom, edgeSegs, threeCorners]
    rw [hseg]
    simp only [List.any_cons, List.any_nil, a1, a2, a3, Bool.or_false]

end WFMath
