/- Property theorems C155: segments and rotated boxes that contain polygons, computed with rounding. -/
import Verif.Model.RoundedPolyIn
import Verif.Props.RoundSegIn
import Verif.Props.RoundPolyShapes
import Verif.Props.RoundRBox
import Verif.Props.RoundPoly3
import Verif.Props.PolyInSegment
import Verif.Props.PolyContains

namespace WFMath
open Spec Matrix Rounding
variable {n : Nat}

/-- The points near a segment are a convex set. -/
theorem convex_nearSeg (s : Seg n) (δ : ℝ) : Convex ℝ {x | ∃ y ∈ segSet s, eucl x y ≤ δ} := by
  intro x hx y hy a b ha hb hab
  exact near_seg hx hy hb (by linarith) (by rw [show 1 - b = a by linarith])

/-- C155, segments of the plane: a segment that contains all corners contains the polygon for the tolerant test, and for the proper test too if it is not shorter than five times epsilon and
no corner is one of its ends; a corner that is an end is refused by the proper test. -/
theorem C155_on (r : Rounding 53) (s : Seg 2) (ps : Corners 2) :
    (convexHull ℝ (cornerSet ps) ⊆ segSet s → Fl.containsSPoly r s ps false = true) ∧
    (convexHull ℝ (cornerSet ps) ⊆ segSet s → 5 * epsilon ≤ eucl s.p1.elem s.p2.elem → s.p1.elem ∉ cornerSet ps → s.p2.elem ∉ cornerSet ps → Fl.containsSPoly r s ps true = true) ∧
    (s.p1.elem ∈ cornerSet ps ∨ s.p2.elem ∈ cornerSet ps → Fl.containsSPoly r s ps true = false) := by
  unfold Fl.containsSPoly
  refine ⟨fun h => ?_, fun h hl h1 h2 => ?_, fun h => ?_⟩
  · rw [List.all_eq_true]
    exact fun c hc => (C134_point_on r s c (by norm_num) (hull_corner h hc)).1
  · rw [List.all_eq_true]
    refine fun c hc => (C134_point_on r s c (by norm_num) (hull_corner h hc)).2.1 (fun e => h1 ?_) (fun e => h2 ?_) hl
    · rw [← e]; exact mem_cornerSet.2 ⟨c, hc, rfl⟩
    · rw [← e]; exact mem_cornerSet.2 ⟨c, hc, rfl⟩
  · rw [List.all_eq_false]
    rw [mem_cornerSet, mem_cornerSet] at h
    rcases h with ⟨c, hc, e⟩ | ⟨c, hc, e⟩
    · refine ⟨c, hc, ?_⟩
      rw [(C134_point_on r s c (by norm_num) (by rw [← e]; exact p1_mem s)).2.2 (.inl e.symm)]
      simp
    · refine ⟨c, hc, ?_⟩
      rw [(C134_point_on r s c (by norm_num) (by rw [← e]; exact p2_mem s)).2.2 (.inr e.symm)]
      simp

/-- C155, segments of the plane: when the proper test says that a segment contains a polygon, every point of the convex hull of the corners is within `sqrt (20 ε)` times the length
of the segment of a point of the segment; with the tolerant test each corner is, or the product of its distances from the ends is below `sqrt (2 ε)`. -/
theorem C155_near (r : Rounding 53) (s : Seg 2) (ps : Corners 2) :
    (Fl.containsSPoly r s ps true = true → ∀ x ∈ convexHull ℝ (cornerSet ps), ∃ y ∈ segSet s, eucl x y ≤ Real.sqrt (20 * epsilon) * eucl s.p1.elem s.p2.elem) ∧
    (Fl.containsSPoly r s ps false = true → ∀ x ∈ cornerSet ps, (∃ y ∈ segSet s, eucl x y ≤ Real.sqrt (20 * epsilon) * eucl s.p1.elem s.p2.elem) ∨
      eucl x s.p1.elem * eucl x s.p2.elem ≤ Real.sqrt (2 * epsilon)) := by
  unfold Fl.containsSPoly
  simp only [List.all_eq_true]
  refine ⟨fun h => ?_, fun h x => ?_⟩
  · refine (convex_nearSeg s _).convexHull_subset_iff.2 ?_
    intro x hx
    obtain ⟨c, hc, rfl⟩ := mem_cornerSet.1 hx
    exact C134_point_near r s c (by norm_num) (h c hc)
  · intro hx
    obtain ⟨c, hc, rfl⟩ := mem_cornerSet.1 hx
    exact C134_point_near_tolerant r s c (by norm_num) (h c hc)

/-- C155, rotated boxes of the plane whose orientation is a rotation `R` up to `E`: the box contains a polygon whose corners are all inside the exactly turned box by a margin, and when it is
found to contain one the convex hull of the corners is in the turned box up to that margin. `D` bounds the distances of the corners from the corner of the box. -/
theorem C155_box (r : Rounding 53) (b : RBox 2) (R : Matrix (Fin 2) (Fin 2) ℝ) (E : ℝ) (hR : Rᵀ * R = 1) (h0 : 12 * 2 ^ (-52 : ℤ) ≤ E) (h1 : E ≤ 1 / 4)
    (hm : Stands b.orient.elem R (E - 12 * 2 ^ (-52 : ℤ))) (ps : Corners 2) (D : ℝ) (hD : ∀ x ∈ cornerSet ps, eucl x b.corner.elem ≤ D) :
    (cornerSet ps ⊆ turnedBox b.corner.elem b.size.elem R (epsilon - (E + 2 ^ (-52 : ℤ)) * D) → Fl.containsRPoly r b ps false = true) ∧
    (Fl.containsRPoly r b ps false = true → cornerSet ps ⊆ turnedBox b.corner.elem b.size.elem R (epsilon * (1 + 2 ^ (-52 : ℤ)) + (E + 2 ^ (-52 : ℤ)) * D)) ∧
    (cornerSet ps ⊆ turnedInterior b.corner.elem b.size.elem R (-((E + 2 ^ (-52 : ℤ)) * D)) → Fl.containsRPoly r b ps true = true) ∧
    (Fl.containsRPoly r b ps true = true → cornerSet ps ⊆ turnedInterior b.corner.elem b.size.elem R ((E + 2 ^ (-52 : ℤ)) * D)) := by
  have hE : 0 ≤ E + 2 ^ (-52 : ℤ) := by
    have : (0 : ℝ) ≤ 2 ^ (-52 : ℤ) := by positivity
    linarith
  have key := fun p => C135_point r b R E (by norm_num) hR (by norm_num at h0 ⊢; exact h0) h1 (by norm_num at hm ⊢; exact hm) p
  have mb : ∀ {x : Fin 2 → ℝ} {d d' : ℝ}, d ≤ d' → x ∈ turnedBox b.corner.elem b.size.elem R d → x ∈ turnedBox b.corner.elem b.size.elem R d' := fun hd hx i => by
    have := hx i
    constructor <;> linarith [this.1, this.2]
  have mi : ∀ {x : Fin 2 → ℝ} {d d' : ℝ}, d ≤ d' → x ∈ turnedInterior b.corner.elem b.size.elem R d → x ∈ turnedInterior b.corner.elem b.size.elem R d' := fun hd hx i => by
    have := hx i
    constructor <;> linarith [this.1, this.2]
  have dm : ∀ c ∈ ps, (E + 2 ^ (-52 : ℤ)) * eucl c.elem b.corner.elem ≤ (E + 2 ^ (-52 : ℤ)) * D := fun c hc => mul_le_mul_of_nonneg_left (hD _ (mem_cornerSet.2 ⟨c, hc, rfl⟩)) hE
  unfold Fl.containsRPoly
  simp only [List.all_eq_true]
  refine ⟨fun h c hc => (key c).1 (mb (by linarith [dm c hc]) (h (mem_cornerSet.2 ⟨c, hc, rfl⟩))), ?_, fun h c hc => (key c).2.2.1 (mi (by linarith [dm c hc]) (h (mem_cornerSet.2 ⟨c, hc, rfl⟩))), ?_⟩
  · intro h x hx
    obtain ⟨c, hc, rfl⟩ := mem_cornerSet.1 hx
    exact mb (by linarith [dm c hc]) ((key c).2.1 (h c hc))
  · intro h x hx
    obtain ⟨c, hc, rfl⟩ := mem_cornerSet.1 hx
    exact mi (by linarith [dm c hc]) ((key c).2.2.2 (h c hc))

namespace Fl

/-- A simpler form of the error when a point is put into a plane whose axes are nearly perpendicular. -/
theorem Near3.simple {eps δ R S : ℝ} (he : 0 ≤ eps) (he1 : eps ≤ 1) (hd0 : 0 ≤ δ) (hδ : δ ≤ 2 ^ (-22 : ℤ)) (hS : 0 ≤ S) (h : Near3 eps δ R S) :
    R ≤ 3 * epsilon + Real.sqrt (eps + 2 ^ (-20 : ℤ)) * S := by
  unfold Near3 at h
  have h0 : 0 ≤ (1 + 2 ^ (-40 : ℤ)) * eps + 2 * δ + 2 ^ (-46 : ℤ) := by positivity
  have hs := Real.sq_sqrt h0
  have hs0 := Real.sqrt_nonneg ((1 + 2 ^ (-40 : ℤ)) * eps + 2 * δ + 2 ^ (-46 : ℤ))
  have hs2 : Real.sqrt ((1 + 2 ^ (-40 : ℤ)) * eps + 2 * δ + 2 ^ (-46 : ℤ)) ≤ 2 := by
    refine Real.sqrt_le_iff.2 ⟨by norm_num, ?_⟩
    norm_num at hδ ⊢
    linarith
  have k : Real.sqrt ((1 + 2 ^ (-40 : ℤ)) * eps + 2 * δ + 2 ^ (-46 : ℤ)) + 2 ^ (-49 : ℤ) ≤ Real.sqrt (eps + 2 ^ (-20 : ℤ)) := by
    refine Real.le_sqrt_of_sq_le ?_
    rw [add_sq, hs]
    norm_num at hδ hs2 ⊢
    linarith
  exact h.trans (by linarith [mul_le_mul_of_nonneg_right k hS])

/-- The axes stay nearly perpendicular when a point is added with the default tolerance. -/
theorem expand_skew_le (r : Rounding 53) (hn : n ≤ 3) {o o' : Orient n} {pd : Pt n} {p : Pt 2} (hok : OrientOk3 o) (h : expand r o pd epsilon = (true, o', p))
    (hs : skew o ≤ 2 ^ (-22 : ℤ)) : skew o' ≤ 2 ^ (-22 : ℤ) := by
  obtain ⟨-, -, -, -, k5, k6, -⟩ := expand_spec3 r hn epsilon_pos.le hok h
  by_cases hv : o.ax1.valid = true
  · rw [(skew_mono hok k5 k6).2 hv]; exact hs
  · by_cases hv' : o'.ax1.valid = true
    · exact (expand_skew r hn epsilon_pos.le hok h (by simpa using hv) hv').2 le_rfl
    · unfold skew; rw [if_neg hv']; positivity

/-- Two points of the plane are no further apart in space than twice their distance in the plane. -/
theorem at_diff {o : Orient n} (hok : OrientOk3 o) {x y : Fin 2 → ℝ} (h0 : o.ax0.valid = true ∨ x 0 = y 0) (h1 : o.ax1.valid = true ∨ x 1 = y 1) :
    len (o.at (x 0) (x 1) - o.at (y 0) (y 1)) ≤ 3 * eucl x y := by
  have hu : u 53 ≤ 1 / 1000000 := by rw [u53]; norm_num
  have c : ∀ i, |x i - y i| ≤ eucl x y := fun i => by rw [eucl_eq_len]; exact abs_le_len (x - y) i
  have e : o.at (x 0) (x 1) - o.at (y 0) (y 1) = (x 0 - y 0) • o.ax0.elem + (x 1 - y 1) • o.ax1.elem := by unfold Orient.at; module
  have t : ∀ (a : Vec n) (i : Fin 2), (a.valid = true → NearUnit a.elem) → (a.valid = true ∨ x i = y i) → len ((x i - y i) • a.elem) ≤ 3 / 2 * eucl x y := fun a i ha h => by
    rw [len_smul']
    rcases h with h | h
    · have := (ha h).len
      have h2 : len a.elem ≤ 3 / 2 := by linarith
      have := mul_le_mul (c i) h2 (len_nonneg _) (eucl_nonneg _ _)
      linarith
    · rw [h, sub_self, abs_zero, zero_mul]; have := eucl_nonneg x y; positivity
  rw [e]
  refine (len_add_le _ _).trans ?_
  linarith [t o.ax0 0 hok.unit0 h0, t o.ax1 1 hok.unit1 h1]

end Fl

/-- C155, segments in space: when the proper test says that a segment contains a polygon built with `addCorner`, every point the polygon was built from is near a point of the segment: within
`sqrt (eps + 2⁻²⁰)` times its distance from the point added first, `2⁻⁹` times the distance `D` of the ends of the segment from it, and `6 ε`. -/
theorem C155_space (r : Rounding 53) (hn : n ≤ 3) (eps : ℝ) (he : epsilon ≤ eps) (he1 : eps ≤ 1) (s : Poly n) (ps : List (Pt n)) (f : Pt n) (h : Built3 r eps s ps (some f))
    (g : Seg n) (D : ℝ) (hD1 : eucl g.p1.elem f.elem ≤ D) (hD2 : eucl g.p2.elem f.elem ≤ D) (hg : Fl.containsSPolyN r g s true = true) :
    ∀ p ∈ ps, ∃ y ∈ segSet g, eucl p.elem y ≤ Real.sqrt (eps + 2 ^ (-20 : ℤ)) * eucl p.elem f.elem + 2 ^ (-9 : ℤ) * D + 6 * epsilon := by
  intro p hp
  have hpos := epsilon_pos
  have he0 := hpos.le.trans he
  have hI := built3_inv r hn he0 h
  have hov : s.orient.origin.valid = true := by
    by_contra hcon
    have := (hI.none_iff (by simpa using hcon)).2.2
    simp at this
  obtain ⟨f', hff, hfe⟩ := hI.some_iff hov
  rw [Option.some.injEq] at hff
  subst hff
  have hD : 0 ≤ D := (eucl_nonneg _ _).trans hD1
  obtain ⟨i, hi⟩ := List.mem_iff_getElem?.1 hp
  obtain ⟨q, hq, -, -, v0, v1, -, hc⟩ : ∃ q ∈ s.poly, q.valid = true ∧ s.orient.origin.valid = true ∧ (s.orient.ax0.valid = true ∨ q.elem 0 = 0) ∧ (s.orient.ax1.valid = true ∨ q.elem 1 = 0) ∧
      (|q.elem 0| ≤ 3 * len (p.elem - s.orient.origin.elem) ∧ |q.elem 1| ≤ 3 * len (p.elem - s.orient.origin.elem)) ∧
      Fl.Near3 eps (Fl.skew s.orient) (len (s.orient.at (q.elem 0) (q.elem 1) - p.elem)) (len (p.elem - s.orient.origin.elem)) := by
    have hf := hI.close
    rw [List.forall₂_iff_get] at hf
    have hlt := (List.getElem?_eq_some_iff.1 hi).1
    have := hf.2 i (by rw [hf.1]; exact hlt) hlt
    rw [show ps.get ⟨i, hlt⟩ = p from (List.getElem?_eq_some_iff.1 hi).2] at this
    exact ⟨_, List.get_mem _ _, this⟩
  have sk := hI.small he
  have hcorner := hc.simple he0 he1 (Fl.skew_nonneg _) sk (len_nonneg _)
  rw [hfe, ← eucl_eq_len p.elem] at hcorner
  unfold Fl.containsSPolyN at hg
  rw [if_neg (by intro hl; rw [List.length_eq_zero_iff] at hl; rw [hl] at hq; simp at hq)] at hg
  rcases hx1 : Fl.expand r s.orient g.p1 epsilon with ⟨b1, o1, q1⟩
  rw [hx1] at hg
  cases b1
  · simp at hg
  simp only [if_neg (by simp : ¬ true = false)] at hg
  rcases hx2 : Fl.expand r o1 g.p2 epsilon with ⟨b2, o2, q2⟩
  rw [hx2] at hg
  cases b2
  · simp at hg
  simp only [if_neg (by simp : ¬ true = false)] at hg
  unfold Fl.containsSPoly at hg
  rw [List.all_eq_true] at hg
  obtain ⟨z, ⟨t, ta, tb, hz⟩, hd⟩ := C134_point_near r _ _ (by norm_num) (hg q hq)
  simp only at hz hd
  obtain ⟨k1, k2, k3, k4, k5, k6, k7, k8, k9, k10, k11, k12⟩ := Fl.expand_spec3 r hn hpos.le hI.ok hx1
  obtain ⟨j1, j2, j3, j4, j5, j6, j7, j8, j9, j10, j11, j12⟩ := Fl.expand_spec3 r hn hpos.le k1 hx2
  have s1 := Fl.expand_skew_le r hn hI.ok hx1 sk
  have s2 := Fl.expand_skew_le r hn k1 hx2 s1
  -- everything in the last plane
  have org1 : o1.origin.elem = f.elem := by rw [k3 hov, hfe]
  have org : o2.origin.elem = f.elem := by rw [j3 k2, org1]
  have v0' : o1.ax0.valid = true ∨ q.elem 0 = 0 := v0.imp (fun h => by rw [k5 h]; exact h) id
  have v1' : o1.ax1.valid = true ∨ q.elem 1 = 0 := v1.imp (fun h => by rw [k6 h]; exact h) id
  have w0 : o2.ax0.valid = true ∨ q.elem 0 = 0 := v0'.imp (fun h => by rw [j5 h]; exact h) id
  have w1 : o2.ax1.valid = true ∨ q.elem 1 = 0 := v1'.imp (fun h => by rw [j6 h]; exact h) id
  have a0 : o2.ax0.valid = true ∨ q1.elem 0 = 0 := k8.imp (fun h => by rw [j5 h]; exact h) id
  have a1 : o2.ax1.valid = true ∨ q1.elem 1 = 0 := k9.imp (fun h => by rw [j6 h]; exact h) id
  have hce : s.orient.at (q.elem 0) (q.elem 1) = o2.at (q.elem 0) (q.elem 1) := by
    rw [at_mono (j3 k2) j5 j6 v0' v1', at_mono (k3 hov) k5 k6 v0 v1]
  rw [hce] at hcorner
  have hpe : epsilon ≤ 1 := he.trans he1
  have he1' := k12.simple hpos.le hpe (Fl.skew_nonneg _) s1 (len_nonneg _)
  have he2' := j12.simple hpos.le hpe (Fl.skew_nonneg _) s2 (len_nonneg _)
  rw [← at_mono (j3 k2) j5 j6 k8 k9] at he1'
  rw [org1, ← eucl_eq_len g.p1.elem f.elem] at he1' k10 k11
  rw [org, ← eucl_eq_len g.p2.elem f.elem] at he2' j10 j11
  have hsq : Real.sqrt (epsilon + 2 ^ (-20 : ℤ)) ≤ 1 / 1000 := by
    refine Real.sqrt_le_iff.2 ⟨by norm_num, ?_⟩
    have := epsilon_lt
    norm_num at this ⊢
    linarith
  have hsq0 := Real.sqrt_nonneg (epsilon + 2 ^ (-20 : ℤ))
  have m1 := mul_le_mul hsq hD1 (eucl_nonneg _ _) (by norm_num)
  have m2 := mul_le_mul hsq hD2 (eucl_nonneg _ _) (by norm_num)
  -- the ends in the plane
  have hqq : eucl q1.elem q2.elem ≤ 12 * D := by
    rw [eucl_eq_len]
    have : q1.elem - q2.elem = ![q1.elem 0 - q2.elem 0, 0] + ![0, q1.elem 1 - q2.elem 1] := by funext i; fin_cases i <;> simp
    rw [this]
    refine (len_add_le _ _).trans ?_
    have l0 : ∀ x : ℝ, len ![x, 0] = |x| := fun x => by simp [len, dotProduct, Fin.sum_univ_two, Real.sqrt_mul_self_eq_abs]
    have l1 : ∀ x : ℝ, len ![0, x] = |x| := fun x => by simp [len, dotProduct, Fin.sum_univ_two, Real.sqrt_mul_self_eq_abs]
    rw [l0, l1]
    have := abs_sub (q1.elem 0) (q2.elem 0)
    have := abs_sub (q1.elem 1) (q2.elem 1)
    linarith
  have h20 : Real.sqrt (20 * epsilon) ≤ 1 / 1000000 := by
    refine Real.sqrt_le_iff.2 ⟨by norm_num, ?_⟩
    unfold epsilon
    norm_num
  have hd' : eucl q.elem z ≤ 1 / 1000000 * (12 * D) := hd.trans (mul_le_mul h20 hqq (eucl_nonneg _ _) (by norm_num))
  have zc : ∀ i, z i = (1 - t) * q1.elem i + t * q2.elem i := fun i => by rw [hz]; simp
  have hdiff := Fl.at_diff j1 (x := q.elem) (y := z) (by
      by_cases hv : o2.ax0.valid = true
      · exact .inl hv
      · right; rw [zc, w0.resolve_left hv, a0.resolve_left hv, j8.resolve_left hv]; ring) (by
      by_cases hv : o2.ax1.valid = true
      · exact .inl hv
      · right; rw [zc, w1.resolve_left hv, a1.resolve_left hv, j9.resolve_left hv]; ring)
  refine ⟨(1 - t) • g.p1.elem + t • g.p2.elem, ⟨t, ta, tb, rfl⟩, ?_⟩
  have hzat : o2.at (z 0) (z 1) - ((1 - t) • g.p1.elem + t • g.p2.elem) = (1 - t) • (o2.at (q1.elem 0) (q1.elem 1) - g.p1.elem) + t • (o2.at (q2.elem 0) (q2.elem 1) - g.p2.elem) := by
    rw [zc, zc]; unfold Orient.at; module
  have hl : len (o2.at (z 0) (z 1) - ((1 - t) • g.p1.elem + t • g.p2.elem)) ≤ 3 * epsilon + 1 / 1000 * D := by
    rw [hzat]
    refine (len_add_le _ _).trans ?_
    rw [len_smul, len_smul, abs_of_nonneg ta, abs_of_nonneg (by linarith)]
    have x1 := mul_le_mul_of_nonneg_left (he1'.trans (add_le_add_right m1 _)) (show 0 ≤ 1 - t by linarith)
    have x2 := mul_le_mul_of_nonneg_left (he2'.trans (add_le_add_right m2 _)) ta
    linarith
  have hp1 : len (p.elem - o2.at (q.elem 0) (q.elem 1)) = len (o2.at (q.elem 0) (q.elem 1) - p.elem) := by rw [← len_neg, neg_sub]
  rw [eucl_eq_len]
  have tri := len_triangle p.elem (o2.at (q.elem 0) (q.elem 1)) ((1 - t) • g.p1.elem + t • g.p2.elem)
  have tri2 := len_triangle (o2.at (q.elem 0) (q.elem 1)) (o2.at (z 0) (z 1)) ((1 - t) • g.p1.elem + t • g.p2.elem)
  rw [hp1] at tri
  norm_num at *
  linarith

/-- C155, segments in space: every segment contains a polygon without corners, also properly. -/
theorem C155_space_empty (r : Rounding 53) (s : Poly n) (hs : s.poly = []) (g : Seg n) (proper : Bool) :
    Fl.containsSPolyN r g s proper = true := by
  unfold Fl.containsSPolyN; rw [if_pos (by rw [hs]; rfl)]

end WFMath
