/-
Properties C110 and C111 for polygons whose corners lie on a line, and C111 for perpendicular planes and polygons without corners.
-/
import Verif.Props.PolyCross

namespace WFMath
open Spec Matrix
variable {n : Nat}

/-! ### Polygons whose corners lie on a line -/

/-- The corners of the polygon lie on a line and are not all the same: there is an origin and one axis, and the second coordinate of all corners is 0. -/
structure _root_.WFMath.Spec.Straight (q : Poly n) : Prop where
  origin : q.orient.origin.valid = true
  valid0 : q.orient.ax0.valid = true
  unit0 : q.orient.ax0.elem ⬝ᵥ q.orient.ax0.elem = 1
  invalid1 : q.orient.ax1.valid = false
  flat : ∀ c ∈ q.poly, c.elem 1 = 0
  some : q.poly ≠ []

/-- A polygon with two corners, from (a, 0, 0) to (b, 0, 0). -/
noncomputable def lineRod (a b : ℝ) : Poly 3 := ⟨⟨⟨![a, 0, 0], true⟩, ⟨![1, 0, 0], true⟩, ⟨0, false⟩⟩, [⟨![0, 0], true⟩, ⟨![b - a, 0], true⟩]⟩

theorem lineRod_straight (a b : ℝ) : Straight (lineRod a b) := by
  refine ⟨rfl, rfl, ?_, rfl, ?_, by simp [lineRod]⟩
  · simp [lineRod, dotProduct, Fin.sum_univ_three]
  · intro c hc
    simp [lineRod] at hc
    rcases hc with rfl | rfl <;> simp

theorem straight_convert {q : Poly n} (h : Straight q) {c : Pt 2} (hc : c ∈ q.poly) :
    ∃ x, q.orient.convert c = some x ∧ x.elem = q.orient.origin.elem + c.elem 0 • q.orient.ax0.elem := by
  refine ⟨_, convert_eq h.origin (Or.inl h.valid0) (Or.inr (h.flat c hc)), ?_⟩
  show q.orient.origin.elem + c.elem 0 • q.orient.ax0.elem + c.elem 1 • q.orient.ax1.elem = _
  rw [h.flat c hc, zero_smul, add_zero]

theorem straight_corner {q : Poly n} (h : Straight q) {x : Fin n → ℝ} :
    x ∈ polyCornerSet q ↔ ∃ c ∈ q.poly, x = q.orient.origin.elem + c.elem 0 • q.orient.ax0.elem := by
  rw [mem_polyCornerSet]
  constructor
  · rintro ⟨c, hc, x', hx, rfl⟩
    obtain ⟨y, hy, e⟩ := straight_convert h hc
    rw [hx, Option.some.injEq] at hy
    exact ⟨c, hc, by rw [hy, e]⟩
  · rintro ⟨c, hc, rfl⟩
    obtain ⟨y, hy, e⟩ := straight_convert h hc
    exact ⟨c, hc, y, hy, e.symm⟩

theorem bounds_fold : ∀ (ps : Corners 2) (lo hi : ℝ), lo ≤ hi →
    ∃ lo' hi', ps.foldl (fun (lh : ℝ × ℝ) q => (if q.elem 0 < lh.1 then q.elem 0 else lh.1, if q.elem 0 > lh.2 then q.elem 0 else lh.2)) (lo, hi) = (lo', hi') ∧
      lo' ≤ lo ∧ hi ≤ hi' ∧ (∀ c ∈ ps, lo' ≤ c.elem 0 ∧ c.elem 0 ≤ hi') ∧ (lo' = lo ∨ ∃ c ∈ ps, lo' = c.elem 0) ∧ (hi' = hi ∨ ∃ c ∈ ps, hi' = c.elem 0)
  | [], lo, hi, h => ⟨lo, hi, rfl, le_rfl, le_rfl, by simp, Or.inl rfl, Or.inl rfl⟩
  | p :: ps, lo, hi, h => by
    rw [List.foldl_cons]
    have h1 : (if p.elem 0 < lo then p.elem 0 else lo) = min lo (p.elem 0) := by
      split_ifs with g
      · rw [min_eq_right g.le]
      · rw [min_eq_left (not_lt.1 g)]
    have h2 : (if p.elem 0 > hi then p.elem 0 else hi) = max hi (p.elem 0) := by
      split_ifs with g
      · rw [max_eq_right (le_of_lt g)]
      · rw [max_eq_left (not_lt.1 g)]
    simp only [h1, h2]
    obtain ⟨lo', hi', e, k1, k2, k3, k4, k5⟩ := bounds_fold ps (min lo (p.elem 0)) (max hi (p.elem 0))
      ((min_le_left _ _).trans (h.trans (le_max_left _ _)))
    refine ⟨lo', hi', e, k1.trans (min_le_left _ _), (le_max_left _ _).trans k2, fun c hc => ?_, ?_, ?_⟩
    · rcases List.mem_cons.1 hc with rfl | hc
      · exact ⟨k1.trans (min_le_right _ _), (le_max_right _ _).trans k2⟩
      · exact k3 c hc
    · rcases k4 with k | ⟨c, hc, k⟩
      · rcases min_choice lo (p.elem 0) with g | g
        · exact Or.inl (k.trans g)
        · exact Or.inr ⟨p, List.mem_cons_self, k.trans g⟩
      · exact Or.inr ⟨c, List.mem_cons_of_mem _ hc, k⟩
    · rcases k5 with k | ⟨c, hc, k⟩
      · rcases max_choice hi (p.elem 0) with g | g
        · exact Or.inl (k.trans g)
        · exact Or.inr ⟨p, List.mem_cons_self, k.trans g⟩
      · exact Or.inr ⟨c, List.mem_cons_of_mem _ hc, k⟩

theorem lineBounds_spec {ps : Corners 2} (h : ps ≠ []) : ∃ lo hi, lineBounds ps = some (lo, hi) ∧ (∀ c ∈ ps, lo ≤ c.elem 0 ∧ c.elem 0 ≤ hi) ∧
    (∃ c ∈ ps, lo = c.elem 0) ∧ ∃ c ∈ ps, hi = c.elem 0 := by
  obtain ⟨p, ps, rfl⟩ := List.exists_cons_of_ne_nil h
  obtain ⟨lo, hi, e, -, -, k3, k4, k5⟩ := bounds_fold (p :: ps) (p.elem 0) (p.elem 0) le_rfl
  refine ⟨lo, hi, congrArg some e, k3, ?_, ?_⟩
  · rcases k4 with k | k
    · exact ⟨p, List.mem_cons_self, k⟩
    · exact k
  · rcases k5 with k | k
    · exact ⟨p, List.mem_cons_self, k⟩
    · exact k

/-- The directions found are all multiples of one unit vector. -/
theorem common_core {b1 b2 : Vec n} {u : Fin n → ℝ} (huu : u ⬝ᵥ u = 1) {x y : ℝ} (e0 : b1.elem = x • u) (e1 : b2.elem = y • u) (hxy : x ^ 2 + y ^ 2 = 1) :
    ∃ (b : Vec n) (l : ℝ), l ≠ 0 ∧ b.elem = l • u ∧
      (let size := if b1.sqrMag > epsilon * epsilon then 1 else 0
       let b2 := if size = 1 then b2 - b1.scale (b1.dot b2 / b1.sqrMag) else b2
       if b2.sqrMag > epsilon * epsilon then (size + 1, if size = 0 then (b2, b2.sqrMag) else (b1, b1.sqrMag)) else (size, b1, b1.sqrMag)) = (1, b, l ^ 2) := by
  have hpos := epsilon_pos
  have heps := epsilon_lt
  norm_num at heps
  have sm : ∀ {b : Vec n} {l : ℝ}, b.elem = l • u → b.sqrMag = l ^ 2 := by
    intro b l hb
    rw [Vec.sqrMag_eq, hb, smul_dotProduct, dotProduct_smul, huu]; simp; ring
  simp only
  by_cases h1 : b1.sqrMag > epsilon * epsilon
  · have hb : x ≠ 0 := by rintro rfl; rw [sm e0] at h1; nlinarith
    refine ⟨b1, x, hb, e0, ?_⟩
    rw [if_pos h1, if_pos rfl]
    have hd : b1.dot b2 = x * y := by
      have e : b1.elem ⬝ᵥ b2.elem = x * y := by rw [e0, e1, smul_dotProduct, dotProduct_smul, huu]; simp
      rcases Vec.dot_cases b1 b2 with k | ⟨k, k'⟩
      · rw [k, e]
      · by_cases ha : y = 0
        · rw [k, ha, mul_zero]
        · exfalso
          have hu0 : u ≠ 0 := by rintro rfl; simp at huu
          have hb1 : b1.elem ≠ 0 := by rw [e0]; exact smul_ne_zero hb hu0
          have hb2 : b2.elem ≠ 0 := by rw [e1]; exact smul_ne_zero ha hu0
          have k2 := scaleEpsilonArr_le (e := epsilon) hpos.le hb1 hb2
          have hl : len u = 1 := by rw [len, huu, Real.sqrt_one]
          have hm : ∀ {b : Vec n} {l : ℝ}, b.elem = l • u → maxAbs b.elem ≤ |l| := by
            intro b l hbl
            apply maxAbs_le (abs_nonneg _)
            intro i
            rw [hbl, Pi.smul_apply, smul_eq_mul, abs_mul]
            have : |u i| ≤ 1 := by rw [← hl]; exact abs_le_len u i
            nlinarith [abs_nonneg l]
          rw [e, abs_mul] at k'
          have hb0 := abs_pos.2 hb
          have ha0 := abs_pos.2 ha
          have j1 : |x| * |y| < 2 * epsilon * |x| :=
            k'.trans_le (k2.trans (mul_le_mul_of_nonneg_left ((min_le_left _ _).trans (hm e0)) (by positivity)))
          have j2 : |x| * |y| < 2 * epsilon * |y| :=
            k'.trans_le (k2.trans (mul_le_mul_of_nonneg_left ((min_le_right _ _).trans (hm e1)) (by positivity)))
          have j3 : |y| < 2 * epsilon := by nlinarith
          have j4 : |x| < 2 * epsilon := by nlinarith
          rw [← sq_abs x, ← sq_abs y] at hxy
          nlinarith
    rw [hd]
    have : (b2 - b1.scale (x * y / b1.sqrMag)).sqrMag = 0 := by
      rw [sm e0, Vec.sqrMag_eq_zero, sub_elem', scale_elem, e0, e1, smul_smul, ← sub_smul]
      rw [show y - x * y / x ^ 2 * x = 0 by field_simp; ring, zero_smul]
    rw [this, if_neg (by nlinarith), sm e0]
  · refine ⟨b2, y, ?_, e1, ?_⟩
    · rintro rfl
      rw [sm e0] at h1
      nlinarith
    · rw [if_neg h1]
      have ha : b2.sqrMag > epsilon * epsilon := by
        rw [sm e1]; rw [sm e0] at h1; nlinarith
      rw [if_neg (show ¬ (0 : Nat) = 1 by norm_num), if_pos ha, if_pos rfl, sm e1]

/-- The polygon `q` lies in a line of the plane of `p`: its origin and axis have the plane coordinates `y` and `d`, and the inner products by which the code
finds these coordinates are exact. -/
structure _root_.WFMath.Spec.LineIn (p q : Poly n) (y d : Fin 2 → ℝ) : Prop where
  origin : q.orient.origin.elem = spacePoint p y
  dir : q.orient.ax0.elem = d 0 • p.orient.ax0.elem + d 1 • p.orient.ax1.elem
  e0 : DotExact p.orient.ax0 q.orient.ax0
  e1 : DotExact p.orient.ax1 q.orient.ax0
  f0 : DotExact (q.orient.origin.sub p.orient.origin) p.orient.ax0
  f1 : DotExact (q.orient.origin.sub p.orient.origin) p.orient.ax1

theorem lineIn_values {p q : Poly n} (hp : Spans p) (hq : Straight q) {y d : Fin 2 → ℝ} (h : LineIn p q y d) :
    d 0 ^ 2 + d 1 ^ 2 = 1 ∧ p.orient.ax0.dot q.orient.ax0 = d 0 ∧ p.orient.ax1.dot q.orient.ax0 = d 1 ∧
    (q.orient.origin.sub p.orient.origin).dot p.orient.ax0 = y 0 ∧ (q.orient.origin.sub p.orient.origin).dot p.orient.ax1 = y 1 ∧
    (q.orient.origin.sub p.orient.origin).elem = y 0 • p.orient.ax0.elem + y 1 • p.orient.ax1.elem := by
  have pc : p.orient.ax1.elem ⬝ᵥ p.orient.ax0.elem = 0 := by rw [dotProduct_comm]; exact hp.perp
  have ho : (q.orient.origin.sub p.orient.origin).elem = y 0 • p.orient.ax0.elem + y 1 • p.orient.ax1.elem := by
    show q.orient.origin.elem - p.orient.origin.elem = _
    rw [h.origin]; unfold spacePoint; module
  refine ⟨?_, ?_, ?_, ?_, ?_, ho⟩
  · have := hq.unit0
    rw [h.dir, comb_dot hp.unit0 hp.unit1 hp.perp] at this
    rw [← this]; ring
  · rw [h.e0, h.dir, dotProduct_add, dotProduct_smul, dotProduct_smul, hp.unit0, hp.perp]; simp
  · rw [h.e1, h.dir, dotProduct_add, dotProduct_smul, dotProduct_smul, hp.unit1, pc]; simp
  · rw [h.f0, ho, add_dotProduct, smul_dotProduct, smul_dotProduct, hp.unit0, pc]; simp
  · rw [h.f1, ho, add_dotProduct, smul_dotProduct, smul_dotProduct, hp.unit1, hp.perp]; simp

theorem planesMeet_line {p q : Poly n} (hp : Spans p) (hq : Straight q) {y d : Fin 2 → ℝ} (h : LineIn p q y d) :
    ∃ data, planesMeet p.orient q.orient = some (1, data) ∧ data.line1 = false ∧ data.line2 = true ∧ data.p1 = ⟨![y 0, y 1], false⟩ ∧
      data.v1 = ⟨![d 0, d 1], false⟩ ∧ data.p2 = ⟨![0, 0], false⟩ ∧ data.v2 = ⟨![1, 0], false⟩ := by
  obtain ⟨hd, v0, v1, w0, w1, ho⟩ := lineIn_values hp hq h
  have hc : ∃ b m, commonDir p.orient q.orient = (1, b, m) := by
    have u0 : (q.orient.ax0.scale (q.orient.ax0.dot p.orient.ax0)).elem = d 0 • q.orient.ax0.elem := by rw [scale_elem, Vec.dot_comm, v0]
    have u1 : (q.orient.ax0.scale (q.orient.ax0.dot p.orient.ax1)).elem = d 1 • q.orient.ax0.elem := by rw [scale_elem, Vec.dot_comm, v1]
    obtain ⟨b, l, -, -, e⟩ := common_core hq.unit0 u0 u1 hd
    refine ⟨b, l ^ 2, ?_⟩
    unfold commonDir
    simp only [hq.invalid1, hp.valid1, if_true, Bool.false_eq_true, if_false]
    exact e
  obtain ⟨b, m, hc⟩ := hc
  unfold planesMeet
  simp only [hp.origin, hq.origin, hp.valid0, hq.valid0, Bool.true_eq_false, or_self, if_false, hc]
  unfold planesLine
  simp only [hp.valid1, hq.invalid1, Bool.true_eq_false, false_and, if_false, if_true, w0, w1, v0, v1]
  have heq : (q.orient.origin.sub p.orient.origin).isEqualTo (p.orient.ax0.scale (y 0) + p.orient.ax1.scale (y 1)) epsilon = true := by
    rw [C28_vector_iff]
    refine ⟨?_, ?_, fun i => ?_⟩
    · simp [Pt.sub, hp.origin, hq.origin]
    · show (p.orient.ax0.valid && p.orient.ax1.valid) = true
      rw [hp.valid0, hp.valid1]; rfl
    · rw [ho, comb_elem, sub_self, abs_zero]; exact scaleEpsilonArr_nonneg epsilon_pos.le
  rw [heq]
  exact ⟨_, rfl, by simp, by simp, rfl, rfl, rfl, rfl⟩

/-- The hypotheses hold for a polygon on a line that starts in the unit square and leaves it. -/
example : LineIn flatSquare (lineRod (1 / 2) 2) ![1 / 2, 0] ![1, 0] := by
  have b0 : ∀ i, |(![1, 0, 0] : Fin 3 → ℝ) i| ≤ 8 := fun i => by fin_cases i <;> norm_num
  have b1 : ∀ i, |(![0, 1, 0] : Fin 3 → ℝ) i| ≤ 8 := fun i => by fin_cases i <;> norm_num
  have b2 : ∀ i, |((lineRod (1 / 2) 2).orient.origin.sub flatSquare.orient.origin).elem i| ≤ 8 := fun i => by
    fin_cases i <;> simp [lineRod, flatSquare, threeCorners, Pt.sub] <;> norm_num [abs_le]
  constructor
  · funext i; fin_cases i <;> simp [lineRod, spacePoint, flatSquare, threeCorners]
  · funext i; fin_cases i <;> simp [lineRod, flatSquare, threeCorners]
  · refine dotExact_coarse3 b0 (Or.inr ?_); simp [lineRod, flatSquare, threeCorners, dotProduct, Fin.sum_univ_three]; norm_num
  · refine dotExact_coarse3 b1 (Or.inl ?_); simp [lineRod, flatSquare, threeCorners, dotProduct, Fin.sum_univ_three]
  · refine dotExact_coarse3 b2 (Or.inr ?_); simp [lineRod, flatSquare, threeCorners, dotProduct, Fin.sum_univ_three, Pt.sub]; norm_num
  · refine dotExact_coarse3 b2 (Or.inl ?_); simp [lineRod, flatSquare, threeCorners, dotProduct, Fin.sum_univ_three, Pt.sub]

/-- C110 and C111 for a polygon whose corners lie on a line of the plane of the other one: the answers are those of the plane tests for a segment, whose
ends are corners of that polygon and which holds all its corners. -/
theorem C110_line_partial (p q : Poly n) (hp : Spans p) (hq : Straight q) (y d : Fin 2 → ℝ) (h : LineIn p q y d) : ∃ s : Seg 2,
    spacePoint p s.p1.elem ∈ polyCornerSet q ∧ spacePoint p s.p2.elem ∈ polyCornerSet q ∧ (∀ x ∈ polyCornerSet q, ∃ z ∈ segSet s, x = spacePoint p z) ∧
    interPolyPolyN p q false = interPolyS p.poly s false ∧ interPolyPolyN p q true = some false ∧
    (p.poly ≠ [] → ∀ proper, containsPolyPolyN p q proper = containsPolyS p.poly s proper) := by
  obtain ⟨data, hm, l1, l2, ep1, ev1, ep2, ev2⟩ := planesMeet_line hp hq h
  obtain ⟨lo, hi, hb, hbd, ⟨c1, hc1, e1⟩, ⟨c2, hc2, e2⟩⟩ := lineBounds_spec hq.some
  have hext : lineExtent q.poly data.p2 data.v2 = some (lo, hi) := by
    unfold lineExtent
    rw [hb, ep2, ev2]
    simp
  have hpt : ∀ t : ℝ, spacePoint p (data.p1.addVec (data.v1.scale t)).elem = q.orient.origin.elem + t • q.orient.ax0.elem := by
    intro t
    rw [ep1, ev1, h.origin, h.dir]
    have : ((⟨![y 0, y 1], false⟩ : Pt 2).addVec ((⟨![d 0, d 1], false⟩ : Vec 2).scale t)).elem = ![y 0 + t * d 0, y 1 + t * d 1] := by
      apply ext2 <;> simp [Pt.addVec, Vec.scale, mul_comm]
    rw [this]
    unfold spacePoint
    simp only [cons_val_zero, cons_val_one]
    module
  refine ⟨⟨data.p1.addVec (data.v1.scale lo), data.p1.addVec (data.v1.scale hi)⟩, ?_, ?_, ?_, ?_, ?_, ?_⟩
  · rw [hpt, straight_corner hq]; exact ⟨c1, hc1, by rw [e1]⟩
  · rw [hpt, straight_corner hq]; exact ⟨c2, hc2, by rw [e2]⟩
  · intro x hx
    obtain ⟨c, hc, rfl⟩ := (straight_corner hq).1 hx
    refine ⟨(data.p1.addVec (data.v1.scale (c.elem 0))).elem, ?_, (hpt _).symm⟩
    have hl := (hbd c hc).1
    have hh := (hbd c hc).2
    by_cases hne : lo = hi
    · refine ⟨0, le_rfl, zero_le_one, ?_⟩
      rw [show c.elem 0 = lo by linarith]; simp
    · have hpos : 0 < hi - lo := sub_pos.2 (lt_of_le_of_ne (hl.trans hh) hne)
      refine ⟨(c.elem 0 - lo) / (hi - lo), div_nonneg (by linarith) hpos.le, (div_le_one hpos).2 (by linarith), ?_⟩
      funext i
      show data.p1.elem i + data.v1.elem i * c.elem 0 = (1 - (c.elem 0 - lo) / (hi - lo)) * (data.p1.elem i + data.v1.elem i * lo) +
        (c.elem 0 - lo) / (hi - lo) * (data.p1.elem i + data.v1.elem i * hi)
      field_simp
      ring
  · unfold interPolyPolyN
    rw [hm, Option.bind_some]
    simp [polyPolyIntersect, l1, l2, hext]
  · unfold interPolyPolyN
    rw [hm, Option.bind_some]
    simp [polyPolyIntersect, l1, l2]
  · intro hpn proper
    unfold containsPolyPolyN
    rw [hm, Option.bind_some, if_neg (by simpa using hpn), if_neg (by simpa using hq.some)]
    simp [polyPolyContains, l2, hext]

theorem straight_hull {q : Poly n} (h : Straight q) : ∃ lo hi, lineBounds q.poly = some (lo, hi) ∧ lo ≤ hi ∧
    ∀ x, x ∈ convexHull ℝ (polyCornerSet q) ↔ ∃ t, lo ≤ t ∧ t ≤ hi ∧ x = q.orient.origin.elem + t • q.orient.ax0.elem := by
  obtain ⟨lo, hi, hb, hbd, ⟨c1, hc1, e1⟩, ⟨c2, hc2, e2⟩⟩ := lineBounds_spec h.some
  have hle : lo ≤ hi := (hbd c1 hc1).1.trans (hbd c1 hc1).2
  refine ⟨lo, hi, hb, hle, fun x => ⟨fun hx => ?_, ?_⟩⟩
  · have hcv : Convex ℝ {x : Fin n → ℝ | ∃ t, lo ≤ t ∧ t ≤ hi ∧ x = q.orient.origin.elem + t • q.orient.ax0.elem} := by
      rintro _ ⟨s, s1, s2, rfl⟩ _ ⟨t, t1, t2, rfl⟩ a b ha hb hab
      have : a = 1 - b := by linarith
      subst this
      refine ⟨(1 - b) * s + b * t, by nlinarith, by nlinarith, ?_⟩
      module
    refine convexHull_min ?_ hcv hx
    intro y hy
    obtain ⟨c, hc, rfl⟩ := (straight_corner h).1 hy
    exact ⟨_, (hbd c hc).1, (hbd c hc).2, rfl⟩
  · rintro ⟨t, h1, h2, rfl⟩
    have m1 := subset_convexHull ℝ (polyCornerSet q) ((straight_corner h).2 ⟨c1, hc1, rfl⟩)
    have m2 := subset_convexHull ℝ (polyCornerSet q) ((straight_corner h).2 ⟨c2, hc2, rfl⟩)
    rw [← e1] at m1
    rw [← e2] at m2
    by_cases hne : lo = hi
    · rw [show t = lo by linarith]; exact m1
    · have hpos : 0 < hi - lo := sub_pos.2 (lt_of_le_of_ne hle hne)
      have := (convex_convexHull ℝ (polyCornerSet q)) m1 m2 (div_nonneg (show 0 ≤ hi - t by linarith) hpos.le) (div_nonneg (show 0 ≤ t - lo by linarith) hpos.le)
        (by field_simp; ring)
      convert this using 1
      rw [smul_add, smul_add, smul_smul, smul_smul, add_add_add_comm, ← add_smul, ← add_smul, show (hi - t) / (hi - lo) + (t - lo) / (hi - lo) = 1 by field_simp; ring, one_smul,
        show (hi - t) / (hi - lo) * lo + (t - lo) / (hi - lo) * hi = t by field_simp; ring]

theorem dot_multiple {b1 b2 : Vec n} {u : Fin n → ℝ} (huu : u ⬝ᵥ u = 1) {t s : ℝ} (e1 : b1.elem = t • u) (e2 : b2.elem = s • u) (hs : s ^ 2 = 1) : b1.dot b2 = t * s := by
  have hpos := epsilon_pos
  have heps := epsilon_lt
  norm_num at heps
  have e : b1.elem ⬝ᵥ b2.elem = t * s := by rw [e1, e2, smul_dotProduct, dotProduct_smul, huu]; simp
  rcases Vec.dot_cases b1 b2 with k | ⟨k, k'⟩
  · rw [k, e]
  · by_cases ht : t = 0
    · rw [k, ht, zero_mul]
    · exfalso
      have hu0 : u ≠ 0 := by rintro rfl; simp at huu
      have hs0 : s ≠ 0 := by rintro rfl; norm_num at hs
      have hb1 : b1.elem ≠ 0 := by rw [e1]; exact smul_ne_zero ht hu0
      have hb2 : b2.elem ≠ 0 := by rw [e2]; exact smul_ne_zero hs0 hu0
      have k2 := scaleEpsilonArr_le (e := epsilon) hpos.le hb1 hb2
      have hl : len u = 1 := by rw [len, huu, Real.sqrt_one]
      have hm : maxAbs b1.elem ≤ |t| := by
        apply maxAbs_le (abs_nonneg _)
        intro i
        rw [e1, Pi.smul_apply, smul_eq_mul, abs_mul]
        have : |u i| ≤ 1 := by rw [← hl]; exact abs_le_len u i
        nlinarith [abs_nonneg t]
      have hs1 : |s| = 1 := by rw [← sq_eq_sq₀ (abs_nonneg s) zero_le_one, sq_abs, hs]; norm_num
      rw [e, abs_mul, hs1, mul_one] at k'
      have j1 : |t| < 2 * epsilon * |t| :=
        k'.trans_le (k2.trans (mul_le_mul_of_nonneg_left ((min_le_left _ _).trans hm) (by positivity)))
      have := abs_pos.2 ht
      nlinarith

/-- C110 for two polygons whose corners lie on the same line: they are said to meet exactly when the stretches from the first to the last corner have a common
point, and never properly. -/
theorem C110_lines (p q : Poly n) (hp : Straight p) (hq : Straight q) (t s : ℝ) (ho : q.orient.origin.elem = p.orient.origin.elem + t • p.orient.ax0.elem)
    (hs : s ^ 2 = 1) (hd : q.orient.ax0.elem = s • p.orient.ax0.elem) :
    (interPolyPolyN p q false = some true ↔ (convexHull ℝ (polyCornerSet p) ∩ convexHull ℝ (polyCornerSet q)).Nonempty) ∧
    interPolyPolyN p q false ≠ none ∧ interPolyPolyN p q true = some false := by
  have hpos := epsilon_pos
  have heps := epsilon_lt
  norm_num at heps
  have ho' : (q.orient.origin.sub p.orient.origin).elem = t • p.orient.ax0.elem := by
    show q.orient.origin.elem - p.orient.origin.elem = _
    rw [ho]; module
  have eab : p.orient.ax0.dot q.orient.ax0 = s := by
    rw [dot_multiple hp.unit0 (one_smul ℝ _).symm hd hs, one_mul]
  have eoff : (q.orient.origin.sub p.orient.origin).dot q.orient.ax0 = t * s := dot_multiple hp.unit0 ho' hd hs
  have hc : ∃ b m, commonDir p.orient q.orient = (1, b, m) := by
    unfold commonDir
    simp only [hp.invalid1, hq.invalid1, Bool.false_eq_true, if_false]
    have : (q.orient.ax0.scale (q.orient.ax0.dot p.orient.ax0)).sqrMag = 1 := by
      rw [Vec.dot_comm, eab, Vec.sqrMag_eq, scale_elem, smul_dotProduct, dotProduct_smul, hq.unit0, smul_smul]; simp; nlinarith
    rw [this, if_pos (show (1 : ℝ) > _ by nlinarith)]
    exact ⟨_, _, rfl⟩
  obtain ⟨b, m, hc⟩ := hc
  have hm : ∃ data, planesMeet p.orient q.orient = some (1, data) ∧ data.line1 = true ∧ data.line2 = true ∧ data.p1 = ⟨![0, 0], false⟩ ∧
      data.v1 = ⟨![1, 0], false⟩ ∧ data.p2 = ⟨![-(t * s), 0], false⟩ ∧ data.v2 = ⟨![if s > 0 then 1 else -1, 0], false⟩ := by
    unfold planesMeet
    simp only [hp.origin, hq.origin, hp.valid0, hq.valid0, Bool.true_eq_false, or_self, if_false, hc]
    unfold planesLine
    simp only [hp.invalid1, hq.invalid1, and_self, if_true, eoff, eab]
    have heq : (q.orient.origin.sub p.orient.origin).isEqualTo (q.orient.ax0.scale (t * s)) epsilon = true := by
      rw [C28_vector_iff]
      refine ⟨by simp [Pt.sub, hp.origin, hq.origin], hq.valid0, fun i => ?_⟩
      rw [ho', scale_elem, hd, smul_smul, show t * s * s = t by linear_combination t * hs, sub_self, abs_zero]
      exact scaleEpsilonArr_nonneg hpos.le
    rw [heq]
    exact ⟨_, rfl, by simp, by simp, rfl, rfl, rfl, rfl⟩
  obtain ⟨data, hm, l1, l2, ep1, ev1, ep2, ev2⟩ := hm
  obtain ⟨lo1, hi1, b1, le1, h1⟩ := straight_hull hp
  obtain ⟨lo2, hi2, b2, le2, h2⟩ := straight_hull hq
  have hx1 : lineExtent p.poly data.p1 data.v1 = some (lo1, hi1) := by
    unfold lineExtent; rw [b1, ep1, ev1]; simp
  have hu0 : p.orient.ax0.elem ≠ 0 := by intro h; have := hp.unit0; rw [h] at this; simp at this
  have hne : (convexHull ℝ (polyCornerSet p) ∩ convexHull ℝ (polyCornerSet q)).Nonempty ↔ ∃ u, lo1 ≤ t + u * s ∧ t + u * s ≤ hi1 ∧ lo2 ≤ u ∧ u ≤ hi2 := by
    constructor
    · rintro ⟨x, hx, hx'⟩
      obtain ⟨w, w1, w2, rfl⟩ := (h1 x).1 hx
      obtain ⟨u, u1, u2, e⟩ := (h2 _).1 hx'
      rw [ho, hd] at e
      have : (w - (t + u * s)) • p.orient.ax0.elem = 0 := by
        have e' : w • p.orient.ax0.elem = t • p.orient.ax0.elem + u • s • p.orient.ax0.elem := by
          have := congrArg (fun y => y - p.orient.origin.elem) e
          simp only [add_sub_cancel_left] at this
          rw [this]; module
        rw [sub_smul, e']; module
      have := (smul_eq_zero.1 this).resolve_right hu0
      exact ⟨u, by linarith, by linarith, u1, u2⟩
    · rintro ⟨u, a1, a2, a3, a4⟩
      refine ⟨q.orient.origin.elem + u • q.orient.ax0.elem, (h1 _).2 ⟨t + u * s, a1, a2, ?_⟩, (h2 _).2 ⟨u, a3, a4, rfl⟩⟩
      rw [ho, hd]; module
  rw [hne]
  have hval : interPolyPolyN p q false = some (if s > 0 then decide (hi1 ≥ lo2 + t * s) && decide (hi2 + t * s ≥ lo1)
      else decide (hi1 ≥ -(hi2 + t * s)) && decide (-(lo2 + t * s) ≥ lo1)) := by
    unfold interPolyPolyN
    rw [hm, Option.bind_some]
    simp only [polyPolyIntersect, l1, l2, hx1, Option.bind_some]
    have hx2 : lineExtent q.poly data.p2 data.v2 = some (if s > 0 then (lo2 + t * s, hi2 + t * s) else (-(hi2 + t * s), -(lo2 + t * s))) := by
      unfold lineExtent; rw [b2, ep2, ev2]
      by_cases h : s > 0 <;> simp [h]
    rw [hx2]
    by_cases h : s > 0 <;> simp [h]
  refine ⟨?_, by rw [hval]; simp, ?_⟩
  · rw [hval, Option.some.injEq]
    have hs' : s = 1 ∨ s = -1 := by
      have : (s - 1) * (s + 1) = 0 := by linear_combination hs
      rcases mul_eq_zero.1 this with k | k
      · left; linarith
      · right; linarith
    rcases hs' with rfl | rfl
    · simp only [gt_iff_lt, zero_lt_one, if_true, Bool.and_eq_true, decide_eq_true_eq, mul_one]
      constructor
      · rintro ⟨a, b⟩
        refine ⟨max lo2 (lo1 - t), ?_, ?_, le_max_left _ _, max_le le2 (by linarith)⟩
        · linarith [le_max_right lo2 (lo1 - t)]
        · linarith [max_le (show lo2 ≤ hi1 - t by linarith) (show lo1 - t ≤ hi1 - t by linarith)]
      · rintro ⟨u, a1, a2, a3, a4⟩
        exact ⟨by linarith, by linarith⟩
    · rw [if_neg (by norm_num)]
      simp only [Bool.and_eq_true, decide_eq_true_eq]
      constructor
      · rintro ⟨a, b⟩
        refine ⟨max lo2 (t - hi1), ?_, ?_, le_max_left _ _, max_le le2 (by linarith)⟩
        · linarith [max_le (show lo2 ≤ t - lo1 by linarith) (show t - hi1 ≤ t - lo1 by linarith)]
        · linarith [le_max_right lo2 (t - hi1)]
      · rintro ⟨u, a1, a2, a3, a4⟩
        exact ⟨by linarith, by linarith⟩
  · unfold interPolyPolyN
    rw [hm, Option.bind_some]
    simp [polyPolyIntersect, l1, l2]

example : interPolyPolyN (lineRod 0 1) (lineRod (1 / 2) 3) false = some true := by
  refine ((C110_lines _ _ (lineRod_straight 0 1) (lineRod_straight (1 / 2) 3) (1 / 2) 1 ?_ (by norm_num) ?_).1).2 ?_
  · funext i; fin_cases i <;> simp [lineRod]
  · funext i; fin_cases i <;> simp [lineRod]
  · refine ⟨![1, 0, 0], subset_convexHull ℝ _ ?_, ?_⟩
    · rw [straight_corner (lineRod_straight 0 1)]
      exact ⟨⟨![1, 0], true⟩, by simp [lineRod], by funext i; fin_cases i <;> simp [lineRod]⟩
    · obtain ⟨lo, hi, hb, -, hx⟩ := straight_hull (lineRod_straight (1 / 2) 3)
      obtain ⟨lo', hi', hb', hc, -⟩ := lineBounds_spec (lineRod_straight (1 / 2) 3).some
      rw [hb, Option.some.injEq, Prod.mk.injEq] at hb'
      obtain ⟨rfl, rfl⟩ := hb'
      have h1 := (hc ⟨![0, 0], true⟩ (by simp [lineRod])).1
      have h2 := (hc ⟨![3 - 1 / 2, 0], true⟩ (by simp [lineRod])).2
      simp at h1 h2
      exact (hx _).2 ⟨1 / 2, by linarith, by linarith, by funext i; fin_cases i <;> simp [lineRod]; norm_num⟩

theorem dot_neg_elem {u u' v : Vec n} (h : u'.elem = fun i => -u.elem i) : u'.dot v = -u.dot v := by
  have hs : scaleEpsilonArr u'.elem v.elem epsilon = scaleEpsilonArr u.elem v.elem epsilon := by unfold scaleEpsilonArr; rw [h, maxAbs_neg]
  have hd : u'.elem ⬝ᵥ v.elem = -(u.elem ⬝ᵥ v.elem) := by rw [h, ← neg_dotProduct]; rfl
  have e : ∀ w : Vec n, w.dot v = if |w.elem ⬝ᵥ v.elem| ≥ scaleEpsilonArr w.elem v.elem epsilon then w.elem ⬝ᵥ v.elem else 0 := fun _ => rfl
  rw [e, e, hs, hd, abs_neg]
  split_ifs <;> simp

/-- C110 when the first polygon is the one on a line: the plane test is asked for another segment. It starts at a corner; its other end is a corner moved by minus the plane
coordinates of the origin of the first polygon, so that the answer is that for the polygon itself only when the origins of both agree. -/
theorem C110_line_first_partial (p q : Poly n) (hp : Spans p) (hq : Straight q) (y d : Fin 2 → ℝ) (h : LineIn p q y d) : ∃ s : Seg 2,
    spacePoint p s.p1.elem ∈ polyCornerSet q ∧ spacePoint p (s.p2.elem + y) ∈ polyCornerSet q ∧ interPolyPolyN q p false = interPolyS p.poly s false ∧
    interPolyPolyN q p true = some false := by
  have hpos := epsilon_pos
  have heps := epsilon_lt
  norm_num at heps
  obtain ⟨hd, v0, v1, w0, w1, ho⟩ := lineIn_values hp hq h
  have hneg : (p.orient.origin.sub q.orient.origin).elem = fun i => -(q.orient.origin.sub p.orient.origin).elem i := by
    funext i; show _ - _ = -(_ - _); ring
  have w0' := dot_neg_elem (v := p.orient.ax0) hneg
  have w1' := dot_neg_elem (v := p.orient.ax1) hneg
  rw [w0] at w0'
  rw [w1] at w1'
  have hc : ∃ b m, commonDir q.orient p.orient = (1, b, m) := by
    unfold commonDir
    simp only [hq.invalid1, hp.valid1, Bool.false_eq_true, if_false, if_true]
    have : (p.orient.ax0.scale (p.orient.ax0.dot q.orient.ax0) + p.orient.ax1.scale (p.orient.ax1.dot q.orient.ax0)).sqrMag = 1 := by
      rw [v0, v1, Vec.sqrMag_eq, comb_elem, comb_dot hp.unit0 hp.unit1 hp.perp, ← hd]; ring
    rw [this, if_pos (show (1 : ℝ) > _ by nlinarith)]
    exact ⟨_, _, rfl⟩
  obtain ⟨b, m, hc⟩ := hc
  have hm : ∃ data, planesMeet q.orient p.orient = some (1, data) ∧ data.line1 = true ∧ data.line2 = false ∧ data.p2 = ⟨![y 0, y 1], false⟩ ∧
      data.v2 = ⟨![d 0, d 1], false⟩ ∧ data.p1 = ⟨![0, 0], false⟩ ∧ data.v1 = ⟨![1, 0], false⟩ := by
    unfold planesMeet
    simp only [hp.origin, hq.origin, hp.valid0, hq.valid0, Bool.true_eq_false, or_self, if_false, hc]
    unfold planesLine
    simp only [hq.invalid1, hp.valid1, Bool.true_eq_false, and_false, if_false, if_true, w0', w1', neg_neg, Vec.dot_comm q.orient.ax0, v0, v1]
    have heq : (p.orient.origin.sub q.orient.origin).isEqualTo (p.orient.ax0.scale (-y 0) - p.orient.ax1.scale (y 1)) epsilon = true := by
      rw [C28_vector_iff]
      refine ⟨by simp [Pt.sub, hp.origin, hq.origin], ?_, fun i => ?_⟩
      · show (p.orient.ax0.valid && p.orient.ax1.valid) = true
        rw [hp.valid0, hp.valid1]; rfl
      · rw [hneg, ho, sub_elem', scale_elem, scale_elem]
        simp only [Pi.add_apply, Pi.sub_apply, Pi.smul_apply, smul_eq_mul]
        rw [show -(y 0 * p.orient.ax0.elem i + y 1 * p.orient.ax1.elem i) - (-y 0 * p.orient.ax0.elem i - y 1 * p.orient.ax1.elem i) = 0 by ring, abs_zero]
        exact scaleEpsilonArr_nonneg hpos.le
    rw [heq]
    exact ⟨_, rfl, by simp, by simp, rfl, rfl, rfl, rfl⟩
  obtain ⟨data, hm, l1, l2, ep2, ev2, ep1, ev1⟩ := hm
  obtain ⟨lo, hi, hb, hbd, ⟨c1, hc1, e1⟩, ⟨c2, hc2, e2⟩⟩ := lineBounds_spec hq.some
  have hext : lineExtent q.poly data.p1 data.v1 = some (lo, hi) := by
    unfold lineExtent
    rw [hb, ep1, ev1]
    simp
  have hpt : ∀ t : ℝ, spacePoint p ![y 0 + t * d 0, y 1 + t * d 1] = q.orient.origin.elem + t • q.orient.ax0.elem := by
    intro t
    rw [h.origin, h.dir]
    unfold spacePoint
    simp only [cons_val_zero, cons_val_one]
    module
  refine ⟨⟨data.p2.addVec (data.v2.scale lo), data.p1.addVec (data.v2.scale hi)⟩, ?_, ?_, ?_, ?_⟩
  · rw [straight_corner hq]
    refine ⟨c1, hc1, ?_⟩
    rw [← e1, ← hpt, ep2, ev2]
    congr 1
    apply ext2 <;> simp [Pt.addVec, Vec.scale, mul_comm]
  · rw [straight_corner hq]
    refine ⟨c2, hc2, ?_⟩
    rw [← e2, ← hpt, ep1, ev2]
    congr 1
    apply ext2 <;> simp [Pt.addVec, Vec.scale, mul_comm, add_comm]
  · unfold interPolyPolyN
    rw [hm, Option.bind_some]
    simp [polyPolyIntersect, l1, l2, hext]
  · unfold interPolyPolyN
    rw [hm, Option.bind_some]
    simp [polyPolyIntersect, l1, l2]

/-- C111 for polygons in perpendicular planes: the second is never said to lie in the first; that is right as soon as one of its corners is outside the plane
of the first one. -/
theorem C111_perpendicular (p q : Poly 3) (hp : Spans p) (hq : Spans q) (hpn : p.poly ≠ []) (h : normal p ⬝ᵥ normal q = 0) (he : AxesExact p q)
    (hout : ∃ x ∈ polyCornerSet q, normal p ⬝ᵥ (x - p.orient.origin.elem) ≠ 0) (proper : Bool) :
    containsPolyPolyN p q proper = some false ∧ ¬ polyCornerSet q ⊆ spaceFilled p := by
  obtain ⟨b, l, hl, hc, hb, hab, hnq⟩ := commonDir_perp hp hq h he
  obtain ⟨x, hx, hne⟩ := hout
  constructor
  · have hqn : q.poly ≠ [] := by
      obtain ⟨c, hc, -⟩ := mem_polyCornerSet.1 hx
      exact List.ne_nil_of_mem hc
    unfold containsPolyPolyN
    rw [if_neg (by simpa using hpn), if_neg (by simpa using hqn)]
    unfold planesMeet
    simp only [hp.origin, hq.origin, hp.valid0, hq.valid0, Bool.true_eq_false, or_self, if_false, hc]
    obtain ⟨k, d, hd, hk⟩ := planesLine_planes hp hq (q.orient.origin.sub p.orient.origin) b (l ^ 2)
    rw [hd, Option.bind_some]
    simp only
    rcases hk with rfl | ⟨rfl, h1, h2, hp1, hv1⟩
    · simp [polyPolyContains]
    · simp [polyPolyContains, h2]
  · intro hsub
    obtain ⟨y, -, rfl⟩ := hsub hx
    apply hne
    unfold spacePoint normal
    rw [show p.orient.origin.elem + y 0 • p.orient.ax0.elem + y 1 • p.orient.ax1.elem - p.orient.origin.elem = y 0 • p.orient.ax0.elem + y 1 • p.orient.ax1.elem by module]
    rw [dotProduct_add, dotProduct_smul, dotProduct_smul, dotProduct_comm _ p.orient.ax0.elem, dotProduct_comm _ p.orient.ax1.elem, dot_self_cross, dot_cross_self]
    simp

/-- A square in an upright plane has a corner outside the plane of the flat one. -/
example : normal flatSquare ⬝ᵥ normal (turned 0 1 ⟨0, true⟩) = 0 ∧ AxesExact flatSquare (turned 0 1 ⟨0, true⟩) ∧ Spans (turned 0 1 ⟨0, true⟩) ∧
    ∃ x ∈ polyCornerSet (turned 0 1 ⟨0, true⟩), normal flatSquare ⬝ᵥ (x - flatSquare.orient.origin.elem) ≠ 0 := by
  refine ⟨?_, turned_axes (Or.inl rfl) rfl (by norm_num), turned_spans (by norm_num) rfl, ?_⟩
  · rw [flat_normal', turned_normal 0 1 rfl]; simp [dotProduct, Fin.sum_univ_three]
  · refine ⟨![0, 0, 1], ?_, ?_⟩
    · rw [mem_polyCornerSet]
      refine ⟨⟨![0, 1], true⟩, by rw [turned_eq 0 1 _ rfl]; simp [unitSquare], _, convert_eq (by rw [turned_eq 0 1 _ rfl]) (Or.inl (by rw [turned_eq 0 1 _ rfl])) (Or.inl (by rw [turned_eq 0 1 _ rfl])), ?_⟩
      rw [turned_eq 0 1 _ rfl]
      funext i; fin_cases i <;> simp [Orient.at]
    · rw [flat_normal']; simp [dotProduct, Fin.sum_univ_three, flatSquare, threeCorners]

/-- C111 for polygons without corners. -/
theorem C111_empty (p q : Poly n) (proper : Bool) : (p.poly ≠ [] → q.poly = [] → containsPolyPolyN p q proper = some true) ∧
    (p.poly = [] → q.poly ≠ [] → containsPolyPolyN p q proper = some false) := by
  constructor
  · intro h1 h2; simp [containsPolyPolyN, h1, h2]
  · intro h1 h2; simp [containsPolyPolyN, h1, h2]

/-- C110 for polygons without a plane (no corner has been added): they meet nothing, and nothing meets them. -/
theorem C110_empty (p q : Poly n) (h : p.orient.origin.valid = false ∨ q.orient.origin.valid = false) (proper : Bool) :
    interPolyPolyN p q proper = some false := by
  unfold interPolyPolyN planesMeet
  simp [h, polyPolyIntersect]

/-- A polygon as constructed or after `clear()` is such a polygon, on either side. -/
example (q : Poly n) : interPolyPolyN Poly.empty q false = some false ∧ interPolyPolyN q Poly.empty false = some false :=
  ⟨C110_empty _ _ (Or.inl rfl) _, C110_empty _ _ (Or.inr rfl) _⟩

end WFMath
