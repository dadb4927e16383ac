/- Property theorems C103 to C106: polygons in space against points, balls and segments. -/
import Verif.Props.PolyPairs
import Verif.Props.PolyMoved

namespace WFMath
open Spec Matrix

/-! ### The nearest point of the plane -/

theorem spans_axes {s : Poly n} (h : Spans s) : AxesFit s.orient := ⟨Or.inl h.unit0, Or.inl h.unit1, fun _ => h.perp⟩

/-- Every point is a point of the plane plus a vector perpendicular to the plane; `offset` finds the two. -/
theorem offset_eq {s : Poly n} (h : Spans s) {p : Pt n} (hp : ProjExact s.orient p) :
    ∃ (off : Vec n) (y : Fin 2 → ℝ), s.orient.offset p = some (off, ⟨y, false⟩) ∧ p.elem = spacePoint s y + off.elem ∧
      off.elem ⬝ᵥ s.orient.ax0.elem = 0 ∧ off.elem ⬝ᵥ s.orient.ax1.elem = 0 := by
  unfold Orient.offset
  rw [if_neg (by simp [h.origin])]
  obtain ⟨e1, e2⟩ := hp
  unfold DotExact at e1 e2
  generalize hd0 : (p.sub s.orient.origin).dot s.orient.ax0 = d0 at *
  generalize hd1 : (p.sub s.orient.origin - s.orient.ax0.scale d0).dot s.orient.ax1 = d1 at *
  have k1 : d0 = (p.elem - s.orient.origin.elem) ⬝ᵥ s.orient.ax0.elem := e1
  have k2 : d1 = (p.elem - s.orient.origin.elem - d0 • s.orient.ax0.elem) ⬝ᵥ s.orient.ax1.elem := by
    rw [e2]; congr 1; funext i; show _ - s.orient.ax0.elem i * d0 = _ - d0 * s.orient.ax0.elem i; rw [mul_comm]; rfl
  have l1 : (p.sub s.orient.origin - s.orient.ax0.scale d0 - s.orient.ax1.scale d1).elem =
      p.elem - s.orient.origin.elem - d0 • s.orient.ax0.elem - d1 • s.orient.ax1.elem := by
    funext i; show _ - s.orient.ax0.elem i * d0 - s.orient.ax1.elem i * d1 = _ - d0 * s.orient.ax0.elem i - d1 * s.orient.ax1.elem i
    rw [mul_comm d0, mul_comm d1]; rfl
  refine ⟨p.sub s.orient.origin - s.orient.ax0.scale d0 - s.orient.ax1.scale d1, ![d0, d1], by simp only [hd0, hd1], ?_, ?_, ?_⟩
  · rw [l1]; unfold spacePoint; simp only [cons_val_zero, cons_val_one]; abel
  · rw [l1, sub_dotProduct, sub_dotProduct, smul_dotProduct, smul_dotProduct, ← k1, h.unit0, dotProduct_comm s.orient.ax1.elem, h.perp]; simp
  · rw [l1, sub_dotProduct, smul_dotProduct, ← k2, h.unit1]; simp

/-- The two parts are unique. -/
theorem split_unique {s : Poly n} (h : Spans s) {y y' : Fin 2 → ℝ} {w w' : Fin n → ℝ} (e : spacePoint s y + w = spacePoint s y' + w')
    (h0 : w ⬝ᵥ s.orient.ax0.elem = 0) (h1 : w ⬝ᵥ s.orient.ax1.elem = 0) (h0' : w' ⬝ᵥ s.orient.ax0.elem = 0) (h1' : w' ⬝ᵥ s.orient.ax1.elem = 0) :
    y = y' ∧ w = w' := by
  have hc := h.perp
  rw [dotProduct_comm] at hc
  have a0 := congrArg (· ⬝ᵥ s.orient.ax0.elem) e
  have a1 := congrArg (· ⬝ᵥ s.orient.ax1.elem) e
  simp only [spacePoint, add_dotProduct, smul_dotProduct, h.unit0, h.unit1, h.perp, hc, h0, h1, h0', h1', smul_eq_mul, mul_one, mul_zero, add_zero] at a0 a1
  have hy : y = y' := by apply ext2 <;> linarith
  subst hy
  exact ⟨rfl, add_left_cancel e⟩

theorem spacePoint_inj {s : Poly n} (h : Spans s) {y y' : Fin 2 → ℝ} (e : spacePoint s y = spacePoint s y') : y = y' :=
  (split_unique h (w := 0) (w' := 0) (by rw [e]) (by simp) (by simp) (by simp) (by simp)).1

theorem mem_spaceInside {s : Poly n} (h : Spans s) {y : Fin 2 → ℝ} : spacePoint s y ∈ spaceInside s ↔ y ∈ inside s.poly :=
  ⟨fun ⟨y', hy', e⟩ => by rw [spacePoint_inj h e]; exact hy', fun hy => ⟨y, hy, rfl⟩⟩

theorem mem_spaceFilled {s : Poly n} (h : Spans s) {y : Fin 2 → ℝ} : spacePoint s y ∈ spaceFilled s ↔ y ∈ filled s.poly :=
  ⟨fun ⟨y', hy', e⟩ => by rw [spacePoint_inj h e]; exact hy', fun hy => ⟨y, hy, rfl⟩⟩

/-- Distances in the plane are those of plane coordinates, and Pythagoras. -/
theorem space_dist {s : Poly n} (h : Spans s) (y y' : Fin 2 → ℝ) {w : Fin n → ℝ} (h0 : w ⬝ᵥ s.orient.ax0.elem = 0) (h1 : w ⬝ᵥ s.orient.ax1.elem = 0) :
    eucl (spacePoint s y + w) (spacePoint s y') ^ 2 = w ⬝ᵥ w + eucl y y' ^ 2 := by
  rw [eucl_eq_len, len_sq, eucl_sq, Fin.sum_univ_two]
  have e : spacePoint s y + w - spacePoint s y' = (y 0 - y' 0) • s.orient.ax0.elem + (y 1 - y' 1) • s.orient.ax1.elem + w := by
    unfold spacePoint; module
  have hc := h.perp
  rw [dotProduct_comm] at hc
  have h0' := h0
  have h1' := h1
  rw [dotProduct_comm] at h0' h1'
  rw [e]
  simp only [add_dotProduct, dotProduct_add, smul_dotProduct, dotProduct_smul, h.unit0, h.unit1, h.perp, hc, h0, h1, h0', h1', smul_eq_mul]
  ring

/-! ### C103 point and polygon -/

/-- C103: for a point of the plane of the polygon other than the origin of space, whose coordinate in the plane is not within tolerance of a side,
`Intersect(polygon, point)` says exactly whether the point is inside the polygon. Missing: the origin of space (`C103_false`). -/
theorem C103_plane_partial (s : Poly n) (hs : Spans s) (p : Pt n) (hp : ProjExact s.orient p) (y : Fin 2 → ℝ) (hy : p.elem = spacePoint s y)
    (h0 : p.elem ≠ 0) (hf : FarFromSides s.poly y) (proper : Bool) :
    ∃ b, interPolyPn s p proper = some b ∧ (b = true ↔ p.elem ∈ spaceInside s) := by
  have hpos := epsilon_pos
  rw [hy, mem_spaceInside hs]
  unfold interPolyPn
  by_cases hl : s.poly.length = 0
  · refine ⟨false, by rw [if_pos hl], ?_⟩
    rw [List.length_eq_zero_iff.1 hl]
    simp [inside, rayCrossings, sides]
  · obtain ⟨off, y', ho, e, h1, h2⟩ := offset_eq hs hp
    obtain ⟨rfl, hw⟩ := split_unique hs (y := y) (w := 0) (by rw [← e, add_zero]; exact hy.symm) (by simp) (by simp) h1 h2
    have hc : s.orient.checkContained p = some (true, ⟨y, false⟩) := by
      unfold Orient.checkContained
      rw [ho, Option.map_some]
      simp only [Option.some.injEq, Prod.mk.injEq, decide_eq_true_eq, and_true]
      rw [Vec.sqrMag_eq, ← hw, dotProduct_zero]
      refine mul_pos hpos ?_
      have : 0 < len p.elem ^ 2 := by
        have := (len_nonneg p.elem).lt_of_ne (Ne.symm (len_eq_zero.not.2 h0))
        positivity
      rw [len_sq] at this
      exact this
    rw [if_neg hl, hc]
    refine ⟨_, rfl, ?_⟩
    show (true && interPolyP s.poly ⟨y, false⟩ proper) = true ↔ _
    rw [Bool.true_and, C74_even_odd s.poly ⟨y, false⟩ proper hf east east_ne]
    constructor
    · intro ho
      refine ⟨fun ⟨e, he, hx⟩ => ?_, ho⟩
      have h1 := hf e he (y 0) (by convert hx using 1; apply ext2 <;> rfl)
      rw [equal_refl] at h1
      exact Bool.false_ne_true h1.symm
    · exact fun h => h.2

/-- C103: a point that is farther from the plane of the polygon than `√ε` times its distance from the origin of space is rejected. -/
theorem C103_off_plane (s : Poly n) (hs : Spans s) (p : Pt n) (hp : ProjExact s.orient p)
    (h : ∀ y, Real.sqrt epsilon * len p.elem ≤ eucl p.elem (spacePoint s y)) (proper : Bool) : interPolyPn s p proper = some false := by
  have hpos := epsilon_pos
  unfold interPolyPn
  by_cases hl : s.poly.length = 0
  · rw [if_pos hl]
  · obtain ⟨off, y', ho, e, h1, h2⟩ := offset_eq hs hp
    rw [if_neg hl]
    unfold Orient.checkContained
    rw [ho, Option.map_some, Option.map_some]
    have h3 := h y'
    have h4 := space_dist hs y' y' h1 h2
    rw [← e, eucl_self] at h4
    have h5 : epsilon * ∑ i, p.elem i * p.elem i ≤ off.sqrMag := by
      have : (Real.sqrt epsilon * len p.elem) ^ 2 ≤ eucl p.elem (spacePoint s y') ^ 2 := by
        have := mul_nonneg (Real.sqrt_nonneg epsilon) (len_nonneg p.elem)
        exact pow_le_pow_left₀ this h3 2
      rw [mul_pow, Real.sq_sqrt hpos.le, len_sq, h4] at this
      rw [Vec.sqrMag_eq]
      have h6 : p.elem ⬝ᵥ p.elem = ∑ i, p.elem i * p.elem i := rfl
      rw [← h6]; linarith
    simp [not_lt.2 h5]

/-- C103: a point that is accepted is nearer than `√ε` times its distance from the origin of space to a point inside the polygon, namely to its
projection to the plane, provided that the projection is not within tolerance of a side. -/
theorem C103_near (s : Poly n) (hs : Spans s) (p : Pt n) (hp : ProjExact s.orient p) (proper : Bool) (h : interPolyPn s p proper = some true)
    (hf : ∀ y, (∀ y', eucl p.elem (spacePoint s y) ≤ eucl p.elem (spacePoint s y')) → FarFromSides s.poly y) :
    ∃ x ∈ spaceInside s, eucl p.elem x < Real.sqrt epsilon * len p.elem := by
  have hpos := epsilon_pos
  unfold interPolyPn at h
  have hl : s.poly.length ≠ 0 := by intro hl; rw [if_pos hl] at h; simp at h
  obtain ⟨off, y, ho, e, h1, h2⟩ := offset_eq hs hp
  rw [if_neg hl] at h
  unfold Orient.checkContained at h
  rw [ho, Option.map_some, Option.map_some] at h
  simp only [Option.some.injEq, Bool.and_eq_true, decide_eq_true_eq] at h
  have hd := fun y' => space_dist hs y y' h1 h2
  have hf' : FarFromSides s.poly y := hf y fun y' => by
    have a := hd y
    have b := hd y'
    rw [← e] at a b
    rw [eucl_self] at a
    refine le_of_sq_le_sq ?_ (eucl_nonneg _ _)
    rw [a, b]; nlinarith [sq_nonneg (eucl y y')]
  have ho := (C74_even_odd s.poly ⟨y, false⟩ proper hf' east east_ne).1 h.2
  refine ⟨spacePoint s y, (mem_spaceInside hs).2 ⟨fun ⟨e, he, hx⟩ => ?_, ho⟩, ?_⟩
  · have h1 := hf' e he (y 0) (by convert hx using 1; apply ext2 <;> rfl)
    rw [equal_refl] at h1
    exact Bool.false_ne_true h1.symm
  · have a := hd y
    rw [← e, eucl_self] at a
    refine lt_of_pow_lt_pow_left₀ 2 (mul_nonneg (Real.sqrt_nonneg _) (len_nonneg _)) ?_
    rw [a, mul_pow, Real.sq_sqrt hpos.le, len_sq]
    have := h.1
    rw [Vec.sqrMag_eq] at this
    have h6 : p.elem ⬝ᵥ p.elem = ∑ i, p.elem i * p.elem i := rfl
    rw [h6]; linarith

/-- C103 is false of the code at the origin of space: it is never in a polygon, whatever the polygon. -/
theorem C103_origin_false (s : Poly n) (p : Pt n) (hp : p.elem = 0) (proper : Bool) : interPolyPn s p proper ≠ some true := by
  unfold interPolyPn Orient.checkContained
  split_ifs
  · simp
  · rcases h : s.orient.offset p with _ | ⟨off, y⟩
    · simp
    · have : ¬ off.sqrMag < 0 := by
        rw [Vec.sqrMag_eq, ← len_sq, not_lt]; positivity
      simp [hp, this]

/-- The triangle of `threeCorners`, moved so that the origin of space is inside. -/
noncomputable def centred : Poly 3 := threeCorners.shift ⟨![-1 / 4, -1 / 4, 0], true⟩

theorem centred_edited : ∃ k, Edited true centred k := by
  obtain ⟨k, h⟩ := Built.edited (dbg := true) epsilon_pos.le threeCorners_built
  exact ⟨k, .shift _ rfl h⟩

theorem threeCorners_spans : Spans threeCorners := by
  constructor <;> simp [threeCorners, dotProduct, Fin.sum_univ_three]

theorem centred_spans : Spans centred := by
  constructor <;> simp [centred, Poly.shift, Orient.shift, Pt.addVec, threeCorners, dotProduct, Fin.sum_univ_three]

theorem centred_point (y : Fin 2 → ℝ) : spacePoint centred y = ![y 0 - 1 / 4, y 1 - 1 / 4, 0] := by
  unfold spacePoint centred Poly.shift Orient.shift threeCorners
  funext i
  fin_cases i <;> simp [Pt.addVec] <;> ring

/-- The points inside the triangle with corners (0,0), (1,0), (0,1). -/
theorem corner_triangle {y : Fin 2 → ℝ} (h0 : 0 < y 0) (h1 : 0 < y 1) (h2 : y 0 + y 1 < 1) (l : Corners 2)
    (hl : l = [⟨![0, 0], true⟩, ⟨![1, 0], true⟩, ⟨![0, 1], true⟩]) : y ∈ inside l := by
  refine ⟨?_, triangle_odd (a := ![0, 0]) (b := ![1, 0]) (c := ![0, 1]) ?_ ?_ ?_ _ (by rw [hl]; rfl)⟩
  · rintro ⟨e, he, hx⟩
    obtain ⟨s, s0, s1, h2, h3⟩ := seg_coord hx
    rw [hl] at he
    simp [sides] at he
    rcases he with rfl | rfl | rfl <;> simp at h2 h3 <;> linarith
  all_goals simp [cr]
  all_goals linarith

theorem threeCorners_poly : threeCorners.poly = [⟨![0, 0], true⟩, ⟨![1, 0], true⟩, ⟨![0, 1], true⟩] := rfl

/-- C103 is false of the code: the origin of space is inside this triangle, which was made by adding corners and moving, and yet is not found in it. -/
theorem C103_false : ∃ (s : Poly 3) (k : Nat) (p : Pt 3), Edited true s k ∧ p.valid = true ∧ p.elem ∈ spaceInside s ∧
    ∀ proper, interPolyPn s p proper = some false := by
  obtain ⟨k, hk⟩ := centred_edited
  refine ⟨centred, k, ⟨0, true⟩, hk, rfl, ⟨![1 / 4, 1 / 4], corner_triangle (by norm_num) (by norm_num) (by norm_num) _ rfl, ?_⟩, fun proper => ?_⟩
  · rw [centred_point]; funext i; fin_cases i <;> simp
  · have h1 := C103_origin_false centred ⟨0, true⟩ rfl proper
    have h2 : interPolyPn centred ⟨0, true⟩ proper ≠ none := by
      unfold interPolyPn Orient.checkContained Orient.offset
      rw [if_neg (by simp [centred, Poly.shift, threeCorners]), if_neg (by simp [centred_spans.origin])]
      simp
    rcases h : interPolyPn centred ⟨0, true⟩ proper with _ | _ | _
    · exact absurd h h2
    · rfl
    · exact absurd h h1

/-! ### C104 what is in a point, in space -/

/-- C104: a polygon in space that has a corner is never said to be in a point; one without corners always is. -/
theorem C104_never_false (p : Pt n) (s : Poly n) (proper : Bool) :
    (s.poly = [] → containsPPolyN p s proper = some true) ∧ (s.poly ≠ [] → containsPPolyN p s proper ≠ some true) := by
  unfold containsPPolyN
  constructor
  · intro h; rw [h]
  · intro h
    rcases hs : s.poly with _ | ⟨q, qs⟩
    · exact absurd hs h
    · simp only
      split_ifs
      · simp
      · simp
      · unfold Orient.checkContained Orient.offset
        split_ifs
        · simp
        · have : ∀ y, (⟨y, false⟩ : Pt 2).isEqualTo q epsilon = false := fun y => by simp [Pt.isEqualTo]
          simp [this]

/-- C104, the part that holds: a polygon with a corner other than the point is not said to be in the point. Missing: polygons whose corners all are the
point (`C104_false`). -/
theorem C104_rejects_partial (p : Pt n) (s : Poly n) (x : Fin n → ℝ) (hx : x ∈ polyCornerSet s) (proper : Bool) : containsPPolyN p s proper ≠ some true := by
  refine (C104_never_false p s proper).2 fun h => ?_
  obtain ⟨i, c, hc, -⟩ := hx
  simp [Poly.getCorner, h, Corners.getCorner] at hc

/-- C104 is false of the code: a polygon with the single corner (1,2,3) is not said to be in that point. -/
theorem C104_false : ∃ (s : Poly 3) (p : Pt 3), Edited true s 1 ∧ p.valid = true ∧ polyCornerSet s = {p.elem} ∧ containsPPolyN p s false = some false := by
  let p : Pt 3 := ⟨![1, 2, 3], true⟩
  let s : Poly 3 := ⟨⟨p, Vec.default, Vec.default⟩, [⟨![0, 0], true⟩]⟩
  have hadd : (Poly.empty : Poly 3).addCorner 0 p epsilon = some (true, s) := by
    unfold Poly.addCorner Orient.expand Poly.empty Orient.empty
    simp [Pt.default, s, p, Corners.addCorner]
  have hg : s.getCorner 0 = some ⟨![1, 2, 3], true⟩ := by
    have : s.getCorner 0 = s.orient.convert ⟨![0, 0], true⟩ := rfl
    rw [this, convert_eq (by rfl) (by simp) (by simp)]
    simp [Orient.at, s, p]
  refine ⟨s, p, .add 0 p epsilon epsilon_pos.le .empty hadd, rfl, ?_, ?_⟩
  · ext x
    constructor
    · rintro ⟨i, c, hc, rfl⟩
      have : i = 0 := by
        by_contra h
        obtain ⟨j, rfl⟩ := Nat.exists_eq_succ_of_ne_zero h
        simp [Poly.getCorner, s, Corners.getCorner] at hc
      subst this
      rw [hg] at hc
      rw [← Option.some.inj hc]; rfl
    · rintro rfl
      exact ⟨0, _, hg, rfl⟩
  · have h1 := (C104_never_false p s false).2 (by simp [s])
    have h2 : containsPPolyN p s false ≠ none := by
      unfold containsPPolyN
      simp [s, p, Orient.checkContained, Orient.offset]
    rcases h : containsPPolyN p s false with _ | _ | _
    · exact absurd h h2
    · rfl
    · exact absurd h h1

/-! ### C105 ball and polygon in space -/

/-- The disc in which the ball cuts the plane, in plane coordinates. -/
theorem disc_mem {s : Poly n} (hs : Spans s) {b : Ball n} (hr : 0 ≤ b.radius) {y y' : Fin 2 → ℝ} {w : Fin n → ℝ} (e : b.center.elem = spacePoint s y + w)
    (h0 : w ⬝ᵥ s.orient.ax0.elem = 0) (h1 : w ⬝ᵥ s.orient.ax1.elem = 0) :
    (spacePoint s y' ∈ ballSet b → eucl y' y ^ 2 ≤ b.radius * b.radius - w ⬝ᵥ w) ∧
    (spacePoint s y' ∈ ballInterior b → eucl y' y ^ 2 < b.radius * b.radius - w ⬝ᵥ w) := by
  have hd := space_dist hs y y' h0 h1
  rw [← e, eucl_comm, eucl_comm y y'] at hd
  constructor
  · intro h
    have h' : eucl (spacePoint s y') b.center.elem ≤ b.radius := h
    have := pow_le_pow_left₀ (eucl_nonneg _ _) h' 2
    rw [hd] at this; linarith [sq b.radius]
  · intro h
    have h' : eucl (spacePoint s y') b.center.elem < b.radius := h
    have := pow_lt_pow_left₀ h' (eucl_nonneg _ _) (two_ne_zero)
    rw [hd] at this; linarith [sq b.radius]

/-- C105: when the ball meets the polygon, `Intersect(polygon, ball)` says so; with `proper` the inside of the ball has to meet the polygon, and the
projection of the centre must not be within tolerance of a side. Needs sides longer than `√(8 ε)`. -/
theorem C105_accepts (s : Poly n) (hs : Spans s) (b : Ball n) (hr : 0 ≤ b.radius) (hp : ProjExact s.orient b.center)
    (hl : ∀ e ∈ sides s.poly, 8 * epsilon ≤ eucl e.1 e.2 ^ 2) :
    ((spaceFilled s ∩ ballSet b).Nonempty → interPolyBallN s b false = some true) ∧
    ((∀ y, (∀ y', eucl b.center.elem (spacePoint s y) ≤ eucl b.center.elem (spacePoint s y')) → ¬ NearSide s.poly y) →
      (spaceFilled s ∩ ballInterior b).Nonempty → interPolyBallN s b true = some true) := by
  have hpos := epsilon_pos
  obtain ⟨off, y, ho, e, h1, h2⟩ := offset_eq hs hp
  have hfin : ∀ y', y' ∈ filled s.poly → ¬ s.poly.length = 0 := by
    intro y' hy' h0
    rw [List.length_eq_zero_iff.1 h0] at hy'
    exact filled_nil y' hy'
  have hq : off.sqrMag = off.elem ⬝ᵥ off.elem := Vec.sqrMag_eq _
  unfold interPolyBallN
  constructor
  · rintro ⟨x, ⟨y', hy', rfl⟩, hx⟩
    have hd := (disc_mem hs hr e h1 h2).1 hx
    have h0 := sq_nonneg (eucl y' y)
    rw [if_neg (hfin y' hy'), ho]
    simp only [Option.bind_some]
    rw [if_neg (by rw [less_false, hq]; linarith), if_neg (by rw [hq]; linarith)]
    refine (C97_accepts s.poly _ (Real.sqrt_nonneg _) (Or.inr hl)).1 ⟨y', hy', ?_⟩
    show eucl y' (Ball.mk' ⟨y, false⟩ _).center.elem ≤ Real.sqrt _
    rw [show (Ball.mk' (⟨y, false⟩ : Pt 2) (Real.sqrt (b.radius * b.radius - off.sqrMag))).center.elem = y by unfold Ball.mk'; split_ifs <;> rfl]
    rw [hq]
    exact Real.le_sqrt_of_sq_le hd
  · rintro hn ⟨x, ⟨y', hy', rfl⟩, hx⟩
    have hd := (disc_mem hs hr e h1 h2).2 hx
    have h0 := sq_nonneg (eucl y' y)
    rw [if_neg (hfin y' hy'), ho]
    simp only [Option.bind_some]
    rw [if_neg (by rw [less_true, hq]; linarith), if_neg (by rw [hq]; linarith)]
    have hce : (Ball.mk' (⟨y, false⟩ : Pt 2) (Real.sqrt (b.radius * b.radius - off.sqrMag))).center.elem = y := by unfold Ball.mk'; split_ifs <;> rfl
    refine (C97_accepts s.poly _ (Real.sqrt_nonneg _) (Or.inr hl)).2 ?_ ⟨y', hy', ?_⟩
    · rw [hce]
      refine hn y fun y'' => ?_
      have a := space_dist hs y y h1 h2
      have b' := space_dist hs y y'' h1 h2
      rw [← e] at a b'
      rw [eucl_self] at a
      refine le_of_sq_le_sq ?_ (eucl_nonneg _ _)
      rw [a, b']; nlinarith [sq_nonneg (eucl y y'')]
    · show eucl y' (Ball.mk' ⟨y, false⟩ _).center.elem < Real.sqrt _
      rw [hce, hq]
      exact Real.lt_sqrt_of_sq_lt hd

/-- A point of the plane whose coordinates are in the disc enlarged by the factor `√(1 + ε)` is in the ball enlarged by that factor. -/
theorem disc_grown {s : Poly n} (hs : Spans s) {b : Ball n} (hr : 0 ≤ b.radius) {y y' : Fin 2 → ℝ} {w : Fin n → ℝ} (e : b.center.elem = spacePoint s y + w)
    (h0 : w ⬝ᵥ s.orient.ax0.elem = 0) (h1 : w ⬝ᵥ s.orient.ax1.elem = 0) (hd : 0 ≤ b.radius * b.radius - w ⬝ᵥ w) :
    (eucl y' y ≤ Real.sqrt (1 + epsilon) * Real.sqrt (b.radius * b.radius - w ⬝ᵥ w) → spacePoint s y' ∈ ballSet (grown b)) ∧
    (eucl y' y < Real.sqrt (1 + epsilon) * Real.sqrt (b.radius * b.radius - w ⬝ᵥ w) → spacePoint s y' ∈ ballInterior (grown b)) := by
  have hpos := epsilon_pos
  have hd' := space_dist hs y y' h0 h1
  have hw : 0 ≤ w ⬝ᵥ w := by rw [← len_sq]; positivity
  have hg : 0 ≤ Real.sqrt (1 + epsilon) * b.radius := mul_nonneg (Real.sqrt_nonneg _) hr
  have hgs : (Real.sqrt (1 + epsilon) * b.radius) ^ 2 = (1 + epsilon) * (b.radius * b.radius) := by
    rw [mul_pow, Real.sq_sqrt (by linarith), sq b.radius]
  have hks : (Real.sqrt (1 + epsilon) * Real.sqrt (b.radius * b.radius - w ⬝ᵥ w)) ^ 2 = (1 + epsilon) * (b.radius * b.radius - w ⬝ᵥ w) := by
    rw [mul_pow, Real.sq_sqrt (by linarith), Real.sq_sqrt hd]
  rw [← e, eucl_comm, eucl_comm y y'] at hd'
  constructor
  · intro h
    have h2 := pow_le_pow_left₀ (eucl_nonneg _ _) h 2
    rw [hks] at h2
    show eucl (spacePoint s y') b.center.elem ≤ Real.sqrt (1 + epsilon) * b.radius
    refine le_of_sq_le_sq ?_ hg
    rw [hgs, hd']; nlinarith
  · intro h
    have h2 := pow_lt_pow_left₀ h (eucl_nonneg _ _) (two_ne_zero)
    rw [hks] at h2
    show eucl (spacePoint s y') b.center.elem < Real.sqrt (1 + epsilon) * b.radius
    refine lt_of_pow_lt_pow_left₀ 2 hg ?_
    rw [hgs, hd']; nlinarith

/-- C105: when `Intersect(polygon, ball)` holds, the ball with its radius enlarged by the factor `√(1 + ε)` meets the polygon, unless the projection
of the centre is within tolerance of a side or so close to a corner that the library rounds the distance to 0. -/
theorem C105_rejects (s : Poly n) (hs : Spans s) (b : Ball n) (hr : 0 ≤ b.radius) (hp : ProjExact s.orient b.center)
    (hf : ∀ y, (∀ y', eucl b.center.elem (spacePoint s y) ≤ eucl b.center.elem (spacePoint s y')) →
      ¬ NearSide s.poly y ∧ ∀ c ∈ s.poly, ∀ v, ¬ Flushed ⟨y, v⟩ c) :
    (interPolyBallN s b false = some true → (spaceFilled s ∩ ballSet (grown b)).Nonempty) ∧
    (interPolyBallN s b true = some true → (spaceFilled s ∩ ballInterior (grown b)).Nonempty) := by
  obtain ⟨off, y, ho, e, h1, h2⟩ := offset_eq hs hp
  have hq : off.sqrMag = off.elem ⬝ᵥ off.elem := Vec.sqrMag_eq _
  obtain ⟨hn, hfl⟩ := hf y fun y'' => by
    have a := space_dist hs y y h1 h2
    have b' := space_dist hs y y'' h1 h2
    rw [← e] at a b'
    rw [eucl_self] at a
    refine le_of_sq_le_sq ?_ (eucl_nonneg _ _)
    rw [a, b']; nlinarith [sq_nonneg (eucl y y'')]
  have hmk : Ball.mk' (⟨y, false⟩ : Pt 2) (Real.sqrt (b.radius * b.radius - off.sqrMag)) = ⟨⟨y, false⟩, Real.sqrt (b.radius * b.radius - off.sqrMag)⟩ := by
    unfold Ball.mk'; rw [if_neg (not_lt.2 (Real.sqrt_nonneg _))]
  have hc := C97_rejects s.poly ⟨⟨y, false⟩, Real.sqrt (b.radius * b.radius - off.sqrMag)⟩ (Real.sqrt_nonneg _) fun c hc => hfl c hc _
  unfold interPolyBallN
  rw [ho]
  simp only [Option.bind_some, hmk]
  constructor
  · intro h
    split_ifs at h with g1 g2 g3 <;> try exact absurd h (by simp)
    obtain ⟨y', hy', hyb⟩ := hc.1 hn h
    exact ⟨_, ⟨y', hy', rfl⟩, (disc_grown hs hr e h1 h2 (by rw [← hq]; exact not_lt.1 g3)).1 (by rw [← hq]; exact hyb)⟩
  · intro h
    split_ifs at h with g1 g2 g3 <;> try exact absurd h (by simp)
    rw [less_true, not_le] at g2
    obtain ⟨y', hy', hyb⟩ := hc.2 (Real.sqrt_pos.2 g2) h
    exact ⟨_, ⟨y', hy', rfl⟩, (disc_grown hs hr e h1 h2 (by rw [← hq]; exact not_lt.1 g3)).2 (by rw [← hq]; exact hyb)⟩

/-- A polygon in at least three dimensions contains no ball of positive radius. -/
theorem no_ball_in_plane (hn : 3 ≤ n) (s : Poly n) (b : Ball n) (hr : 0 < b.radius) : ¬ ballInterior b ⊆ spaceFilled s := by
  intro h
  have hplane : ∀ x ∈ ballInterior b, x - s.orient.origin.elem ∈ Submodule.span ℝ ({s.orient.ax0.elem, s.orient.ax1.elem} : Set (Fin n → ℝ)) := by
    intro x hx
    obtain ⟨y, -, rfl⟩ := h hx
    rw [Submodule.mem_span_pair]
    exact ⟨y 0, y 1, by unfold spacePoint; abel⟩
  have hc : b.center.elem ∈ ballInterior b := by show eucl _ _ < _; rw [eucl_self]; exact hr
  have htop : Submodule.span ℝ ({s.orient.ax0.elem, s.orient.ax1.elem} : Set (Fin n → ℝ)) = ⊤ := by
    rw [eq_top_iff]
    intro v _
    by_cases hv : len v = 0
    · rw [len_eq_zero.1 hv]; exact zero_mem _
    · have hv' : 0 < len v := (len_nonneg v).lt_of_ne (Ne.symm hv)
      have hx : b.center.elem + (b.radius / (2 * len v)) • v ∈ ballInterior b := by
        show eucl _ _ < _
        rw [eucl_eq_len, add_sub_cancel_left, len_smul, abs_of_pos (by positivity)]
        field_simp
        linarith
      have := Submodule.sub_mem _ (hplane _ hx) (hplane _ hc)
      rw [show b.center.elem + (b.radius / (2 * len v)) • v - s.orient.origin.elem - (b.center.elem - s.orient.origin.elem) = (b.radius / (2 * len v)) • v by abel] at this
      exact (Submodule.smul_mem_iff _ (by positivity)).1 this
  have h1 : Module.finrank ℝ (Submodule.span ℝ ({s.orient.ax0.elem, s.orient.ax1.elem} : Set (Fin n → ℝ))) ≤ 2 := by
    classical
    have h2 := finrank_span_finset_le_card (R := ℝ) ({s.orient.ax0.elem, s.orient.ax1.elem} : Finset (Fin n → ℝ))
    have h3 := Finset.card_le_two (a := s.orient.ax0.elem) (b := s.orient.ax1.elem)
    have h4 : Set.finrank ℝ (({s.orient.ax0.elem, s.orient.ax1.elem} : Finset (Fin n → ℝ)) : Set (Fin n → ℝ)) =
      Module.finrank ℝ (Submodule.span ℝ ({s.orient.ax0.elem, s.orient.ax1.elem} : Set (Fin n → ℝ))) := by rw [Set.finrank, Finset.coe_pair]
    omega
  rw [htop, finrank_top, Module.finrank_fin_fun] at h1
  omega

/-- C105: a ball of positive radius is never in a polygon in space, and `Contains(polygon, ball)` says so; for a ball of radius 0 it gives the same answer as
`Intersect(polygon, point)` for its centre. -/
theorem C105_contains (hn : 3 ≤ n) (s : Poly n) (b : Ball n) (proper : Bool) :
    (0 < b.radius → containsPolyBallN s b proper = some false ∧ ¬ ballInterior b ⊆ spaceFilled s) ∧
    (b.radius = 0 → containsPolyBallN s b proper = interPolyPn s b.center proper) := by
  constructor
  · intro hr
    refine ⟨?_, no_ball_in_plane hn s b hr⟩
    unfold containsPolyBallN
    split_ifs <;> rfl
  · intro hr
    unfold containsPolyBallN interPolyPn
    rw [hr]
    simp only [gt_iff_lt, lt_irrefl, if_false]

/-! ### C106 segment and polygon in space -/

theorem len_of_unit {w : Fin n → ℝ} (hw : w ⬝ᵥ w = 1) (h : ℝ) : len (h • w) = |h| := by
  rw [len_smul, len, hw, Real.sqrt_one, mul_one]

/-- C106 for a segment whose ends are `h1` and `h2` above the plane along one normal: the answer says exactly whether the segment has a point
inside the polygon, when at least one end is more than `2 ε` away from the plane and the point where the segment crosses the plane is not within tolerance of a side. -/
theorem C106_normal_partial (s : Poly n) (hs : Spans s) (g : Seg n) (hp1 : ProjExact s.orient g.p1) (hp2 : ProjExact s.orient g.p2) {w : Fin n → ℝ} (hw : w ⬝ᵥ w = 1)
    (hw0 : w ⬝ᵥ s.orient.ax0.elem = 0) (hw1 : w ⬝ᵥ s.orient.ax1.elem = 0) {y1 y2 : Fin 2 → ℝ} {k1 k2 : ℝ} (e1 : g.p1.elem = spacePoint s y1 + k1 • w)
    (e2 : g.p2.elem = spacePoint s y2 + k2 • w) (hk : 2 * epsilon < |k1| ∨ 2 * epsilon < |k2|)
    (hf : ∀ y, spacePoint s y ∈ segSet g → FarFromSides s.poly y) (proper : Bool) :
    ∃ b, interPolySn s g proper = some b ∧ (b = true ↔ (spaceInside s ∩ segSet g).Nonempty) := by
  have hpos := epsilon_pos
  by_cases hl : s.poly.length = 0
  · refine ⟨false, by unfold interPolySn; rw [if_pos hl], ?_⟩
    simp only [Bool.false_eq_true, false_iff]
    rintro ⟨x, ⟨y, hy, -⟩, -⟩
    rw [List.length_eq_zero_iff.1 hl] at hy
    simp [inside, rayCrossings, sides] at hy
  obtain ⟨v1, z1, ho1, f1, g1, g1'⟩ := offset_eq hs hp1
  obtain ⟨v2, z2, ho2, f2, g2, g2'⟩ := offset_eq hs hp2
  have hkw : ∀ k : ℝ, (k • w) ⬝ᵥ s.orient.ax0.elem = 0 ∧ (k • w) ⬝ᵥ s.orient.ax1.elem = 0 := fun k => by simp [smul_dotProduct, hw0, hw1]
  obtain ⟨rfl, hv1⟩ := split_unique hs (by rw [← e1]; exact f1) (hkw k1).1 (hkw k1).2 g1 g1'
  obtain ⟨rfl, hv2⟩ := split_unique hs (by rw [← e2]; exact f2) (hkw k2).1 (hkw k2).2 g2 g2'
  have hww : w ≠ 0 := by rintro rfl; simp at hw
  have hdot : v1.elem ⬝ᵥ v2.elem = k1 * k2 := by rw [← hv1, ← hv2, smul_dotProduct, dotProduct_smul, hw]; simp
  -- the points of the segment that are in the plane
  have hin : ∀ t : ℝ, (1 - t) • g.p1.elem + t • g.p2.elem = spacePoint s ((1 - t) • y1 + t • y2) + ((1 - t) * k1 + t * k2) • w := by
    intro t; rw [e1, e2]; unfold spacePoint; simp only [Pi.add_apply, Pi.smul_apply, smul_eq_mul]; module
  have hplane : ∀ t y, (1 - t) • g.p1.elem + t • g.p2.elem = spacePoint s y → y = (1 - t) • y1 + t • y2 ∧ (1 - t) * k1 + t * k2 = 0 := by
    intro t y h
    rw [hin t] at h
    obtain ⟨a, b⟩ := split_unique hs (y' := y) (w' := 0) (by rw [h, add_zero]) (hkw _).1 (hkw _).2 (by simp) (by simp)
    exact ⟨a.symm, (smul_eq_zero.1 b).resolve_right hww⟩
  unfold interPolySn
  rw [if_neg hl, ho1, ho2]
  simp only [Option.bind_some]
  by_cases hside : 0 < k1 * k2
  · -- both ends on one side
    have hd : v1.dot v2 > 0 := by
      rcases dot_or v1 v2 with h | ⟨-, h⟩
      · rw [h, hdot]; exact hside
      · exfalso
        rw [hdot, ← hv1, ← hv2, len_of_unit hw, len_of_unit hw, abs_mul] at h
        have n1 : 0 < |k1| := abs_pos.2 (by rintro rfl; simp at hside)
        have n2 : 0 < |k2| := abs_pos.2 (by rintro rfl; simp at hside)
        rcases hk with c | c
        · have := mul_lt_mul_of_pos_right c n2
          have := mul_le_mul_of_nonneg_left (min_le_right |k1| |k2|) (by linarith : (0 : ℝ) ≤ 2 * epsilon)
          linarith
        · have := mul_lt_mul_of_pos_right c n1
          have := mul_le_mul_of_nonneg_left (min_le_left |k1| |k2|) (by linarith : (0 : ℝ) ≤ 2 * epsilon)
          linarith
    refine ⟨false, by rw [if_pos hd], ?_⟩
    simp only [Bool.false_eq_true, false_iff]
    rintro ⟨x, ⟨y, hy, rfl⟩, t, t0, t1, ht⟩
    have := (hplane t y ht.symm).2
    have hsq : 0 < k1 * k1 := mul_self_pos.2 (by rintro rfl; simp at hside)
    have : (1 - t) * (k1 * k1) + t * (k1 * k2) = 0 := by linear_combination k1 * this
    rcases t0.eq_or_lt with rfl | t0
    · linarith
    · have := mul_pos t0 hside
      have := mul_nonneg (sub_nonneg.2 t1) hsq.le
      linarith
  · have hd : ¬ v1.dot v2 > 0 := by
      rcases dot_or v1 v2 with h | ⟨h, -⟩
      · rw [h, hdot]; exact hside
      · rw [h]; exact lt_irrefl _
    have m1 : v1.mag = |k1| := by rw [mag_eq_len, ← hv1, len_of_unit hw]
    have m2 : v2.mag = |k2| := by rw [mag_eq_len, ← hv2, len_of_unit hw]
    have hsum : 0 < |k1| + |k2| := by
      have := abs_nonneg k1
      have := abs_nonneg k2
      rcases hk with h | h <;> linarith
    rw [if_neg hd, m1, m2, if_neg hsum.ne']
    refine ⟨_, rfl, ?_⟩
    -- the parameter of the crossing
    have ht0 : 0 ≤ |k1| / (|k1| + |k2|) := by positivity
    have ht1 : |k1| / (|k1| + |k2|) ≤ 1 := by rw [div_le_one hsum]; linarith [abs_nonneg k2]
    have hz : (fun i => (y1 i * |k2| + y2 i * |k1|) / (|k1| + |k2|)) = (1 - |k1| / (|k1| + |k2|)) • y1 + (|k1| / (|k1| + |k2|)) • y2 := by
      funext i
      simp only [Pi.add_apply, Pi.smul_apply, smul_eq_mul]
      field_simp
      ring
    have hcross : (1 - |k1| / (|k1| + |k2|)) * k1 + |k1| / (|k1| + |k2|) * k2 = 0 := by
      field_simp
      rcases le_total 0 k1 with a | a <;> rcases le_total 0 k2 with b | b
      · have : k1 * k2 = 0 := le_antisymm (not_lt.1 hside) (mul_nonneg a b)
        rw [abs_of_nonneg a, abs_of_nonneg b]; nlinarith
      · rw [abs_of_nonneg a, abs_of_nonpos b]; ring
      · rw [abs_of_nonpos a, abs_of_nonneg b]; ring
      · have : k1 * k2 = 0 := le_antisymm (not_lt.1 hside) (mul_nonneg_of_nonpos_of_nonpos a b)
        rw [abs_of_nonpos a, abs_of_nonpos b]; nlinarith
    have hmem : spacePoint s ((1 - |k1| / (|k1| + |k2|)) • y1 + (|k1| / (|k1| + |k2|)) • y2) ∈ segSet g :=
      ⟨_, ht0, ht1, by rw [hin, hcross, zero_smul, add_zero]⟩
    have hf' := hf _ hmem
    rw [hz, C74_even_odd s.poly ⟨_, false⟩ proper hf' east east_ne]
    constructor
    · intro ho
      refine ⟨_, (mem_spaceInside hs).2 ⟨fun ⟨e, he, hx⟩ => ?_, ho⟩, hmem⟩
      have h1 := hf' e he _ (by convert hx using 1; apply ext2 <;> rfl)
      rw [equal_refl] at h1
      exact Bool.false_ne_true h1.symm
    · rintro ⟨x, ⟨y, hy, rfl⟩, t, t0, t1, ht⟩
      obtain ⟨rfl, hc⟩ := hplane t y ht.symm
      have : t = |k1| / (|k1| + |k2|) := by
        have e : (t - |k1| / (|k1| + |k2|)) * (k2 - k1) = 0 := by linear_combination hc - hcross
        rcases mul_eq_zero.1 e with e | e
        · linarith
        · exfalso
          have e : k2 = k1 := by linarith
          rw [e] at hside hsum
          have : k1 = 0 := by
            by_contra h0
            exact hside (mul_self_pos.2 h0)
          simp [this] at hsum
      rw [← this]; exact hy.2

/-- In three dimensions there is one direction perpendicular to the plane of a polygon, and everything perpendicular to the plane is along it. -/
theorem exists_normal {s : Poly 3} (hs : Spans s) : ∃ w : Fin 3 → ℝ, w ⬝ᵥ w = 1 ∧ w ⬝ᵥ s.orient.ax0.elem = 0 ∧ w ⬝ᵥ s.orient.ax1.elem = 0 ∧
    ∀ v : Fin 3 → ℝ, v ⬝ᵥ s.orient.ax0.elem = 0 → v ⬝ᵥ s.orient.ax1.elem = 0 → v = (v ⬝ᵥ w) • w := by
  obtain ⟨-, -, -, hu, hv, huv⟩ := hs
  revert hu hv huv
  generalize s.orient.ax0.elem = u
  generalize s.orient.ax1.elem = v
  intro hu hv huv
  simp only [dotProduct, Fin.sum_univ_three] at hu hv huv
  have hw : (![u 1 * v 2 - u 2 * v 1, u 2 * v 0 - u 0 * v 2, u 0 * v 1 - u 1 * v 0] : Fin 3 → ℝ) ⬝ᵥ ![u 1 * v 2 - u 2 * v 1, u 2 * v 0 - u 0 * v 2, u 0 * v 1 - u 1 * v 0] = 1 := by
    simp [dotProduct, Fin.sum_univ_three, Matrix.vecHead, Matrix.vecTail]
    linear_combination (u 0 * u 0 + u 1 * u 1 + u 2 * u 2) * hv + hu - (u 0 * v 0 + u 1 * v 1 + u 2 * v 2) * huv
  have h0 : (![u 1 * v 2 - u 2 * v 1, u 2 * v 0 - u 0 * v 2, u 0 * v 1 - u 1 * v 0] : Fin 3 → ℝ) ⬝ᵥ u = 0 := by
    simp [dotProduct, Fin.sum_univ_three, Matrix.vecHead, Matrix.vecTail]; ring
  have h1 : (![u 1 * v 2 - u 2 * v 1, u 2 * v 0 - u 0 * v 2, u 0 * v 1 - u 1 * v 0] : Fin 3 → ℝ) ⬝ᵥ v = 0 := by
    simp [dotProduct, Fin.sum_univ_three, Matrix.vecHead, Matrix.vecTail]; ring
  refine ⟨_, hw, h0, h1, ?_⟩
  revert hw h0 h1
  generalize (![u 1 * v 2 - u 2 * v 1, u 2 * v 0 - u 0 * v 2, u 0 * v 1 - u 1 * v 0] : Fin 3 → ℝ) = w
  intro hw h0 h1 x hx0 hx1
  let M : Matrix (Fin 3) (Fin 3) ℝ := Matrix.of ![u, v, w]
  have hM : M * M.transpose = 1 := by
    simp only [dotProduct, Fin.sum_univ_three] at hw h0 h1
    ext i j
    fin_cases i <;> fin_cases j <;> simp [M, Matrix.mul_apply, Fin.sum_univ_three, Matrix.vecHead, Matrix.vecTail] <;> linarith
  have hM' : M.transpose * M = 1 := mul_eq_one_comm.1 hM
  have hr : M.mulVec (x - (x ⬝ᵥ w) • w) = 0 := by
    funext i
    fin_cases i
    · show u ⬝ᵥ _ = 0
      rw [dotProduct_comm, sub_dotProduct, smul_dotProduct, hx0, h0]; simp
    · show v ⬝ᵥ _ = 0
      rw [dotProduct_comm, sub_dotProduct, smul_dotProduct, hx1, h1]; simp
    · show w ⬝ᵥ _ = 0
      rw [dotProduct_comm, sub_dotProduct, smul_dotProduct, hw]; simp
  have : M.transpose.mulVec (M.mulVec (x - (x ⬝ᵥ w) • w)) = x - (x ⬝ᵥ w) • w := by rw [Matrix.mulVec_mulVec, hM', Matrix.one_mulVec]
  rw [hr, Matrix.mulVec_zero] at this
  exact sub_eq_zero.1 this.symm

/-- C106 in three dimensions, for a segment with one end more than `2 ε` away from the plane of the polygon: `Intersect` says exactly whether the segment has a
point inside the polygon. The point where the segment crosses the plane must not be within tolerance of a side, and the projections of the ends to the plane must
not be cut off. -/
theorem C106_space_partial (s : Poly 3) (hs : Spans s) (g : Seg 3) (hp1 : ProjExact s.orient g.p1) (hp2 : ProjExact s.orient g.p2)
    (hk : (∀ y, 2 * epsilon < eucl g.p1.elem (spacePoint s y)) ∨ ∀ y, 2 * epsilon < eucl g.p2.elem (spacePoint s y))
    (hf : ∀ y, spacePoint s y ∈ segSet g → FarFromSides s.poly y) (proper : Bool) :
    ∃ b, interPolySn s g proper = some b ∧ (b = true ↔ (spaceInside s ∩ segSet g).Nonempty) := by
  obtain ⟨w, hw, h0, h1, hall⟩ := exists_normal hs
  obtain ⟨v1, z1, -, f1, g1, g1'⟩ := offset_eq hs hp1
  obtain ⟨v2, z2, -, f2, g2, g2'⟩ := offset_eq hs hp2
  rw [hall _ g1 g1'] at f1
  rw [hall _ g2 g2'] at f2
  refine C106_normal_partial s hs g hp1 hp2 hw h0 h1 f1 f2 (hk.imp (fun h => ?_) fun h => ?_) hf proper
  · have := h z1
    rwa [eucl_eq_len, f1, add_sub_cancel_left, len_of_unit hw] at this
  · have := h z2
    rwa [eucl_eq_len, f2, add_sub_cancel_left, len_of_unit hw] at this

/-- C106 for a segment in the plane of the polygon: the answer is the one for the polygon and the segment in the plane, with the faults of that test (C100). -/
theorem C106_flat (s : Poly n) (hs : Spans s) (hl : s.poly.length ≠ 0) (g : Seg n) (hp1 : ProjExact s.orient g.p1) (hp2 : ProjExact s.orient g.p2) {y1 y2 : Fin 2 → ℝ}
    (e1 : g.p1.elem = spacePoint s y1) (e2 : g.p2.elem = spacePoint s y2) (proper : Bool) :
    interPolySn s g proper = interPolyS s.poly ⟨⟨y1, false⟩, ⟨y2, false⟩⟩ proper := by
  obtain ⟨v1, z1, ho1, f1, g1, g1'⟩ := offset_eq hs hp1
  obtain ⟨v2, z2, ho2, f2, g2, g2'⟩ := offset_eq hs hp2
  obtain ⟨rfl, hv1⟩ := split_unique hs (y := y1) (w := 0) (by rw [add_zero]; exact e1.symm.trans f1) (by simp) (by simp) g1 g1'
  obtain ⟨rfl, hv2⟩ := split_unique hs (y := y2) (w := 0) (by rw [add_zero]; exact e2.symm.trans f2) (by simp) (by simp) g2 g2'
  unfold interPolySn
  rw [if_neg hl, ho1, ho2]
  have hd : v1.dot v2 = 0 := by
    rcases dot_or v1 v2 with h | ⟨h, -⟩
    · rw [h, ← hv1]; simp
    · exact h
  simp [hd, mag_eq_len, ← hv1, ← hv2, len]

/-- C106, what is in a polygon: a segment with an end farther from the plane than `√ε` times its distance from the origin of space is not; for one in the
plane, with neither end at the origin of space, the answer is the one for the polygon and the segment in the plane, with the faults of that test (C100). -/
theorem C106_contains (s : Poly n) (hs : Spans s) (hl : s.poly ≠ []) (g : Seg n) (hp1 : ProjExact s.orient g.p1) (hp2 : ProjExact s.orient g.p2) (proper : Bool) :
    ((∀ y, Real.sqrt epsilon * len g.p1.elem ≤ eucl g.p1.elem (spacePoint s y)) ∨ (∀ y, Real.sqrt epsilon * len g.p2.elem ≤ eucl g.p2.elem (spacePoint s y)) →
      containsPolySn s g proper = some false) ∧
    ∀ y1 y2, g.p1.elem = spacePoint s y1 → g.p2.elem = spacePoint s y2 → g.p1.elem ≠ 0 → g.p2.elem ≠ 0 →
      containsPolySn s g proper = containsPolyS s.poly ⟨⟨y1, false⟩, ⟨y2, false⟩⟩ proper := by
  have hl' : ¬ s.poly.length = 0 := by simpa using hl
  have off : ∀ p, ProjExact s.orient p → (∀ y, Real.sqrt epsilon * len p.elem ≤ eucl p.elem (spacePoint s y)) → ∃ q, s.orient.checkContained p = some (false, q) := by
    intro p hp h
    obtain ⟨off, y', ho, e, h1, h2⟩ := offset_eq hs hp
    refine ⟨⟨y', false⟩, ?_⟩
    unfold Orient.checkContained
    rw [ho, Option.map_some]
    have h3 := h y'
    have h4 := space_dist hs y' y' h1 h2
    rw [← e, eucl_self] at h4
    have h5 : epsilon * ∑ i, p.elem i * p.elem i ≤ off.sqrMag := by
      have : (Real.sqrt epsilon * len p.elem) ^ 2 ≤ eucl p.elem (spacePoint s y') ^ 2 := by
        have := mul_nonneg (Real.sqrt_nonneg epsilon) (len_nonneg p.elem)
        exact pow_le_pow_left₀ this h3 2
      rw [mul_pow, Real.sq_sqrt epsilon_pos.le, len_sq, h4] at this
      rw [Vec.sqrMag_eq]
      have h6 : p.elem ⬝ᵥ p.elem = ∑ i, p.elem i * p.elem i := rfl
      rw [← h6]; linarith
    simp [not_lt.2 h5]
  have some_of : ∀ p, ProjExact s.orient p → ∃ c q, s.orient.checkContained p = some (c, q) := by
    intro p hp
    obtain ⟨v, y, ho, -⟩ := offset_eq hs hp
    exact ⟨_, _, by unfold Orient.checkContained; rw [ho]; rfl⟩
  have inp : ∀ p y, ProjExact s.orient p → p.elem = spacePoint s y → p.elem ≠ 0 → s.orient.checkContained p = some (true, ⟨y, false⟩) := by
    intro p y hp hy h0
    obtain ⟨off, y', ho, e, h1, h2⟩ := offset_eq hs hp
    obtain ⟨rfl, hw⟩ := split_unique hs (y := y) (w := 0) (by rw [add_zero]; exact hy.symm.trans e) (by simp) (by simp) h1 h2
    unfold Orient.checkContained
    rw [ho, Option.map_some]
    simp only [Option.some.injEq, Prod.mk.injEq, decide_eq_true_eq, and_true]
    rw [Vec.sqrMag_eq, ← hw, dotProduct_zero]
    refine mul_pos epsilon_pos ?_
    have : 0 < len p.elem ^ 2 := by
      have := (len_nonneg p.elem).lt_of_ne (Ne.symm (len_eq_zero.not.2 h0))
      positivity
    rw [len_sq] at this
    exact this
  unfold containsPolySn
  rw [if_neg hl']
  constructor
  · rintro (h | h)
    · obtain ⟨q, hq⟩ := off _ hp1 h
      rw [hq]; rfl
    · obtain ⟨q, hq⟩ := off _ hp2 h
      obtain ⟨c, q', hq'⟩ := some_of _ hp1
      rw [hq, hq']
      cases c <;> rfl
  · intro y1 y2 e1 e2 n1 n2
    rw [inp _ _ hp1 e1 n1, inp _ _ hp2 e2 n2]; rfl

/-- The unit square in the plane of the first two coordinates of space. -/
noncomputable def flatSquare : Poly 3 := ⟨threeCorners.orient, unitSquare⟩

theorem dotExact_coarse3 {u v : Vec 3} (hu : ∀ i, |u.elem i| ≤ 8) (h : u.elem ⬝ᵥ v.elem = 0 ∨ 1 / 64 ≤ |u.elem ⬝ᵥ v.elem|) : DotExact u v := by
  have he := epsilon_lt
  have hp := epsilon_pos
  norm_num at he
  rcases h with h | h
  · exact dotExact_of_zero h
  · exact dotExact_of_max (M := 8) (maxAbs_le (by norm_num) hu) (by linarith)

theorem flat_proj {p : Pt 3} (h : ∀ i, |p.elem i| ≤ 8) (hx0 : p.elem 0 = 0 ∨ 1 / 64 ≤ |p.elem 0|) (hx1 : p.elem 1 = 0 ∨ 1 / 64 ≤ |p.elem 1|) :
    ProjExact threeCorners.orient p := by
  have h0 : DotExact (p.sub threeCorners.orient.origin) threeCorners.orient.ax0 := by
    apply dotExact_coarse3
    · intro i; simpa [Pt.sub, threeCorners] using h i
    · simpa [Pt.sub, threeCorners, dotProduct, Fin.sum_univ_three] using hx0
  refine ⟨h0, ?_⟩
  rw [show (p.sub threeCorners.orient.origin).dot threeCorners.orient.ax0 = _ from h0]
  apply dotExact_coarse3
  · intro i
    rw [sub_elem', scale_elem]
    have := h i
    fin_cases i <;> simp [Pt.sub, threeCorners, dotProduct, Fin.sum_univ_three] at this ⊢ <;> linarith
  · rw [sub_elem', scale_elem]
    simpa [Pt.sub, threeCorners, dotProduct, Fin.sum_univ_three] using hx1

theorem flatSquare_edited : ∃ k, Edited true flatSquare k := by
  have he2 := epsilon_lt
  norm_num at he2
  obtain ⟨k, h⟩ := Built.edited (dbg := true) epsilon_pos.le threeCorners_built
  refine ⟨_, .add 2 ⟨![1, 1, 0], true⟩ epsilon epsilon_pos.le h ?_⟩
  have hs : (⟨![1, 1, 0], true⟩ : Pt 3).sub ⟨0, true⟩ = ⟨![1, 1, 0], true⟩ := by
    ext i
    · fin_cases i <;> simp [Pt.sub]
    · rfl
  have hq : (⟨![1, 1, 0], true⟩ : Vec 3).sqrMag = 2 := by
    rw [Vec.sqrMag_eq]; simp [dotProduct, Fin.sum_univ_three]; norm_num
  have hd : (⟨![1, 1, 0], true⟩ : Vec 3).dot ⟨![1, 1, 0], true⟩ = 2 := by
    have e : (![1, 1, 0] : Fin 3 → ℝ) ⬝ᵥ ![1, 1, 0] = 2 := by
      simp [dotProduct, Fin.sum_univ_three]; norm_num
    rw [dot_of_le (M := 1) (fun i => by fin_cases i <;> norm_num) (by rw [e, abs_of_pos (by norm_num)]; linarith), e]
  have h0 : (⟨![1, 1, 0], true⟩ : Vec 3).dot ⟨![1, 0, 0], true⟩ = 1 := by
    have e : (![1, 1, 0] : Fin 3 → ℝ) ⬝ᵥ ![1, 0, 0] = 1 := by simp [dotProduct, Fin.sum_univ_three]
    rw [dot_of_le (M := 1) (fun i => by fin_cases i <;> norm_num) (by rw [e, abs_of_pos (by norm_num)]; linarith), e]
  have h1 : (⟨![1, 1, 0], true⟩ : Vec 3) - (⟨![1, 0, 0], true⟩ : Vec 3).scale 1 = ⟨![0, 1, 0], true⟩ := by
    ext i
    · rw [sub_elem', scale_elem]; fin_cases i <;> simp
    · rfl
  have h2 : (⟨![0, 1, 0], true⟩ : Vec 3).dot ⟨![1, 1, 0], true⟩ = 1 := by
    have e : (![0, 1, 0] : Fin 3 → ℝ) ⬝ᵥ ![1, 1, 0] = 1 := by simp [dotProduct, Fin.sum_univ_three]
    rw [dot_of_le (M := 1) (fun i => by fin_cases i <;> norm_num) (by rw [e, abs_of_pos (by norm_num)]; linarith), e]
  have h3 : (⟨![0, 1, 0], true⟩ : Vec 3).dot ⟨![0, 1, 0], true⟩ = 1 := by
    have e : (![0, 1, 0] : Fin 3 → ℝ) ⬝ᵥ ![0, 1, 0] = 1 := by simp [dotProduct, Fin.sum_univ_three]
    rw [dot_of_le (M := 1) (fun i => by fin_cases i <;> norm_num) (by rw [e, abs_of_pos (by norm_num)]; linarith), e]
  have h4 : (⟨![0, 1, 0], true⟩ : Vec 3) - (⟨![0, 1, 0], true⟩ : Vec 3).scale 1 = ⟨0, true⟩ := by
    ext i
    · rw [sub_elem', scale_elem]; fin_cases i <;> simp
    · rfl
  have h5 : (⟨0, true⟩ : Vec 3).dot ⟨![1, 1, 0], true⟩ = 0 := by
    rw [show _ = _ from dotExact_of_zero (by simp)]; simp
  have hx : threeCorners.orient.expand ⟨![1, 1, 0], true⟩ epsilon = (true, threeCorners.orient, ⟨![1, 1], true⟩) := by
    unfold Orient.expand
    rw [if_neg (by simp [threeCorners])]
    simp only [threeCorners, hs, hd, hq, h0, h1, h2, h3, h4, h5]
    rw [if_neg (by linarith), if_neg (by simp), if_neg (by linarith), if_neg (by simp), if_pos (by linarith [epsilon_pos])]
  unfold Poly.addCorner
  rw [hx]
  rfl

theorem flatSquare_spans : Spans flatSquare := by
  constructor <;> simp [flatSquare, threeCorners, dotProduct, Fin.sum_univ_three]

theorem flatSquare_point (y : Fin 2 → ℝ) : spacePoint flatSquare y = ![y 0, y 1, 0] := by
  unfold spacePoint flatSquare threeCorners
  funext i
  fin_cases i <;> simp

/-- C106 is false of the code for segments in the plane of the polygon: a segment that goes right through a square is said to miss it. -/
theorem C106_false : ∃ (s : Poly 3) (k : Nat) (g : Seg 3), Edited true s k ∧ g.valid = true ∧ (spaceInside s ∩ segSet g).Nonempty ∧
    ∀ proper, interPolySn s g proper = some false := by
  obtain ⟨k, hk⟩ := flatSquare_edited
  refine ⟨flatSquare, k, ⟨⟨![-1, 3 / 4, 0], true⟩, ⟨![2, 1 / 4, 0], true⟩⟩, hk, rfl,
    ⟨![1 / 2, 1 / 2, 0], ⟨![1 / 2, 1 / 2], unitSquare_inside (by norm_num) (by norm_num) (by norm_num) (by norm_num), ?_⟩,
      1 / 2, by norm_num, by norm_num, ?_⟩, fun proper => ?_⟩
  · rw [flatSquare_point]; rfl
  · funext i; fin_cases i <;> norm_num [Matrix.vecHead, Matrix.vecTail]
  · rw [C106_flat flatSquare flatSquare_spans (by simp [flatSquare, unitSquare]) _
      (flat_proj (fun i => by fin_cases i <;> norm_num [abs_le]) (by norm_num) (by norm_num [abs_of_pos]))
      (flat_proj (fun i => by fin_cases i <;> norm_num [abs_le]) (by norm_num) (by norm_num [abs_of_pos]))
      (y1 := ![-1, 3 / 4]) (y2 := ![2, 1 / 4]) (by rw [flatSquare_point]; rfl) (by rw [flatSquare_point]; rfl)]
    exact square_crossed proper

/-- A segment up through the middle of the square meets the conditions of `C106_space_partial`. -/
example (proper : Bool) : interPolySn flatSquare ⟨⟨![1 / 2, 1 / 2, -1], true⟩, ⟨![1 / 2, 1 / 2, 2], true⟩⟩ proper = some true := by
  have hseg : ∀ z : Fin 2 → ℝ, spacePoint flatSquare z ∈ segSet (⟨⟨![1 / 2, 1 / 2, -1], true⟩, ⟨![1 / 2, 1 / 2, 2], true⟩⟩ : Seg 3) → z = ![1 / 2, 1 / 2] := by
    rintro z ⟨t, -, -, h⟩
    rw [flatSquare_point] at h
    have e0 := congrFun h 0
    have e1 := congrFun h 1
    simp at e0 e1
    apply ext2
    · simp; linarith
    · simp; linarith
  obtain ⟨b, hb, hiff⟩ := C106_space_partial flatSquare flatSquare_spans ⟨⟨![1 / 2, 1 / 2, -1], true⟩, ⟨![1 / 2, 1 / 2, 2], true⟩⟩
    (flat_proj (fun i => by fin_cases i <;> norm_num [abs_le]) (by norm_num [abs_of_pos]) (by norm_num [abs_of_pos]))
    (flat_proj (fun i => by fin_cases i <;> norm_num [abs_le]) (by norm_num [abs_of_pos]) (by norm_num [abs_of_pos]))
    (Or.inr fun z => by
      have := abs_sub_le_eucl (![1 / 2, 1 / 2, 2] : Fin 3 → ℝ) (spacePoint flatSquare z) 2
      have he := epsilon_lt
      norm_num at he
      rw [flatSquare_point] at this ⊢
      simp at this ⊢
      linarith) (fun z hz => by
      rw [hseg z hz]
      exact unitSquare_far) proper
  rw [hb, hiff.2]
  refine ⟨spacePoint flatSquare ![1 / 2, 1 / 2], ⟨![1 / 2, 1 / 2], unitSquare_inside (by norm_num) (by norm_num) (by norm_num) (by norm_num), rfl⟩, 1 / 3, by norm_num, by norm_num, ?_⟩
  rw [flatSquare_point]
  funext i
  fin_cases i <;> norm_num [Matrix.vecHead, Matrix.vecTail]

/-! ### C107 box and polygon in space -/

/-- The conditions of C103 and C105 are met: a point of the plane, a point above it, and a ball that reaches down to the square. -/
example (proper : Bool) : interPolyPn flatSquare ⟨![1 / 2, 1 / 2, 0], true⟩ proper = some true ∧ interPolyPn flatSquare ⟨![1 / 2, 1 / 2, 1], true⟩ proper = some false ∧
    interPolyBallN flatSquare ⟨⟨![1 / 2, 1 / 2, 1], true⟩, 2⟩ false = some true := by
  have he := epsilon_lt
  have hpos := epsilon_pos
  norm_num at he
  refine ⟨?_, ?_, ?_⟩
  · obtain ⟨b, hb, hiff⟩ := C103_plane_partial flatSquare flatSquare_spans ⟨![1 / 2, 1 / 2, 0], true⟩
      (flat_proj (fun i => by fin_cases i <;> norm_num [abs_le]) (by norm_num [abs_of_pos]) (by norm_num [abs_of_pos])) ![1 / 2, 1 / 2]
      (by rw [flatSquare_point]; rfl) (fun h => by have := congrFun h 0; norm_num at this) unitSquare_far proper
    rw [hb, hiff.2]
    exact ⟨![1 / 2, 1 / 2], unitSquare_inside (by norm_num) (by norm_num) (by norm_num) (by norm_num), by rw [flatSquare_point]; rfl⟩
  · refine C103_off_plane flatSquare flatSquare_spans ⟨![1 / 2, 1 / 2, 1], true⟩
      (flat_proj (fun i => by fin_cases i <;> norm_num [abs_le]) (by norm_num [abs_of_pos]) (by norm_num [abs_of_pos])) (fun y => ?_) proper
    have h1 := abs_sub_le_eucl (![1 / 2, 1 / 2, 1] : Fin 3 → ℝ) (spacePoint flatSquare y) 2
    rw [flatSquare_point] at h1 ⊢
    have h2 : Real.sqrt epsilon ≤ 1 / 4 := by rw [Real.sqrt_le_left (by norm_num)]; norm_num; linarith
    have h3 : len ![1 / 2, 1 / 2, (1 : ℝ)] ≤ 2 := by
      unfold len
      rw [Real.sqrt_le_left (by norm_num)]
      simp [dotProduct, Fin.sum_univ_three]
      norm_num
    have h4 : (1 : ℝ) ≤ eucl ![1 / 2, 1 / 2, 1] ![y 0, y 1, 0] := by simpa using h1
    have := mul_le_mul h2 h3 (len_nonneg _) (by norm_num)
    show Real.sqrt epsilon * len ![1 / 2, 1 / 2, (1 : ℝ)] ≤ _
    linarith
  · refine (C105_accepts flatSquare flatSquare_spans ⟨⟨![1 / 2, 1 / 2, 1], true⟩, 2⟩ (by norm_num)
      (flat_proj (fun i => by fin_cases i <;> norm_num [abs_le]) (by norm_num [abs_of_pos]) (by norm_num [abs_of_pos])) ?_).1 ?_
    · intro e he'
      rw [show flatSquare.poly = unitSquare from rfl, unitSquare_sides] at he'
      rw [eucl_sq, Fin.sum_univ_two]
      simp only [List.mem_cons, List.not_mem_nil, or_false] at he'
      rcases he' with rfl | rfl | rfl | rfl <;> norm_num <;> linarith
    · refine ⟨![1 / 2, 1 / 2, 0], ⟨![1 / 2, 1 / 2], Or.inl (unitSquare_inside (by norm_num) (by norm_num) (by norm_num) (by norm_num)), by rw [flatSquare_point]; rfl⟩, ?_⟩
      show eucl _ _ ≤ _
      rw [← abs_of_nonneg (eucl_nonneg _ _), ← abs_of_pos (by norm_num : (0 : ℝ) < 2), ← sq_le_sq, eucl_sq]
      simp [Fin.sum_univ_three]

theorem flat_normal : cross3 flatSquare.orient.ax0 flatSquare.orient.ax1 = ⟨![0, 0, 1], true⟩ := by
  have he := epsilon_lt
  norm_num at he
  have hm : maxAbs (![1, 0, 0] : Fin 3 → ℝ) ≤ 1 := maxAbs_le (by norm_num) fun i => by fin_cases i <;> simp
  have hd : scaleEpsilonArr (![1, 0, 0] : Fin 3 → ℝ) ![0, 1, 0] epsilon ≤ 2 * epsilon :=
    (scaleEpsilonArr_le epsilon_pos.le (fun h => by have := congrFun h 0; simp at this) (fun h => by have := congrFun h 1; simp at this)).trans
      (by nlinarith [min_le_left (maxAbs (![1, 0, 0] : Fin 3 → ℝ)) (maxAbs (![0, 1, 0] : Fin 3 → ℝ)), epsilon_pos])
  unfold cross3
  simp [flatSquare, threeCorners]
  linarith

/-- The plane test for a box of which the corners that matter are `high` and `low`. -/
theorem flat_box {x0 x1 y0 y1 z0 z1 : ℝ} (hz : z0 + 1 / 64 ≤ z1) (b0 : |x0| ≤ 4 ∧ |x1| ≤ 4 ∧ |y0| ≤ 4 ∧ |y1| ≤ 4 ∧ |z0| ≤ 4 ∧ |z1| ≤ 4)
    (q0 : z0 = 0 ∨ 1 / 64 ≤ |z0|) (q1 : z1 = 0 ∨ 1 / 64 ≤ |z1|) (proper : Bool) :
    flatSquare.orient.checkIntersect ⟨⟨![x0, y0, z0], true⟩, ⟨![x1, y1, z1], true⟩⟩ proper =
      if less z1 0 proper || less z0 0 proper then some (false, ⟨![0, 0], false⟩)
      else (flatSquare.orient.offset ⟨![x0, y0, z1], true⟩).bind fun (vh, ph) => (flatSquare.orient.offset ⟨![x1, y1, z0], true⟩).map fun (vl, pl) =>
        (true, Pt.midpoint ph pl (vh.mag / (vh.mag + vl.mag))) := by
  have he := epsilon_lt
  have hpos := epsilon_pos
  norm_num at he
  unfold Orient.checkIntersect
  rw [if_neg (by simp [flatSquare_spans.origin]), if_neg (by simp [flatSquare_spans.valid0]), if_pos flatSquare_spans.valid1]
  have hmag : (⟨![0, 0, 1], true⟩ : Vec 3).sloppyMag3 = 1 := by unfold Vec.sloppyMag3; simp
  have hhc : Orient.highCorner ⟨![0, 0, 1], true⟩ = 4 := by
    unfold Orient.highCorner
    rw [hmag]
    have : ¬ (1 : ℝ) < epsilon := by linarith
    simp [this, hpos]
  unfold Orient.checkIntersectPlane
  rw [if_neg (by simp [flatSquare_spans.origin, flatSquare_spans.valid0, flatSquare_spans.valid1]), flat_normal]
  simp only [hmag, hhc]
  have g4 : Box.getCorner (⟨⟨![x0, y0, z0], true⟩, ⟨![x1, y1, z1], true⟩⟩ : Box 3) 4 = ⟨![x0, y0, z1], true⟩ := by
    unfold Box.getCorner
    norm_num
    funext i; fin_cases i <;> simp [Nat.testBit]
  have g3 : Box.getCorner (⟨⟨![x0, y0, z0], true⟩, ⟨![x1, y1, z1], true⟩⟩ : Box 3) (4 ^^^ 7) = ⟨![x1, y1, z0], true⟩ := by
    rw [show 4 ^^^ 7 = 3 from rfl]
    unfold Box.getCorner
    norm_num
    funext i; fin_cases i <;> simp [Nat.testBit]
  rw [g4, g3]
  have d1 : (⟨![0, 0, 1], true⟩ : Vec 3).dot ((⟨![x0, y0, z1], true⟩ : Pt 3).sub ⟨![x1, y1, z0], true⟩) = z1 - z0 := by
    rw [show _ = _ from dotExact_coarse3 (fun i => by fin_cases i <;> simp) (by
      right; simp [Pt.sub_elem, dotProduct, Fin.sum_univ_three]; rw [le_abs]; left; linarith)]
    simp [Pt.sub_elem, dotProduct, Fin.sum_univ_three]
  have d2 : ∀ x y z : ℝ, |x| ≤ 4 → |y| ≤ 4 → |z| ≤ 4 → (z = 0 ∨ 1 / 64 ≤ |z|) →
      (((⟨![x, y, z], true⟩ : Pt 3).sub flatSquare.orient.origin).dot ⟨![0, 0, 1], true⟩) = z := by
    intro x y z hx hy hz hq
    rw [show _ = _ from dotExact_coarse3 (fun i => by fin_cases i <;> simp [Pt.sub_elem, flatSquare, threeCorners] <;> linarith) (by
      simpa [Pt.sub_elem, dotProduct, Fin.sum_univ_three, flatSquare, threeCorners] using hq)]
    simp [Pt.sub_elem, dotProduct, Fin.sum_univ_three, flatSquare, threeCorners]
  rw [d1, d2 _ _ _ b0.1 b0.2.2.1 b0.2.2.2.2.2 q1, d2 _ _ _ b0.2.1 b0.2.2.2.1 b0.2.2.2.2.1 q0]
  rw [if_neg (by simp; linarith), if_neg (by simp; linarith)]

/-- The corner in space of a corner in plane coordinates. -/
noncomputable def lift (s : Poly n) (p : Pt 2) : Pt n := ⟨spacePoint s p.elem, p.valid⟩

theorem convert_lift {s : Poly n} (hs : Spans s) (p : Pt 2) : s.orient.convert p = some (lift s p) :=
  convert_eq hs.origin (Or.inl hs.valid0) (Or.inl hs.valid1)

theorem mapM_lift {s : Poly n} (hs : Spans s) (ps : Corners 2) : ps.mapM s.orient.convert = some (ps.map (lift s)) := by
  induction ps with
  | nil => rfl
  | cons p ps ih => simp [List.mapM_cons, ih, convert_lift hs]

theorem edgeSegsN_lift (s : Poly n) (j : Pt 2) (ps : Corners 2) (b : Bool) :
    edgeSegsN (lift s j) (ps.map (lift s)) b = (edgeSegs (edgesFrom j ps) b).map fun g => ⟨lift s g.p1, lift s g.p2⟩ := by
  induction ps generalizing j b with
  | nil => rfl
  | cons p ps ih =>
    rw [List.map_cons, edgeSegsN, ih, edgesFrom, edgeSegs, List.map_cons]
    cases b <;> rfl

theorem segSet_lift (s : Poly n) (g : Seg 2) : segSet (⟨lift s g.p1, lift s g.p2⟩ : Seg n) = spacePoint s '' segSet g := by
  have key : ∀ t : ℝ, (1 - t) • spacePoint s g.p1.elem + t • spacePoint s g.p2.elem = spacePoint s ((1 - t) • g.p1.elem + t • g.p2.elem) := by
    intro t; unfold spacePoint; simp only [Pi.add_apply, Pi.smul_apply, smul_eq_mul]; module
  ext x
  constructor
  · rintro ⟨t, t0, t1, rfl⟩
    exact ⟨_, ⟨t, t0, t1, rfl⟩, (key t).symm⟩
  · rintro ⟨y, ⟨t, t0, t1, rfl⟩, rfl⟩
    exact ⟨t, t0, t1, (key t).symm⟩

theorem polyBEnd_sides {s : Poly 3} (hs : Spans s) (hl : s.poly ≠ []) (b : Box 3) (proper : Bool) :
    interPolyBn s b proper = (s.orient.checkIntersect b proper).bind fun (c, _) =>
      if c = false then some false
      else if (edgeSegs (edges s.poly) true).any (fun g => interSB ⟨lift s g.p1, lift s g.p2⟩ b proper) then some true else none := by
  unfold interPolyBn interPolyBEnd
  rw [if_neg (by simpa using hl), mapM_lift hs]
  have : (s.poly.map (lift s)).getLastD Pt.default = lift s (s.poly.getLastD Pt.default) := by
    rw [List.getLastD_eq_getLast?, List.getLastD_eq_getLast?, List.getLast?_map]
    rcases h : s.poly.getLast? with _ | x
    · exact absurd (List.getLast?_eq_none_iff.1 h) hl
    · rfl
  simp only [Option.bind_some, this, edgeSegsN_lift, List.any_map]
  rfl

/-- C107, the part that holds: when `Intersect(polygon, box)` holds, the sides of the polygon have a point within the tolerance of the box, and in the box
when the test is proper. Missing: that it holds when they meet (`C107_false`). -/
theorem C107_sound_partial (s : Poly 3) (hs : Spans s) (b : Box 3) (ho : Ordered b) :
    (interPolyBn s b false = some true → (spaceFilled s ∩ near epsilon (boxSet b)).Nonempty) ∧
    (interPolyBn s b true = some true → (spaceFilled s ∩ boxInterior b).Nonempty) := by
  have key : ∀ proper, interPolyBn s b proper = some true → ∃ g : Seg 2, segSet g ⊆ boundary s.poly ∧ interSB (⟨lift s g.p1, lift s g.p2⟩ : Seg 3) b proper = true := by
    intro proper h
    by_cases hl : s.poly = []
    · unfold interPolyBn at h
      rw [if_pos (by simp [hl])] at h
      simp at h
    · rw [polyBEnd_sides hs hl] at h
      rcases hc : s.orient.checkIntersect b proper with _ | ⟨c, p⟩
      · rw [hc] at h; simp at h
      · rw [hc] at h
        simp only [Option.bind_some] at h
        split_ifs at h with h1 h2
        · simp at h
        obtain ⟨g, hg, hi⟩ := List.any_eq_true.1 h2
        exact ⟨g, fun x hx => (boundary_segs _ true x).2 ⟨g, hg, hx⟩, hi⟩
  constructor
  · intro h
    obtain ⟨g, h1, h2⟩ := key _ h
    obtain ⟨x, hx, hn⟩ := (C59_tolerance _ b ho).2.1 h2
    rw [segSet_lift] at hx
    obtain ⟨y, hy, rfl⟩ := hx
    exact ⟨_, ⟨y, Or.inr (h1 hy), rfl⟩, hn⟩
  · intro h
    obtain ⟨g, h1, h2⟩ := key _ h
    obtain ⟨x, hx, hn⟩ := (C59_proper _ b ho).1 h2
    rw [segSet_lift] at hx
    obtain ⟨y, hy, rfl⟩ := hx
    exact ⟨_, ⟨y, Or.inr (h1 hy), rfl⟩, hn⟩

/-- C107 is false of the code: a box through the middle of a square is said to miss it, and for a box above the square the call never ends. -/
theorem C107_false : (∃ (s : Poly 3) (k : Nat) (b : Box 3), Edited true s k ∧ (spaceInside s ∩ boxInterior b).Nonempty ∧
      ∀ proper, interPolyBn s b proper = some false) ∧
    ∃ (s : Poly 3) (k : Nat) (b : Box 3), Edited true s k ∧ (∀ i, b.low.elem i < b.high.elem i) ∧ ∀ proper, interPolyBn s b proper = none := by
  have he := epsilon_lt
  have hpos := epsilon_pos
  norm_num at he
  obtain ⟨k, hk⟩ := flatSquare_edited
  have hne : flatSquare.poly ≠ [] := by simp [flatSquare, unitSquare]
  constructor
  · refine ⟨flatSquare, k, ⟨⟨![1 / 4, 1 / 4, -1], true⟩, ⟨![3 / 4, 3 / 4, 1], true⟩⟩, hk, ?_, fun proper => ?_⟩
    · refine ⟨![1 / 2, 1 / 2, 0], ⟨![1 / 2, 1 / 2], unitSquare_inside (by norm_num) (by norm_num) (by norm_num) (by norm_num), by rw [flatSquare_point]; rfl⟩, ?_⟩
      intro i; fin_cases i <;> norm_num
    · rw [polyBEnd_sides flatSquare_spans hne, flat_box (by norm_num) (by norm_num [abs_le]) (by norm_num) (by norm_num)]
      have : less (-1) 0 proper = true := by
        cases proper
        · rw [less_false]; linarith
        · rw [less_true]; norm_num
      simp [this]
  · refine ⟨flatSquare, k, ⟨⟨![1 / 4, 1 / 4, 1], true⟩, ⟨![3 / 4, 3 / 4, 2], true⟩⟩, hk, ?_, fun proper => ?_⟩
    · intro i; fin_cases i <;> norm_num
    · have hord : Ordered (⟨⟨![1 / 4, 1 / 4, 1], true⟩, ⟨![3 / 4, 3 / 4, 2], true⟩⟩ : Box 3) := by intro i; fin_cases i <;> norm_num
      rw [polyBEnd_sides flatSquare_spans hne, flat_box (by norm_num) (by norm_num [abs_le]) (by norm_num) (by norm_num)]
      have l1 : less 1 0 proper = false := by
        rw [Bool.eq_false_iff]
        cases proper
        · rw [Ne, less_false]; linarith
        · rw [Ne, less_true]; norm_num
      have l2 : less 2 0 proper = false := by
        rw [Bool.eq_false_iff]
        cases proper
        · rw [Ne, less_false]; linarith
        · rw [Ne, less_true]; norm_num
      have hsides : ((edgeSegs (edges flatSquare.poly) true).any fun g => interSB (⟨lift flatSquare g.p1, lift flatSquare g.p2⟩ : Seg 3)
          ⟨⟨![1 / 4, 1 / 4, 1], true⟩, ⟨![3 / 4, 3 / 4, 2], true⟩⟩ proper) = false := by
        rw [List.any_eq_false]
        intro g hg hi
        cases proper
        · obtain ⟨x, hx, hn⟩ := (C59_tolerance _ _ hord).2.1 hi
          rw [segSet_lift] at hx
          obtain ⟨y, hy, rfl⟩ := hx
          rw [flatSquare_point] at hn
          obtain ⟨z, hz, hn⟩ := hn
          have a := (hz 2).1
          have b := hn 2
          simp at a b
          rw [abs_le] at b
          linarith [b.1, b.2]
        · obtain ⟨x, hx, hn⟩ := (C59_proper _ _ hord).1 hi
          rw [segSet_lift] at hx
          obtain ⟨y, hy, rfl⟩ := hx
          rw [flatSquare_point] at hn
          have := (hn 2).1
          simp at this
          linarith
      have o1 : ∃ v p, flatSquare.orient.offset ⟨![1 / 4, 1 / 4, 2], true⟩ = some (v, p) := by
        unfold Orient.offset; rw [if_neg (by simp [flatSquare_spans.origin])]; exact ⟨_, _, rfl⟩
      have o2 : ∃ v p, flatSquare.orient.offset ⟨![3 / 4, 3 / 4, 1], true⟩ = some (v, p) := by
        unfold Orient.offset; rw [if_neg (by simp [flatSquare_spans.origin])]; exact ⟨_, _, rfl⟩
      obtain ⟨v1, p1, o1⟩ := o1
      obtain ⟨v2, p2, o2⟩ := o2
      rw [l1, l2, o1, o2]
      simp only [Bool.or_self, Bool.false_eq_true, if_false, Option.bind_some, Option.map_some, hsides]
      rfl

/-- C107, what is in a polygon: a box that has three different directions in which it is not flat is never in a polygon, and the answer is no; for a box
that is a single point the answer is the one for that point, and for a box that is a segment the one for that segment. -/
theorem C107_contains (s : Poly 3) (b : Box 3) (proper : Bool) :
    ((∀ i, b.low.elem i ≠ b.high.elem i) → containsPolyBn s b proper = some false) ∧
    (s.poly ≠ [] → b.low.elem = b.high.elem → containsPolyBn s b proper = interPolyPn s b.low proper) ∧
    (s.poly ≠ [] → b.low.valid = true → b.high.valid = true → (∃! i, b.low.elem i ≠ b.high.elem i) →
      containsPolyBn s b proper = containsPolySn s ⟨b.low, b.high⟩ proper) := by
  unfold containsPolyBn polyContainsBox
  refine ⟨?_, ?_, ?_⟩
  · intro h
    have h' : ∀ i, (b.high.sub b.low).elem i ≠ 0 := fun i => by rw [Pt.sub_elem]; exact sub_ne_zero.2 (h i).symm
    have : boxDims (b.high.sub b.low) (List.finRange 3) (0, none) = none := by
      revert h'
      generalize b.high.sub b.low = v
      intro h'
      simp [List.finRange, boxDims, h']
    rw [this]
  · intro hne h
    have h' : (b.high.sub b.low).elem = 0 := by funext i; rw [Pt.sub_elem, h]; simp
    have : boxDims (b.high.sub b.low) (List.finRange 3) (0, none) = some (0, none) := by
      revert h'
      generalize b.high.sub b.low = v
      intro h'
      simp [List.finRange, boxDims, h']
    rw [this]
    unfold interPolyPn
    rw [if_neg (by simpa using hne)]
    rcases s.orient.checkContained b.low with _ | ⟨_ | _, c⟩ <;> simp
  · rintro hne hl hh ⟨k, hk, huniq⟩
    have hk' : (b.high.sub b.low).elem k ≠ 0 := by rw [Pt.sub_elem]; exact sub_ne_zero.2 hk.symm
    have h0 : ∀ i, i ≠ k → (b.high.sub b.low).elem i = 0 := fun i hi => by
      rw [Pt.sub_elem]
      have : b.low.elem i = b.high.elem i := by by_contra h; exact hi (huniq i h)
      rw [Pi.sub_apply, this, sub_self]
    have hend : b.low.addVec (b.high.sub b.low) = b.high := by
      apply Pt.ext
      · funext i; simp [Pt.addVec, Pt.sub]
      · simp [Pt.addVec, Pt.sub, hl, hh]
    rw [hend]
    have : boxDims (b.high.sub b.low) (List.finRange 3) (0, none) = some (1, some k) := by
      revert hk' h0
      generalize b.high.sub b.low = v
      intro hk' h0
      have a0 := h0 0
      have a1 := h0 1
      have a2 := h0 2
      fin_cases k <;> simp at hk' a0 a1 a2 <;> simp [List.finRange, boxDims, *]
    rw [this]
    unfold containsPolySn
    rw [if_neg (by simpa using hne)]
    rcases s.orient.checkContained b.low with _ | ⟨_ | _, c⟩ <;> simp

theorem flat_contained {x y : ℝ} (hx : 1 / 64 ≤ x ∧ x ≤ 8) (hy : 1 / 64 ≤ y ∧ y ≤ 8) (v : Bool) :
    flatSquare.orient.checkContained ⟨![x, y, 0], v⟩ = some (true, ⟨![x, y], false⟩) := by
  have ax := abs_of_nonneg (by linarith [hx.1] : 0 ≤ x)
  have ay := abs_of_nonneg (by linarith [hy.1] : 0 ≤ y)
  obtain ⟨off, z, ho, e, h1, h2⟩ := offset_eq flatSquare_spans (p := ⟨![x, y, 0], v⟩)
    (flat_proj (fun i => by fin_cases i <;> simp [ax, ay, hx.2, hy.2]) (by right; simpa [ax] using hx.1) (by right; simpa [ay] using hy.1))
  obtain ⟨rfl, h3⟩ := split_unique flatSquare_spans (y := ![x, y]) (w := 0) (by rw [add_zero]; exact (flatSquare_point _).trans e) (by simp) (by simp) h1 h2
  unfold Orient.checkContained
  rw [ho, Option.map_some]
  have hd : off.sqrMag < epsilon * ∑ i, (![x, y, 0] : Fin 3 → ℝ) i * (![x, y, 0] : Fin 3 → ℝ) i := by
    rw [Vec.sqrMag_eq, ← h3]
    have := epsilon_pos
    simp [Fin.sum_univ_three]
    have : 0 < x * x := mul_self_pos.2 (by linarith [hx.1])
    have := mul_self_nonneg y
    positivity
  simp only [hd, decide_true]

/-- A box that is a segment in the plane of the square: the answer is that of the plane. -/
example (proper : Bool) : containsPolyBn flatSquare ⟨⟨![1 / 8, 1 / 8, 0], true⟩, ⟨![1 / 2, 1 / 8, 0], true⟩⟩ proper =
    containsPolyS unitSquare ⟨⟨![1 / 8, 1 / 8], false⟩, ⟨![1 / 2, 1 / 8], false⟩⟩ proper := by
  rw [(C107_contains flatSquare _ proper).2.2 (by simp [flatSquare, unitSquare]) rfl rfl
    ⟨0, by norm_num, fun i hi => by fin_cases i <;> simp at hi ⊢⟩]
  unfold containsPolySn
  rw [if_neg (by simp [flatSquare, unitSquare]), flat_contained (by norm_num) (by norm_num), flat_contained (by norm_num) (by norm_num)]
  rfl

/-- The matrix that turns the first axis to the direction of (3, 4). -/
noncomputable def turn34 : RotMat 2 := ⟨Matrix.of ![![3 / 5, 4 / 5], ![-4 / 5, 3 / 5]], false, true, 1⟩

theorem rotation34 {u : Vec 2} (hu : u.elem = ![3 / 8, 1 / 2]) : RotMat.rotationFromTo (⟨![1, 0], true⟩ : Vec 2) u = .ok turn34 := by
  have he := epsilon_lt
  have hpos := epsilon_pos
  norm_num at he
  have s1 : (⟨![1, 0], true⟩ : Vec 2).sqrMag = 1 := by rw [Vec.sqrMag_eq]; simp [dotProduct, Fin.sum_univ_two]
  have s2 : u.sqrMag = 25 / 64 := by rw [Vec.sqrMag_eq, hu]; simp [dotProduct, Fin.sum_univ_two]; norm_num
  have d : (⟨![1, 0], true⟩ : Vec 2).dot u = 3 / 8 := by
    rw [show _ = _ from dotExact_coarse (fun i => by fin_cases i <;> simp) (by rw [hu]; right; simp [dotProduct, Fin.sum_univ_two]; norm_num [abs_of_pos])]
    rw [hu]; simp [dotProduct, Fin.sum_univ_two]
  have hr : Real.sqrt (1 * (25 / 64)) = 5 / 8 := by rw [show (1 * (25 / 64) : ℝ) = (5 / 8) ^ 2 by norm_num]; exact Real.sqrt_sq (by norm_num)
  unfold RotMat.rotationFromTo
  rw [if_neg (by rw [s1]; norm_num), if_neg (by rw [s2]; norm_num)]
  simp only [s1, s2, d, hr]
  rw [if_neg (by linarith)]
  congr 1
  unfold turn34
  congr 1
  ext i j
  fin_cases i <;> fin_cases j <;> simp [hu] <;> norm_num

/-- C107 is false of the code for `Contains(polygon, box)`: the flat box from (1/8, 1/8) to (1/2, 5/8) lies within the square, and yet is said not to. -/
theorem C107_contains_false : ∃ (s : Poly 3) (k : Nat) (b : Box 3), Edited true s k ∧ (∀ i, b.low.elem i ≤ b.high.elem i) ∧ boxSet b ⊆ spaceInside s ∧
    ∀ proper, containsPolyBn s b proper = some false := by
  obtain ⟨k, hk⟩ := flatSquare_edited
  refine ⟨flatSquare, k, ⟨⟨![1 / 8, 1 / 8, 0], true⟩, ⟨![1 / 2, 5 / 8, 0], true⟩⟩, hk, ?_, ?_, fun proper => ?_⟩
  · intro i; fin_cases i <;> norm_num
  · intro x hx
    have x0 := hx 0
    have x1 := hx 1
    have x2 := hx 2
    simp at x0 x1 x2
    refine ⟨![x 0, x 1], unitSquare_inside ?_ ?_ ?_ ?_, ?_⟩
    · simp; linarith [x0.1]
    · simp; linarith [x0.2]
    · simp; linarith [x1.1]
    · simp; linarith [x1.2]
    · rw [flatSquare_point]; funext i; fin_cases i
      · rfl
      · rfl
      · simp; linarith [x2.1, x2.2]
  · unfold containsPolyBn polyContainsBox
    have hsz : (⟨![1 / 2, 5 / 8, 0], true⟩ : Pt 3).sub ⟨![1 / 8, 1 / 8, 0], true⟩ = ⟨![3 / 8, 1 / 2, 0], true⟩ := by
      ext i
      · fin_cases i <;> simp [Pt.sub] <;> norm_num
      · rfl
    have hdim : boxDims (⟨![3 / 8, 1 / 2, 0], true⟩ : Vec 3) (List.finRange 3) (0, none) = some (2, some 1) := by
      have : |(3 / 8 : ℝ)| < |1 / 2| := by norm_num [abs_of_pos]
      simp [List.finRange, boxDims]
      norm_num
    have hend : (⟨![1 / 8, 1 / 8, 0], true⟩ : Pt 3).addVec ⟨![3 / 8, 1 / 2, 0], true⟩ = ⟨![1 / 2, 5 / 8, 0], true⟩ := by
      ext i
      · fin_cases i <;> simp [Pt.addVec] <;> norm_num
      · rfl
    have hedge : (fun i : Fin 3 => if i = 1 then (![1 / 8, 1 / 8, 0] : Fin 3 → ℝ) i + (![3 / 8, 1 / 2, 0] : Fin 3 → ℝ) i else (![1 / 8, 1 / 8, 0] : Fin 3 → ℝ) i) =
        ![1 / 8, 5 / 8, 0] := by
      funext i; fin_cases i <;> simp; norm_num
    have c1 := flat_contained (x := 1 / 8) (y := 1 / 8) (by norm_num) (by norm_num) true
    have c2 := flat_contained (x := 1 / 2) (y := 5 / 8) (by norm_num) (by norm_num) true
    have c3 := flat_contained (x := 1 / 8) (y := 5 / 8) (by norm_num) (by norm_num) true
    have hv : ((⟨![1 / 2, 5 / 8], false⟩ : Pt 2).sub ⟨![1 / 8, 1 / 8], false⟩).elem = ![3 / 8, 1 / 2] := by
      apply ext2 <;> simp [Pt.sub] <;> norm_num
    have hbox : flatRBox ⟨![1 / 8, 1 / 8], false⟩ ⟨![1 / 2, 5 / 8], false⟩ ⟨![1 / 8, 5 / 8], false⟩ =
        some ⟨⟨![1 / 8, 1 / 8], false⟩, turn34.mulVec ((⟨![1 / 8, 5 / 8], false⟩ : Pt 2).sub ⟨![1 / 8, 1 / 8], false⟩), turn34⟩ := by
      unfold flatRBox
      simp only [rotation34 hv]
    simp only [hsz, hdim, hend, hedge, c1, c2, c3, hbox, Option.bind_some, Bool.true_eq_false, if_false, OfNat.ofNat_ne_zero, OfNat.ofNat_ne_one]
    rw [(interPolyR_eq _ _ _ (by simp [flatSquare, unitSquare])).2]
    have hsz2 : (turn34.mulVec ((⟨![1 / 8, 5 / 8], false⟩ : Pt 2).sub ⟨![1 / 8, 1 / 8], false⟩)).elem = ![2 / 5, 3 / 10] := by
      apply ext2 <;> simp [RotMat.mulVec, turn34, Pt.sub, mulVec, dotProduct, Fin.sum_univ_two] <;> norm_num
    generalize hr : (⟨⟨![1 / 8, 1 / 8], false⟩, turn34.mulVec ((⟨![1 / 8, 5 / 8], false⟩ : Pt 2).sub ⟨![1 / 8, 1 / 8], false⟩), turn34⟩ : RBox 2) = r
    have hro : r.orient.elem = Matrix.of ![![3 / 5, 4 / 5], ![-4 / 5, 3 / 5]] := by rw [← hr]; rfl
    have hrc : r.corner.elem = ![1 / 8, 1 / 8] := by rw [← hr]
    have hrs : r.size.elem = ![2 / 5, 3 / 10] := by rw [← hr]; exact hsz2
    have t0 : turn r ![0, 0] = ![-1 / 20, 3 / 20] := by
      apply ext2 <;> simp [turn, hro, hrc, mulVec, dotProduct, Fin.sum_univ_two, Matrix.vecHead, Matrix.vecTail] <;> norm_num
    have t1 : turn r ![0, 1] = ![3 / 4, 3 / 4] := by
      apply ext2 <;> simp [turn, hro, hrc, mulVec, dotProduct, Fin.sum_univ_two, Matrix.vecHead, Matrix.vecTail] <;> norm_num
    have e0 := (seen_elem r ⟨![0, 0], true⟩).trans t0
    have e1 := (seen_elem r ⟨![0, 1], true⟩).trans t1
    congr 1
    unfold containsPolyB seenBy
    rw [show flatSquare.poly = unitSquare from rfl, show (unitSquare.map fun c => c.rotate r.orient.inverse r.corner) = _ from rfl]
    simp only [edges, edgesFrom, unitSquare, List.map_cons, List.map_nil, List.getLastD_cons, List.getLastD_nil, flat_low, flat_high, hrc, hrs]
    unfold polyCBLoop
    simp only [e0, e1]
    have m0 : (1 / 8 : ℝ) + min 0 (2 / 5) = 1 / 8 := by norm_num
    have m1 : (1 / 8 : ℝ) + min 0 (3 / 10) = 1 / 8 := by norm_num
    have m2 : (1 / 8 : ℝ) + max 0 (2 / 5) = 21 / 40 := by norm_num
    have m3 : (1 / 8 : ℝ) + max 0 (3 / 10) = 17 / 40 := by norm_num
    have b1 : between (3 / 20) (3 / 4) (1 / 8) = false := by unfold between; norm_num
    have b2 : between (-1 / 20) (3 / 4) (1 / 8) = true := by unfold between; norm_num
    have l : (3 / 20 + (1 / 8 - -1 / 20) * (3 / 4 - 3 / 20) / (3 / 4 - -1 / 20) : ℝ) = 9 / 32 := by norm_num
    have q1 : equal (1 / 8) (9 / 32) epsilon = false := equal_apart (by norm_num [abs_le]) (by norm_num [le_abs])
    have q2 : equal (17 / 40) (9 / 32) epsilon = false := equal_apart (by norm_num [abs_le]) (by norm_num [le_abs])
    have d1 : decide ((1 / 8 : ℝ) < 9 / 32) = true := by norm_num
    have d2 : decide ((17 / 40 : ℝ) > 9 / 32) = true := by norm_num
    simp only [cons_val_zero, cons_val_one, m0, m1, m2, m3, b1, b2, l, q1, q2, d1, d2]
    simp

theorem turned_point (s : Poly n) (hs : Spans s) (r : RBox n) (hv : r.orient.valid = true) (hc : r.corner.valid = true) (y : Fin 2 → ℝ) :
    spacePoint ⟨s.orient.rotate r.orient.inverse r.corner, s.poly⟩ y = turn r (spacePoint s y) := by
  have h := C70_polygon ⟨s.orient, [⟨y, true⟩]⟩ r.orient.inverse r.corner (by exact hv) hc 0
  have e1 : (Poly.mk s.orient [⟨y, true⟩]).getCorner 0 = some (lift s ⟨y, true⟩) := convert_lift hs _
  have e2 : ((Poly.mk s.orient [⟨y, true⟩]).rotatePoint r.orient.inverse r.corner).getCorner 0 =
    (s.orient.rotate r.orient.inverse r.corner).convert ⟨y, true⟩ := rfl
  rw [e1, e2, convert_eq (by simp [Orient.rotate, hs.origin, Pt.rotate, Pt.addVec, Pt.sub, hv, hc]) (Or.inl (by simp [Orient.rotate, hs.valid0, hv]))
    (Or.inl (by simp [Orient.rotate, hs.valid1, hv]))] at h
  have h := congrArg Pt.elem (Option.some.inj h)
  refine h.trans ?_
  show about (byMat r.orient.inverse) r.corner.elem (spacePoint s y) = _
  unfold about byMat turn
  rw [RotMat.inverse_elem, vecMul_transpose]

/-- C107 for rotated boxes, the part that holds: when `Intersect(polygon, rotated box)` holds, the polygon has a point within the tolerance of the box, and
in the box when the test is proper. -/
theorem C107_rotbox_partial (s : Poly 3) (hs : Spans s) (r : RBox 3) (hm : IsRotation r.orient) (hv : r.orient.valid = true) (hc : r.corner.valid = true) :
    (interPolyRn s r false = some true → (spaceFilled s ∩ nearAlong r epsilon (rboxSet r)).Nonempty) ∧
    (interPolyRn s r true = some true → (spaceFilled s ∩ rboxInterior r).Nonempty) := by
  have hs' : Spans (⟨s.orient.rotate r.orient.inverse r.corner, s.poly⟩ : Poly 3) := by
    have hd : ∀ u v : Fin 3 → ℝ, (u ᵥ* r.orient.elemᵀ) ⬝ᵥ (v ᵥ* r.orient.elemᵀ) = u ⬝ᵥ v := by
      intro u v
      rw [vecMul_transpose, vecMul_transpose, mulVec_dot hm]
    obtain ⟨a, b, c, d, e, f⟩ := hs
    constructor
    · simp [Orient.rotate, a, Pt.rotate, Pt.addVec, Pt.sub, hv, hc]
    · simp [Orient.rotate, b, hv]
    · simp [Orient.rotate, c, hv]
    · show (s.orient.ax0.rotateM r.orient.inverse).elem ⬝ᵥ (s.orient.ax0.rotateM r.orient.inverse).elem = 1
      rw [RotMat.rotateM_elem, RotMat.inverse_elem, hd, d]
    · show (s.orient.ax1.rotateM r.orient.inverse).elem ⬝ᵥ (s.orient.ax1.rotateM r.orient.inverse).elem = 1
      rw [RotMat.rotateM_elem, RotMat.inverse_elem, hd, e]
    · show (s.orient.ax0.rotateM r.orient.inverse).elem ⬝ᵥ (s.orient.ax1.rotateM r.orient.inverse).elem = 0
      rw [RotMat.rotateM_elem, RotMat.rotateM_elem, RotMat.inverse_elem, hd, f]
  have key : ∀ proper, interPolyRn s r proper = interPolyBn ⟨s.orient.rotate r.orient.inverse r.corner, s.poly⟩ r.flat proper := fun _ => rfl
  obtain ⟨h1, h2⟩ := C107_sound_partial _ hs' r.flat (flat_ordered r)
  constructor
  · intro h
    obtain ⟨x, ⟨y, hy, rfl⟩, hn⟩ := h1 ((key _).symm.trans h)
    rw [turned_point s hs r hv hc, turn_near hm] at hn
    exact ⟨_, ⟨y, hy, rfl⟩, hn⟩
  · intro h
    obtain ⟨x, ⟨y, hy, rfl⟩, hn⟩ := h2 ((key _).symm.trans h)
    rw [turned_point s hs r hv hc, turn_mem_interior hm] at hn
    exact ⟨_, ⟨y, hy, rfl⟩, hn⟩

/-- C107: a rotated box that is not flat in any direction is never in a polygon. -/
theorem C107_rotbox_contains (s : Poly 3) (r : RBox 3) (hz : ∀ i, r.size.elem i ≠ 0) (proper : Bool) : containsPolyRn s r proper = some false := by
  unfold containsPolyRn polyContainsBox
  have : boxDims r.size (List.finRange 3) (0, none) = none := by simp [List.finRange, boxDims, hz]
  rw [this]

theorem dot_unit {u : Vec n} (h : u.elem ⬝ᵥ u.elem = 1) : u.dot u = 1 := by
  have he := epsilon_lt
  norm_num at he
  rcases dot_or u u with h1 | ⟨-, h1⟩
  · rw [h1, h]
  · rw [h, len, h] at h1
    norm_num at h1
    linarith

theorem dot_perp {u v : Vec n} (h : u.elem ⬝ᵥ v.elem = 0) : u.dot v = 0 := by
  rcases dot_or u v with h1 | ⟨h1, -⟩
  · rw [h1, h]
  · exact h1

end WFMath
