/- Cases for C155: polygons on segments and in a rotated box. -/
import Verif.Props.RoundPolyIn
import Verif.Props.RoundPolySeg
import Verif.Cases.RotatedRounding

namespace WFMath.Cases
open WFMath Spec Matrix Rounding

/-- A segment of the first axis of the plane. -/
noncomputable def floor (a b : ℝ) : Seg 2 := ⟨⟨![a, 0], true⟩, ⟨![b, 0], true⟩⟩

theorem floor_mem {a b x : ℝ} (h : a ≤ x) (h' : x ≤ b) (hab : a < b) : ![x, 0] ∈ segSet (floor a b) := by
  refine ⟨(x - a) / (b - a), div_nonneg (by linarith) (by linarith), by rw [div_le_one (by linarith)]; linarith, ?_⟩
  have : b - a ≠ 0 := by linarith
  funext i
  fin_cases i
  · simp [floor]; field_simp; ring
  · simp [floor]

theorem floor_convex (s : Seg 2) : Convex ℝ (segSet s) := by
  rintro x ⟨t, t0, t1, rfl⟩ y ⟨w, w0, w1, rfl⟩ a b ha hb hab
  refine ⟨a * t + b * w, by positivity, by nlinarith, ?_⟩
  rw [show a = 1 - b by linarith]
  module

/-- Three corners on the segment from (0, 0) to (4, 0). -/
theorem on_floor : convexHull ℝ (cornerSet [⟨![1, 0], true⟩, ⟨![2, 0], true⟩, ⟨![3, 0], true⟩]) ⊆ segSet (floor 0 4) := by
  refine (floor_convex _).convexHull_subset_iff.2 fun x hx => ?_
  obtain ⟨c, hc, rfl⟩ := mem_cornerSet.1 hx
  simp only [List.mem_cons, List.not_mem_nil, or_false] at hc
  rcases hc with rfl | rfl | rfl <;> exact floor_mem (by norm_num) (by norm_num) (by norm_num)

theorem floor_len : 5 * epsilon ≤ eucl (floor 0 4).p1.elem (floor 0 4).p2.elem := by
  have h1 : (1 : ℝ) ≤ eucl (floor 0 4).p1.elem (floor 0 4).p2.elem := by
    rw [eucl_eq_len]
    refine le_trans ?_ (abs_le_len _ 0)
    simp [floor]
  have h2 := epsilon_lt
  norm_num at h2
  linarith

/-- C155_on, C155_near: the segment contains the flat polygon, for both tests; one that ends in a corner does not for the proper test; what is accepted is near. -/
example (r : Rounding 53) : Fl.containsSPoly r (floor 0 4) [⟨![1, 0], true⟩, ⟨![2, 0], true⟩, ⟨![3, 0], true⟩] false = true := (C155_on r _ _).1 on_floor

theorem floor_holds (r : Rounding 53) : Fl.containsSPoly r (floor 0 4) [⟨![1, 0], true⟩, ⟨![2, 0], true⟩, ⟨![3, 0], true⟩] true = true := by
  refine (C155_on r _ _).2.1 on_floor floor_len (fun h => ?_) fun h => ?_
  all_goals
    obtain ⟨c, hc, e⟩ := mem_cornerSet.1 h
    have e0 := congrFun e 0
    simp only [List.mem_cons, List.not_mem_nil, or_false] at hc
    rcases hc with rfl | rfl | rfl <;> norm_num [floor] at e0

example (r : Rounding 53) : Fl.containsSPoly r (floor 0 4) [⟨![0, 0], true⟩, ⟨![2, 0], true⟩] true = false :=
  (C155_on r _ _).2.2 (.inl (mem_cornerSet.2 ⟨⟨![0, 0], true⟩, by simp, rfl⟩))

example (r : Rounding 53) : ∃ y ∈ segSet (floor 0 4), eucl ![2, 0] y ≤ Real.sqrt (20 * epsilon) * eucl (floor 0 4).p1.elem (floor 0 4).p2.elem :=
  (C155_near r _ _).1 (floor_holds r) _ (subset_convexHull ℝ _ (mem_cornerSet.2 ⟨⟨![2, 0], true⟩, by simp, rfl⟩))

/-- C155_near is not empty talk: a corner off the segment is refused. -/
example (r : Rounding 53) : Fl.containsSPoly r (floor 0 4) [⟨![1, 0], true⟩, ⟨![1, 1], true⟩] true = false := by
  rw [← Bool.not_eq_true]
  intro h
  obtain ⟨y, ⟨t, -, -, rfl⟩, hy⟩ := (C155_near r _ _).1 h _ (subset_convexHull ℝ _ (mem_cornerSet.2 ⟨⟨![1, 1], true⟩, by simp, rfl⟩))
  have h1 : (1 : ℝ) ≤ eucl ![1, 1] ((1 - t) • (floor 0 4).p1.elem + t • (floor 0 4).p2.elem) := by
    rw [eucl_eq_len]
    refine le_trans ?_ (abs_le_len _ 1)
    simp [floor]
  have h2 : eucl (floor 0 4).p1.elem (floor 0 4).p2.elem ≤ 4 := (eucl2 _ _).trans (by norm_num [floor])
  have h3 : Real.sqrt (20 * epsilon) ≤ 1 / 1000000 := by
    refine Real.sqrt_le_iff.2 ⟨by norm_num, ?_⟩
    unfold epsilon
    norm_num
  have := mul_le_mul h3 h2 (eucl_nonneg _ _) (by norm_num)
  linarith

/-- C155_box: a triangle inside the box turned by the angle with tangent 4/3, and one with a corner outside. -/
example (r : Rounding 53) : Fl.containsRPoly r (rb35 r) [⟨![5 / 4, 2], true⟩, ⟨![5 / 4, 7 / 4], true⟩, ⟨![3 / 2, 2], true⟩] true = true ∧
    Fl.containsRPoly r (rb35 r) [⟨![5 / 4, 2], true⟩, ⟨![3, 1], true⟩] false = false := by
  have hM : (13 * 2 ^ (-52 : ℤ) + 2 ^ (-52 : ℤ)) * 20 ≤ (1 : ℝ) / 1000 := by norm_num
  constructor
  · refine (C155_box r (rb35 r) R35 (13 * 2 ^ (-52 : ℤ)) hR35 (by norm_num) (by norm_num) (hm12 r) _ 20 (fun x hx => ?_)).2.2.1 fun x hx => ?_
    all_goals
      obtain ⟨c, hc, rfl⟩ := mem_cornerSet.1 hx
      simp only [List.mem_cons, List.not_mem_nil, or_false] at hc
    · rcases hc with rfl | rfl | rfl <;> exact (eucl2 _ _).trans (by norm_num [rb35, abs_of_nonneg])
    · refine (memI35 _ _).2 ?_
      generalize (13 * 2 ^ (-52 : ℤ) + 2 ^ (-52 : ℤ)) * (20 : ℝ) = M at *
      rcases hc with rfl | rfl | rfl <;> simp only [cons_val_zero, cons_val_one, neg_neg] <;> refine ⟨⟨?_, ?_⟩, ⟨?_, ?_⟩⟩ <;> linarith
  · rw [← Bool.not_eq_true]
    intro h
    have := (C155_box r (rb35 r) R35 (13 * 2 ^ (-52 : ℤ)) hR35 (by norm_num) (by norm_num) (hm12 r) _ 20 (fun x hx => by
      obtain ⟨c, hc, rfl⟩ := mem_cornerSet.1 hx
      simp only [List.mem_cons, List.not_mem_nil, or_false] at hc
      rcases hc with rfl | rfl <;> exact (eucl2 _ _).trans (by norm_num [rb35, abs_of_nonneg]))).2.1 h (mem_cornerSet.2 ⟨⟨![3, 1], true⟩, by simp, rfl⟩)
    have h2 := ((mem35 _ _).1 this).2.1
    have he := epsilon_lt
    generalize (13 * 2 ^ (-52 : ℤ) + 2 ^ (-52 : ℤ)) * (20 : ℝ) = M at *
    norm_num at h2 he
    linarith

theorem small_eps (r : Rounding 53) : r epsilon < 1 := by
  have h1 := (_root_.abs_le.1 (r.err Fl.pos53 epsilon)).2
  rw [abs_of_pos epsilon_pos] at h1
  have h3 : u 53 ≤ 1 := by rw [Fl.u53]; norm_num
  have h4 := mul_le_mul_of_nonneg_right h3 epsilon_pos.le
  have he := epsilon_lt
  norm_num at he
  linarith

/-- The polygon with the corners (0, 0, 0) and (1, 0, 0). -/
theorem twoCorners_built (r : Rounding 53) : Built3 r epsilon twoCorners [⟨0, true⟩, ⟨![1, 0, 0], true⟩] (some ⟨0, true⟩) := by
  have r1 : r 1 = 1 := r.of_fl (IsFl.one Fl.pos53)
  have rd : Fl.dot r (⟨![1, 0, 0], true⟩ : Vec 3) ⟨![1, 0, 0], true⟩ = 1 := by
    have := Fl.dot_ints r (⟨![1, 0, 0], true⟩ : Vec 3) ⟨![1, 0, 0], true⟩ 1 (fun i => by fin_cases i <;> simp) (by rw [Fl.sum_three]; simp [r1, r.zero])
    simpa using this
  have s1 : Fl.ptSub r (⟨![1, 0, 0], true⟩ : Pt 3) ⟨0, true⟩ = ⟨![1, 0, 0], true⟩ := by
    ext i
    · fin_cases i <;> simp [Fl.ptSub, r1, r.zero]
    · rfl
  have q1 : Fl.sqrMag r (⟨![1, 0, 0], true⟩ : Vec 3) = 1 := by unfold Fl.sqrMag; rw [Fl.sum_three]; simp [r1, r.zero]
  have m1 : Fl.mag r (⟨![1, 0, 0], true⟩ : Vec 3) = 1 := by unfold Fl.mag; rw [q1, Real.sqrt_one, r1]
  have v1 : (Fl.divBy r (⟨![1, 0, 0], true⟩ : Vec 3) 1).elem = ![1, 0, 0] := by
    funext i; fin_cases i <;> simp [Fl.divBy, r1, r.zero]
  have re' : ¬ (1 : ℝ) ≤ r epsilon := not_le.2 (small_eps r)
  have a1 : Fl.polyAddCorner r (Poly.empty : Poly 3) 0 ⟨0, true⟩ epsilon = some (true, ⟨⟨⟨0, true⟩, Vec.default, Vec.default⟩, [⟨![0, 0], true⟩]⟩) := rfl
  have a2 : Fl.polyAddCorner r (⟨⟨⟨0, true⟩, Vec.default, Vec.default⟩, [⟨![0, 0], true⟩]⟩ : Poly 3) 1 ⟨![1, 0, 0], true⟩ epsilon = some (true, twoCorners) := by
    have hx : Fl.expand r (⟨⟨0, true⟩, Vec.default, Vec.default⟩ : Orient 3) ⟨![1, 0, 0], true⟩ epsilon =
        (true, ⟨⟨0, true⟩, ⟨![1, 0, 0], true⟩, Vec.default⟩, ⟨![1, 0], true⟩) := by
      unfold Fl.expand
      rw [if_neg (by simp)]
      simp only [s1, rd, q1, m1, one_mul]
      rw [if_neg re', if_pos (show (Vec.default : Vec 3).valid = false from rfl), v1]
    unfold Fl.polyAddCorner
    rw [hx]
    rfl
  exact .add 1 _ (.add 0 _ .empty a1) a2

/-- A whole number on the axis is put into the plane exactly. -/
theorem expand_axis (r : Rounding 53) {k : ℤ} (hk : |k| ≤ 10) (h0 : k ≠ 0) :
    Fl.expand r twoCorners.orient (⟨![(k : ℝ), 0, 0], true⟩ : Pt 3) epsilon = (true, twoCorners.orient, ⟨![(k : ℝ), 0], true⟩) := by
  have rk : r (k : ℝ) = k := Fl.round_int r (hk.trans (by norm_num))
  have hk' : |(k : ℝ)| ≤ 10 := by exact_mod_cast hk
  have rkk : r ((k : ℝ) * k) = k * k := by
    rw [← Int.cast_mul]
    refine Fl.round_int r ?_
    rw [abs_mul]
    exact (mul_le_mul hk hk (abs_nonneg _) (by norm_num)).trans (by norm_num)
  have s0 : Fl.ptSub r (⟨![(k : ℝ), 0, 0], true⟩ : Pt 3) twoCorners.orient.origin = ⟨![(k : ℝ), 0, 0], true⟩ := by
    unfold Fl.ptSub twoCorners
    congr 1
    funext i
    fin_cases i <;> simp [rk, r.zero]
  have q0 : Fl.sqrMag r (⟨![(k : ℝ), 0, 0], true⟩ : Vec 3) = k * k := by unfold Fl.sqrMag; rw [Fl.sum_three]; simp [rkk, r.zero]
  have d0 : Fl.dot r (⟨![(k : ℝ), 0, 0], true⟩ : Vec 3) ⟨![(k : ℝ), 0, 0], true⟩ = k * k := by
    have := Fl.dot_ints r (⟨![(k : ℝ), 0, 0], true⟩ : Vec 3) ⟨![(k : ℝ), 0, 0], true⟩ (k * k) (fun i => by fin_cases i <;> simp <;> assumption) (by rw [Fl.sum_three]; simp [rkk, r.zero])
    simpa using this
  have d1 : Fl.dot r (⟨![(k : ℝ), 0, 0], true⟩ : Vec 3) twoCorners.orient.ax0 = k :=
    Fl.dot_ints r _ _ _ (fun i => by fin_cases i <;> simp <;> assumption) (by rw [Fl.sum_three]; simp [twoCorners, rk, r.zero])
  have s1 : Fl.sub r (⟨![(k : ℝ), 0, 0], true⟩ : Vec 3) (Fl.scale r twoCorners.orient.ax0 k) = ⟨![0, 0, 0], true⟩ := by
    unfold Fl.sub Fl.scale twoCorners
    congr 1
    funext i
    fin_cases i <;> simp [rk, r.zero]
  have d2 : Fl.dot r (⟨![0, 0, 0], true⟩ : Vec 3) ⟨![(k : ℝ), 0, 0], true⟩ = 0 := by
    have := Fl.dot_ints r (⟨![0, 0, 0], true⟩ : Vec 3) ⟨![(k : ℝ), 0, 0], true⟩ 0 (fun i => by fin_cases i <;> simp) (by rw [Fl.sum_three]; simp [r.zero])
    simpa using this
  have h1 : (1 : ℝ) ≤ k * k := by
    have : 1 ≤ k * k := by have := Int.one_le_abs h0; nlinarith [abs_mul_abs_self k]
    exact_mod_cast this
  have hb : 0 ≤ r ((k * k : ℝ) * epsilon) ∧ r ((k * k : ℝ) * epsilon) < k * k := by
    have hp : 0 < (k * k : ℝ) * epsilon := mul_pos (by linarith) epsilon_pos
    have := _root_.abs_le.1 (r.err Fl.pos53 ((k * k : ℝ) * epsilon))
    rw [abs_of_pos hp] at this
    have hu : u 53 ≤ 1 := by rw [Fl.u53]; norm_num
    have h2 := mul_le_mul_of_nonneg_right hu hp.le
    have he := epsilon_lt
    norm_num at he
    have h3 := mul_le_mul_of_nonneg_left he.le (show 0 ≤ (k * k : ℝ) by linarith)
    constructor <;> linarith
  unfold Fl.expand
  rw [if_neg (by simp [twoCorners])]
  simp only [s0, q0, d0, d1, s1, d2]
  rw [if_neg (not_le.2 hb.2), if_neg (by simp [twoCorners]), if_pos hb.1]

/-- C155_space: the segment from (-1, 0, 0) to (3, 0, 0) contains the polygon, and its corners are near it. -/
theorem axis_holds (r : Rounding 53) : Fl.containsSPolyN r (⟨⟨![-1, 0, 0], true⟩, ⟨![3, 0, 0], true⟩⟩ : Seg 3) twoCorners true = true := by
  have x1 := expand_axis r (k := -1) (by norm_num) (by norm_num)
  have x2 := expand_axis r (k := 3) (by norm_num) (by norm_num)
  push_cast at x1 x2
  unfold Fl.containsSPolyN
  rw [if_neg (by simp [twoCorners])]
  simp only [x1, x2]
  refine (C155_on r (floor (-1) 3) _).2.1 ((floor_convex _).convexHull_subset_iff.2 fun x hx => ?_) ?_ (fun h => ?_) fun h => ?_
  · obtain ⟨c, hc, rfl⟩ := mem_cornerSet.1 hx
    simp only [twoCorners, List.mem_cons, List.not_mem_nil, or_false] at hc
    rcases hc with rfl | rfl <;> exact floor_mem (by norm_num) (by norm_num) (by norm_num)
  · have h1 : (1 : ℝ) ≤ eucl (floor (-1) 3).p1.elem (floor (-1) 3).p2.elem := by
      rw [eucl_eq_len]
      refine le_trans ?_ (abs_le_len _ 0)
      norm_num [floor]
    have h2 := epsilon_lt
    norm_num at h2
    linarith
  all_goals
    obtain ⟨c, hc, e⟩ := mem_cornerSet.1 h
    have e0 := congrFun e 0
    simp only [twoCorners, List.mem_cons, List.not_mem_nil, or_false] at hc
    rcases hc with rfl | rfl <;> norm_num [floor] at e0

example (r : Rounding 53) : ∃ y ∈ segSet (⟨⟨![-1, 0, 0], true⟩, ⟨![3, 0, 0], true⟩⟩ : Seg 3), eucl ![1, 0, 0] y ≤
    Real.sqrt (epsilon + 2 ^ (-20 : ℤ)) * eucl ![1, 0, 0] (0 : Fin 3 → ℝ) + 2 ^ (-9 : ℤ) * (max (eucl ![-1, 0, 0] 0) (eucl ![3, 0, 0] 0)) + 6 * epsilon :=
  C155_space r (by norm_num) epsilon le_rfl (by have := epsilon_lt; norm_num at this; linarith) _ _ _ (twoCorners_built r) _ _ (le_max_left _ _) (le_max_right _ _) (axis_holds r) ⟨![1, 0, 0], true⟩ (by simp)

/-- C155_space_empty: the polygon that has just been made. -/
example (r : Rounding 53) := C155_space_empty r (Poly.empty : Poly 3) rfl ⟨⟨![-1, 0, 0], true⟩, ⟨![3, 0, 0], true⟩⟩ true

end WFMath.Cases
