/- Property theorems C57 and C58 for polygons in space: bounding spheres. -/
import Verif.Model.PolySphere
import Verif.Props.Miniball
import Verif.Props.BoundingSphere
import Verif.Props.PolySpace

namespace WFMath
open Spec Matrix
variable {n : Nat}

theorem at_sub (o : Orient n) (a b c d : ℝ) : o.at a b - o.at c d = (a - c) • o.ax0.elem + (b - d) • o.ax1.elem := by
  unfold Orient.at; module

/-- The distance of two points of the plane of a polygon, from their plane coordinates. -/
theorem at_dist {o : Orient n} (ho : OrientOk o) {p q : Pt 2} {x y : Pt n} (hp : o.convert p = some x) (hq : o.convert q = some y) :
    eucl x.elem y.elem ^ 2 ≤ (1 + 2 * epsilon) * eucl p.elem q.elem ^ 2 ∧
    eucl p.elem q.elem ^ 2 ≤ (1 + 4 * epsilon) * eucl x.elem y.elem ^ 2 ∧
    ((o.ax1.valid = true → o.ax0.elem ⬝ᵥ o.ax1.elem = 0) → eucl x.elem y.elem ^ 2 = eucl p.elem q.elem ^ 2) := by
  obtain ⟨-, p0, p1, px, -⟩ := convert_some hp
  obtain ⟨-, q0, q1, qx, -⟩ := convert_some hq
  have he := epsilon_pos
  have he2 := epsilon_lt
  norm_num at he2
  have e : eucl x.elem y.elem ^ 2 = (p.elem 0 - q.elem 0) ^ 2 * (o.ax0.elem ⬝ᵥ o.ax0.elem) + (p.elem 1 - q.elem 1) ^ 2 * (o.ax1.elem ⬝ᵥ o.ax1.elem) +
      2 * ((p.elem 0 - q.elem 0) * (p.elem 1 - q.elem 1)) * (o.ax0.elem ⬝ᵥ o.ax1.elem) := by
    have : eucl x.elem y.elem ^ 2 = (x.elem - y.elem) ⬝ᵥ (x.elem - y.elem) := by
      rw [eucl_sq]; unfold dotProduct; exact Finset.sum_congr rfl fun i _ => by rw [Pi.sub_apply, sq]
    rw [this, px, qx, at_sub]
    simp only [add_dotProduct, dotProduct_add, smul_dotProduct, dotProduct_smul, smul_eq_mul]
    rw [dotProduct_comm o.ax1.elem o.ax0.elem]
    ring
  have f : eucl p.elem q.elem ^ 2 = (p.elem 0 - q.elem 0) ^ 2 + (p.elem 1 - q.elem 1) ^ 2 := by
    rw [eucl_sq, Fin.sum_univ_two]
  have a0 : (p.elem 0 - q.elem 0) ^ 2 * (o.ax0.elem ⬝ᵥ o.ax0.elem) = (p.elem 0 - q.elem 0) ^ 2 := by
    cases hv : o.ax0.valid
    · rw [p0.resolve_left (by simp [hv]), q0.resolve_left (by simp [hv])]; ring
    · rw [ho.unit0 hv, mul_one]
  have a1 : (p.elem 1 - q.elem 1) ^ 2 * (o.ax1.elem ⬝ᵥ o.ax1.elem) = (p.elem 1 - q.elem 1) ^ 2 := by
    cases hv : o.ax1.valid
    · rw [p1.resolve_left (by simp [hv]), q1.resolve_left (by simp [hv])]; ring
    · rw [ho.unit1 hv, mul_one]
  rw [e, f, a0, a1]
  cases hv : o.ax1.valid
  · rw [p1.resolve_left (by simp [hv]), q1.resolve_left (by simp [hv])]
    refine ⟨?_, ?_, fun _ => by ring⟩ <;> nlinarith [mul_nonneg he.le (sq_nonneg (p.elem 0 - q.elem 0))]
  · have hP := ho.perp hv
    generalize o.ax0.elem ⬝ᵥ o.ax1.elem = P at *
    generalize p.elem 0 - q.elem 0 = a at *
    generalize p.elem 1 - q.elem 1 = b at *
    have hab : |2 * (a * b) * P| ≤ 2 * epsilon * (a ^ 2 + b ^ 2) := by
      rw [abs_mul]
      have : |2 * (a * b)| ≤ a ^ 2 + b ^ 2 := abs_le.2 ⟨by nlinarith [sq_nonneg (a + b)], by nlinarith [sq_nonneg (a - b)]⟩
      calc |2 * (a * b)| * |P| ≤ (a ^ 2 + b ^ 2) * (2 * epsilon) := mul_le_mul this hP (abs_nonneg _) (by positivity)
        _ = _ := by ring
    obtain ⟨h1, h2⟩ := abs_le.1 hab
    refine ⟨by linarith, ?_, fun h => by rw [h rfl]; ring⟩
    have hS : 0 ≤ a ^ 2 + b ^ 2 := by positivity
    have : (1 + 4 * epsilon) * ((1 - 2 * epsilon) * (a ^ 2 + b ^ 2)) ≤ (1 + 4 * epsilon) * (a ^ 2 + b ^ 2 + 2 * (a * b) * P) :=
      mul_le_mul_of_nonneg_left (by linarith) (by linarith)
    refine le_trans ?_ this
    have h3 : 0 ≤ 2 * epsilon - 8 * epsilon ^ 2 := by nlinarith
    nlinarith [mul_nonneg h3 hS]

/-! ### The sloppy sphere -/

namespace Ritter

theorem grow_flat {sd : Pt n → Pt n → ℝ} {skip : Nat → Bool} (k : Fin n) (ps : List (Pt n × Nat)) (c c' : Pt n) (r r' : ℝ)
    (h : grow sd skip (c, r) ps = some (c', r')) (hc : c.elem k = 0) (hp : ∀ p ∈ ps, p.1.elem k = 0) : c'.elem k = 0 := by
  induction ps generalizing c r with
  | nil =>
    rw [grow] at h
    rw [← (Prod.mk.inj (Option.some.inj h)).1]; exact hc
  | cons p ps ih =>
    rw [grow] at h
    have hps : ∀ q ∈ ps, q.1.elem k = 0 := fun q hq => hp q (List.mem_cons_of_mem _ hq)
    simp only at h
    split_ifs at h with h1 h2 h3
    · exact ih _ _ h hc hps
    · refine ih _ _ h ?_ hps
      show c.elem k + (p.1.elem k - c.elem k) * _ / _ = 0
      rw [hc, hp p List.mem_cons_self]; ring
    · exact ih _ _ h hc hps

/-- The centre is in every coordinate plane that the points are in. -/
theorem center_flat {sd : Pt n → Pt n → ℝ} (k : Fin n) (l : List (Pt n)) (hl : l ≠ []) (b : Ball n) (h : boundingSphereSloppy sd l = some b)
    (hp : ∀ p ∈ l, p.elem k = 0) : b.center.elem k = 0 := by
  unfold boundingSphereSloppy at h
  rcases hzl : l.zipIdx with _ | ⟨p, ps⟩
  · exact absurd hzl (by simpa using hl)
  · rw [hzl] at h
    simp only at h
    have hz : ∀ q ∈ p :: ps, q.1.elem k = 0 := fun q hq => hp _ (List.fst_mem_of_mem_zipIdx (hzl ▸ hq))
    cases hw : widest (scan (start p) ps) (List.finRange n) (-1, none) with
    | none => rw [hw] at h; simp at h
    | some d =>
      rw [hw] at h
      simp only at h
      have hm := scan_mem ps (start p) (p :: ps) (fun q hq => List.mem_cons_of_mem _ hq)
        (fun j => ⟨List.mem_cons_self, List.mem_cons_self⟩) d
      generalize hg : grow sd (fun i => i == ((scan (start p) ps).minP d).2 || i == ((scan (start p) ps).maxP d).2)
        (Pt.midpoint ((scan (start p) ps).minP d).1 ((scan (start p) ps).maxP d).1 (1 / 2),
          sd ((scan (start p) ps).minP d).1 (Pt.midpoint ((scan (start p) ps).minP d).1 ((scan (start p) ps).maxP d).1 (1 / 2))) (p :: ps) = g at h
      cases g with
      | none => simp at h
      | some cr =>
        obtain ⟨c, r⟩ := cr
        simp only [Option.some.injEq] at h
        have := grow_flat k _ _ _ _ _ hg (by
          show _ * _ + _ * _ = (0 : ℝ)
          rw [hz _ hm.1, hz _ hm.2]; ring) hz
        rw [← h]
        unfold Ball.mk'
        split_ifs <;> exact this

end Ritter

theorem mem_corners {s : Poly n} (hs : Readable s) {q : Pt 2} (hq : q ∈ s.poly) : ∃ c, s.orient.convert q = some c ∧ ∃ i, s.getCorner i = some c := by
  obtain ⟨c, hc⟩ := Option.ne_none_iff_exists'.1 (hs.convert hq)
  obtain ⟨i, hi⟩ := List.getElem?_of_mem hq
  exact ⟨c, hc, i, by rw [getCorner_of (by exact hi), hc]⟩

/-- A ball in the plane whose centre is where the polygon is can be placed in space. -/
theorem lift_center {s : Poly n} (hs : Readable s) (hne : s.poly ≠ []) {b : Ball 2}
    (hb : ∀ k, (∀ p ∈ s.poly, p.elem k = 0) → b.center.elem k = 0) : ∃ c, s.orient.convert b.center = some c := by
  obtain ⟨q, hq⟩ := List.exists_mem_of_ne_nil _ hne
  refine Option.ne_none_iff_exists'.1 ((convert_ne_none _ _).2 ⟨((convert_ne_none _ _).1 (hs.convert hq)).1, ?_, ?_⟩)
  · by_cases hv : s.orient.ax0.valid = true
    · exact Or.inl hv
    · exact Or.inr (hb 0 fun p hp => ((convert_ne_none _ _).1 (hs.convert hp)).2.1.resolve_left hv)
  · by_cases hv : s.orient.ax1.valid = true
    · exact Or.inl hv
    · exact Or.inr (hb 1 fun p hp => ((convert_ne_none _ _).1 (hs.convert hp)).2.2.resolve_left hv)

theorem mk'_radius (c : Pt n) (r : ℝ) : (Ball.mk' c r).radius = r ∧ (Ball.mk' c r).center.elem = c.elem := by
  unfold Ball.mk'; split_ifs <;> exact ⟨rfl, rfl⟩

/-- C57, polygons in space, after any history of edits that leaves a corner: `boundingSphereSloppy()` fails no assertion; every corner is in the
ball, up to a relative error of epsilon, and without error when the axes of the plane are exactly perpendicular; the ball is valid exactly when all
corners are. -/
theorem C57_polygon (dbg : Bool) (s : Poly n) (k : Nat) (h : Edited dbg s k) (hk : 0 < k) :
    ∃ b, s.boundingSphereSloppy = some b ∧ (∀ x ∈ polyCornerSet s, eucl x b.center.elem ≤ (1 + epsilon) * b.radius) ∧
      ((s.orient.ax1.valid = true → s.orient.ax0.elem ⬝ᵥ s.orient.ax1.elem = 0) → polyCornerSet s ⊆ ballSet b) ∧
      (b.valid = true ↔ ∀ i c, s.getCorner i = some c → c.valid = true) := by
  have he := epsilon_pos
  have hR := readable_of_edited h
  obtain ⟨hok, hlen⟩ := edited_ok h
  have hne : s.poly ≠ [] := fun h0 => by rw [h0] at hlen; simp at hlen; omega
  obtain ⟨b2, h1, h0, h2, h3⟩ := Ritter.spec (by norm_num) upper2 s.poly hne
  obtain ⟨c, hc⟩ := lift_center hR hne (b := b2) fun k hk => Ritter.center_flat k s.poly hne b2 h1 hk
  have hd : ∀ x ∈ polyCornerSet s, eucl x c.elem ^ 2 ≤ (1 + 2 * epsilon) * b2.radius ^ 2 ∧
      ((s.orient.ax1.valid = true → s.orient.ax0.elem ⬝ᵥ s.orient.ax1.elem = 0) → eucl x c.elem ≤ b2.radius) := by
    intro x hx
    obtain ⟨q, hq, y, hy, rfl⟩ := mem_polyCornerSet.1 hx
    obtain ⟨g1, -, g2⟩ := at_dist hok.ok hy hc
    have hb : eucl q.elem b2.center.elem ≤ b2.radius := h2 q hq
    have hb2 := pow_le_pow_left₀ (eucl_nonneg _ _) hb 2
    refine ⟨g1.trans (mul_le_mul_of_nonneg_left hb2 (by linarith)), fun hp => ?_⟩
    rw [← pow_le_pow_iff_left₀ (eucl_nonneg _ _) h0 (by norm_num : 2 ≠ 0), g2 hp]
    exact hb2
  obtain ⟨r1, r2⟩ := mk'_radius c b2.radius
  refine ⟨Ball.mk' c b2.radius, ?_, fun x hx => ?_, fun hp x hx => ?_, ?_⟩
  · unfold Poly.boundingSphereSloppy boundingSphereSloppy2
    rw [h1, Option.bind_some]
    unfold Poly.liftBall
    rw [hc]; rfl
  · rw [r1, r2]
    refine abs_le_of_sq_le_sq' ((hd x hx).1.trans ?_) (by positivity) |>.2
    nlinarith [sq_nonneg (epsilon * b2.radius)]
  · rw [ballSet_mk']
    exact (hd x hx).2 hp
  · have hv : (Ball.mk' c b2.radius).valid = b2.valid := by
      unfold Ball.mk' Ball.valid
      rw [if_neg (not_lt.2 h0), (convert_some hc).2.2.2.2]
    rw [hv, h3]
    constructor
    · intro hall i x hx
      obtain ⟨p, hp, hpx⟩ := getCorner_some hx
      rw [(convert_some hpx).2.2.2.2]
      exact hall p (List.mem_of_getElem? hp)
    · intro hall p hp
      obtain ⟨x, hx, i, hi⟩ := mem_corners hR hp
      rw [← (convert_some hx).2.2.2.2]
      exact hall i x hi

/-- C57: the sphere of a polygon without corners is a failed assertion. -/
theorem C57_polygon_empty : (Poly.empty : Poly n).boundingSphereSloppy = none := rfl

/-- The hypotheses are met by the triangle with corners (0,0,0), (1,0,0), (0,1,0). -/
example : ∃ k, 0 < k ∧ Edited true threeCorners k := by
  obtain ⟨k, h⟩ := Built.edited (dbg := true) epsilon_pos.le threeCorners_built
  refine ⟨k, ?_, h⟩
  have := (edited_ok h).2
  rw [threeCorners_poly] at this
  simp at this
  omega

/-! ### The smallest sphere -/

/-- A point that has coordinate zero along every missing axis. -/
def InAxes (o : Orient n) (x : Fin 2 → ℝ) : Prop := (o.ax0.valid = true ∨ x 0 = 0) ∧ (o.ax1.valid = true ∨ x 1 = 0)

/-- The affine map from plane coordinates to space. -/
def Orient.map (o : Orient n) : (Fin 2 → ℝ) →ᵃ[ℝ] (Fin n → ℝ) where
  toFun x := o.at (x 0) (x 1)
  linear := (LinearMap.proj 0 : (Fin 2 → ℝ) →ₗ[ℝ] ℝ).smulRight o.ax0.elem + (LinearMap.proj 1 : (Fin 2 → ℝ) →ₗ[ℝ] ℝ).smulRight o.ax1.elem
  map_vadd' p v := by
    simp only [vadd_eq_add, LinearMap.add_apply, LinearMap.smulRight_apply, LinearMap.proj_apply, Pi.add_apply]
    unfold Orient.at
    module

theorem map_apply (o : Orient n) (x : Fin 2 → ℝ) : o.map x = o.at (x 0) (x 1) := rfl

theorem placed_of {o : Orient n} {p : Pt 2} {x : Pt n} (h : o.convert p = some x) : InAxes o p.elem ∧ x.elem = o.map p.elem :=
  ⟨⟨(convert_some h).2.1, (convert_some h).2.2.1⟩, (convert_some h).2.2.2.1⟩

/-- The axes are exactly perpendicular. -/
def AxesPerp (o : Orient n) : Prop := o.ax1.valid = true → o.ax0.elem ⬝ᵥ o.ax1.elem = 0

theorem map_dist {o : Orient n} (ho : OrientOk o) (hv : o.origin.valid = true) (hp : AxesPerp o) {x y : Fin 2 → ℝ} (hx : InAxes o x) (hy : InAxes o y) :
    eucl (o.map x) (o.map y) = eucl x y := by
  obtain ⟨a, ha⟩ := Option.ne_none_iff_exists'.1 ((convert_ne_none o ⟨x, true⟩).2 ⟨hv, hx.1, hx.2⟩)
  obtain ⟨b, hb⟩ := Option.ne_none_iff_exists'.1 ((convert_ne_none o ⟨y, true⟩).2 ⟨hv, hy.1, hy.2⟩)
  have := (at_dist ho ha hb).2.2 hp
  rw [(placed_of ha).2, (placed_of hb).2] at this
  exact (pow_left_inj₀ (eucl_nonneg _ _) (eucl_nonneg _ _) (by norm_num)).1 this

theorem placed_span {o : Orient n} {F : Set (Fin 2 → ℝ)} (hF : ∀ x ∈ F, InAxes o x) {x : Fin 2 → ℝ} (hx : x ∈ affineSpan ℝ F) : InAxes o x := by
  have key : ∀ k : Fin 2, (∀ q ∈ F, q k = 0) → x k = 0 := fun k hk => by
    have := functional_aff (g := fun j => if j = k then 1 else 0) (γ := 0) (fun q hq => by simpa using hk q hq) hx
    simpa using this
  constructor
  · by_cases h : o.ax0.valid = true
    · exact Or.inl h
    · exact Or.inr (key 0 fun q hq => (hF q hq).1.resolve_left h)
  · by_cases h : o.ax1.valid = true
    · exact Or.inl h
    · exact Or.inr (key 1 fun q hq => (hF q hq).2.resolve_left h)

/-- The plane coordinates of the point of the plane that is nearest to `c`. -/
noncomputable def planeFoot (o : Orient n) (c : Fin n → ℝ) : Fin 2 → ℝ :=
  ![if o.ax0.valid = true then (c - o.origin.elem) ⬝ᵥ o.ax0.elem else 0, if o.ax1.valid = true then (c - o.origin.elem) ⬝ᵥ o.ax1.elem else 0]

theorem planeFoot_le {o : Orient n} (ho : OrientOk o) (hp : AxesPerp o) (c : Fin n → ℝ) {x : Fin 2 → ℝ} (hx : InAxes o x) :
    eucl x (planeFoot o c) ≤ eucl (o.map x) c := by
  rw [← pow_le_pow_iff_left₀ (eucl_nonneg _ _) (eucl_nonneg _ _) (by norm_num : 2 ≠ 0)]
  have hsq : ∀ u : Fin n → ℝ, 0 ≤ u ⬝ᵥ u := fun u => Finset.sum_nonneg fun i _ => mul_self_nonneg _
  have e : eucl (o.map x) c ^ 2 = (c - o.map x) ⬝ᵥ (c - o.map x) := by
    rw [eucl_sq]; unfold dotProduct; exact Finset.sum_congr rfl fun i _ => by rw [Pi.sub_apply]; ring
  have f : eucl x (planeFoot o c) ^ 2 = (x 0 - planeFoot o c 0) ^ 2 + (x 1 - planeFoot o c 1) ^ 2 := by rw [eucl_sq, Fin.sum_univ_two]
  have d : c - o.map x = (c - o.origin.elem) - x 0 • o.ax0.elem - x 1 • o.ax1.elem := by
    rw [map_apply]; unfold Orient.at; module
  rw [e, f, d]
  have hf0 : planeFoot o c 0 = if o.ax0.valid = true then (c - o.origin.elem) ⬝ᵥ o.ax0.elem else 0 := rfl
  have hf1 : planeFoot o c 1 = if o.ax1.valid = true then (c - o.origin.elem) ⬝ᵥ o.ax1.elem else 0 := rfl
  rw [hf0, hf1]
  generalize c - o.origin.elem = w
  by_cases v1 : o.ax1.valid = true
  · have v0 := ho.second v1
    rw [if_pos v0, if_pos v1]
    have h := hsq (w - (w ⬝ᵥ o.ax0.elem) • o.ax0.elem - (w ⬝ᵥ o.ax1.elem) • o.ax1.elem)
    have hP := hp v1
    simp only [sub_dotProduct, dotProduct_sub, smul_dotProduct, dotProduct_smul, smul_eq_mul, dotProduct_comm o.ax0.elem w, dotProduct_comm o.ax1.elem w,
      dotProduct_comm o.ax1.elem o.ax0.elem, hP, ho.unit0 v0, ho.unit1 v1] at h ⊢
    nlinarith
  · rw [if_neg v1, hx.2.resolve_left v1]
    by_cases v0 : o.ax0.valid = true
    · rw [if_pos v0]
      have h := hsq (w - (w ⬝ᵥ o.ax0.elem) • o.ax0.elem)
      simp only [zero_smul, sub_zero, sub_dotProduct, dotProduct_sub, smul_dotProduct, dotProduct_smul, smul_eq_mul, dotProduct_comm o.ax0.elem w, ho.unit0 v0] at h ⊢
      nlinarith
    · rw [if_neg v0, hx.1.resolve_left v0]
      simpa using hsq w

/-- The centre of a smallest ball is in every coordinate plane that the points are in. -/
theorem smallest_flat {pts : Set (Fin 2 → ℝ)} (hne : pts.Nonempty) {b : Ball 2} (h : IsSmallest pts b) (k : Fin 2) (hk : ∀ p ∈ pts, p k = 0) :
    b.center.elem k = 0 := by
  obtain ⟨p0, hp0⟩ := hne
  have hb : ∀ p ∈ pts, eucl p b.center.elem ≤ b.radius := fun p hp => h.1 hp
  have h0 : 0 ≤ b.radius := (eucl_nonneg _ _).trans (hb p0 hp0)
  have key : ∀ p ∈ pts, eucl p (Function.update b.center.elem k 0) ^ 2 = eucl p b.center.elem ^ 2 - b.center.elem k ^ 2 := fun p hp => by
    have := hk p hp
    rw [eucl_sq, eucl_sq, Fin.sum_univ_two, Fin.sum_univ_two]
    fin_cases k <;> simp_all
  have hle : ∀ p ∈ pts, eucl p (Function.update b.center.elem k 0) ^ 2 ≤ b.radius ^ 2 - b.center.elem k ^ 2 := fun p hp => by
    rw [key p hp]
    have := pow_le_pow_left₀ (eucl_nonneg _ _) (hb p hp) 2
    linarith
  have hpos : 0 ≤ b.radius ^ 2 - b.center.elem k ^ 2 := (sq_nonneg _).trans (hle p0 hp0)
  have := h.2 (Function.update b.center.elem k 0) (Real.sqrt (b.radius ^ 2 - b.center.elem k ^ 2)) fun p hp =>
    Real.le_sqrt_of_sq_le (hle p hp)
  have h2 := pow_le_pow_left₀ h0 this 2
  rw [Real.sq_sqrt hpos] at h2
  have : b.center.elem k ^ 2 ≤ 0 := by linarith
  exact pow_eq_zero_iff (by norm_num) |>.1 (le_antisymm this (sq_nonneg _))

theorem corners_map {s : Poly n} (hR : Readable s) : polyCornerSet s = s.orient.map '' pointSet s.poly := by
  ext x
  rw [mem_polyCornerSet]
  constructor
  · rintro ⟨q, hq, y, hy, rfl⟩
    exact ⟨q.elem, ⟨q, hq, rfl⟩, (placed_of hy).2.symm⟩
  · rintro ⟨-, ⟨q, hq, rfl⟩, rfl⟩
    obtain ⟨y, hy, -⟩ := mem_corners hR hq
    exact ⟨q, hq, y, hy, (placed_of hy).2.symm⟩

/-- C58, polygons in space, after any history of edits that leaves two different corners, in builds with assertions, for corners in no nearly
degenerate position and a plane with exactly perpendicular axes: `boundingSphere()` fails no assertion and is the smallest ball that contains the
corners. Missing: nearly degenerate corners, and axes that are only perpendicular up to rounding. -/
theorem C58_polygon_partial (dbg : Bool) (s : Poly n) (k : Nat) (h : Edited dbg s k) (hd : ∃ x ∈ polyCornerSet s, ∃ y ∈ polyCornerSet s, x ≠ y)
    (hp : s.orient.ax1.valid = true → s.orient.ax0.elem ⬝ᵥ s.orient.ax1.elem = 0) (R : ℝ)
    (hR : ∃ c : Fin n → ℝ, ∀ x ∈ polyCornerSet s, eucl x c ≤ R) (hS : WellSpread (polyCornerSet s) R) (fuel : Nat) (hf : 2 ^ k ≤ fuel) :
    ∃ b, s.boundingSphere true fuel = some b ∧ IsSmallest (polyCornerSet s) b ∧
      (b.valid = true ↔ ∀ i c, s.getCorner i = some c → c.valid = true) := by
  have hRd := readable_of_edited h
  obtain ⟨hok, hlen⟩ := edited_ok h
  have hpl : ∀ x ∈ pointSet s.poly, InAxes s.orient x := by
    rintro - ⟨q, hq, rfl⟩
    obtain ⟨y, hy, -⟩ := mem_corners hRd hq
    exact (placed_of hy).1
  obtain ⟨x, hx, y, hy, hxy⟩ := hd
  rw [corners_map hRd] at hx hy
  obtain ⟨u, hu, rfl⟩ := hx
  obtain ⟨v, hv, rfl⟩ := hy
  have hne : s.poly ≠ [] := fun h0 => by rw [h0] at hu; obtain ⟨q, hq, -⟩ := hu; simp at hq
  have hO : s.orient.origin.valid = true := by
    obtain ⟨q, hq⟩ := List.exists_mem_of_ne_nil _ hne
    exact ((convert_ne_none _ _).1 (hRd.convert hq)).1
  obtain ⟨c0, hc0⟩ := hR
  rw [corners_map hRd] at hc0 hS ⊢
  obtain ⟨b2, h1, h2, h3⟩ := C58_smallest_partial s.poly ⟨u, hu, v, hv, fun e => hxy (by rw [e])⟩ R
    ⟨planeFoot s.orient c0, fun x hx => (planeFoot_le hok.ok hp c0 (hpl x hx)).trans (hc0 _ ⟨x, hx, rfl⟩)⟩
    (fun F hF hFne p hpF hna x hx => by
      have hPx := placed_span (fun q hq => hpl q (hF hq)) hx
      rw [← map_dist hok.ok hO hp (hpl p hpF) hPx]
      refine hS (s.orient.map '' F) (Set.image_mono hF) (hFne.image _) _ ⟨p, hpF, rfl⟩ ?_ _ ?_
      · rw [← AffineSubspace.map_span]
        rintro ⟨y, hy, e⟩
        refine hna ?_
        have := map_dist hok.ok hO hp (hpl p hpF) (placed_span (fun q hq => hpl q (hF hq)) hy)
        rw [← e, eucl_self] at this
        have e2 : p = y := by
          funext i
          have h5 := abs_sub_le_eucl p y i
          rw [← this] at h5
          linarith [abs_nonpos_iff.1 h5]
        rw [e2]; exact hy
      · rw [← AffineSubspace.map_span]
        exact ⟨x, hx, rfl⟩) fuel (by rw [hlen]; exact hf)
  obtain ⟨c, hc⟩ := lift_center hRd hne (b := b2) fun k hk => smallest_flat ⟨u, hu⟩ h2 k (by rintro - ⟨q, hq, rfl⟩; exact hk q hq)
  obtain ⟨hcp, hce⟩ := placed_of hc
  have h0 : 0 ≤ b2.radius := (eucl_nonneg _ _).trans (h2.1 hu)
  obtain ⟨r1, r2⟩ := mk'_radius c b2.radius
  refine ⟨Ball.mk' c b2.radius, ?_, ⟨?_, ?_⟩, ?_⟩
  · unfold Poly.boundingSphere
    rw [h1, Option.bind_some]
    unfold Poly.liftBall
    rw [hc]; rfl
  · rintro - ⟨x, hx, rfl⟩
    rw [ballSet_mk']
    show eucl _ _ ≤ _
    rw [hce, map_dist hok.ok hO hp (hpl x hx) hcp]
    exact h2.1 hx
  · intro c' r hr
    rw [r1]
    exact h2.2 (planeFoot s.orient c') r fun x hx => (planeFoot_le hok.ok hp c' (hpl x hx)).trans (hr _ ⟨x, hx, rfl⟩)
  · have hv : (Ball.mk' c b2.radius).valid = b2.center.valid := by
      unfold Ball.mk' Ball.valid
      rw [if_neg (not_lt.2 h0), (convert_some hc).2.2.2.2]
    rw [hv, h3, List.all_eq_true]
    constructor
    · intro hall i x hx
      obtain ⟨p, hp, hpx⟩ := getCorner_some hx
      rw [(convert_some hpx).2.2.2.2]
      exact hall p (List.mem_of_getElem? hp)
    · intro hall p hp
      obtain ⟨x, hx, i, hi⟩ := mem_corners hRd hp
      rw [← (convert_some hx).2.2.2.2]
      exact hall i x hi

theorem threeCorners_edited : Edited true threeCorners 3 := by
  obtain ⟨k, h⟩ := Built.edited (dbg := true) epsilon_pos.le threeCorners_built
  have := (edited_ok h).2
  rw [threeCorners_poly] at this
  simp at this
  exact this ▸ h
theorem threeCorners_set (x : Fin 3 → ℝ) : x ∈ polyCornerSet threeCorners ↔ x = ![0, 0, 0] ∨ x = ![1, 0, 0] ∨ x = ![0, 1, 0] := by
  have e1 : threeCorners.orient.map ![0, 0] = ![0, 0, 0] := by
    rw [map_apply]; funext i; fin_cases i <;> simp [Orient.at, threeCorners]
  have e2 : threeCorners.orient.map ![1, 0] = ![1, 0, 0] := by
    rw [map_apply]; funext i; fin_cases i <;> simp [Orient.at, threeCorners]
  have e3 : threeCorners.orient.map ![0, 1] = ![0, 1, 0] := by
    rw [map_apply]; funext i; fin_cases i <;> simp [Orient.at, threeCorners]
  rw [corners_map (readable_of_edited threeCorners_edited), threeCorners_poly, ← e1, ← e2, ← e3]
  simp [pointSet, eq_comm]
theorem threeCorners_spread : WellSpread (polyCornerSet threeCorners) 1 := by
  intro F hF hne p hp hna x hx
  have hpF : p ∉ F := fun h => hna (mem_affineSpan ℝ h)
  have hq : ∀ q ∈ F, (q = ![0, 0, 0] ∨ q = ![1, 0, 0] ∨ q = ![0, 1, 0]) ∧ q ≠ p := fun q hq =>
    ⟨(threeCorners_set q).1 (hF hq), fun h => hpF (h ▸ hq)⟩
  rcases (threeCorners_set p).1 hp with rfl | rfl | rfl
  · have := far_of (g := ![1, 1, 0]) (γ := 1) (fun q hqF => by
      obtain ⟨h1, h2⟩ := hq q hqF
      rcases h1 with rfl | rfl | rfl
      · exact absurd rfl h2
      · simp [Fin.sum_univ_three]
      · simp [Fin.sum_univ_three]) hx ![0, 0, 0]
    simp [Fin.sum_univ_three, -one_le_sq_iff_one_le_abs] at this
    norm_num [-one_le_sq_iff_one_le_abs] at this ⊢
    nlinarith
  · have := far_of (g := ![1, 0, 0]) (γ := 0) (fun q hqF => by
      obtain ⟨h1, h2⟩ := hq q hqF
      rcases h1 with rfl | rfl | rfl
      · simp [Fin.sum_univ_three]
      · exact absurd rfl h2
      · simp [Fin.sum_univ_three]) hx ![1, 0, 0]
    simp [Fin.sum_univ_three, -one_le_sq_iff_one_le_abs] at this
    norm_num [-one_le_sq_iff_one_le_abs] at this ⊢
    nlinarith
  · have := far_of (g := ![0, 1, 0]) (γ := 0) (fun q hqF => by
      obtain ⟨h1, h2⟩ := hq q hqF
      rcases h1 with rfl | rfl | rfl
      · simp [Fin.sum_univ_three]
      · simp [Fin.sum_univ_three]
      · exact absurd rfl h2) hx ![0, 1, 0]
    simp [Fin.sum_univ_three, -one_le_sq_iff_one_le_abs] at this
    norm_num [-one_le_sq_iff_one_le_abs] at this ⊢
    nlinarith

example : ∃ b, threeCorners.boundingSphere true 8 = some b ∧ IsSmallest (polyCornerSet threeCorners) b := by
  obtain ⟨b, h1, h2, -⟩ := C58_polygon_partial true threeCorners 3 threeCorners_edited
    ⟨![0, 0, 0], (threeCorners_set _).2 (by simp), ![1, 0, 0], (threeCorners_set _).2 (by simp), fun h => by simpa using congrFun h 0⟩
    (fun _ => by simp [threeCorners, dotProduct, Fin.sum_univ_three]) 1
    ⟨![0, 0, 0], fun x hx => by
      rw [eucl_le_iff (by norm_num)]
      rcases (threeCorners_set x).1 hx with rfl | rfl | rfl <;> simp [Fin.sum_univ_three]⟩ threeCorners_spread 8 (by norm_num)
  exact ⟨b, h1, h2⟩

end WFMath
