/- Property theorem C72: polygons in space remember the corners that were added. -/
import Verif.Lemmas.PolyExpand
import Verif.Spec.Polygon
import Verif.Props.ShapeRotate
import Mathlib.LinearAlgebra.AffineSpace.AffineSubspace.Basic

namespace WFMath
open Spec Matrix
variable {n : Nat}

/-- A history of `addCorner` calls, some of which may fail: the polygon, the points that were accepted in the order of
their indices, and the point that was accepted first. -/
inductive Built (eps : ℝ) : Poly n → List (Pt n) → Option (Pt n) → Prop
  | empty : Built eps Poly.empty [] none
  | add {s t ps first} (i : Nat) (p : Pt n) : Built eps s ps first → s.addCorner i p eps = some (true, t) →
      Built eps t (insertAt ps i p) (some (first.getD p))
  | fail {s t ps first} (i : Nat) (p : Pt n) : Built eps s ps first → s.addCorner i p eps = some (false, t) → Built eps t ps first

/-- A call of `addCorner`, opened. -/
theorem addCorner_true {s t : Poly n} {i : Nat} {p : Pt n} {eps : ℝ} (h : s.addCorner i p eps = some (true, t)) :
    ∃ o p2, s.orient.expand p eps = (true, o, p2) ∧ i ≤ s.poly.length ∧ t = ⟨o, insertAt s.poly i p2⟩ := by
  unfold Poly.addCorner at h
  rcases hx : s.orient.expand p eps with ⟨b, o, p2⟩
  rw [hx] at h
  simp only at h
  cases b
  · simp at h
  · simp only [if_true, Corners.addCorner] at h
    by_cases hi : i ≤ s.poly.length
    · rw [if_pos hi] at h
      simp only [Option.map_some, Option.some.injEq, Prod.mk.injEq, true_and] at h
      exact ⟨o, p2, rfl, hi, h.symm⟩
    · rw [if_neg hi] at h; simp at h

/-- C72: a failed `addCorner` leaves the polygon as it was. With an index in range the call always returns. -/
theorem C72_fail (s t : Poly n) (i : Nat) (p : Pt n) (eps : ℝ) :
    (s.addCorner i p eps = some (false, t) → t = s) ∧ (i ≤ s.numCorners → s.addCorner i p eps ≠ none) := by
  unfold Poly.addCorner
  rcases hx : s.orient.expand p eps with ⟨b, o, p2⟩
  cases b
  · have := expand_fail hx
    refine ⟨fun h => ?_, fun _ => by simp⟩
    simp only [Bool.false_eq_true, if_false, Option.some.injEq, Prod.mk.injEq, true_and] at h
    rw [← h, this]
  · refine ⟨fun h => ?_, fun hi => ?_⟩
    · simp only [if_true, Option.map_eq_some_iff] at h
      obtain ⟨_, _, h⟩ := h
      simp at h
    · have : i ≤ s.poly.length := hi
      simp [Corners.addCorner, this]

/-- What holds after any history of additions. -/
structure BuiltInv (eps : ℝ) (s : Poly n) (ps : List (Pt n)) (first : Option (Pt n)) : Prop where
  ok : OrientOk s.orient
  none_iff : s.orient.origin.valid = false → ps = [] ∧ s.poly = [] ∧ first = none
  some_iff : s.orient.origin.valid = true → ∃ f, first = some f ∧ s.orient.origin.elem = f.elem
  close : List.Forall₂ (fun (x : Pt 2) (p : Pt n) => x.valid = true ∧ s.orient.origin.valid = true ∧
    (s.orient.ax0.valid = true ∨ x.elem 0 = 0) ∧ (s.orient.ax1.valid = true ∨ x.elem 1 = 0) ∧
    CloseTo eps (len (s.orient.at (x.elem 0) (x.elem 1) - p.elem)) (len (p.elem - s.orient.origin.elem))) s.poly ps

theorem forall₂_insertAt {α β : Type} {R : α → β → Prop} {l : List α} {l' : List β} (h : List.Forall₂ R l l') (i : Nat) {a : α} {b : β}
    (hab : R a b) : List.Forall₂ R (insertAt l i a) (insertAt l' i b) :=
  List.rel_append (List.forall₂_take i h) (List.Forall₂.cons hab (List.forall₂_drop i h))

theorem built_inv {eps : ℝ} (he : 0 ≤ eps) {s : Poly n} {ps : List (Pt n)} {first : Option (Pt n)} (h : Built eps s ps first) :
    BuiltInv eps s ps first := by
  induction h with
  | empty => exact ⟨orientOk_empty, fun _ => ⟨rfl, rfl, rfl⟩, fun h => by simp [Poly.empty, Orient.empty, Pt.default] at h, List.Forall₂.nil⟩
  | @fail s t ps first i p hb hf ih =>
    rw [(C72_fail s t i p eps).1 hf]; exact ih
  | @add s t ps first i p hb hf ih =>
    obtain ⟨o, p2, hx, hi, rfl⟩ := addCorner_true hf
    obtain ⟨k1, k2, k3, k4, k5, k6, k7, k8, k9, k10⟩ := expand_spec he ih.ok hx
    refine ⟨k1, fun hc => by simp [k2] at hc, fun _ => ?_, ?_⟩
    · cases hv : s.orient.origin.valid with
      | true =>
        obtain ⟨f, hf1, hf2⟩ := ih.some_iff hv
        exact ⟨f, by rw [hf1]; rfl, by show o.origin.elem = _; rw [k3 hv, hf2]⟩
      | false =>
        obtain ⟨-, -, hf1⟩ := ih.none_iff hv
        exact ⟨p, by rw [hf1]; rfl, k4 hv⟩
    · refine forall₂_insertAt ?_ i ⟨k7, k2, k8, k9, k10⟩
      refine ih.close.imp ?_
      rintro x q ⟨a1, a2, a3, a4, a5⟩
      refine ⟨a1, k2, ?_, ?_, ?_⟩
      · rcases a3 with h | h
        · exact Or.inl (by rw [k5 h]; exact h)
        · exact Or.inr h
      · rcases a4 with h | h
        · exact Or.inl (by rw [k6 h]; exact h)
        · exact Or.inr h
      · rw [at_mono (k3 a2) k5 k6 a3 a4, k3 a2]; exact a5

/-- C72, what holds: after any history of `addCorner` calls the polygon has as many corners as points were accepted, every
corner can be read, is valid, and is the accepted point up to `sqrt (eps + 2 ε)` times the distance from the point accepted
first, plus `2 ε`. The point accepted first is exact. -/
theorem C72_partial (eps : ℝ) (he : 0 ≤ eps) (s : Poly n) (ps : List (Pt n)) (first : Option (Pt n)) (h : Built eps s ps first) :
    s.numCorners = ps.length ∧ s.valid = true ∧
    ∀ i p, ps[i]? = some p → ∃ c f, s.getCorner i = some c ∧ c.valid = true ∧ first = some f ∧
      eucl c.elem p.elem ≤ 2 * epsilon + Real.sqrt (eps + 2 * epsilon) * eucl p.elem f.elem := by
  have hI := built_inv he h
  refine ⟨hI.close.length_eq, ?_, ?_⟩
  · unfold Poly.valid Corners.polyValid
    rw [List.all_eq_true]
    intro x hx
    obtain ⟨k, hk⟩ := List.getElem?_of_mem hx
    have hlt : k < ps.length := by
      rw [← hI.close.length_eq]; exact (List.getElem?_eq_some_iff.1 hk).1
    have := List.Forall₂.get hI.close (List.getElem?_eq_some_iff.1 hk).1 hlt
    have e : s.poly.get ⟨k, (List.getElem?_eq_some_iff.1 hk).1⟩ = x := (List.getElem?_eq_some_iff.1 hk).2
    rw [e] at this
    exact this.1
  · intro i p hp
    obtain ⟨hlt, hpe⟩ := List.getElem?_eq_some_iff.1 hp
    have hlt' : i < s.poly.length := by rw [hI.close.length_eq]; exact hlt
    have := List.Forall₂.get hI.close hlt' hlt
    obtain ⟨a1, a2, a3, a4, a5⟩ := this
    obtain ⟨f, hf, hfe⟩ := hI.some_iff a2
    have hc : s.getCorner i = some ⟨s.orient.at ((s.poly.get ⟨i, hlt'⟩).elem 0) ((s.poly.get ⟨i, hlt'⟩).elem 1), (s.poly.get ⟨i, hlt'⟩).valid⟩ := by
      rw [getCorner_of (p := s.poly.get ⟨i, hlt'⟩) (List.getElem?_eq_getElem hlt'), convert_eq a2 a3 a4]
    refine ⟨_, f, hc, a1, hf, ?_⟩
    have e : ps.get ⟨i, hlt⟩ = p := hpe
    rw [e, hfe] at a5
    rw [eucl_eq_len, eucl_eq_len]
    exact a5.le he (len_nonneg _)

/-- C72: the axes of the plane stay unit vectors, perpendicular up to the products that are flushed to 0. -/
theorem C72_basis (eps : ℝ) (he : 0 ≤ eps) (s : Poly n) (ps : List (Pt n)) (first : Option (Pt n)) (h : Built eps s ps first) :
    (s.orient.ax1.valid = true → s.orient.ax0.valid = true) ∧
    (s.orient.ax0.valid = true → s.orient.ax0.elem ⬝ᵥ s.orient.ax0.elem = 1) ∧
    (s.orient.ax1.valid = true → s.orient.ax1.elem ⬝ᵥ s.orient.ax1.elem = 1 ∧ |s.orient.ax0.elem ⬝ᵥ s.orient.ax1.elem| ≤ 2 * epsilon) :=
  have hI := (built_inv he h).ok
  ⟨hI.second, hI.unit0, fun h => ⟨hI.unit1 h, hI.perp h⟩⟩

/-- The inner products formed when `p` is added to a polygon are exact. -/
def AddExact (o : Orient n) (p : Pt n) : Prop :=
  DotExact (p.sub o.origin) (p.sub o.origin) ∧ DotExact (p.sub o.origin) o.ax0 ∧
  DotExact (p.sub o.origin - o.ax0.scale ((p.sub o.origin).dot o.ax0)) (p.sub o.origin) ∧
  DotExact (p.sub o.origin - o.ax0.scale ((p.sub o.origin).dot o.ax0)) o.ax1

/-- C72, in the plane: with the tolerance set to 0, when the inner products are not flushed to 0 and the axes are perpendicular,
a point in the affine span of the corners is accepted and read back exactly. -/
theorem C72_coplanar (s : Poly n) (hs : ∃ ps first, Built 0 s ps first) (p : Pt n) (i : Nat) (hi : i ≤ s.numCorners)
    (hperp : s.orient.ax1.valid = true → s.orient.ax0.elem ⬝ᵥ s.orient.ax1.elem = 0)
    (hp : p.elem ∈ affineSpan ℝ {x | ∃ j c, s.getCorner j = some c ∧ c.elem = x})
    (he : AddExact s.orient p) :
    ∃ t c, s.addCorner i p 0 = some (true, t) ∧ t.getCorner i = some c ∧ c.elem = p.elem ∧ c.valid = true := by
  obtain ⟨ps, first, hb⟩ := hs
  have hI := built_inv le_rfl hb
  have hne : ∃ j c, s.getCorner j = some c := by
    by_contra hc
    push Not at hc
    have : {x | ∃ j c, s.getCorner j = some c ∧ c.elem = x} = (∅ : Set (Fin n → ℝ)) := by
      ext x; simp only [Set.mem_setOf_eq, Set.mem_empty_iff_false, iff_false]; rintro ⟨j, c, h, -⟩; exact hc j c h
    rw [this, AffineSubspace.span_empty] at hp
    exact hp
  obtain ⟨j0, c0', hj0⟩ := hne
  obtain ⟨_, -, hcv⟩ := getCorner_some hj0
  have hov := (convert_some hcv).1
  -- the point has coordinates in the plane
  have hxy : ∃ x y : ℝ, (s.orient.ax0.valid = true ∨ x = 0) ∧ (s.orient.ax1.valid = true ∨ y = 0) ∧ p.elem = s.orient.at x y := by
    refine affineSpan_induction (p := fun v => ∃ x y : ℝ, (s.orient.ax0.valid = true ∨ x = 0) ∧ (s.orient.ax1.valid = true ∨ y = 0) ∧ v = s.orient.at x y) hp ?_ ?_
    · rintro v ⟨j, c, hj, rfl⟩
      obtain ⟨q, -, hq⟩ := getCorner_some hj
      obtain ⟨-, h1, h2, h3, -⟩ := convert_some hq
      exact ⟨_, _, h1, h2, h3⟩
    · rintro t u v w ⟨x1, y1, a1, b1, rfl⟩ ⟨x2, y2, a2, b2, rfl⟩ ⟨x3, y3, a3, b3, rfl⟩
      refine ⟨t * (x1 - x2) + x3, t * (y1 - y2) + y3, ?_, ?_, ?_⟩
      · by_cases h : s.orient.ax0.valid = true
        · exact Or.inl h
        · right; rw [a1.resolve_left h, a2.resolve_left h, a3.resolve_left h]; ring
      · by_cases h : s.orient.ax1.valid = true
        · exact Or.inl h
        · right; rw [b1.resolve_left h, b2.resolve_left h, b3.resolve_left h]; ring
      · unfold Orient.at
        simp only [vsub_eq_sub, vadd_eq_add]
        module
  obtain ⟨x, y, hx, hy, hpe⟩ := hxy
  have hse : (p.sub s.orient.origin).elem = x • s.orient.ax0.elem + y • s.orient.ax1.elem := by
    rw [Pt.sub_elem, hpe]; unfold Orient.at; abel
  have key : ∃ o p2, s.orient.expand p 0 = (true, o, p2) ∧ o.at (p2.elem 0) (p2.elem 1) = p.elem := by
    unfold Orient.expand
    rw [if_neg (by simp [hov])]
    set start := p.sub s.orient.origin with hst
    have hse' : start.elem = p.elem - s.orient.origin.elem := by rw [hst, Pt.sub_elem]
    obtain ⟨d0, d1, d2, d3⟩ := he
    rw [← hst] at d0 d1 d2 d3
    unfold DotExact at d0 d1 d2 d3
    simp only [mul_zero]
    by_cases h1 : start.dot start ≤ 0
    · refine ⟨s.orient, _, if_pos h1, ?_⟩
      rw [d0] at h1
      have : start.elem = 0 := by
        have := le_antisymm h1 (dot_self_nonneg _)
        exact dotProduct_self_eq_zero.1 this
      rw [hse'] at this
      unfold Orient.at; simp [sub_eq_zero.1 this]
    rw [if_neg h1]
    have h2 : s.orient.ax0.valid = true := by
      rcases hx with h | h
      · exact h
      · by_contra hc
        have h1' : s.orient.ax1.valid ≠ true := fun h => hc (hI.ok.second h)
        apply h1
        rw [Vec.dot_of_zero_left]
        rw [hse, h, hy.resolve_left h1', zero_smul, zero_smul, add_zero]
    rw [if_neg (by simp [h2])]
    have hu0 := hI.ok.unit0 h2
    have ha1 : y * (s.orient.ax0.elem ⬝ᵥ s.orient.ax1.elem) = 0 := by
      rcases hy with h | h
      · rw [hperp h, mul_zero]
      · rw [h, zero_mul]
    have e0 : start.dot s.orient.ax0 = x := by
      rw [d1, hse, add_dotProduct, smul_dotProduct, smul_dotProduct, hu0, dotProduct_comm s.orient.ax1.elem]
      simp only [smul_eq_mul]; linear_combination ha1
    rw [e0] at d2 d3 ⊢
    have es1 : (start - s.orient.ax0.scale x).elem = y • s.orient.ax1.elem := by
      rw [sub_elem', scale_elem, hse]; abel
    by_cases h3 : (start - s.orient.ax0.scale x).dot start ≤ 0
    · refine ⟨s.orient, _, if_pos h3, ?_⟩
      rw [d2, es1, hse, smul_dotProduct, dotProduct_add, dotProduct_smul, dotProduct_smul, dotProduct_comm s.orient.ax1.elem] at h3
      simp only [smul_eq_mul] at h3
      have hy0 : y • s.orient.ax1.elem = 0 := by
        rcases hy with h | h
        · rw [hI.ok.unit1 h] at h3
          have : y = 0 := by
            have h4 : y * (x * (s.orient.ax0.elem ⬝ᵥ s.orient.ax1.elem) + y * 1) = y ^ 2 := by linear_combination x * ha1
            rw [h4] at h3
            exact pow_eq_zero_iff (two_ne_zero) |>.1 (le_antisymm h3 (sq_nonneg y))
          rw [this, zero_smul]
        · rw [h, zero_smul]
      rw [hpe]; unfold Orient.at; rw [hy0]; simp
    rw [if_neg h3]
    have h4 : s.orient.ax1.valid = true := by
      rcases hy with h | h
      · exact h
      · exfalso; apply h3; rw [Vec.dot_of_zero_left]; rw [es1, h, zero_smul]
    rw [if_neg (by simp [h4])]
    have e1 : (start - s.orient.ax0.scale x).dot s.orient.ax1 = y := by
      rw [d3, es1, smul_dotProduct, hI.ok.unit1 h4, smul_eq_mul, mul_one]
    rw [e1]
    have e2 : (start - s.orient.ax0.scale x - s.orient.ax1.scale y).elem = 0 := by
      rw [sub_elem', es1, scale_elem, sub_self]
    refine ⟨s.orient, _, if_pos (by rw [Vec.dot_of_zero_left e2]), ?_⟩
    rw [hpe]; simp
  obtain ⟨o, p2, hk, hat⟩ := key
  have hadd : s.addCorner i p 0 = some (true, ⟨o, insertAt s.poly i p2⟩) := by
    unfold Poly.addCorner Corners.addCorner
    have : i ≤ s.poly.length := hi
    rw [hk]
    simp only [if_pos this, if_true]
    rfl
  obtain ⟨k1, k2, k3, k4, k5, k6, k7, k8, k9, k10⟩ := expand_spec le_rfl hI.ok hk
  have hget : (insertAt s.poly i p2)[i]? = some p2 := by
    have : i ≤ s.poly.length := hi
    unfold insertAt
    rw [List.getElem?_append_right (by rw [List.length_take]; omega), List.length_take, min_eq_left this, Nat.sub_self]
    rfl
  refine ⟨_, ⟨o.at (p2.elem 0) (p2.elem 1), p2.valid⟩, hadd, ?_, hat, k7⟩
  rw [getCorner_of (s := ⟨o, insertAt s.poly i p2⟩) hget]
  exact convert_eq k2 k8 k9

/-! ### A coplanar point that is not stored exactly -/

/-- The unit square corner in space: corners at the origin, `(1, 0, 0)` and `(0, 1, 0)`. -/
def threeCorners : Poly 3 :=
  ⟨⟨⟨0, true⟩, ⟨![1, 0, 0], true⟩, ⟨![0, 1, 0], true⟩⟩, [⟨![0, 0], true⟩, ⟨![1, 0], true⟩, ⟨![0, 1], true⟩]⟩

theorem dot_of_le {u v : Vec n} {M : ℝ} (hu : ∀ i, |u.elem i| ≤ M) (h : 2 * epsilon * M ≤ |u.elem ⬝ᵥ v.elem|) :
    u.dot v = u.elem ⬝ᵥ v.elem := by
  apply Vec.dot_exact
  have hp := epsilon_pos
  rcases n with _ | n
  · have e : maxAbs u.elem = 0 := le_antisymm (maxAbs_le le_rfl fun i => i.elim0) (maxAbs_nonneg _)
    rw [e, min_eq_left (maxAbs_nonneg _), mul_zero]; exact abs_nonneg _
  have : maxAbs u.elem ≤ M := maxAbs_le (le_trans (abs_nonneg _) (hu 0)) hu
  have h2 := min_le_left (maxAbs u.elem) (maxAbs v.elem)
  refine le_trans ?_ h
  exact mul_le_mul_of_nonneg_left (le_trans h2 this) (by linarith)

theorem expand_third : (⟨⟨0, true⟩, ⟨![1, 0, 0], true⟩, Vec.default⟩ : Orient 3).expand ⟨![0, 1, 0], true⟩ epsilon =
    (true, threeCorners.orient, ⟨![0, 1], true⟩) := by
  have he2 := epsilon_lt
  norm_num at he2
  have hs : (⟨![0, 1, 0], true⟩ : Pt 3).sub ⟨0, true⟩ = ⟨![0, 1, 0], true⟩ := by
    ext i
    · fin_cases i <;> simp [Pt.sub]
    · rfl
  have hq : (⟨![0, 1, 0], true⟩ : Vec 3).sqrMag = 1 := by rw [Vec.sqrMag_eq]; simp [dotProduct, Fin.sum_univ_three]
  have hd : (⟨![0, 1, 0], true⟩ : Vec 3).dot ⟨![0, 1, 0], true⟩ = 1 := by
    rw [dot_of_le (M := 1) (fun i => by fin_cases i <;> simp) (by simp [dotProduct, Fin.sum_univ_three]; linarith)]
    simp [dotProduct, Fin.sum_univ_three]
  have hm : (⟨![0, 1, 0], true⟩ : Vec 3).mag = 1 := by unfold Vec.mag; rw [hq, Real.sqrt_one]
  have h0 : (⟨![0, 1, 0], true⟩ : Vec 3).dot ⟨![1, 0, 0], true⟩ = 0 :=
    Vec.dot_of_exact_zero (by simp [dotProduct, Fin.sum_univ_three])
  have h1 : (⟨![0, 1, 0], true⟩ : Vec 3) - (⟨![1, 0, 0], true⟩ : Vec 3).scale 0 = ⟨![0, 1, 0], true⟩ := by
    ext i
    · rw [sub_elem', scale_elem]; simp
    · rfl
  unfold Orient.expand
  rw [if_neg (by simp)]
  simp only [hs, hd, hq, hm, h0, h1]
  rw [if_neg (by linarith), if_neg (by simp), if_neg (by linarith), if_pos (show (Vec.default : Vec 3).valid = false from rfl)]
  have : ((⟨![0, 1, 0], true⟩ : Vec 3).divBy 1).elem = ![0, 1, 0] := by rw [divBy_elem]; simp
  rw [this]
  rfl

/-- It is what three calls of `addCorner` make. -/
theorem threeCorners_built : Built epsilon threeCorners [⟨0, true⟩, ⟨![1, 0, 0], true⟩, ⟨![0, 1, 0], true⟩] (some ⟨0, true⟩) := by
  obtain ⟨s, h1, h2⟩ := twoCorners_built
  have a := Built.add 0 _ (Built.empty (n := 3)) h1
  have b := Built.add 1 _ a h2
  have h3 : twoCorners.addCorner 2 ⟨![0, 1, 0], true⟩ epsilon = some (true, threeCorners) := by
    unfold Poly.addCorner
    rw [show twoCorners.orient = ⟨⟨0, true⟩, ⟨![1, 0, 0], true⟩, Vec.default⟩ from rfl, expand_third]
    rfl
  exact Built.add 2 _ b h3

/-- C72 is false as stated: the tolerance applies to squared lengths, so the coplanar point `(1, 2⁻²⁷, 0)` is accepted and
read back as `(1, 0, 0)`, a displacement of `2⁻²⁷`, more than a million times the tolerance. -/
theorem C72_false : ∃ t c, Built epsilon threeCorners [⟨0, true⟩, ⟨![1, 0, 0], true⟩, ⟨![0, 1, 0], true⟩] (some ⟨0, true⟩) ∧
    threeCorners.addCorner 3 ⟨![1, 1 / 2 ^ 27, 0], true⟩ epsilon = some (true, t) ∧
    t.getCorner 3 = some c ∧ c.elem = ![1, 0, 0] ∧ (1000000 : ℝ) * epsilon < 1 / 2 ^ 27 := by
  have he : epsilon = 30 * 2⁻¹ ^ 52 := by unfold epsilon; norm_num
  have he2 := epsilon_lt
  norm_num at he2
  have hpos := epsilon_pos
  have hs : (⟨![1, 1 / 2 ^ 27, 0], true⟩ : Pt 3).sub ⟨0, true⟩ = ⟨![1, 1 / 2 ^ 27, 0], true⟩ := by
    ext i
    · fin_cases i <;> simp [Pt.sub]
    · rfl
  have hq : (⟨![1, 1 / 2 ^ 27, 0], true⟩ : Vec 3).sqrMag = 1 + 1 / 2 ^ 54 := by
    rw [Vec.sqrMag_eq]; simp [dotProduct, Fin.sum_univ_three]; norm_num
  have hd : (⟨![1, 1 / 2 ^ 27, 0], true⟩ : Vec 3).dot ⟨![1, 1 / 2 ^ 27, 0], true⟩ = 1 + 1 / 2 ^ 54 := by
    have e : (![1, 1 / 2 ^ 27, 0] : Fin 3 → ℝ) ⬝ᵥ ![1, 1 / 2 ^ 27, 0] = 1 + 1 / 2 ^ 54 := by
      simp [dotProduct, Fin.sum_univ_three]; norm_num
    rw [dot_of_le (M := 1) (fun i => by fin_cases i <;> norm_num) (by rw [e, abs_of_pos (by norm_num)]; norm_num; linarith), e]
  have h0 : (⟨![1, 1 / 2 ^ 27, 0], true⟩ : Vec 3).dot ⟨![1, 0, 0], true⟩ = 1 := by
    have e : (![1, 1 / 2 ^ 27, 0] : Fin 3 → ℝ) ⬝ᵥ ![1, 0, 0] = 1 := by simp [dotProduct, Fin.sum_univ_three]
    rw [dot_of_le (M := 1) (fun i => by fin_cases i <;> norm_num) (by rw [e, abs_of_pos (by norm_num)]; linarith), e]
  have h1 : ((⟨![1, 1 / 2 ^ 27, 0], true⟩ : Vec 3) - (⟨![1, 0, 0], true⟩ : Vec 3).scale 1).elem = ![0, 1 / 2 ^ 27, 0] := by
    rw [sub_elem', scale_elem]; funext i; fin_cases i <;> simp
  have h2 : ((⟨![1, 1 / 2 ^ 27, 0], true⟩ : Vec 3) - (⟨![1, 0, 0], true⟩ : Vec 3).scale 1).dot ⟨![1, 1 / 2 ^ 27, 0], true⟩ ≤
      (1 + 1 / 2 ^ 54) * epsilon := by
    refine le_trans (le_abs_self _) (le_trans (Vec.abs_dot_le _ _) ?_)
    rw [h1]
    have e : (![0, 1 / 2 ^ 27, 0] : Fin 3 → ℝ) ⬝ᵥ ![1, 1 / 2 ^ 27, 0] = 1 / 2 ^ 54 := by
      simp [dotProduct, Fin.sum_univ_three]; norm_num
    show |(![0, 1 / 2 ^ 27, 0] : Fin 3 → ℝ) ⬝ᵥ ![1, 1 / 2 ^ 27, 0]| ≤ _
    rw [e, he, abs_of_pos (by norm_num)]; norm_num
  have hx : threeCorners.orient.expand ⟨![1, 1 / 2 ^ 27, 0], true⟩ epsilon = (true, threeCorners.orient, ⟨![1, 0], true⟩) := by
    unfold Orient.expand
    rw [if_neg (by simp [threeCorners])]
    simp only [threeCorners, hs, hd, hq, h0]
    rw [if_neg (by nlinarith), if_neg (by simp), if_pos h2]
  refine ⟨⟨threeCorners.orient, threeCorners.poly ++ [⟨![1, 0], true⟩]⟩, ⟨threeCorners.orient.at ((⟨![1, 0], true⟩ : Pt 2).elem 0) ((⟨![1, 0], true⟩ : Pt 2).elem 1), true⟩,
    threeCorners_built, ?_, ?_, ?_, ?_⟩
  · unfold Poly.addCorner; rw [hx]; rfl
  · exact (getCorner_of (p := ⟨![1, 0], true⟩) rfl).trans (convert_eq (p := ⟨![1, 0], true⟩) rfl (Or.inl rfl) (Or.inl rfl))
  · unfold Orient.at threeCorners; funext i; fin_cases i <;> simp
  · rw [he]; norm_num

/-- The hypotheses of `C72_coplanar` are met by the fourth corner of the unit square. -/
example : AddExact threeCorners.orient ⟨![1, 1, 0], true⟩ ∧
    (![1, 1, 0] : Fin 3 → ℝ) ∈ affineSpan ℝ {x | ∃ j c, threeCorners.getCorner j = some c ∧ c.elem = x} := by
  have he2 := epsilon_lt
  norm_num at he2
  have hs : (⟨![1, 1, 0], true⟩ : Pt 3).sub threeCorners.orient.origin = ⟨![1, 1, 0], true⟩ := by
    ext i
    · fin_cases i <;> simp [Pt.sub, threeCorners]
    · rfl
  have h0 : DotExact (⟨![1, 1, 0], true⟩ : Vec 3) threeCorners.orient.ax0 :=
    dot_of_le (M := 1) (fun i => by fin_cases i <;> simp) (by simp [dotProduct, Fin.sum_univ_three, threeCorners]; linarith)
  have h0' : (⟨![1, 1, 0], true⟩ : Vec 3).dot threeCorners.orient.ax0 = 1 := by
    rw [show _ = _ from h0]; simp [dotProduct, Fin.sum_univ_three, threeCorners]
  have h1 : (⟨![1, 1, 0], true⟩ : Vec 3) - threeCorners.orient.ax0.scale 1 = ⟨![0, 1, 0], true⟩ := by
    ext i
    · rw [sub_elem', scale_elem]; fin_cases i <;> simp [threeCorners]
    · rfl
  refine ⟨⟨?_, ?_, ?_, ?_⟩, ?_⟩
  · rw [hs]
    exact dot_of_le (M := 1) (fun i => by fin_cases i <;> simp) (by simp [dotProduct, Fin.sum_univ_three]; norm_num; linarith)
  · rw [hs]; exact h0
  · rw [hs, h0', h1]
    exact dot_of_le (M := 1) (fun i => by fin_cases i <;> simp) (by simp [dotProduct, Fin.sum_univ_three]; linarith)
  · rw [hs, h0', h1]
    exact dot_of_le (M := 1) (fun i => by fin_cases i <;> simp) (by simp [dotProduct, Fin.sum_univ_three, threeCorners]; linarith)
  · have hc : ∀ j (x : Pt 2), threeCorners.poly.getCorner j = some x →
        threeCorners.orient.at (x.elem 0) (x.elem 1) ∈ affineSpan ℝ {x | ∃ j c, threeCorners.getCorner j = some c ∧ c.elem = x} :=
      fun j x h => subset_affineSpan _ _ ⟨j, _, (getCorner_of h).trans (convert_eq rfl (Or.inl rfl) (Or.inl rfl)), rfl⟩
    have := AffineSubspace.smul_vsub_vadd_mem _ (1 : ℝ) (hc 1 ⟨![1, 0], true⟩ rfl) (hc 0 ⟨![0, 0], true⟩ rfl) (hc 2 ⟨![0, 1], true⟩ rfl)
    convert this using 1
    unfold Orient.at threeCorners
    funext i; fin_cases i <;> simp

end WFMath
