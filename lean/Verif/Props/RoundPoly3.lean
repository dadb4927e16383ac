/- Property theorems C140: polygons in space, computed with rounding. -/
import Verif.Lemmas.RoundAccept
import Verif.Props.PolyAdd

namespace WFMath
open Spec Matrix Rounding
variable {n : Nat}

/-- A history of `addCorner` calls in doubles, some of which may fail: the polygon, the points that were accepted in the order of
their indices, and the point that was accepted first. -/
inductive Built3 (r : Rounding 53) (eps : ℝ) : Poly n → List (Pt n) → Option (Pt n) → Prop
  | empty : Built3 r eps Poly.empty [] none
  | add {s t ps first} (i : Nat) (p : Pt n) : Built3 r eps s ps first → Fl.polyAddCorner r s i p eps = some (true, t) →
      Built3 r eps t (insertAt ps i p) (some (first.getD p))
  | fail {s t ps first} (i : Nat) (p : Pt n) : Built3 r eps s ps first → Fl.polyAddCorner r s i p eps = some (false, t) → Built3 r eps t ps first

/-- A call of `addCorner`, opened. -/
theorem polyAddCorner_true {r : Rounding 53} {s t : Poly n} {i : Nat} {p : Pt n} {eps : ℝ} (h : Fl.polyAddCorner r s i p eps = some (true, t)) :
    ∃ o p2, Fl.expand r s.orient p eps = (true, o, p2) ∧ i ≤ s.poly.length ∧ t = ⟨o, insertAt s.poly i p2⟩ := by
  unfold Fl.polyAddCorner at h
  rcases hx : Fl.expand r s.orient p eps with ⟨b, o, p2⟩
  rw [hx] at h
  simp only at h
  cases b
  · simp at h
  · simp only [if_true, Corners.addCorner] at h
    by_cases hi : i ≤ s.poly.length
    · rw [if_pos hi] at h
      simp only [Option.map_some, Option.some.injEq, Prod.mk.injEq, true_and] at h
      exact ⟨o, p2, rfl, hi, h.symm⟩
    · rw [if_neg hi] at h; simp at h

/-- C140: in doubles too a failed `addCorner` leaves the polygon as it was, and with an index in range the call always returns. -/
theorem C140_fail (r : Rounding 53) (s t : Poly n) (i : Nat) (p : Pt n) (eps : ℝ) :
    (Fl.polyAddCorner r s i p eps = some (false, t) → t = s) ∧ (i ≤ s.numCorners → Fl.polyAddCorner r s i p eps ≠ none) := by
  unfold Fl.polyAddCorner
  rcases hx : Fl.expand r s.orient p eps with ⟨b, o, p2⟩
  cases b
  · have := Fl.expand_fail3 r hx
    refine ⟨fun h => ?_, fun _ => by simp⟩
    simp only [Bool.false_eq_true, if_false, Option.some.injEq, Prod.mk.injEq, true_and] at h
    rw [← h, this]
  · refine ⟨fun h => ?_, fun hi => ?_⟩
    · simp only [if_true, Option.map_eq_some_iff] at h
      obtain ⟨_, _, h⟩ := h
      simp at h
    · have : i ≤ s.poly.length := hi
      simp [Corners.addCorner, this]

/-- What holds after any history of additions. -/
structure Built3Inv (eps : ℝ) (s : Poly n) (ps : List (Pt n)) (first : Option (Pt n)) : Prop where
  ok : Fl.OrientOk3 s.orient
  none_iff : s.orient.origin.valid = false → ps = [] ∧ s.poly = [] ∧ first = none
  some_iff : s.orient.origin.valid = true → ∃ f, first = some f ∧ s.orient.origin.elem = f.elem
  close : List.Forall₂ (fun (x : Pt 2) (p : Pt n) => x.valid = true ∧ s.orient.origin.valid = true ∧
    (s.orient.ax0.valid = true ∨ x.elem 0 = 0) ∧ (s.orient.ax1.valid = true ∨ x.elem 1 = 0) ∧
    (|x.elem 0| ≤ 3 * len (p.elem - s.orient.origin.elem) ∧ |x.elem 1| ≤ 3 * len (p.elem - s.orient.origin.elem)) ∧
    Fl.Near3 eps (Fl.skew s.orient) (len (s.orient.at (x.elem 0) (x.elem 1) - p.elem)) (len (p.elem - s.orient.origin.elem))) s.poly ps
  angle : s.orient.ax1.valid = true → ∃ p ∈ ps, ∃ x : ℝ,
    Fl.skew s.orient * len (p.elem - (s.orient.origin.elem + x • s.orient.ax0.elem)) ≤ 170 * u 53 * len (p.elem - s.orient.origin.elem)
  small : epsilon ≤ eps → Fl.skew s.orient ≤ 2 ^ (-22 : ℤ)

theorem skew_mono {o o' : Orient n} (hok : Fl.OrientOk3 o) (h0 : o.ax0.valid = true → o'.ax0 = o.ax0) (h1 : o.ax1.valid = true → o'.ax1 = o.ax1) :
    Fl.skew o ≤ Fl.skew o' ∧ (o.ax1.valid = true → Fl.skew o' = Fl.skew o) := by
  have key : o.ax1.valid = true → Fl.skew o' = Fl.skew o := fun h => by
    unfold Fl.skew; rw [h1 h, h0 (hok.second h)]
  refine ⟨?_, key⟩
  cases h : o.ax1.valid with
  | true => exact (key h).ge
  | false =>
    have : Fl.skew o = 0 := by unfold Fl.skew; rw [h]; simp
    rw [this]; exact Fl.skew_nonneg _

theorem mem_insertAt {α : Type} {l : List α} {i : Nat} {a b : α} (h : b = a ∨ b ∈ l) : b ∈ insertAt l i a := by
  unfold insertAt
  rcases h with rfl | h
  · simp
  · rw [← List.take_append_drop i l, List.mem_append] at h
    rcases h with h | h <;> simp [h]

theorem built3_inv (r : Rounding 53) (hn : n ≤ 3) {eps : ℝ} (he : 0 ≤ eps) {s : Poly n} {ps : List (Pt n)} {first : Option (Pt n)}
    (h : Built3 r eps s ps first) : Built3Inv eps s ps first := by
  induction h with
  | empty =>
    refine ⟨Fl.orientOk3_empty, fun _ => ⟨rfl, rfl, rfl⟩, fun h => by simp [Poly.empty, Orient.empty, Pt.default] at h, List.Forall₂.nil,
      fun h => by simp [Poly.empty, Orient.empty, Vec.default] at h, fun _ => ?_⟩
    have : Fl.skew (Poly.empty : Poly n).orient = 0 := by unfold Fl.skew; simp [Poly.empty, Orient.empty, Vec.default]
    rw [this]; positivity
  | @fail s t ps first i p hb hf ih =>
    rw [(C140_fail r s t i p eps).1 hf]; exact ih
  | @add s t ps first i p hb hf ih =>
    obtain ⟨o, p2, hx, hi, rfl⟩ := polyAddCorner_true hf
    obtain ⟨k1, k2, k3, k4, k5, k6, k7, k8, k9, k11, k12, k10⟩ := Fl.expand_spec3 r hn he ih.ok hx
    obtain ⟨m1, m2⟩ := skew_mono ih.ok k5 k6
    refine ⟨k1, fun hc => by simp [k2] at hc, fun _ => ?_, ?_, fun hv => ?_, fun hee => ?_⟩
    · cases hv : s.orient.origin.valid with
      | true =>
        obtain ⟨f, hf1, hf2⟩ := ih.some_iff hv
        exact ⟨f, by rw [hf1]; rfl, by show o.origin.elem = _; rw [k3 hv, hf2]⟩
      | false =>
        obtain ⟨-, -, hf1⟩ := ih.none_iff hv
        exact ⟨p, by rw [hf1]; rfl, k4 hv⟩
    · refine forall₂_insertAt ?_ i ⟨k7, k2, k8, k9, ⟨k11, k12⟩, k10⟩
      refine ih.close.imp ?_
      rintro x q ⟨a1, a2, a3, a4, a6, a5⟩
      refine ⟨a1, k2, ?_, ?_, ?_, ?_⟩
      · rcases a3 with h | h
        · exact Or.inl (by rw [k5 h]; exact h)
        · exact Or.inr h
      · rcases a4 with h | h
        · exact Or.inl (by rw [k6 h]; exact h)
        · exact Or.inr h
      · rw [k3 a2]; exact a6
      · rw [at_mono (k3 a2) k5 k6 a3 a4, k3 a2]; exact a5.mono (len_nonneg _) m1
    · cases hv1 : s.orient.ax1.valid with
      | true =>
        obtain ⟨q, hq, x, hqx⟩ := ih.angle hv1
        have ho := ih.ok.first (ih.ok.second hv1)
        refine ⟨q, mem_insertAt (.inr hq), x, ?_⟩
        show Fl.skew o * len (q.elem - (o.origin.elem + x • o.ax0.elem)) ≤ 170 * u 53 * len (q.elem - o.origin.elem)
        rw [m2 hv1, k3 ho, k5 (ih.ok.second hv1)]; exact hqx
      | false =>
        obtain ⟨⟨x, hqx⟩, -⟩ := Fl.expand_skew r hn he ih.ok hx hv1 hv
        have hc0 : s.orient.origin.valid = true := by
          by_contra hc
          rw [Bool.not_eq_true] at hc
          unfold Fl.expand at hx
          rw [if_pos hc] at hx
          simp only [Prod.mk.injEq] at hx
          have hv' : o.ax1.valid = true := hv
          rw [← hx.2.1] at hv'
          simp [hv1] at hv'
        have hc1 : o.ax0.valid = true := k1.second hv
        have : s.orient.ax0.valid = true := by
          by_contra hc
          rw [Bool.not_eq_true] at hc
          unfold Fl.expand at hx
          simp only [hc0, hc, Bool.true_eq_false, if_false, if_true] at hx
          have hv' : o.ax1.valid = true := hv
          split_ifs at hx <;> simp only [Prod.mk.injEq, true_and] at hx <;> rw [← hx.1] at hv' <;> simp [hv1] at hv'
        refine ⟨p, mem_insertAt (.inl rfl), x, ?_⟩
        show Fl.skew o * len (p.elem - (o.origin.elem + x • o.ax0.elem)) ≤ 170 * u 53 * len (p.elem - o.origin.elem)
        rw [k3 hc0, k5 this]; exact hqx
    · show Fl.skew o ≤ _
      cases hv1 : s.orient.ax1.valid with
      | true => rw [m2 hv1]; exact ih.small hee
      | false =>
        cases hv2 : o.ax1.valid with
        | true => exact (Fl.expand_skew r hn he ih.ok hx hv1 hv2).2 hee
        | false =>
          have : Fl.skew o = 0 := by unfold Fl.skew; rw [hv2]; simp
          rw [this]; positivity

/-- C140: after any history of `addCorner` calls in doubles the polygon has as many corners as points were accepted; every corner can be read, is
valid, and is the accepted point up to the square root of the tolerance times the distance from the point accepted first. `δ` is how far
the axes of the plane are from being perpendicular, see `C140_basis` and `C140_angle`. -/
theorem C140_corners (r : Rounding 53) (hn : n ≤ 3) (eps : ℝ) (he : 0 ≤ eps) (s : Poly n) (ps : List (Pt n)) (first : Option (Pt n))
    (h : Built3 r eps s ps first) (δ : ℝ) (hδ : 0 ≤ δ) (hd : s.orient.ax1.valid = true → |s.orient.ax0.elem ⬝ᵥ s.orient.ax1.elem| ≤ δ) :
    s.numCorners = ps.length ∧ s.valid = true ∧
    ∀ i p, ps[i]? = some p → ∃ c f, Fl.polyCorner r s i = some c ∧ c.valid = true ∧ first = some f ∧
      eucl c.elem p.elem ≤ 3 * epsilon + (Real.sqrt ((1 + 2 ^ (-40 : ℤ)) * eps + 2 * δ + 2 ^ (-46 : ℤ)) + 2 ^ (-47 : ℤ)) * eucl p.elem f.elem +
        2 ^ (-51 : ℤ) * eucl f.elem 0 := by
  have hI := built3_inv r hn he h
  refine ⟨hI.close.length_eq, ?_, ?_⟩
  · unfold Poly.valid Corners.polyValid
    rw [List.all_eq_true]
    intro x hx
    obtain ⟨k, hk⟩ := List.getElem?_of_mem hx
    have hlt : k < ps.length := by
      rw [← hI.close.length_eq]; exact (List.getElem?_eq_some_iff.1 hk).1
    have := List.Forall₂.get hI.close (List.getElem?_eq_some_iff.1 hk).1 hlt
    have e : s.poly.get ⟨k, (List.getElem?_eq_some_iff.1 hk).1⟩ = x := (List.getElem?_eq_some_iff.1 hk).2
    rw [e] at this
    exact this.1
  · intro i p hp
    obtain ⟨hlt, hpe⟩ := List.getElem?_eq_some_iff.1 hp
    have hlt' : i < s.poly.length := by rw [hI.close.length_eq]; exact hlt
    have := List.Forall₂.get hI.close hlt' hlt
    obtain ⟨a1, a2, a3, a4, ⟨a6, a7⟩, a5⟩ := this
    obtain ⟨f, hf, hfe⟩ := hI.some_iff a2
    obtain ⟨c, hc1, hc2, hc3⟩ := Fl.convert_spec r hI.ok a2 a3 a4
    have hc : Fl.polyCorner r s i = some c := by
      unfold Fl.polyCorner Corners.getCorner
      rw [List.getElem?_eq_getElem hlt']; exact hc1
    refine ⟨c, f, hc, hc2.trans a1, hf, ?_⟩
    have e : ps.get ⟨i, hlt⟩ = p := hpe
    rw [e] at a5 a6 a7
    rw [hfe] at a5 a6 a7 hc3
    have hsk : Fl.skew s.orient ≤ δ := by
      unfold Fl.skew; split_ifs with hv
      · exact hd hv
      · exact hδ
    have a8 := a5.mono (len_nonneg _) hsk
    unfold Fl.Near3 at a8
    rw [eucl_eq_len, eucl_eq_len, eucl_eq_len, sub_zero]
    have t1 := len_triangle c.elem (s.orient.at ((s.poly.get ⟨i, hlt'⟩).elem 0) ((s.poly.get ⟨i, hlt'⟩).elem 1)) p.elem
    have e47 : (2 : ℝ) ^ (-47 : ℤ) = 64 * u 53 := by rw [Fl.u53]; norm_num
    have e49 : (2 : ℝ) ^ (-49 : ℤ) = 16 * u 53 := by rw [Fl.u53]; norm_num
    have e51 : (2 : ℝ) ^ (-51 : ℤ) = 4 * u 53 := by rw [Fl.u53]; norm_num
    rw [e47, e51]
    rw [e49] at a8
    have hu0 : 0 < u 53 := u_pos
    have b1 := mul_le_mul_of_nonneg_left a6 (show 0 ≤ 5 * u 53 by linarith)
    have b2 := mul_le_mul_of_nonneg_left a7 (show 0 ≤ 3 * u 53 by linarith)
    have b3 := mul_nonneg hu0.le (len_nonneg (p.elem - f.elem))
    have b4 := mul_nonneg hu0.le (len_nonneg f.elem)
    simp only [List.get_eq_getElem] at *
    linarith

/-- C140: the axes of the plane stay nearly unit vectors, and with at least the default tolerance nearly perpendicular. -/
theorem C140_basis (r : Rounding 53) (hn : n ≤ 3) (eps : ℝ) (he : epsilon ≤ eps) (s : Poly n) (ps : List (Pt n)) (first : Option (Pt n))
    (h : Built3 r eps s ps first) :
    (s.orient.ax1.valid = true → s.orient.ax0.valid = true) ∧
    (s.orient.ax0.valid = true → |s.orient.ax0.elem ⬝ᵥ s.orient.ax0.elem - 1| ≤ 2 ^ (-48 : ℤ)) ∧
    (s.orient.ax1.valid = true → |s.orient.ax1.elem ⬝ᵥ s.orient.ax1.elem - 1| ≤ 2 ^ (-48 : ℤ) ∧
      |s.orient.ax0.elem ⬝ᵥ s.orient.ax1.elem| ≤ 2 ^ (-22 : ℤ)) := by
  have hI := built3_inv r hn (epsilon_pos.le.trans he) h
  have e48 : 26 * u 53 ≤ (2 : ℝ) ^ (-48 : ℤ) := by rw [Fl.u53]; norm_num
  refine ⟨hI.ok.second, fun h => (hI.ok.unit0 h).trans e48, fun h => ⟨(hI.ok.unit1 h).trans e48, ?_⟩⟩
  have := hI.small he
  unfold Fl.skew at this
  rwa [if_pos h] at this

/-- C140: how nearly perpendicular the axes are depends on one of the accepted points, the one that made the second axis: the error is a multiple of the
unit roundoff, times the distance of that point from the first one, divided by its distance from the line of the first axis. -/
theorem C140_angle (r : Rounding 53) (hn : n ≤ 3) (eps : ℝ) (he : 0 ≤ eps) (s : Poly n) (ps : List (Pt n)) (f : Pt n)
    (h : Built3 r eps s ps (some f)) (hv : s.orient.ax1.valid = true) :
    ∃ p ∈ ps, ∃ x : ℝ, |s.orient.ax0.elem ⬝ᵥ s.orient.ax1.elem| * eucl p.elem (f.elem + x • s.orient.ax0.elem) ≤ 2 ^ (-45 : ℤ) * eucl p.elem f.elem := by
  have hI := built3_inv r hn he h
  obtain ⟨p, hp, x, hx⟩ := hI.angle hv
  obtain ⟨f', hf, hfe⟩ := hI.some_iff (hI.ok.first (hI.ok.second hv))
  cases hf
  have e45 : 170 * u 53 ≤ (2 : ℝ) ^ (-45 : ℤ) := by rw [Fl.u53]; norm_num
  refine ⟨p, hp, x, ?_⟩
  rw [eucl_eq_len, eucl_eq_len]
  unfold Fl.skew at hx
  rw [if_pos hv, hfe] at hx
  exact hx.trans (mul_le_mul_of_nonneg_right e45 (len_nonneg _))

/-- C140: with at least the default tolerance a corner is read back as the accepted point up to `sqrt (eps + 2⁻²⁰)` times the distance from the point accepted
first, `2⁻⁵¹` times the distance of that point from the origin and `3 ε`. -/
theorem C140_default (r : Rounding 53) (hn : n ≤ 3) (eps : ℝ) (he : epsilon ≤ eps) (he1 : eps ≤ 1) (s : Poly n) (ps : List (Pt n)) (first : Option (Pt n))
    (h : Built3 r eps s ps first) :
    s.numCorners = ps.length ∧ s.valid = true ∧
    ∀ i p, ps[i]? = some p → ∃ c f, Fl.polyCorner r s i = some c ∧ c.valid = true ∧ first = some f ∧
      eucl c.elem p.elem ≤ 3 * epsilon + Real.sqrt (eps + 2 ^ (-20 : ℤ)) * eucl p.elem f.elem + 2 ^ (-51 : ℤ) * eucl f.elem 0 := by
  have he0 := epsilon_pos.le.trans he
  obtain ⟨h1, h2, h3⟩ := C140_corners r hn eps he0 s ps first h (2 ^ (-22 : ℤ)) (by positivity) fun hv => ((C140_basis r hn eps he s ps first h).2.2 hv).2
  refine ⟨h1, h2, fun i p hp => ?_⟩
  obtain ⟨c, f, a1, a2, a3, a4⟩ := h3 i p hp
  refine ⟨c, f, a1, a2, a3, a4.trans ?_⟩
  have k : Real.sqrt ((1 + 2 ^ (-40 : ℤ)) * eps + 2 * 2 ^ (-22 : ℤ) + 2 ^ (-46 : ℤ)) + 2 ^ (-47 : ℤ) ≤ Real.sqrt (eps + 2 ^ (-20 : ℤ)) := by
    have h0 : 0 ≤ (1 + 2 ^ (-40 : ℤ)) * eps + 2 * 2 ^ (-22 : ℤ) + 2 ^ (-46 : ℤ) := by positivity
    have hs := Real.sq_sqrt h0
    have hs0 := Real.sqrt_nonneg ((1 + 2 ^ (-40 : ℤ)) * eps + 2 * 2 ^ (-22 : ℤ) + 2 ^ (-46 : ℤ))
    have hs2 : Real.sqrt ((1 + 2 ^ (-40 : ℤ)) * eps + 2 * 2 ^ (-22 : ℤ) + 2 ^ (-46 : ℤ)) ≤ 2 := by
      refine Real.sqrt_le_iff.2 ⟨by norm_num, ?_⟩
      norm_num; linarith
    generalize Real.sqrt ((1 + 2 ^ (-40 : ℤ)) * eps + 2 * 2 ^ (-22 : ℤ) + 2 ^ (-46 : ℤ)) = q at *
    refine Real.le_sqrt_of_sq_le ?_
    norm_num at hs ⊢
    nlinarith
  have h0 : 0 ≤ eucl p.elem f.elem := by rw [eucl_eq_len]; exact len_nonneg _
  have := mul_le_mul_of_nonneg_right k h0
  linarith

/-- C140: the point accepted first, and every accepted copy of it, is read back exactly when its coordinates are doubles. -/
theorem C140_first (r : Rounding 53) (hn : n ≤ 3) (eps : ℝ) (he : 0 ≤ eps) (s : Poly n) (ps : List (Pt n)) (f : Pt n)
    (h : Built3 r eps s ps (some f)) (hf : ∀ j, IsFl 53 (f.elem j)) (i : Nat) (p : Pt n) (hp : ps[i]? = some p) (hpf : p.elem = f.elem) :
    ∃ c, Fl.polyCorner r s i = some c ∧ c.valid = true ∧ c.elem = p.elem := by
  have hI := built3_inv r hn he h
  obtain ⟨hlt, hpe⟩ := List.getElem?_eq_some_iff.1 hp
  have hlt' : i < s.poly.length := by rw [hI.close.length_eq]; exact hlt
  obtain ⟨a1, a2, a3, a4, ⟨a6, a7⟩, a5⟩ := List.Forall₂.get hI.close hlt' hlt
  obtain ⟨f', hf', hfe⟩ := hI.some_iff a2
  cases hf'
  have e : ps.get ⟨i, hlt⟩ = p := hpe
  rw [e, hfe, hpf, sub_self, len_zero, mul_zero, abs_nonpos_iff] at a6 a7
  have hc : Fl.polyCorner r s i = Fl.convert r s.orient (s.poly.get ⟨i, hlt'⟩) := by
    unfold Fl.polyCorner Corners.getCorner
    rw [List.getElem?_eq_getElem hlt']; rfl
  rw [hc]
  unfold Fl.convert
  rw [if_neg (by simp [a2]), if_neg (fun h => h.2 a6), if_neg (fun h => h.2 a7)]
  refine ⟨_, rfl, a1, ?_⟩
  have z : ∀ (q : Pt n) (v : Vec n), q.elem = f.elem → (Fl.addVec r q (Fl.scale r v 0)).elem = f.elem := by
    intro q v hq
    funext j
    show r (q.elem j + r (v.elem j * 0)) = _
    rw [mul_zero, r.zero, add_zero, hq, r.of_fl (hf j)]
  rw [hpf]
  simp only [a6, a7]
  split_ifs
  · exact z _ _ (z _ _ hfe)
  · exact z _ _ hfe
  · exact z _ _ hfe
  · exact hfe

/-- C140: a point near the plane of the axes is accepted, when the tolerance is not too small for how far the axes are from being perpendicular: `η` is how far the point is
from the plane, relative to its distance from the point accepted first. -/
theorem C140_accept (r : Rounding 53) (hn : n ≤ 3) (eps' : ℝ) (he' : 0 ≤ eps') (s : Poly n) (ps : List (Pt n)) (f : Pt n)
    (h : Built3 r eps' s ps (some f)) (h1 : s.orient.ax1.valid = true) (δ η : ℝ) (hδ : |s.orient.ax0.elem ⬝ᵥ s.orient.ax1.elem| ≤ δ) (hδ1 : δ ≤ 1 / 10)
    (hη0 : 0 ≤ η) (hη : η ≤ 1 / 100) (p : Pt n) (x y : ℝ)
    (hp : eucl p.elem (f.elem + x • s.orient.ax0.elem + y • s.orient.ax1.elem) ≤ η * eucl p.elem f.elem)
    (eps : ℝ) (he : 2 * δ + 4 * η + 2 ^ (-44 : ℤ) ≤ eps) (i : Nat) (hi : i ≤ s.numCorners) :
    ∃ t, Fl.polyAddCorner r s i p eps = some (true, t) ∧ t.numCorners = s.numCorners + 1 := by
  have hI := built3_inv r hn he' h
  have h0 := hI.ok.second h1
  have hov := hI.ok.first h0
  obtain ⟨f', hf', hfe⟩ := hI.some_iff hov
  cases hf'
  rw [eucl_eq_len, eucl_eq_len, ← hfe] at hp
  have := Fl.expand_accept r hn hI.ok h1 (δ := δ) (by unfold Fl.skew; rw [if_pos h1]; exact hδ) hδ1 hη0 hη hp he
  unfold Fl.polyAddCorner
  rcases hx : Fl.expand r s.orient p eps with ⟨b, o, p2⟩
  rw [hx] at this
  cases (show b = true from this)
  have hi' : i ≤ s.poly.length := hi
  refine ⟨⟨o, insertAt s.poly i p2⟩, by rw [← Option.some.injEq]; simp [Corners.addCorner, hi']; rfl, ?_⟩
  show (insertAt s.poly i p2).length = s.poly.length + 1
  unfold insertAt
  simp; omega

/-! ### A case: the unit triangle in space -/

theorem Fl.dot_of_sum (r : Rounding 53) (u v : Vec 3) (h0 : r (u.elem 0 * v.elem 0) = u.elem 0 * v.elem 0)
    (h1 : r (u.elem 1 * v.elem 1) = u.elem 1 * v.elem 1) (h2 : r (u.elem 2 * v.elem 2) = u.elem 2 * v.elem 2)
    (h3 : r (u.elem 0 * v.elem 0 + u.elem 1 * v.elem 1) = u.elem 0 * v.elem 0 + u.elem 1 * v.elem 1)
    (h4 : r (u.elem 0 * v.elem 0 + u.elem 1 * v.elem 1 + u.elem 2 * v.elem 2) = u.elem 0 * v.elem 0 + u.elem 1 * v.elem 1 + u.elem 2 * v.elem 2) :
    Fl.dot r u v = u.dot v := by
  have e : Fl.sum r (fun i => r (u.elem i * v.elem i)) = ∑ i, u.elem i * v.elem i := by
    rw [Fl.sum_three, h0, h1, h2, zero_add, h0, h3, h4]
    simp [Fin.sum_univ_three]
  unfold Fl.dot Vec.dot
  simp only [e]

theorem Fl.threeCorners_built (r : Rounding 53) :
    Built3 r epsilon threeCorners [⟨0, true⟩, ⟨![1, 0, 0], true⟩, ⟨![0, 1, 0], true⟩] (some ⟨0, true⟩) := by
  have he2 := epsilon_lt
  norm_num at he2
  have r1 : r 1 = 1 := r.of_fl (IsFl.one Fl.pos53)
  have rd : Fl.dot r (⟨![1, 0, 0], true⟩ : Vec 3) ⟨![1, 0, 0], true⟩ = 1 := by
    rw [Fl.dot_of_sum r _ _ (by simp [r1]) (by simp [r.zero]) (by simp [r.zero]) (by simp [r1]) (by simp [r1])]
    rw [dot_of_le (M := 1) (fun i => by fin_cases i <;> simp) (by simp [dotProduct, Fin.sum_univ_three]; linarith)]
    simp [dotProduct, Fin.sum_univ_three]
  have rd' : Fl.dot r (⟨![0, 1, 0], true⟩ : Vec 3) ⟨![0, 1, 0], true⟩ = 1 := by
    rw [Fl.dot_of_sum r _ _ (by simp [r.zero]) (by simp [r1]) (by simp [r.zero]) (by simp [r1]) (by simp [r1])]
    rw [dot_of_le (M := 1) (fun i => by fin_cases i <;> simp) (by simp [dotProduct, Fin.sum_univ_three]; linarith)]
    simp [dotProduct, Fin.sum_univ_three]
  have rz : Fl.dot r (⟨![0, 1, 0], true⟩ : Vec 3) ⟨![1, 0, 0], true⟩ = 0 := by
    rw [Fl.dot_of_sum r _ _ (by simp [r.zero]) (by simp [r.zero]) (by simp [r.zero]) (by simp [r.zero]) (by simp [r.zero])]
    exact Vec.dot_of_exact_zero (by simp [dotProduct, Fin.sum_univ_three])
  have s1 : Fl.ptSub r (⟨![1, 0, 0], true⟩ : Pt 3) ⟨0, true⟩ = ⟨![1, 0, 0], true⟩ := by
    ext i
    · fin_cases i <;> simp [Fl.ptSub, r1, r.zero]
    · rfl
  have s2 : Fl.ptSub r (⟨![0, 1, 0], true⟩ : Pt 3) ⟨0, true⟩ = ⟨![0, 1, 0], true⟩ := by
    ext i
    · fin_cases i <;> simp [Fl.ptSub, r1, r.zero]
    · rfl
  have q1 : Fl.sqrMag r (⟨![1, 0, 0], true⟩ : Vec 3) = 1 := by unfold Fl.sqrMag; rw [Fl.sum_three]; simp [r1, r.zero]
  have q2 : Fl.sqrMag r (⟨![0, 1, 0], true⟩ : Vec 3) = 1 := by unfold Fl.sqrMag; rw [Fl.sum_three]; simp [r1, r.zero]
  have m1 : Fl.mag r (⟨![1, 0, 0], true⟩ : Vec 3) = 1 := by unfold Fl.mag; rw [q1, Real.sqrt_one, r1]
  have m2 : Fl.mag r (⟨![0, 1, 0], true⟩ : Vec 3) = 1 := by unfold Fl.mag; rw [q2, Real.sqrt_one, r1]
  have v1 : (Fl.divBy r (⟨![1, 0, 0], true⟩ : Vec 3) 1).elem = ![1, 0, 0] := by
    funext i; fin_cases i <;> simp [Fl.divBy, r1, r.zero]
  have v2 : (Fl.divBy r (⟨![0, 1, 0], true⟩ : Vec 3) 1).elem = ![0, 1, 0] := by
    funext i; fin_cases i <;> simp [Fl.divBy, r1, r.zero]
  have w : Fl.sub r (⟨![0, 1, 0], true⟩ : Vec 3) (Fl.scale r ⟨![1, 0, 0], true⟩ 0) = ⟨![0, 1, 0], true⟩ := by
    ext i
    · fin_cases i <;> simp [Fl.sub, Fl.scale, r1, r.zero]
    · rfl
  have re' : ¬ (1 : ℝ) ≤ r epsilon := by
    have : r epsilon ≤ 2 * epsilon := by
      have h1 := r.err Fl.pos53 epsilon
      rw [abs_of_pos epsilon_pos] at h1
      have h2 := (_root_.abs_le.1 h1).2
      have h3 : u 53 ≤ 1 := by rw [Fl.u53]; norm_num
      have h4 := mul_le_mul_of_nonneg_right h3 epsilon_pos.le
      linarith
    linarith
  have a1 : Fl.polyAddCorner r (Poly.empty : Poly 3) 0 ⟨0, true⟩ epsilon = some (true, ⟨⟨⟨0, true⟩, Vec.default, Vec.default⟩, [⟨![0, 0], true⟩]⟩) := rfl
  have a2 : Fl.polyAddCorner r (⟨⟨⟨0, true⟩, Vec.default, Vec.default⟩, [⟨![0, 0], true⟩]⟩ : Poly 3) 1 ⟨![1, 0, 0], true⟩ epsilon = some (true, twoCorners) := by
    have hx : Fl.expand r (⟨⟨0, true⟩, Vec.default, Vec.default⟩ : Orient 3) ⟨![1, 0, 0], true⟩ epsilon =
        (true, ⟨⟨0, true⟩, ⟨![1, 0, 0], true⟩, Vec.default⟩, ⟨![1, 0], true⟩) := by
      unfold Fl.expand
      rw [if_neg (by simp)]
      simp only [s1, rd, q1, m1, one_mul]
      rw [if_neg re', if_pos (show (Vec.default : Vec 3).valid = false from rfl), v1]
    unfold Fl.polyAddCorner
    rw [hx]
    rfl
  have a3 : Fl.polyAddCorner r twoCorners 2 ⟨![0, 1, 0], true⟩ epsilon = some (true, threeCorners) := by
    have hx : Fl.expand r (⟨⟨0, true⟩, ⟨![1, 0, 0], true⟩, Vec.default⟩ : Orient 3) ⟨![0, 1, 0], true⟩ epsilon = (true, threeCorners.orient, ⟨![0, 1], true⟩) := by
      unfold Fl.expand
      rw [if_neg (by simp)]
      simp only [s2, rd', q2, m2, one_mul, rz, w]
      rw [if_neg re', if_neg (by simp), if_neg re', if_pos (show (Vec.default : Vec 3).valid = false from rfl), v2]
      rfl
    unfold Fl.polyAddCorner
    rw [show twoCorners.orient = ⟨⟨0, true⟩, ⟨![1, 0, 0], true⟩, Vec.default⟩ from rfl, hx]
    rfl
  exact Built3.add 2 _ (Built3.add 1 _ (Built3.add 0 _ Built3.empty a1) a2) a3

theorem threeCorners_perp : |threeCorners.orient.ax0.elem ⬝ᵥ threeCorners.orient.ax1.elem| = 0 := by
  simp [threeCorners, dotProduct, Fin.sum_univ_three]

example (r : Rounding 53) := C140_fail r threeCorners threeCorners 3 ⟨![0, 0, 1], true⟩ epsilon
example (r : Rounding 53) := C140_corners r (by norm_num) epsilon epsilon_pos.le _ _ _ (Fl.threeCorners_built r) 0 le_rfl fun _ => threeCorners_perp.le
example (r : Rounding 53) := C140_basis r (by norm_num) epsilon le_rfl _ _ _ (Fl.threeCorners_built r)
example (r : Rounding 53) := C140_angle r (by norm_num) epsilon epsilon_pos.le _ _ _ (Fl.threeCorners_built r) rfl
example (r : Rounding 53) := C140_default r (by norm_num) epsilon le_rfl (by have := epsilon_lt; norm_num at this; linarith) _ _ _ (Fl.threeCorners_built r)
example (r : Rounding 53) := C140_first r (by norm_num) epsilon epsilon_pos.le _ _ _ (Fl.threeCorners_built r) (fun _ => IsFl.zero) 0 ⟨0, true⟩ rfl rfl
example (r : Rounding 53) := C140_accept r (by norm_num) epsilon epsilon_pos.le _ _ _ (Fl.threeCorners_built r) rfl 0 0 threeCorners_perp.le (by norm_num) le_rfl (by norm_num)
  ⟨![1 / 3, 5, 0], true⟩ (1 / 3) 5 (by
    rw [eucl_eq_len, zero_mul]
    have : (![1 / 3, 5, 0] : Fin 3 → ℝ) - (0 + (1 / 3 : ℝ) • threeCorners.orient.ax0.elem + (5 : ℝ) • threeCorners.orient.ax1.elem) = 0 := by
      funext i; fin_cases i <;> simp [threeCorners]
    exact (congrArg len this).le.trans len_zero.le) (2 ^ (-44 : ℤ)) (by norm_num) 3 (by simp [Poly.numCorners, threeCorners])

end WFMath
