/- Property theorems C112: a segment in space and a polygon in it. -/
import Verif.Props.PolyPairs
import Verif.Props.PolyAdd

namespace WFMath
open Spec Matrix
variable {n : Nat}

/-- What a call of `expand` that makes an axis stores. -/
theorem expand_new {o o' : Orient n} {pd : Pt n} {p : Pt 2} {eps : ℝ} (he : 0 ≤ eps) (h : o.expand pd eps = (true, o', p)) :
    (o.origin.valid = false → p.elem = ![0, 0]) ∧
    (o.ax0.valid = false → o'.ax0.valid = true → p.elem 0 ≠ 0 ∧ p.elem 1 = 0) ∧
    (o.ax1.valid = false → o'.ax1.valid = true → p.elem 1 ≠ 0) := by
  unfold Orient.expand at h
  by_cases h0 : o.origin.valid = false
  · rw [if_pos h0] at h
    simp only [Prod.mk.injEq, true_and] at h
    obtain ⟨rfl, rfl⟩ := h
    exact ⟨fun _ => rfl, fun a b => by simp [a] at b, fun a b => by simp [a] at b⟩
  rw [if_neg h0] at h
  generalize pd.sub o.origin = start at *
  have hpos : ∀ v w : Vec n, ¬ v.dot w ≤ w.sqrMag * eps → v.mag ≠ 0 := by
    intro v w hv hm
    apply hv
    have : v.elem = 0 := by
      by_contra hc
      exact (Vec.mag_pos.2 hc).ne' hm
    rw [Vec.dot_of_zero_left this]
    exact mul_nonneg (by rw [Vec.sqrMag_eq]; exact dot_self_nonneg _) he
  simp only at h
  split_ifs at h with h1 h2 h3 h4 h5
  all_goals simp only [Prod.mk.injEq, true_and, false_and, reduceCtorEq] at h
  all_goals obtain ⟨rfl, rfl⟩ := h
  all_goals refine ⟨fun a => absurd a h0, fun a b => ?_, fun a b => ?_⟩
  all_goals first
    | (simp [a] at b; done)
    | exact absurd a h2
    | exact ⟨hpos _ _ h1, rfl⟩
    | exact hpos _ _ h3

/-- What holds of the corners after any history of additions: the first one is at the origin of the plane, and each axis is used by one of them. -/
theorem built_used {eps : ℝ} (he : 0 ≤ eps) {s : Poly n} {ps : List (Pt n)} {first : Option (Pt n)} (h : Built eps s ps first) :
    (s.orient.origin.valid = true → ∃ q ∈ s.poly, q.elem = ![0, 0]) ∧
    (s.orient.ax0.valid = true → ∃ q ∈ s.poly, q.elem 0 ≠ 0 ∧ q.elem 1 = 0) ∧
    (s.orient.ax1.valid = true → ∃ q ∈ s.poly, q.elem 1 ≠ 0) := by
  induction h with
  | empty => simp [Poly.empty, Orient.empty, Pt.default, Vec.default]
  | @fail s t ps first i p hb hf ih =>
    rw [(C72_fail s t i p eps).1 hf]; exact ih
  | @add s t ps first i p hb hf ih =>
    obtain ⟨o, p2, hx, hi, rfl⟩ := addCorner_true hf
    obtain ⟨k1, k2, k3, k4, k5, k6, k7, k8, k9, k10⟩ := expand_spec he (built_inv he hb).ok hx
    obtain ⟨g1, g2, g3⟩ := expand_new he hx
    have hnew : p2 ∈ insertAt s.poly i p2 := by unfold insertAt; simp
    have hold : ∀ q ∈ s.poly, q ∈ insertAt s.poly i p2 := by
      intro q hq
      unfold insertAt
      rw [← List.take_append_drop i s.poly] at hq
      rcases List.mem_append.1 hq with hq | hq
      · exact List.mem_append_left _ hq
      · exact List.mem_append_right _ (List.mem_cons_of_mem _ hq)
    obtain ⟨i1, i2, i3⟩ := ih
    refine ⟨fun _ => ?_, fun hv => ?_, fun hv => ?_⟩
    · cases hv : s.orient.origin.valid with
      | true => obtain ⟨q, hq, e⟩ := i1 hv; exact ⟨q, hold q hq, e⟩
      | false => exact ⟨p2, hnew, g1 hv⟩
    · cases hv' : s.orient.ax0.valid with
      | true => obtain ⟨q, hq, e⟩ := i2 hv'; exact ⟨q, hold q hq, e⟩
      | false => exact ⟨p2, hnew, g2 hv' hv⟩
    · cases hv' : s.orient.ax1.valid with
      | true => obtain ⟨q, hq, e⟩ := i3 hv'; exact ⟨q, hold q hq, e⟩
      | false => exact ⟨p2, hnew, g3 hv' hv⟩

/-- A point on the axis of a polygon on a line keeps its place. -/
theorem expand_line {o : Orient n} (h0 : o.origin.valid = true) (h1 : o.ax0.valid = true) (hu : o.ax0.elem ⬝ᵥ o.ax0.elem = 1)
    {p : Pt n} {x : ℝ} (hp : p.elem = o.origin.elem + x • o.ax0.elem) (hx : x = 0 ∨ 2 * epsilon ≤ |x|) :
    o.expand p epsilon = (true, o, ⟨![x, 0], true⟩) := by
  have he := epsilon_pos
  have he2 := epsilon_lt
  norm_num at he2
  have hs : (p.sub o.origin).elem = x • o.ax0.elem := by rw [Pt.sub_elem, hp]; abel
  unfold Orient.expand
  rw [if_neg (by simp [h0])]
  generalize p.sub o.origin = start at *
  have hq : start.sqrMag = x ^ 2 := by
    rw [Vec.sqrMag_eq, hs, smul_dotProduct, dotProduct_smul, hu]; simp only [smul_eq_mul]; ring
  have hl : len start.elem = |x| := by rw [hs, len_smul]; unfold len; rw [hu, Real.sqrt_one, mul_one]
  have hM : ∀ i, |start.elem i| ≤ |x| := fun i => by rw [← hl]; exact abs_le_len _ i
  rcases hx with rfl | hx
  · have : start.elem = 0 := by rw [hs, zero_smul]
    simp only
    rw [Vec.dot_of_zero_left this, if_pos (by rw [hq]; norm_num)]
  have hx0 : 0 < |x| := lt_of_lt_of_le (by linarith) hx
  have d1 : start.dot start = x ^ 2 := by
    rw [dot_of_le hM, ← Vec.sqrMag_eq, hq]
    rw [← Vec.sqrMag_eq, hq, abs_of_nonneg (sq_nonneg x), ← sq_abs x, sq]
    exact mul_le_mul_of_nonneg_right hx hx0.le
  have d2 : start.dot o.ax0 = x := by
    have e : start.elem ⬝ᵥ o.ax0.elem = x := by rw [hs, smul_dotProduct, hu, smul_eq_mul, mul_one]
    rw [dot_of_le hM, e]
    rw [e]
    nlinarith
  have d3 : (start - o.ax0.scale x).elem = 0 := by rw [sub_elem', scale_elem, hs, sub_self]
  have hx2 : 0 < x ^ 2 := by rw [← sq_abs]; positivity
  simp only [d1, hq, d2, Vec.dot_of_zero_left d3]
  rw [if_neg (by push Not; nlinarith), if_neg (by simp [h1]), if_pos (by positivity)]

theorem segSet_at {o : Orient n} {p q1 q2 : Pt 2} {v1 v2 : Bool} (h : p.elem ∈ segSet ⟨q1, q2⟩) :
    o.at (p.elem 0) (p.elem 1) ∈ segSet ⟨⟨o.at (q1.elem 0) (q1.elem 1), v1⟩, ⟨o.at (q2.elem 0) (q2.elem 1), v2⟩⟩ := by
  obtain ⟨t, h0, h1, e⟩ := h
  refine ⟨t, h0, h1, ?_⟩
  rw [e]
  unfold Orient.at
  simp only [Pi.add_apply, Pi.smul_apply, smul_eq_mul]
  module

/-- C112, acceptance: for a polygon in space made by adding corners, one by one, to an empty one, and a segment each end of which is either at the place of the first corner or
at least `2 ε` away from it, `Contains(segment, polygon)` is true when all corners are points of the segment. -/
theorem C112_accepts (eps : ℝ) (he : 0 ≤ eps) (s : Poly n) (ps : List (Pt n)) (first : Option (Pt n)) (h : Built eps s ps first) (g : Seg n)
    (hf : ∀ f, first = some f → (g.p1.elem = f.elem ∨ 2 * epsilon ≤ eucl g.p1.elem f.elem) ∧ (g.p2.elem = f.elem ∨ 2 * epsilon ≤ eucl g.p2.elem f.elem))
    (hc : polyCornerSet s ⊆ segSet g) : containsSPolyN g s false = true := by
  have hpos := epsilon_pos
  unfold containsSPolyN
  by_cases hl : s.poly.length = 0
  · rw [if_pos hl]
  rw [if_neg hl]
  have hI := built_inv he h
  obtain ⟨u0, u1, u2⟩ := built_used he h
  have hov : s.orient.origin.valid = true := by
    by_contra hcon
    exact hl (by rw [(hI.none_iff (by simpa using hcon)).2.1]; rfl)
  obtain ⟨f, hff, hfe⟩ := hI.some_iff hov
  obtain ⟨hf1, hf2⟩ := hf f hff
  rw [← hfe] at hf1 hf2
  -- the corners in space
  have hval : ∀ q ∈ s.poly, (s.orient.ax0.valid = true ∨ q.elem 0 = 0) ∧ (s.orient.ax1.valid = true ∨ q.elem 1 = 0) := by
    intro q hq
    obtain ⟨k, hk, e⟩ := List.getElem_of_mem hq
    have := List.Forall₂.get hI.close hk (by rw [← hI.close.length_eq]; exact hk)
    rw [List.get_eq_getElem, e] at this
    exact ⟨this.2.2.1, this.2.2.2.1⟩
  have hin : ∀ q ∈ s.poly, s.orient.at (q.elem 0) (q.elem 1) ∈ segSet g := by
    intro q hq
    obtain ⟨k, hk⟩ := List.getElem?_of_mem hq
    apply hc
    exact ⟨k, ⟨s.orient.at (q.elem 0) (q.elem 1), q.valid⟩, by rw [getCorner_of (p := q) hk]; exact convert_eq hov (hval q hq).1 (hval q hq).2, rfl⟩
  obtain ⟨q0, hq0, e0⟩ := u0 hov
  have ho : s.orient.origin.elem ∈ segSet g := by
    have := hin q0 hq0
    rw [e0] at this
    simpa [Orient.at] using this
  obtain ⟨t0, t0a, t0b, ht0⟩ := ho
  -- a second place fixes the direction of the segment
  have hdir : s.orient.ax0.valid = true → ∃ k : ℝ, g.p2.elem - g.p1.elem = k • s.orient.ax0.elem := by
    intro hv
    obtain ⟨q1, hq1, e1, e1'⟩ := u1 hv
    obtain ⟨t1, -, -, ht1⟩ := hin q1 hq1
    unfold Orient.at at ht1
    rw [e1', zero_smul, add_zero] at ht1
    have hx : q1.elem 0 • s.orient.ax0.elem = (t1 - t0) • (g.p2.elem - g.p1.elem) := by
      have : q1.elem 0 • s.orient.ax0.elem = (s.orient.origin.elem + q1.elem 0 • s.orient.ax0.elem) - s.orient.origin.elem := by abel
      rw [this, ht1, ht0]; module
    have ht : t1 - t0 ≠ 0 := by
      intro ht
      rw [ht, zero_smul, smul_eq_zero] at hx
      rcases hx with hx | hx
      · exact e1 hx
      · have := hI.ok.unit0 hv
        rw [hx] at this
        simp at this
    refine ⟨(t1 - t0)⁻¹ * q1.elem 0, ?_⟩
    rw [mul_smul, hx, smul_smul, inv_mul_cancel₀ ht, one_smul]
  have ha1 : s.orient.ax1.valid = false := by
    by_contra hv
    rw [Bool.not_eq_false] at hv
    have hv0 := hI.ok.second hv
    obtain ⟨k, hk⟩ := hdir hv0
    obtain ⟨q2, hq2, e2⟩ := u2 hv
    obtain ⟨t2, -, -, ht2⟩ := hin q2 hq2
    have hy : q2.elem 1 • s.orient.ax1.elem = ((t2 - t0) * k - q2.elem 0) • s.orient.ax0.elem := by
      have : q2.elem 1 • s.orient.ax1.elem = (s.orient.at (q2.elem 0) (q2.elem 1) - s.orient.origin.elem) - q2.elem 0 • s.orient.ax0.elem := by
        unfold Orient.at; abel
      have e : ((t2 - t0) * k - q2.elem 0) • s.orient.ax0.elem = (t2 - t0) • (g.p2.elem - g.p1.elem) - q2.elem 0 • s.orient.ax0.elem := by
        rw [sub_smul, mul_smul, ← hk]
      rw [this, ht2, e]
      congr 1
      conv_lhs => rw [ht0]
      module
    have hy' : s.orient.ax1.elem = ((q2.elem 1)⁻¹ * ((t2 - t0) * k - q2.elem 0)) • s.orient.ax0.elem := by
      rw [mul_smul, ← hy, smul_smul, inv_mul_cancel₀ e2, one_smul]
    generalize (q2.elem 1)⁻¹ * ((t2 - t0) * k - q2.elem 0) = m at *
    have p1 := hI.ok.unit1 hv
    have p2 := hI.ok.perp hv
    have p0 := hI.ok.unit0 hv0
    rw [hy', smul_dotProduct, dotProduct_smul, p0, smul_eq_mul, smul_eq_mul, mul_one] at p1
    rw [hy', dotProduct_smul, p0, smul_eq_mul, mul_one] at p2
    have he2 := epsilon_lt
    norm_num at he2
    have : |m| * |m| = 1 := by rw [← abs_mul, p1, abs_one]
    nlinarith [abs_nonneg m]
  have hy0 : ∀ q ∈ s.poly, q.elem 1 = 0 := fun q hq => (hval q hq).2.resolve_left (by simp [ha1])
  -- lengths along a unit axis
  have hdist : ∀ (a : Fin n → ℝ) (x : ℝ) (p : Pt n), a ⬝ᵥ a = 1 → p.elem = s.orient.origin.elem + x • a →
      (p.elem = s.orient.origin.elem ∨ 2 * epsilon ≤ eucl p.elem s.orient.origin.elem) → x = 0 ∨ 2 * epsilon ≤ |x| := by
    intro a x p ha hp hh
    have e : eucl p.elem s.orient.origin.elem = |x| := by
      rw [eucl_eq_len, hp, add_sub_cancel_left, len_smul]; unfold len; rw [ha, Real.sqrt_one, mul_one]
    rw [e] at hh
    rcases hh with hh | hh
    · left
      rw [hh] at e
      have : eucl s.orient.origin.elem s.orient.origin.elem = 0 := by rw [eucl_eq_len, sub_self, len_zero]
      rw [this] at e
      exact abs_eq_zero.1 e.symm
    · exact Or.inr hh
  cases hv : s.orient.ax0.valid with
  | true =>
    obtain ⟨k, hk⟩ := hdir hv
    have hu := hI.ok.unit0 hv
    have p1 : g.p1.elem = s.orient.origin.elem + (-(t0 * k)) • s.orient.ax0.elem := by
      rw [neg_smul, mul_smul, ← hk, ht0]; module
    have p2 : g.p2.elem = s.orient.origin.elem + ((1 - t0) * k) • s.orient.ax0.elem := by
      rw [mul_smul, ← hk, ht0]; module
    rw [expand_line hov hv hu p1 (hdist _ _ _ hu p1 hf1)]
    simp only [if_neg (by simp : ¬ true = false)]
    rw [expand_line hov hv hu p2 (hdist _ _ _ hu p2 hf2)]
    simp only [if_neg (by simp : ¬ true = false)]
    unfold containsSPoly
    rw [List.all_eq_true]
    intro q hq
    apply C61_accepts
    obtain ⟨t, ta, tb, ht⟩ := hin q hq
    refine ⟨t, ta, tb, ?_⟩
    have hx : q.elem 0 • s.orient.ax0.elem = ((t - t0) * k) • s.orient.ax0.elem := by
      rw [mul_smul, ← hk]
      have : q.elem 0 • s.orient.ax0.elem = s.orient.at (q.elem 0) (q.elem 1) - s.orient.origin.elem := by
        unfold Orient.at; rw [hy0 q hq, zero_smul, add_zero]; abel
      rw [this, ht, ht0]; module
    have hx' : q.elem 0 = (t - t0) * k := by
      have := congrArg (· ⬝ᵥ s.orient.ax0.elem) hx
      simpa [smul_dotProduct, hu] using this
    apply ext2
    · simp only [Pi.add_apply, Pi.smul_apply, smul_eq_mul, cons_val_zero]
      rw [hx']; ring
    · simp [hy0 q hq]
  | false =>
    have hz : ∀ q ∈ s.poly, q.elem = ![0, 0] := by
      intro q hq
      apply ext2
      · exact (hval q hq).1.resolve_left (by simp [hv])
      · exact hy0 q hq
    have hnone : ∀ (p : Pt n), ∃ o q, s.orient.expand p epsilon = (true, o, q) := by
      intro p
      unfold Orient.expand
      rw [if_neg (by simp [hov])]
      simp only
      split_ifs <;> exact ⟨_, _, rfl⟩
    rcases hf1 with hp1 | hp1
    · -- the first end is at the place of the polygon
      have hx : s.orient.expand g.p1 epsilon = (true, s.orient, ⟨![0, 0], true⟩) := by
        have : (g.p1.sub s.orient.origin).elem = 0 := by rw [Pt.sub_elem, hp1, sub_self]
        unfold Orient.expand
        rw [if_neg (by simp [hov])]
        simp only
        rw [Vec.dot_of_zero_left this, if_pos]
        exact mul_nonneg (by rw [Vec.sqrMag_eq]; exact dot_self_nonneg _) hpos.le
      rw [hx]
      simp only [if_neg (by simp : ¬ true = false)]
      obtain ⟨o, q2, h2⟩ := hnone g.p2
      rw [h2]
      simp only [if_neg (by simp : ¬ true = false)]
      unfold containsSPoly
      rw [List.all_eq_true]
      intro q hq
      apply C61_accepts
      refine ⟨0, le_rfl, zero_le_one, ?_⟩
      rw [hz q hq]; simp
    · -- otherwise the segment gives the direction
      have hs : (g.p1.sub s.orient.origin).elem = g.p1.elem - s.orient.origin.elem := Pt.sub_elem _ _
      have hlen : (g.p1.sub s.orient.origin).mag = eucl g.p1.elem s.orient.origin.elem := by rw [mag_eq_len, hs, eucl_eq_len]
      have hd : (g.p1.sub s.orient.origin).dot (g.p1.sub s.orient.origin) = eucl g.p1.elem s.orient.origin.elem ^ 2 := by
        have e : (g.p1.sub s.orient.origin).elem ⬝ᵥ (g.p1.sub s.orient.origin).elem = eucl g.p1.elem s.orient.origin.elem ^ 2 := by
          rw [← len_sq, hs, eucl_eq_len]
        rw [dot_of_le (M := eucl g.p1.elem s.orient.origin.elem), e]
        · intro i; rw [eucl_eq_len, ← hs]; exact abs_le_len _ i
        · rw [e, abs_of_nonneg (sq_nonneg _), sq]
          exact mul_le_mul_of_nonneg_right hp1 (by linarith)
      have hq : (g.p1.sub s.orient.origin).sqrMag = eucl g.p1.elem s.orient.origin.elem ^ 2 := by
        rw [Vec.sqrMag_eq, ← len_sq, hs, eucl_eq_len]
      have he2 := epsilon_lt
      norm_num at he2
      generalize hL : eucl g.p1.elem s.orient.origin.elem = L at *
      have hL0 : 0 < L := by linarith
      have hx : s.orient.expand g.p1 epsilon =
          (true, { s.orient with ax0 := ⟨((g.p1.sub s.orient.origin).divBy (g.p1.sub s.orient.origin).mag).elem, true⟩ }, ⟨![L, 0], true⟩) := by
        unfold Orient.expand
        rw [if_neg (by simp [hov])]
        simp only
        rw [hd, hq, if_neg (by push Not; nlinarith [sq_nonneg L, pow_pos hL0 2]), if_pos hv, hlen]
      rw [hx]
      simp only [if_neg (by simp : ¬ true = false)]
      have ht : t0 ≠ 0 := by
        intro ht
        rw [ht] at ht0
        have : g.p1.elem = s.orient.origin.elem := by rw [ht0]; simp
        rw [this, eucl_eq_len, sub_self, len_zero] at hL
        linarith
      have hne : g.p1.elem - s.orient.origin.elem ≠ 0 := by
        intro h0
        rw [eucl_eq_len, h0, len_zero] at hL
        linarith
      have hu : (((g.p1.sub s.orient.origin).divBy (g.p1.sub s.orient.origin).mag).elem) ⬝ᵥ (((g.p1.sub s.orient.origin).divBy (g.p1.sub s.orient.origin).mag).elem) = 1 := by
        rw [divBy_elem, mag_eq_len]
        exact unit_of_div (by rw [hs]; exact hne)
      have p2 : g.p2.elem = s.orient.origin.elem + (-((1 - t0) / t0 * L)) • ((g.p1.sub s.orient.origin).divBy (g.p1.sub s.orient.origin).mag).elem := by
        rw [divBy_elem, hlen, hs, smul_smul, ht0]
        rw [show -((1 - t0) / t0 * L) * L⁻¹ = -((1 - t0) / t0) by field_simp]
        funext i
        simp only [Pi.add_apply, Pi.smul_apply, Pi.sub_apply, smul_eq_mul]
        field_simp
        ring
      rw [expand_line (o := { s.orient with ax0 := ⟨((g.p1.sub s.orient.origin).divBy (g.p1.sub s.orient.origin).mag).elem, true⟩ }) hov rfl hu p2 (hdist _ _ _ hu p2 hf2)]
      simp only [if_neg (by simp : ¬ true = false)]
      unfold containsSPoly
      rw [List.all_eq_true]
      intro q hq
      apply C61_accepts
      refine ⟨t0, t0a, t0b, ?_⟩
      rw [hz q hq]
      apply ext2
      · simp only [Pi.add_apply, Pi.smul_apply, smul_eq_mul, cons_val_zero]
        field_simp; ring
      · simp

/-- Axes that are nearly perpendicular nearly keep lengths. -/
theorem axes_len {o : Orient n} (h : OrientOk o) {a b : ℝ} (ha : o.ax0.valid = true ∨ a = 0) (hb : o.ax1.valid = true ∨ b = 0) :
    len (a • o.ax0.elem + b • o.ax1.elem) ≤ 2 * Real.sqrt (a ^ 2 + b ^ 2) ∧ Real.sqrt (a ^ 2 + b ^ 2) ≤ 2 * len (a • o.ax0.elem + b • o.ax1.elem) := by
  have he := epsilon_pos
  have he2 := epsilon_lt
  norm_num at he2
  have key : |len (a • o.ax0.elem + b • o.ax1.elem) ^ 2 - (a ^ 2 + b ^ 2)| ≤ (a ^ 2 + b ^ 2) / 2 := by
    have e : len (a • o.ax0.elem + b • o.ax1.elem) ^ 2 =
        a ^ 2 * (o.ax0.elem ⬝ᵥ o.ax0.elem) + b ^ 2 * (o.ax1.elem ⬝ᵥ o.ax1.elem) + 2 * (a * b) * (o.ax0.elem ⬝ᵥ o.ax1.elem) := by
      rw [len_sq]
      simp only [add_dotProduct, dotProduct_add, smul_dotProduct, dotProduct_smul, smul_eq_mul, dotProduct_comm o.ax1.elem o.ax0.elem]
      ring
    have ea : a ^ 2 * (o.ax0.elem ⬝ᵥ o.ax0.elem) = a ^ 2 := by
      rcases ha with h1 | rfl
      · rw [h.unit0 h1, mul_one]
      · ring
    have eb : b ^ 2 * (o.ax1.elem ⬝ᵥ o.ax1.elem) = b ^ 2 := by
      rcases hb with h1 | rfl
      · rw [h.unit1 h1, mul_one]
      · ring
    have ec : |2 * (a * b) * (o.ax0.elem ⬝ᵥ o.ax1.elem)| ≤ (a ^ 2 + b ^ 2) / 2 := by
      rcases hb with h1 | rfl
      · have h2 := h.perp h1
        rw [abs_mul]
        have h3 : |2 * (a * b)| ≤ a ^ 2 + b ^ 2 := by
          rw [abs_le]; constructor <;> nlinarith [sq_nonneg (a - b), sq_nonneg (a + b)]
        calc |2 * (a * b)| * |o.ax0.elem ⬝ᵥ o.ax1.elem| ≤ (a ^ 2 + b ^ 2) * (2 * epsilon) := mul_le_mul h3 h2 (abs_nonneg _) (by positivity)
          _ ≤ (a ^ 2 + b ^ 2) * (1 / 2) := mul_le_mul_of_nonneg_left (by linarith) (by positivity)
          _ = _ := by ring
      · simp; positivity
    rw [e, ea, eb, add_sub_cancel_left]
    exact ec
  have hl := len_nonneg (a • o.ax0.elem + b • o.ax1.elem)
  have hs := Real.sqrt_nonneg (a ^ 2 + b ^ 2)
  have hq := Real.sq_sqrt (show 0 ≤ a ^ 2 + b ^ 2 by positivity)
  generalize len (a • o.ax0.elem + b • o.ax1.elem) = l at *
  generalize Real.sqrt (a ^ 2 + b ^ 2) = r at *
  rw [← hq] at key
  obtain ⟨k1, k2⟩ := abs_le.1 key
  constructor
  · apply le_of_sq_le_sq _ (by positivity); nlinarith
  · apply le_of_sq_le_sq _ (by positivity); nlinarith

/-- How far the ends of a segment may be from the places where a polygon whose first corner is `f` puts them. -/
noncomputable def endError (g : Seg n) (f : Pt n) : ℝ := 2 * epsilon + Real.sqrt (3 * epsilon) * max (eucl g.p1.elem f.elem) (eucl g.p2.elem f.elem)

/-- C112, rejection: for a polygon in space made by adding corners, when the proper test accepts, all points of the polygon are near the segment: within `e + 4 √(2 ε) (l + 2 e)`
where `l` is the length of the segment and `e = 2 ε + √(3 ε)` times the distance of the first corner from the farther end of the segment. -/
theorem C112_rejects (eps : ℝ) (he : 0 ≤ eps) (s : Poly n) (ps : List (Pt n)) (f : Pt n) (h : Built eps s ps (some f)) (g : Seg n)
    (hg : containsSPolyN g s true = true) : ∀ x ∈ convexHull ℝ (polyCornerSet s), ∃ y ∈ segSet g,
      eucl x y ≤ endError g f + 4 * Real.sqrt (2 * epsilon) * (eucl g.p1.elem g.p2.elem + 2 * endError g f) := by
  have hpos := epsilon_pos
  have hI := built_inv he h
  have hov : s.orient.origin.valid = true := by
    by_contra hcon
    have := (hI.none_iff (by simpa using hcon)).2.2
    simp at this
  obtain ⟨f', hff, hfe⟩ := hI.some_iff hov
  rw [Option.some.injEq] at hff
  subst hff
  have hsub : polyCornerSet s ⊆ {x | ∃ y ∈ segSet g, eucl x y ≤ endError g f + 4 * Real.sqrt (2 * epsilon) * (eucl g.p1.elem g.p2.elem + 2 * endError g f)} := by
    rintro x ⟨i, c, hc, rfl⟩
    obtain ⟨q, hq, hcv⟩ := getCorner_some hc
    obtain ⟨-, v0, v1, hce, -⟩ := convert_some hcv
    have hmem : q ∈ s.poly := List.mem_of_getElem? hq
    unfold containsSPolyN at hg
    rw [if_neg (by intro hl; rw [List.length_eq_zero_iff] at hl; rw [hl] at hmem; simp at hmem)] at hg
    rcases hx1 : s.orient.expand g.p1 epsilon with ⟨b1, o1, q1⟩
    rw [hx1] at hg
    cases b1
    · simp at hg
    simp only [if_neg (by simp : ¬ true = false)] at hg
    rcases hx2 : o1.expand g.p2 epsilon with ⟨b2, o2, q2⟩
    rw [hx2] at hg
    cases b2
    · simp at hg
    simp only [if_neg (by simp : ¬ true = false)] at hg
    unfold containsSPoly at hg
    rw [List.all_eq_true] at hg
    obtain ⟨z, ⟨t, ta, tb, hz⟩, hd⟩ := C61_rejects_proper _ _ (hg q hmem)
    obtain ⟨k1, k2, k3, k4, k5, k6, k7, k8, k9, k10⟩ := expand_spec hpos.le hI.ok hx1
    obtain ⟨j1, j2, j3, j4, j5, j6, j7, j8, j9, j10⟩ := expand_spec hpos.le k1 hx2
    -- everything in the last plane
    have org : o2.origin.elem = f.elem := by rw [j3 k2, k3 hov, hfe]
    have v0' : o1.ax0.valid = true ∨ q.elem 0 = 0 := v0.imp (fun h => by rw [k5 h]; exact h) id
    have v1' : o1.ax1.valid = true ∨ q.elem 1 = 0 := v1.imp (fun h => by rw [k6 h]; exact h) id
    have w0 : o2.ax0.valid = true ∨ q.elem 0 = 0 := v0'.imp (fun h => by rw [j5 h]; exact h) id
    have w1 : o2.ax1.valid = true ∨ q.elem 1 = 0 := v1'.imp (fun h => by rw [j6 h]; exact h) id
    have a0 : o2.ax0.valid = true ∨ q1.elem 0 = 0 := k8.imp (fun h => by rw [j5 h]; exact h) id
    have a1 : o2.ax1.valid = true ∨ q1.elem 1 = 0 := k9.imp (fun h => by rw [j6 h]; exact h) id
    have hce' : c.elem = o2.at (q.elem 0) (q.elem 1) := by
      rw [hce, at_mono (j3 k2) j5 j6 v0' v1', at_mono (k3 hov) k5 k6 v0 v1]
    have he1 : len (o2.at (q1.elem 0) (q1.elem 1) - g.p1.elem) ≤ endError g f := by
      rw [at_mono (j3 k2) j5 j6 k8 k9]
      refine (k10.le hpos.le (len_nonneg _)).trans ?_
      unfold endError
      rw [show epsilon + 2 * epsilon = 3 * epsilon by ring, k3 hov, hfe, ← eucl_eq_len]
      have := mul_le_mul_of_nonneg_left (le_max_left (eucl g.p1.elem f.elem) (eucl g.p2.elem f.elem)) (Real.sqrt_nonneg (3 * epsilon))
      linarith
    have he2 : len (o2.at (q2.elem 0) (q2.elem 1) - g.p2.elem) ≤ endError g f := by
      refine (j10.le hpos.le (len_nonneg _)).trans ?_
      unfold endError
      rw [show epsilon + 2 * epsilon = 3 * epsilon by ring, org, ← eucl_eq_len]
      have := mul_le_mul_of_nonneg_left (le_max_right (eucl g.p1.elem f.elem) (eucl g.p2.elem f.elem)) (Real.sqrt_nonneg (3 * epsilon))
      linarith
    generalize endError g f = e at *
    have hdiff : ∀ x y x' y' : ℝ, o2.at x y - o2.at x' y' = (x - x') • o2.ax0.elem + (y - y') • o2.ax1.elem := by
      intro x y x' y'; unfold Orient.at; module
    -- the length of the segment in the plane
    have l12 : eucl q1.elem q2.elem ≤ 2 * (eucl g.p1.elem g.p2.elem + 2 * e) := by
      have b0 : o2.ax0.valid = true ∨ q1.elem 0 - q2.elem 0 = 0 := by
        rcases a0 with h | h
        · exact Or.inl h
        · rcases j8 with h' | h'
          · exact Or.inl h'
          · right; rw [h, h', sub_self]
      have b1 : o2.ax1.valid = true ∨ q1.elem 1 - q2.elem 1 = 0 := by
        rcases a1 with h | h
        · exact Or.inl h
        · rcases j9 with h' | h'
          · exact Or.inl h'
          · right; rw [h, h', sub_self]
      have h1 := (axes_len j1 b0 b1).2
      rw [← hdiff] at h1
      have h2 : eucl q1.elem q2.elem = Real.sqrt ((q1.elem 0 - q2.elem 0) ^ 2 + (q1.elem 1 - q2.elem 1) ^ 2) := by
        unfold eucl; rw [Fin.sum_univ_two]
      rw [h2]
      refine h1.trans (mul_le_mul_of_nonneg_left ?_ (by norm_num))
      have h3 : o2.at (q1.elem 0) (q1.elem 1) - o2.at (q2.elem 0) (q2.elem 1) =
          (g.p1.elem - g.p2.elem) + ((o2.at (q1.elem 0) (q1.elem 1) - g.p1.elem) - (o2.at (q2.elem 0) (q2.elem 1) - g.p2.elem)) := by abel
      rw [h3, eucl_eq_len]
      refine (len_add_le _ _).trans ?_
      have := len_sub_le (o2.at (q1.elem 0) (q1.elem 1) - g.p1.elem) (o2.at (q2.elem 0) (q2.elem 1) - g.p2.elem)
      linarith
    refine ⟨(1 - t) • g.p1.elem + t • g.p2.elem, ⟨t, ta, tb, rfl⟩, ?_⟩
    have z0 : o2.ax0.valid = true ∨ q.elem 0 - z 0 = 0 := by
      rcases w0 with h | h
      · exact Or.inl h
      · rcases a0 with h' | h'
        · exact Or.inl h'
        · rcases j8 with h'' | h''
          · exact Or.inl h''
          · right; rw [hz]; simp [h, h', h'']
    have z1 : o2.ax1.valid = true ∨ q.elem 1 - z 1 = 0 := by
      rcases w1 with h | h
      · exact Or.inl h
      · rcases a1 with h' | h'
        · exact Or.inl h'
        · rcases j9 with h'' | h''
          · exact Or.inl h''
          · right; rw [hz]; simp [h, h', h'']
    have hqz := (axes_len j1 z0 z1).1
    rw [← hdiff] at hqz
    have hqz' : eucl q.elem z = Real.sqrt ((q.elem 0 - z 0) ^ 2 + (q.elem 1 - z 1) ^ 2) := by unfold eucl; rw [Fin.sum_univ_two]
    rw [← hqz'] at hqz
    have hzat : o2.at (z 0) (z 1) = (1 - t) • o2.at (q1.elem 0) (q1.elem 1) + t • o2.at (q2.elem 0) (q2.elem 1) := by
      rw [hz]; unfold Orient.at; simp only [Pi.add_apply, Pi.smul_apply, smul_eq_mul]; module
    have h4 : c.elem - ((1 - t) • g.p1.elem + t • g.p2.elem) = (o2.at (q.elem 0) (q.elem 1) - o2.at (z 0) (z 1)) +
        ((1 - t) • (o2.at (q1.elem 0) (q1.elem 1) - g.p1.elem) + t • (o2.at (q2.elem 0) (q2.elem 1) - g.p2.elem)) := by
      rw [hce', hzat]; module
    rw [eucl_eq_len, h4]
    refine (len_add_le _ _).trans ?_
    have h5 := len_add_le ((1 - t) • (o2.at (q1.elem 0) (q1.elem 1) - g.p1.elem)) (t • (o2.at (q2.elem 0) (q2.elem 1) - g.p2.elem))
    rw [len_smul, len_smul, abs_of_nonneg ta, abs_of_nonneg (by linarith : 0 ≤ 1 - t)] at h5
    have h6 := mul_le_mul_of_nonneg_left he1 (by linarith : 0 ≤ 1 - t)
    have h7 := mul_le_mul_of_nonneg_left he2 ta
    have h8 := mul_le_mul_of_nonneg_left l12 (Real.sqrt_nonneg (2 * epsilon))
    linarith
  exact fun x hx => convexHull_min hsub (convex_near_seg g _) hx

/-! ### A concrete case -/

/-- A segment that sticks out on both sides of the polygon with the two corners `(0, 0, 0)` and `(1, 0, 0)`. -/
def longSeg : Seg 3 := ⟨⟨![-1, 0, 0], true⟩, ⟨![2, 0, 0], true⟩⟩

theorem twoCorners_history : Built epsilon twoCorners [⟨0, true⟩, ⟨![1, 0, 0], true⟩] (some ⟨0, true⟩) := by
  obtain ⟨s, h1, h2⟩ := twoCorners_built
  exact Built.add 1 _ (Built.add 0 _ (Built.empty (n := 3)) h1) h2

theorem longSeg_ends {x : ℝ} (hx : 1 ≤ |x|) : 2 * epsilon ≤ eucl ![x, 0, 0] (0 : Fin 3 → ℝ) := by
  have he2 := epsilon_lt
  norm_num at he2
  have : eucl ![x, 0, 0] (0 : Fin 3 → ℝ) = |x| := by unfold eucl; simp [Fin.sum_univ_three, Real.sqrt_sq_eq_abs]
  rw [this]; linarith

theorem longSeg_corners : polyCornerSet twoCorners ⊆ segSet longSeg := by
  rintro x ⟨i, c, hc, rfl⟩
  obtain ⟨q, hq, hcv⟩ := getCorner_some hc
  obtain ⟨-, v0, v1, hce, -⟩ := convert_some hcv
  have hmem : q ∈ twoCorners.poly := List.mem_of_getElem? hq
  have : q = ⟨![0, 0], true⟩ ∨ q = ⟨![1, 0], true⟩ := by simpa [twoCorners] using hmem
  rw [hce]
  rcases this with rfl | rfl
  · exact ⟨1 / 3, by norm_num, by norm_num, by funext j; fin_cases j <;> simp [Orient.at, twoCorners, longSeg] <;> norm_num⟩
  · exact ⟨2 / 3, by norm_num, by norm_num, by funext j; fin_cases j <;> simp [Orient.at, twoCorners, longSeg] <;> norm_num⟩

example : containsSPolyN longSeg twoCorners false = true :=
  C112_accepts epsilon epsilon_pos.le twoCorners _ _ twoCorners_history longSeg
    (fun f hf => by
      obtain rfl := Option.some.inj hf
      exact ⟨Or.inr (longSeg_ends (by norm_num)), Or.inr (longSeg_ends (by norm_num))⟩) longSeg_corners

theorem longSeg_proper : containsSPolyN longSeg twoCorners true = true := by
  have hu : twoCorners.orient.ax0.elem ⬝ᵥ twoCorners.orient.ax0.elem = 1 := by simp [twoCorners, dotProduct, Fin.sum_univ_three]
  have he2 := epsilon_lt
  norm_num at he2
  unfold containsSPolyN
  rw [if_neg (by simp [twoCorners])]
  rw [expand_line (o := twoCorners.orient) (x := -1) rfl rfl hu (by funext j; fin_cases j <;> simp [twoCorners, longSeg]) (Or.inr (by norm_num; linarith))]
  simp only [if_neg (by simp : ¬ true = false)]
  rw [expand_line (o := twoCorners.orient) (x := 2) rfl rfl hu (by funext j; fin_cases j <;> simp [twoCorners, longSeg]) (Or.inr (by norm_num; linarith))]
  simp only [if_neg (by simp : ¬ true = false)]
  have hex : ∀ a b : ℝ, |a| ≤ 2 → 2 ≤ |a * b| → DotExact (⟨![a, 0], true⟩ : Vec 2) ⟨![b, 0], true⟩ := by
    intro a b ha hb
    apply dot_of_le (M := 2)
    · intro i; fin_cases i
      · exact ha
      · simp
    · have e : (![a, 0] : Fin 2 → ℝ) ⬝ᵥ ![b, 0] = a * b := by simp [dotProduct, Fin.sum_univ_two]
      show 2 * epsilon * 2 ≤ |(![a, 0] : Fin 2 → ℝ) ⬝ᵥ ![b, 0]|
      rw [e]; linarith
  have hin : ∀ x : ℝ, x = 0 ∨ x = 1 → interSP ⟨⟨![-1, 0], true⟩, ⟨![2, 0], true⟩⟩ (⟨![x, 0], true⟩ : Pt 2) true = true := by
    intro x hx
    refine (C61_accepts_proper _ _).1 ⟨(x + 1) / 3, ?_, ?_, ?_⟩ ?_ ?_ ?_
    · rcases hx with rfl | rfl <;> norm_num
    · rcases hx with rfl | rfl <;> norm_num
    · apply ext2
      · simp; ring
      · simp
    · intro h; have := congrFun h 0; rcases hx with rfl | rfl <;> norm_num at this
    · intro h; have := congrFun h 0; rcases hx with rfl | rfl <;> norm_num at this
    · have e1 : (⟨![-1, 0], true⟩ : Pt 2).sub ⟨![x, 0], true⟩ = ⟨![-1 - x, 0], true⟩ := by
        ext i
        · fin_cases i <;> simp [Pt.sub]
        · rfl
      have e2 : (⟨![2, 0], true⟩ : Pt 2).sub ⟨![x, 0], true⟩ = ⟨![2 - x, 0], true⟩ := by
        ext i
        · fin_cases i <;> simp [Pt.sub]
        · rfl
      rw [e1, e2]
      apply hex
      · rcases hx with rfl | rfl <;> norm_num
      · rcases hx with rfl | rfl <;> norm_num
  unfold containsSPoly
  rw [List.all_eq_true]
  intro q hq
  have : q = ⟨![0, 0], true⟩ ∨ q = ⟨![1, 0], true⟩ := by simpa [twoCorners] using hq
  rcases this with rfl | rfl
  · exact hin 0 (Or.inl rfl)
  · exact hin 1 (Or.inr rfl)

example : ∀ x ∈ convexHull ℝ (polyCornerSet twoCorners), ∃ y ∈ segSet longSeg, eucl x y ≤ endError longSeg ⟨0, true⟩ +
    4 * Real.sqrt (2 * epsilon) * (eucl longSeg.p1.elem longSeg.p2.elem + 2 * endError longSeg ⟨0, true⟩) :=
  C112_rejects epsilon epsilon_pos.le twoCorners _ _ twoCorners_history longSeg longSeg_proper

end WFMath
