/- Lemmas on taking a corner out of a polygon in space. -/
import Verif.Lemmas.PolyExpand

namespace WFMath
open Matrix
variable {n : Nat}

/-- A plane point can be converted to space. -/
def Placed (o : Orient n) (x : Pt 2) : Prop :=
  o.origin.valid = true ∧ (o.ax0.valid = true ∨ x.elem 0 = 0) ∧ (o.ax1.valid = true ∨ x.elem 1 = 0)

theorem ldexp_pos {e : ℤ} : 0 < ldexp epsilon e := by
  have := epsilon_pos; unfold ldexp; positivity

theorem reduceEps_pos (ps : Corners 2) : 0 < Orient.reduceEps ps := by
  cases ps <;> exact ldexp_pos

theorem equal_ratio {a b : ℝ} (hb : b ≠ 0) (ha : a ≠ 0) (h : equal a b epsilon = true) : |a - b| ≤ 2 * epsilon * |b| := by
  unfold equal at h
  have h1 := of_decide_eq_true h
  have h2 := scaleEpsilon_le epsilon_pos.le ha hb
  have h3 := min_le_right |a| |b|
  have := epsilon_pos
  nlinarith

/-- When the scan runs to its end no axis was found to be alone, and every corner is within tolerance of the first one or in
the direction of the recorded ratio. -/
theorem scan_done {dbg axis2 : Bool} {eps : ℝ} (he : 0 < eps) {first : Pt 2} {ps : Corners 2} :
    ∀ {g : Bool} {r : ℝ} {s0 s1 got : Bool} {ratio : ℝ}, (g = true → r ≠ 0) →
    Orient.scan dbg axis2 eps first ps false false g r = .done s0 s1 got ratio →
    s0 = false ∧ s1 = false ∧ (g = true → got = true ∧ ratio = r) ∧ (got = true → g = true ∨ axis2 = true) ∧
    ∀ p ∈ ps, (p.sub first).sqrMag < eps * eps ∨
      (got = true ∧ |ratio * (p.sub first).elem 0 - (p.sub first).elem 1| ≤ 2 * epsilon * |(p.sub first).elem 1|) := by
  have hp := epsilon_pos
  induction ps with
  | nil =>
    intro g r s0 s1 got ratio _ h
    simp only [Orient.scan, Orient.Scan.done.injEq] at h
    obtain ⟨rfl, rfl, rfl, rfl⟩ := h
    exact ⟨rfl, rfl, fun h => ⟨h, rfl⟩, fun h => Or.inl h, by simp⟩
  | cons p ps ih =>
    intro g r s0 s1 got ratio hg h
    unfold Orient.scan at h
    simp only at h
    by_cases h1 : (p.sub first).sqrMag < eps * eps
    · rw [if_pos h1] at h
      obtain ⟨a, b, c, d, e⟩ := ih hg h
      refine ⟨a, b, c, d, ?_⟩
      intro x hx
      rcases List.mem_cons.1 hx with rfl | hx
      · exact Or.inl h1
      · exact e x hx
    rw [if_neg h1] at h
    by_cases h2 : axis2 = false
    · rw [if_pos h2] at h; cases h
    rw [if_neg h2] at h
    by_cases h3 : |(p.sub first).elem 0| < eps
    · exfalso
      simp only [h3, true_and, if_true, Bool.false_eq_true, false_or, true_or] at h
      split_ifs at h
    by_cases h4 : |(p.sub first).elem 1| < eps
    · exfalso
      simp only [h3, h4, false_and, true_and, if_true, if_false, Bool.false_eq_true, false_or, or_true] at h
      split_ifs at h
    simp only [h3, h4, false_and, if_false, Bool.false_eq_true, or_self] at h
    push Not at h3 h4
    have n0 : (p.sub first).elem 0 ≠ 0 := fun hc => by rw [hc, abs_zero] at h3; linarith
    have n1 : (p.sub first).elem 1 ≠ 0 := fun hc => by rw [hc, abs_zero] at h4; linarith
    have nr : (p.sub first).elem 1 / (p.sub first).elem 0 ≠ 0 := div_ne_zero n1 n0
    cases g
    · simp only [if_true] at h
      obtain ⟨a, b, c, d, e⟩ := ih (fun _ => nr) h
      obtain ⟨c1, c2⟩ := c rfl
      refine ⟨a, b, fun h => by simp at h, fun _ => Or.inr (by simpa using h2), ?_⟩
      intro x hx
      rcases List.mem_cons.1 hx with rfl | hx
      · right; refine ⟨c1, ?_⟩
        rw [c2, div_mul_cancel₀ _ n0, sub_self, abs_zero]; positivity
      · exact e x hx
    · simp only [Bool.true_eq_false, if_false] at h
      by_cases h5 : equal r ((p.sub first).elem 1 / (p.sub first).elem 0) epsilon = false
      · rw [if_pos h5] at h; cases h
      rw [if_neg h5, ] at h
      rw [Bool.not_eq_false] at h5
      obtain ⟨a, b, c, d, e⟩ := ih hg h
      obtain ⟨c1, c2⟩ := c rfl
      refine ⟨a, b, c, d, ?_⟩
      intro x hx
      rcases List.mem_cons.1 hx with rfl | hx
      · right; refine ⟨c1, ?_⟩
        rw [c2]
        have h6 := equal_ratio nr (hg rfl) h5
        have h7 := mul_le_mul_of_nonneg_right h6 (abs_nonneg ((x.sub first).elem 0))
        rw [← abs_mul, sub_mul, div_mul_cancel₀ _ n0, mul_assoc, ← abs_mul, div_mul_cancel₀ _ n0] at h7
        exact h7
      · exact e x hx

theorem scan_release {axis2 : Bool} {eps : ℝ} {first : Pt 2} {ps : Corners 2} :
    ∀ {s0 s1 g : Bool} {r : ℝ}, Orient.scan false axis2 eps first ps s0 s1 g r ≠ .fail := by
  induction ps with
  | nil => intro s0 s1 g r h; simp [Orient.scan] at h
  | cons p ps ih =>
    intro s0 s1 g r
    unfold Orient.scan
    simp only [Bool.false_eq_true, false_and, and_false, if_false]
    split_ifs <;> first | exact ih | simp

/-- Without assertions `reduce` always returns. -/
theorem reduce_release (o : Orient n) (kept : Corners 2) : o.reduce false kept ≠ none := by
  unfold Orient.reduce
  cases kept with
  | nil => simp
  | cons p ps =>
    simp only [Bool.false_eq_true, false_and, if_false]
    by_cases h0 : o.ax0.valid = false
    · rw [if_pos h0]; simp
    · rw [if_neg h0]
      have := scan_release (axis2 := o.ax1.valid) (eps := Orient.reduceEps (p :: ps)) (first := ⟨p.elem, true⟩) (ps := ps)
        (s0 := false) (s1 := false) (g := false) (r := 0)
      cases h : Orient.scan false o.ax1.valid (Orient.reduceEps (p :: ps)) ⟨p.elem, true⟩ ps false false false 0 with
      | fail => exact absurd h this
      | spans => simp
      | done a b c d => simp only; split_ifs <;> simp

/-- What `reduce` does to the plane and to the corners that stay. -/
theorem reduce_spec {dbg : Bool} {o o' : Orient n} {f : Pt 2} {ps : Corners 2} {r : Reorient} (hok : OrientOk o)
    (hk : ∀ x ∈ f :: ps, Placed o x) (h : o.reduce dbg (f :: ps) = some (o', r)) :
    OrientOk o' ∧ (∀ x ∈ f :: ps, Placed o' (r.point x)) ∧ (∀ x, (r.point x).valid = x.valid) ∧
    ((∀ x : Pt 2, o'.at ((r.point x).elem 0) ((r.point x).elem 1) = o.at (x.elem 0) (x.elem 1)) ∨
     (∀ x ∈ f :: ps, o'.at ((r.point x).elem 0) ((r.point x).elem 1) = o.at (f.elem 0) (f.elem 1) ∧
        (x.sub f).sqrMag < Orient.reduceEps (f :: ps) * Orient.reduceEps (f :: ps)) ∨
     (∃ ratio, ∀ x ∈ f :: ps, o'.at ((r.point x).elem 0) ((r.point x).elem 1) = o.at (x.elem 0) (f.elem 1 + ratio * (x.elem 0 - f.elem 0)) ∧
        ((x.sub f).sqrMag < Orient.reduceEps (f :: ps) * Orient.reduceEps (f :: ps) ∨
          |ratio * (x.elem 0 - f.elem 0) - (x.elem 1 - f.elem 1)| ≤ 2 * epsilon * |x.elem 1 - f.elem 1|))) := by
  have hp := epsilon_pos
  have he2 := epsilon_lt
  norm_num at he2
  have hv : ∀ x, (r.point x).valid = x.valid := by intro x; cases r <;> rfl
  have hself : ∀ (o : Orient n), (∀ x : Pt 2, o.at (((Reorient.none).point x).elem 0) (((Reorient.none).point x).elem 1) = o.at (x.elem 0) (x.elem 1)) :=
    fun o x => rfl
  unfold Orient.reduce at h
  simp only at h
  have hov := (hk f (by simp)).1
  rw [if_neg (by simp [hov])] at h
  by_cases h1 : o.ax0.valid = false
  · rw [if_pos h1] at h
    simp only [Option.some.injEq, Prod.mk.injEq] at h
    obtain ⟨rfl, rfl⟩ := h
    exact ⟨hok, hk, hv, Or.inl (hself o)⟩
  rw [if_neg h1] at h
  rw [Bool.not_eq_false] at h1
  have heps := reduceEps_pos (f :: ps)
  cases hs : Orient.scan dbg o.ax1.valid (Orient.reduceEps (f :: ps)) ⟨f.elem, true⟩ ps false false false 0 with
  | fail => rw [hs] at h; simp at h
  | spans =>
    rw [hs] at h
    simp only [Option.some.injEq, Prod.mk.injEq] at h
    obtain ⟨rfl, rfl⟩ := h
    exact ⟨hok, hk, hv, Or.inl (hself o)⟩
  | done s0 s1 got ratio =>
    rw [hs] at h
    obtain ⟨rfl, rfl, -, hax, hall⟩ := scan_done heps (by simp) hs
    simp only [Bool.false_eq_true, if_false] at h
    have hsub : ∀ x : Pt 2, (x.sub ⟨f.elem, true⟩).elem = x.elem - f.elem := fun x => rfl
    have hsq : ∀ x : Pt 2, (x.sub ⟨f.elem, true⟩).sqrMag = (x.sub f).sqrMag := fun x => rfl
    have hff : (f.sub f).sqrMag < Orient.reduceEps (f :: ps) * Orient.reduceEps (f :: ps) := by
      rw [Vec.sqrMag_eq, Pt.sub_elem, sub_self, zero_dotProduct]; positivity
    cases got
    · simp only [if_true, Option.some.injEq, Prod.mk.injEq] at h
      obtain ⟨rfl, rfl⟩ := h
      have eorg : (if o.ax1.valid = true then (o.origin.addVec (o.ax0.scale (f.elem 0))).addVec (o.ax1.scale (f.elem 1))
          else o.origin.addVec (o.ax0.scale (f.elem 0))).elem = o.at (f.elem 0) (f.elem 1) := by
        unfold Orient.at
        split_ifs with hc
        · rw [Pt.addVec_elem, Pt.addVec_elem, scale_elem, scale_elem]
        · rw [Pt.addVec_elem, scale_elem, ((hk f (by simp)).2.2).resolve_left hc, zero_smul, add_zero]
      have evalid : (if o.ax1.valid = true then (o.origin.addVec (o.ax0.scale (f.elem 0))).addVec (o.ax1.scale (f.elem 1))
          else o.origin.addVec (o.ax0.scale (f.elem 0))).valid = true := by
        have hsv : ∀ (v : Vec n) (c : ℝ), (v.scale c).valid = v.valid := fun _ _ => rfl
        split_ifs with hc <;> simp [hov, h1, hsv, hc]
      refine ⟨?_, ?_, hv, Or.inr (Or.inl ?_)⟩
      · constructor <;> intro hc <;> simp at hc
      · intro x _
        exact ⟨evalid, Or.inr rfl, Or.inr rfl⟩
      · intro x hx
        refine ⟨?_, ?_⟩
        · show _ + (0 : ℝ) • _ + (0 : ℝ) • _ = _
          rw [zero_smul, zero_smul, add_zero, add_zero]; exact eorg
        · rcases List.mem_cons.1 hx with rfl | hx
          · exact hff
          · rcases hall x hx with h | ⟨h, -⟩
            · rwa [hsq] at h
            · simp at h
    · simp only [Bool.true_eq_false, if_false, Option.some.injEq, Prod.mk.injEq] at h
      obtain ⟨rfl, rfl⟩ := h
      have ha1 : o.ax1.valid = true := (hax rfl).resolve_left (by simp)
      have hu0 := hok.unit0 h1
      have hu1 := hok.unit1 ha1
      have hpp := hok.perp ha1
      set new0 := o.ax0 + o.ax1.scale ratio with hn0
      have en0 : new0.elem = o.ax0.elem + ratio • o.ax1.elem := by rw [hn0, ← scale_elem]; rfl
      have hne : new0.elem ≠ 0 := by
        intro hc
        have h0 : new0.elem ⬝ᵥ new0.elem = 0 := by rw [hc, zero_dotProduct]
        rw [en0, add_dotProduct, dotProduct_add, dotProduct_add, smul_dotProduct, dotProduct_smul, smul_dotProduct, dotProduct_smul,
          hu0, hu1, dotProduct_comm o.ax1.elem o.ax0.elem] at h0
        simp only [smul_eq_mul] at h0
        obtain ⟨b1, b2⟩ := abs_le.1 hpp
        generalize o.ax0.elem ⬝ᵥ o.ax1.elem = d at *
        nlinarith [sq_nonneg (ratio + d), sq_nonneg ratio, sq_nonneg d]
      refine ⟨?_, ?_, hv, Or.inr (Or.inr ⟨ratio, ?_⟩)⟩
      · refine ⟨fun _ => ?_, fun hc => by simp at hc, fun _ => ?_, fun hc => by simp at hc, fun hc => by simp at hc⟩
        · have hsv : ∀ (v : Vec n) (c : ℝ), (v.scale c).valid = v.valid := fun _ _ => rfl
          show (o.origin.addVec _).valid = true
          simp [hov, hsv, ha1]
        · show (new0.divBy new0.mag).elem ⬝ᵥ (new0.divBy new0.mag).elem = 1
          rw [divBy_elem, mag_eq_len]; exact unit_of_div hne
      · intro x _
        have hsv : ∀ (v : Vec n) (c : ℝ), (v.scale c).valid = v.valid := fun _ _ => rfl
        refine ⟨?_, Or.inl ?_, Or.inr rfl⟩
        · show (o.origin.addVec _).valid = true
          simp [hov, hsv, ha1]
        · show (o.ax0.valid && o.ax1.valid) = true
          simp [h1, ha1]
      · intro x hx
        refine ⟨?_, ?_⟩
        · show (o.origin.addVec _).elem + (x.elem 0 * new0.mag) • (new0.divBy new0.mag).elem + (0 : ℝ) • _ = _
          rw [divBy_elem, smul_smul, mul_assoc, mul_inv_cancel₀ (Vec.mag_pos.2 hne).ne', mul_one, en0, Pt.addVec_elem, scale_elem]
          unfold Orient.at
          module
        · rcases List.mem_cons.1 hx with rfl | hx
          · exact Or.inl hff
          · rcases hall x hx with h | ⟨-, h⟩
            · exact Or.inl (by rwa [hsq] at h)
            · exact Or.inr (by rw [hsub] at h; exact h)

end WFMath
