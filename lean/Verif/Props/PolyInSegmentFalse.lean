/- Property theorem C112, negative part: the tolerant test. -/
import Verif.Props.PolyInSegment

namespace WFMath
open Spec Matrix

/-- C112 cannot be extended to the tolerant test: a polygon with the one corner `(0, 0, 0)` is said to be contained in the segment from `(1/10000, 0, 0)` to
`(0, 1/10000, 0)`, all points of which are at least 1/20000 away. -/
theorem C112_tolerant_false : ∃ (s : Poly 3) (g : Seg 3) (f : Pt 3), Built epsilon s [f] (some f) ∧ f.valid = true ∧ g.valid = true ∧
    containsSPolyN g s false = true ∧ s.getCorner 0 = some f ∧ ∀ x ∈ segSet g, 1 / 20000 ≤ eucl f.elem x := by
  have he : epsilon = 30 * 2⁻¹ ^ 52 := by unfold epsilon; norm_num
  have he2 := epsilon_lt
  norm_num at he2
  have hp := epsilon_pos
  let o : Orient 3 := { (Orient.empty : Orient 3) with origin := ⟨0, true⟩ }
  let o1 : Orient 3 := { o with ax0 := ⟨![1, 0, 0], true⟩ }
  have s1 : (⟨![1 / 10000, 0, 0], true⟩ : Pt 3).sub ⟨0, true⟩ = ⟨![1 / 10000, 0, 0], true⟩ := by
    ext i
    · simp
    · rfl
  have s2 : (⟨![0, 1 / 10000, 0], true⟩ : Pt 3).sub ⟨0, true⟩ = ⟨![0, 1 / 10000, 0], true⟩ := by
    ext i
    · simp
    · rfl
  have q1 : (⟨![1 / 10000, 0, 0], true⟩ : Vec 3).sqrMag = 1 / 100000000 := by
    rw [Vec.sqrMag_eq]; simp [dotProduct, Fin.sum_univ_three]; norm_num
  have q2 : (⟨![0, 1 / 10000, 0], true⟩ : Vec 3).sqrMag = 1 / 100000000 := by
    rw [Vec.sqrMag_eq]; simp [dotProduct, Fin.sum_univ_three]; norm_num
  have m1 : (⟨![1 / 10000, 0, 0], true⟩ : Vec 3).mag = 1 / 10000 := by
    unfold Vec.mag; rw [q1, Real.sqrt_eq_iff_eq_sq] <;> norm_num
  have m2 : (⟨![0, 1 / 10000, 0], true⟩ : Vec 3).mag = 1 / 10000 := by
    unfold Vec.mag; rw [q2, Real.sqrt_eq_iff_eq_sq] <;> norm_num
  have d1 : (⟨![1 / 10000, 0, 0], true⟩ : Vec 3).dot ⟨![1 / 10000, 0, 0], true⟩ = 1 / 100000000 := by
    have : DotExact (⟨![1 / 10000, 0, 0], true⟩ : Vec 3) ⟨![1 / 10000, 0, 0], true⟩ := by
      apply dot_of_le (M := 1 / 10000)
      · intro i; fin_cases i <;> simp
      · simp [dotProduct, Fin.sum_univ_three]; norm_num; linarith
    rw [this]; simp [dotProduct, Fin.sum_univ_three]; norm_num
  have d2 : (⟨![0, 1 / 10000, 0], true⟩ : Vec 3).dot ⟨![0, 1 / 10000, 0], true⟩ = 1 / 100000000 := by
    have : DotExact (⟨![0, 1 / 10000, 0], true⟩ : Vec 3) ⟨![0, 1 / 10000, 0], true⟩ := by
      apply dot_of_le (M := 1 / 10000)
      · intro i; fin_cases i <;> simp
      · simp [dotProduct, Fin.sum_univ_three]; norm_num; linarith
    rw [this]; simp [dotProduct, Fin.sum_univ_three]; norm_num
  have d0 : (⟨![0, 1 / 10000, 0], true⟩ : Vec 3).dot ⟨![1, 0, 0], true⟩ = 0 :=
    Vec.dot_of_exact_zero (by simp [dotProduct, Fin.sum_univ_three])
  have x1 : o.expand ⟨![1 / 10000, 0, 0], true⟩ epsilon = (true, o1, ⟨![1 / 10000, 0], true⟩) := by
    unfold Orient.expand
    rw [if_neg (by simp [o]), show o.origin = ⟨0, true⟩ from rfl, s1]
    simp only [q1, d1, m1]
    rw [if_neg (by rw [not_le]; linarith), if_pos (by rfl)]
    congr 2
    simp only [o1]
    congr 1
    ext i
    · fin_cases i <;> simp [Vec.divBy]
    · rfl
  have x2 : o1.expand ⟨![0, 1 / 10000, 0], true⟩ epsilon = (true, { o1 with ax1 := ⟨![0, 1, 0], true⟩ }, ⟨![0, 1 / 10000], true⟩) := by
    have hs : (⟨![0, 1 / 10000, 0], true⟩ : Vec 3) - (⟨![1, 0, 0], true⟩ : Vec 3).scale 0 = ⟨![0, 1 / 10000, 0], true⟩ := by
      ext i
      · simp
      · rfl
    unfold Orient.expand
    rw [if_neg (by simp [o1, o]), show o1.origin = ⟨0, true⟩ from rfl, s2, show o1.ax0 = ⟨![1, 0, 0], true⟩ from rfl]
    simp only [q2, d2, d0, hs, m2]
    rw [if_neg (by rw [not_le]; linarith), if_neg (by simp), if_neg (by rw [not_le]; linarith), if_pos (by rfl)]
    congr 2
    congr 1
    ext i
    · fin_cases i <;> simp [Vec.divBy]
    · rfl
  refine ⟨⟨o, [⟨![0, 0], true⟩]⟩, ⟨⟨![1 / 10000, 0, 0], true⟩, ⟨![0, 1 / 10000, 0], true⟩⟩, ⟨0, true⟩, ?_, rfl, rfl, ?_, ?_, ?_⟩
  · refine Built.add (s := Poly.empty) 0 _ (Built.empty (n := 3)) ?_
    simp [Poly.addCorner, Orient.expand, Poly.empty, Orient.empty, Corners.addCorner, o, Pt.default]
  · unfold containsSPolyN
    rw [if_neg (by simp)]
    simp only [x1, x2, if_neg (by simp : ¬ true = false)]
    unfold containsSPoly
    simp only [List.all_cons, List.all_nil, Bool.and_true]
    rw [interSP_false]
    have h0 : Vec.dot ((⟨![1 / 10000, 0], true⟩ : Pt 2).sub ⟨![0, 0], true⟩) ((⟨![0, 1 / 10000], true⟩ : Pt 2).sub ⟨![0, 0], true⟩) = 0 := by
      apply Vec.dot_of_exact_zero
      simp [dotProduct, Fin.sum_univ_two]
    simp only [h0]
    refine ⟨epsilon_pos.le, ?_⟩
    rw [zero_mul, equal_iff, scaleEpsilon_zero (Or.inl rfl), he, Vec.sqrMag_eq, Vec.sqrMag_eq]
    simp [dotProduct, Fin.sum_univ_two]
    norm_num
  · rw [getCorner_of (p := ⟨![0, 0], true⟩) rfl, convert_eq rfl (Or.inr rfl) (Or.inr rfl)]
    congr 1
    ext i
    · simp [Orient.at, o]
    · rfl
  · rintro x ⟨t, t0, t1, rfl⟩
    have h1 := abs_sub_le_eucl (0 : Fin 3 → ℝ) ((1 - t) • ![1 / 10000, 0, 0] + t • ![0, 1 / 10000, 0]) 0
    have h2 := abs_sub_le_eucl (0 : Fin 3 → ℝ) ((1 - t) • ![1 / 10000, 0, 0] + t • ![0, 1 / 10000, 0]) 1
    have a1 := abs_nonneg (1 - t)
    have e1 := abs_of_nonneg (show 0 ≤ 1 - t by linarith)
    have e2 := abs_of_nonneg t0
    simp [abs_mul, e1, e2] at h1 h2
    simp
    linarith

end WFMath
