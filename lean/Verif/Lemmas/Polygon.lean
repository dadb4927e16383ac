/- Lemmas on polygons in space. -/
import Verif.Model.Polygon
import Verif.Props.Point

namespace WFMath
open Matrix
variable {n : Nat}

/-- Where a plane point is in space. -/
def Orient.at (o : Orient n) (x y : ℝ) : Fin n → ℝ := o.origin.elem + x • o.ax0.elem + y • o.ax1.elem

/-- The conversion succeeds when the axes that are needed are there. -/
theorem convert_ne_none (o : Orient n) (p : Pt 2) : o.convert p ≠ none ↔
    o.origin.valid = true ∧ (o.ax0.valid = true ∨ p.elem 0 = 0) ∧ (o.ax1.valid = true ∨ p.elem 1 = 0) := by
  unfold Orient.convert
  by_cases h1 : o.origin.valid = false
  · rw [if_pos h1]; simp [h1]
  by_cases h2 : o.ax0.valid = false ∧ p.elem 0 ≠ 0
  · rw [if_neg h1, if_pos h2]; simp [h2]
  by_cases h3 : o.ax1.valid = false ∧ p.elem 1 ≠ 0
  · rw [if_neg h1, if_neg h2, if_pos h3]; simp [h3]
  · rw [if_neg h1, if_neg h2, if_neg h3]
    simp only [ne_eq, reduceCtorEq, not_false_eq_true, true_iff]
    rw [Bool.not_eq_false] at h1
    refine ⟨h1, ?_, ?_⟩
    · by_contra h; push Not at h; exact h2 ⟨by simpa using h.1, h.2⟩
    · by_contra h; push Not at h; exact h3 ⟨by simpa using h.1, h.2⟩

theorem convert_eq {o : Orient n} {p : Pt 2} (h0 : o.origin.valid = true) (h1 : o.ax0.valid = true ∨ p.elem 0 = 0)
    (h2 : o.ax1.valid = true ∨ p.elem 1 = 0) : o.convert p = some ⟨o.at (p.elem 0) (p.elem 1), p.valid⟩ := by
  unfold Orient.convert
  rw [if_neg (by simp [h0]), if_neg (by rintro ⟨a, b⟩; rcases h1 with h | h <;> simp_all),
    if_neg (by rintro ⟨a, b⟩; rcases h2 with h | h <;> simp_all)]
  have e1 : (if o.ax0.valid = true then o.origin.addVec (o.ax0.scale (p.elem 0)) else o.origin).elem =
      o.origin.elem + p.elem 0 • o.ax0.elem := by
    split_ifs with h
    · funext i; show _ + o.ax0.elem i * p.elem 0 = _ + p.elem 0 * o.ax0.elem i; rw [mul_comm]
    · rw [h1.resolve_left h, zero_smul, add_zero]
  have e2 : (if o.ax1.valid = true then (if o.ax0.valid = true then o.origin.addVec (o.ax0.scale (p.elem 0)) else o.origin).addVec
      (o.ax1.scale (p.elem 1)) else (if o.ax0.valid = true then o.origin.addVec (o.ax0.scale (p.elem 0)) else o.origin)).elem =
      o.at (p.elem 0) (p.elem 1) := by
    unfold Orient.at
    by_cases h : o.ax1.valid = true
    · rw [if_pos h, Pt.addVec_elem, e1]
      funext i; show _ + _ + o.ax1.elem i * p.elem 1 = _ + _ + p.elem 1 * o.ax1.elem i; rw [mul_comm]
    · rw [if_neg h, e1, h2.resolve_left h, zero_smul, add_zero]
  rw [← e2]

theorem convert_some {o : Orient n} {p : Pt 2} {c : Pt n} (h : o.convert p = some c) :
    o.origin.valid = true ∧ (o.ax0.valid = true ∨ p.elem 0 = 0) ∧ (o.ax1.valid = true ∨ p.elem 1 = 0) ∧
    c.elem = o.at (p.elem 0) (p.elem 1) ∧ c.valid = p.valid := by
  obtain ⟨h0, h1, h2⟩ := (convert_ne_none o p).1 (by rw [h]; simp)
  have := convert_eq h0 h1 h2
  rw [h] at this
  rw [Option.some.inj this]
  exact ⟨h0, h1, h2, rfl, rfl⟩

/-- Corners of a polygon. -/
theorem getCorner_some {s : Poly n} {i : Nat} {c : Pt n} (h : s.getCorner i = some c) :
    ∃ p, s.poly.getCorner i = some p ∧ s.orient.convert p = some c := by
  unfold Poly.getCorner at h
  cases hp : s.poly.getCorner i with
  | none => rw [hp] at h; simp at h
  | some p => rw [hp] at h; exact ⟨p, rfl, h⟩

theorem getCorner_of {s : Poly n} {i : Nat} {p : Pt 2} (h : s.poly.getCorner i = some p) : s.getCorner i = s.orient.convert p := by
  unfold Poly.getCorner; rw [h]; rfl

end WFMath
