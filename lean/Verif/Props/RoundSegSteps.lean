/- Property theorems C160: segments, balls and points after any history of motions in floating point. -/
import Verif.Model.RoundedSegSteps
import Verif.Props.RoundSteps
import Verif.Props.RoundSegPoint
import Verif.Props.RoundSegIn

namespace WFMath
open Spec Matrix Rounding
variable {n : Nat}

namespace Fl

theorem stepSeg_eq (r : Rounding 53) (h : List (Step n)) (s : Seg n) : stepSeg r h s = ⟨stepPoint r h s.p1, stepPoint r h s.p2⟩ := by
  induction h generalizing s with
  | nil => rfl
  | cons m ms ih =>
    have one : m.seg r s = ⟨m.point r s.p1, m.point r s.p2⟩ := by cases m <;> rfl
    show stepSeg r ms (m.seg r s) = _
    rw [ih, one]; rfl

/-- The distance from a point to a point on a segment is determined by the distances of the ends (Stewart's theorem). -/
theorem len_between (a b c : Fin n → ℝ) (t : ℝ) :
    len ((1 - t) • a + t • b - c) ^ 2 = (1 - t) * len (a - c) ^ 2 + t * len (b - c) ^ 2 - t * (1 - t) * len (a - b) ^ 2 := by
  simp only [len_sq]
  have e : (1 - t) • a + t • b - c = (1 - t) • (a - c) + t • (b - c) := by module
  have f : a - b = (a - c) - (b - c) := by module
  rw [e, f]
  generalize a - c = x
  generalize b - c = y
  simp only [add_dotProduct, dotProduct_add, sub_dotProduct, dotProduct_sub, smul_dotProduct, dotProduct_smul, smul_eq_mul, dotProduct_comm y x]
  ring

end Fl

/-- C160, points of a segment: a segment and a point go through the same history of calls in doubles. As long as everything stays within `M` of the origin, each call changes the
distance from the point to the point of the segment at any fixed fraction of its length by at most `4 (2 E + 2^-51) M`. -/
theorem C160_distance (r : Rounding 53) (hn : n < 2 ^ 52) (h : List (Fl.Step n)) (E M : ℝ) (h0 : 2 * n * (n + 1) * 2 ^ (-52 : ℤ) ≤ E) (h1 : E ≤ 1 / 10)
    (hf : ∀ s ∈ h, s.Fits E M) (s : Seg n) (c : Pt n) (ha : Fl.Remains r M h s.p1) (hb : Fl.Remains r M h s.p2) (hc : Fl.Remains r M h c) (t : ℝ) (t0 : 0 ≤ t) (t1 : t ≤ 1) :
    |eucl ((1 - t) • (Fl.stepSeg r h s).p1.elem + t • (Fl.stepSeg r h s).p2.elem) (Fl.stepPoint r h c).elem - eucl ((1 - t) • s.p1.elem + t • s.p2.elem) c.elem| ≤
      h.length * (4 * (2 * E + 2 ^ (-51 : ℤ)) * M) := by
  have M0 : 0 ≤ M := (len_nonneg _).trans (hc 0 (Nat.zero_le _))
  obtain ⟨T, hT, er⟩ := Fl.steps_near r hn h0 h1 M0 h hf
  have a := er s.p1 ha
  have b := er s.p2 hb
  have d := er c hc
  rw [Fl.stepSeg_eq]
  simp only
  have iso : len ((1 - t) • T s.p1.elem + t • T s.p2.elem - T c.elem) = len ((1 - t) • s.p1.elem + t • s.p2.elem - c.elem) := by
    refine (sq_eq_sq₀ (len_nonneg _) (len_nonneg _)).1 ?_
    rw [Fl.len_between, Fl.len_between, hT, hT, hT]
  rw [eucl_eq_len, eucl_eq_len ((1 - t) • s.p1.elem + t • s.p2.elem) c.elem, ← iso]
  generalize (Fl.stepPoint r h s.p1).elem = a' at *
  generalize (Fl.stepPoint r h s.p2).elem = b' at *
  generalize (Fl.stepPoint r h c).elem = c' at *
  generalize T s.p1.elem = A at *
  generalize T s.p2.elem = B at *
  generalize T c.elem = C at *
  have B0 : len (((1 - t) • a' + t • b') - ((1 - t) • A + t • B)) ≤ h.length * ((2 * E + 2 ^ (-51 : ℤ)) * (2 * M)) := by
    rw [show ((1 - t) • a' + t • b') - ((1 - t) • A + t • B) = (1 - t) • (a' - A) + t • (b' - B) by module]
    refine (len_add_le _ _).trans ?_
    rw [len_smul, len_smul, abs_of_nonneg t0, abs_of_nonneg (sub_nonneg.2 t1)]
    have k1 := mul_le_mul_of_nonneg_left a (sub_nonneg.2 t1)
    have k2 := mul_le_mul_of_nonneg_left b t0
    refine (add_le_add k1 k2).trans (le_of_eq ?_)
    ring
  generalize (1 - t) • a' + t • b' = x' at *
  generalize (1 - t) • A + t • B = X at *
  have k : |len (x' - c') - len (X - C)| ≤ len (x' - X) + len (c' - C) := by
    have q1 := len_triangle x' X c'
    have q2 := len_triangle X C c'
    have q3 := len_triangle X x' C
    have q4 := len_triangle x' c' C
    rw [len_sub_comm C c'] at q2
    rw [len_sub_comm X x'] at q3
    exact _root_.abs_le.2 ⟨by linarith, by linarith⟩
  refine k.trans ((add_le_add B0 d).trans (le_of_eq ?_))
  ring

namespace Fl

theorem moved_apart (r : Rounding 53) {M : ℝ} (h : List (Step n)) (x y : Pt n) (hx : Remains r M h x) (hy : Remains r M h y) :
    eucl (stepPoint r h x).elem (stepPoint r h y).elem ≤ 2 * M := by
  have a := hx h.length le_rfl
  have b := hy h.length le_rfl
  rw [List.take_length] at a b
  rw [eucl_eq_len]
  exact (len_sub_le _ _).trans (by linarith)

end Fl

/-- C160, segment and ball: after the history the library finds that they meet, properly too, when the segment had a point in the ball by more than the drift of the distance and
the margin of the test; when it finds that they meet, the segment had a point in the ball enlarged by the factor `1 + epsilon`, the drift and `2^-48 M`, unless an end of the moved
segment is so near to the moved centre that the squared distance is set to 0. -/
theorem C160_meet (r : Rounding 53) (hn : n ≤ 50) (h : List (Fl.Step n)) (E M : ℝ) (h0 : 2 * n * (n + 1) * 2 ^ (-52 : ℤ) ≤ E) (h1 : E ≤ 1 / 10)
    (hf : ∀ s ∈ h, s.Fits E M) (s : Seg n) (b : Ball n) (hR : 0 ≤ b.radius) (ha : Fl.Remains r M h s.p1) (hb : Fl.Remains r M h s.p2) (hc : Fl.Remains r M h b.center)
    (proper : Bool) :
    ((∃ x ∈ segSet s, (eucl x b.center.elem + h.length * (4 * (2 * E + 2 ^ (-51 : ℤ)) * M) + 2 ^ (-42 : ℤ) * M + 3 * epsilon) * (1 + epsilon) ≤ b.radius) →
      Fl.interSBall r (Fl.stepSeg r h s) (Fl.stepBall r h b) proper = true) ∧
    (Fl.interSBall r (Fl.stepSeg r h s) (Fl.stepBall r h b) proper = true →
      (∃ x ∈ segSet s, eucl x b.center.elem ≤ b.radius * (1 + epsilon) + h.length * (4 * (2 * E + 2 ^ (-51 : ℤ)) * M) + 2 ^ (-48 : ℤ) * M) ∨
      NearlyFlushed (Fl.stepPoint r h b.center) (Fl.stepPoint r h s.p1) ∨ NearlyFlushed (Fl.stepPoint r h b.center) (Fl.stepPoint r h s.p2)) := by
  have he := epsilon_pos
  obtain ⟨e1, e2⟩ := Fl.stepBall_eq r h b
  have ap := Fl.moved_apart r h b.center s.p1 hc ha
  have dist := C160_distance r (by omega) h E M h0 h1 hf s b.center ha hb hc
  have es := Fl.stepSeg_eq r h s
  constructor
  · rintro ⟨x, ⟨t, t0, t1, rfl⟩, hx⟩
    refine C134_ball_complete r _ _ hn proper ⟨_, ⟨t, t0, t1, rfl⟩, ?_⟩
    have d := (_root_.abs_le.1 (dist t t0 t1)).2
    rw [e1, e2]
    refine (mul_le_mul_of_nonneg_right ?_ (by linarith)).trans hx
    rw [show (Fl.stepSeg r h s).p1 = Fl.stepPoint r h s.p1 by rw [es]] at *
    have k := mul_le_mul_of_nonneg_left ap (show (0 : ℝ) ≤ 2 ^ (-43 : ℤ) by positivity)
    rw [show (2 : ℝ) ^ (-43 : ℤ) * (2 * M) = 2 ^ (-42 : ℤ) * M by norm_num; ring] at k
    linarith
  · intro hh
    rcases C134_ball_sound r _ _ hn (by rw [e1]; exact hR) proper hh with ⟨x, ⟨t, t0, t1, rfl⟩, hx⟩ | h' | h'
    · left
      refine ⟨_, ⟨t, t0, t1, rfl⟩, ?_⟩
      have d := (_root_.abs_le.1 (dist t t0 t1)).1
      rw [e1, e2] at hx
      rw [show (Fl.stepSeg r h s).p1 = Fl.stepPoint r h s.p1 by rw [es]] at *
      have k := mul_le_mul_of_nonneg_left ap (show (0 : ℝ) ≤ 2 ^ (-49 : ℤ) by positivity)
      rw [show (2 : ℝ) ^ (-49 : ℤ) * (2 * M) = 2 ^ (-48 : ℤ) * M by norm_num; ring] at k
      linarith
    · right; left
      unfold NearlyFlushed at h' ⊢
      rwa [e2, es] at h'
    · right; right
      unfold NearlyFlushed at h' ⊢
      rwa [e2, es] at h'

/-- C160, ball containing a segment: after the history the library finds the segment in the ball when all its points were in it by the drift, and when it finds it there, all points
of the segment were in the ball enlarged by the factor `1 + epsilon` and the drift, unless an end of the moved segment is so near to the moved centre that the squared distance is
set to 0. -/
theorem C160_in_ball (r : Rounding 53) (hn : n ≤ 50) (h : List (Fl.Step n)) (E M : ℝ) (h0 : 2 * n * (n + 1) * 2 ^ (-52 : ℤ) ≤ E) (h1 : E ≤ 1 / 10)
    (hf : ∀ s ∈ h, s.Fits E M) (s : Seg n) (b : Ball n) (hR : 0 ≤ b.radius) (ha : Fl.Remains r M h s.p1) (hb : Fl.Remains r M h s.p2) (hc : Fl.Remains r M h b.center) :
    ((∀ x ∈ segSet s, eucl x b.center.elem + h.length * (4 * (2 * E + 2 ^ (-51 : ℤ)) * M) ≤ b.radius) →
      Fl.containsBallS r (Fl.stepBall r h b) (Fl.stepSeg r h s) false = true) ∧
    ((∀ x ∈ segSet s, eucl x b.center.elem + h.length * (4 * (2 * E + 2 ^ (-51 : ℤ)) * M) < b.radius) →
      Fl.containsBallS r (Fl.stepBall r h b) (Fl.stepSeg r h s) true = true) ∧
    (∀ proper, Fl.containsBallS r (Fl.stepBall r h b) (Fl.stepSeg r h s) proper = true →
      (∀ x ∈ segSet s, eucl x b.center.elem ≤ b.radius * (1 + epsilon) + h.length * (4 * (2 * E + 2 ^ (-51 : ℤ)) * M)) ∨
      NearlyFlushed (Fl.stepPoint r h b.center) (Fl.stepPoint r h s.p1) ∨ NearlyFlushed (Fl.stepPoint r h b.center) (Fl.stepPoint r h s.p2)) := by
  obtain ⟨e1, e2⟩ := Fl.stepBall_eq r h b
  have dist := C160_distance r (by omega) h E M h0 h1 hf s b.center ha hb hc
  have es := Fl.stepSeg_eq r h s
  have t := C134_in_ball r (Fl.stepBall r h b) (Fl.stepSeg r h s) hn (by rw [e1]; exact hR)
  refine ⟨fun hh => t.1 ?_, fun hh => t.2.1 ?_, fun proper hh => ?_⟩
  · rintro _ ⟨t, t0, t1, rfl⟩
    show eucl _ _ ≤ _
    have d := (_root_.abs_le.1 (dist t t0 t1)).2
    have := hh _ ⟨t, t0, t1, rfl⟩
    rw [e1, e2]; linarith
  · rintro _ ⟨t, t0, t1, rfl⟩
    show eucl _ _ < _
    have d := (_root_.abs_le.1 (dist t t0 t1)).2
    have := hh _ ⟨t, t0, t1, rfl⟩
    rw [e1, e2]; linarith
  · rcases t.2.2 proper hh with h' | h' | h'
    · left
      rintro _ ⟨t, t0, t1, rfl⟩
      have d := (_root_.abs_le.1 (dist t t0 t1)).1
      have h'' : eucl _ _ ≤ _ := h' ⟨t, t0, t1, rfl⟩
      simp only [e1, e2] at h''
      linarith
    · right; left
      unfold NearlyFlushed at h' ⊢
      rwa [e2, es] at h'
    · right; right
      unfold NearlyFlushed at h' ⊢
      rwa [e2, es] at h'

/-- C160, segment and point: when the library, asked with `proper`, finds the moved point on the moved segment, the point was near the segment, up to the drift. -/
theorem C160_point (r : Rounding 53) (hn : n ≤ 50) (h : List (Fl.Step n)) (E M : ℝ) (h0 : 2 * n * (n + 1) * 2 ^ (-52 : ℤ) ≤ E) (h1 : E ≤ 1 / 10)
    (hf : ∀ s ∈ h, s.Fits E M) (s : Seg n) (p : Pt n) (ha : Fl.Remains r M h s.p1) (hb : Fl.Remains r M h s.p2) (hp : Fl.Remains r M h p)
    (hh : Fl.interSP r (Fl.stepSeg r h s) (Fl.stepPoint r h p) true = true) :
    ∃ x ∈ segSet s, eucl p.elem x ≤ Real.sqrt (20 * epsilon) * (eucl s.p1.elem s.p2.elem + h.length * (4 * (2 * E + 2 ^ (-51 : ℤ)) * M)) +
      h.length * (4 * (2 * E + 2 ^ (-51 : ℤ)) * M) := by
  obtain ⟨x, ⟨t, t0, t1, rfl⟩, hx⟩ := C134_point_near r _ _ hn hh
  refine ⟨_, ⟨t, t0, t1, rfl⟩, ?_⟩
  have d := (_root_.abs_le.1 (C160_distance r (by omega) h E M h0 h1 hf s p ha hb hp t t0 t1)).1
  have l := (_root_.abs_le.1 (C159_distance r (by omega) h E M h0 h1 hf s.p1 s.p2 ha hb)).2
  rw [eucl_eq_len, len_sub_comm, ← eucl_eq_len] at hx ⊢
  rw [show eucl (Fl.stepSeg r h s).p1.elem (Fl.stepSeg r h s).p2.elem = eucl (Fl.stepPoint r h s.p1).elem (Fl.stepPoint r h s.p2).elem by rw [Fl.stepSeg_eq]] at hx
  have k := mul_le_mul_of_nonneg_left (sub_le_iff_le_add'.1 l) (Real.sqrt_nonneg (20 * epsilon))
  linarith

/-- C160, turns: any number of rotations about one point `p`, by matrices or quaternions. Here only the start is bounded: `p` is within `D` of the origin, and the ends of the
segment and the point are within `D` of `p`. -/
theorem C160_turns (r : Rounding 53) (hn : n < 2 ^ 52) (p : Pt n) (h : List (Fl.Step n)) (E D : ℝ) (h0 : 2 * n * (n + 1) * 2 ^ (-52 : ℤ) ≤ E) (h1 : E ≤ 1 / 10)
    (hN : h.length * (2 * E + 2 ^ (-51 : ℤ)) ≤ 1 / 4) (hp' : ∀ s ∈ h, s.About p) (hf : ∀ s ∈ h, s.Fits E D) (hp : len p.elem ≤ D)
    (s : Seg n) (c : Pt n) (ha : eucl s.p1.elem p.elem ≤ D) (hb : eucl s.p2.elem p.elem ≤ D) (hc : eucl c.elem p.elem ≤ D) (t : ℝ) (t0 : 0 ≤ t) (t1 : t ≤ 1) :
    |eucl ((1 - t) • (Fl.stepSeg r h s).p1.elem + t • (Fl.stepSeg r h s).p2.elem) (Fl.stepPoint r h c).elem - eucl ((1 - t) • s.p1.elem + t • s.p2.elem) c.elem| ≤
      h.length * (12 * (2 * E + 2 ^ (-51 : ℤ)) * D) := by
  have D0 : 0 ≤ D := (len_nonneg _).trans hp
  have st := Fl.remains_turning r hn p h E D h0 h1 hN hp' hf hp
  have hf' : ∀ s ∈ h, s.Fits E (3 * D) := by
    intro s hs
    have a := hp' s hs
    have f := hf s hs
    cases s with
    | rotate m p' => exact ⟨f.1.trans (by linarith), f.2⟩
    | rotateQ q p' => exact ⟨f.1.trans (by linarith), f.2⟩
    | shift => exact a.elim
    | toParent => exact a.elim
    | toLocal => exact a.elim
    | toParentQ => exact a.elim
    | toLocalQ => exact a.elim
  refine (C160_distance r hn h E (3 * D) h0 h1 hf' s c (st _ ha) (st _ hb) (st c hc) t t0 t1).trans (le_of_eq ?_)
  ring

end WFMath
