/- Property theorems C163: bounding spheres that are moved together with their points in floating point. -/
import Verif.Props.RoundSteps
import Verif.Props.RoundMiniball
import Verif.Props.RoundSphere

namespace WFMath
open Spec Matrix Rounding
variable {n : Nat}

namespace Fl

/-- A ball with its centre near to some points, moved with the points. -/
theorem sphere_moved (r : Rounding 53) (hn : n < 2 ^ 52) (h : List (Step n)) (E M : ℝ) (h0 : 2 * n * (n + 1) * 2 ^ (-52 : ℤ) ≤ E) (h1 : E ≤ 1 / 10)
    (hf : ∀ s ∈ h, s.Fits E M) (b : Ball n) (p : Pt n) (hb : Remains r M h b.center) (hp : Remains r M h p) :
    |eucl (stepPoint r h p).elem (stepBall r h b).center.elem - eucl p.elem b.center.elem| ≤ h.length * (4 * (2 * E + 2 ^ (-51 : ℤ)) * M) := by
  rw [(stepBall_eq r h b).2]
  exact C159_distance r hn h E M h0 h1 hf p b.center hp hb

end Fl

/-- C163, `BoundingSphere`: the sphere of a list of points and the points go through the same history of calls in doubles. After it the sphere has the same radius, encloses the points
up to the factor `1 + epsilon` and the drift of the history, and is no larger than it has to be: a point is at its surface. A ball about the moved centre with room for the drift has
all the points in it for the library. -/
theorem C163_sphere (r : Rounding 53) (hn : n ≤ 3) (h : List (Fl.Step n)) (E M : ℝ) (h0 : 2 * n * (n + 1) * 2 ^ (-52 : ℤ) ≤ E) (h1 : E ≤ 1 / 10)
    (hf : ∀ s ∈ h, s.Fits E M) (fuel : Nat) (ps : List (Pt n)) (b : Ball n) (hs : Fl.boundingSphere r true fuel ps = some b)
    (hb : Fl.Remains r M h b.center) (hp : ∀ p ∈ ps, Fl.Remains r M h p) :
    (Fl.stepBall r h b).radius = b.radius ∧
    (∀ p ∈ ps, eucl (Fl.stepPoint r h p).elem (Fl.stepBall r h b).center.elem ≤ (1 + epsilon) * b.radius + h.length * (4 * (2 * E + 2 ^ (-51 : ℤ)) * M)) ∧
    (∃ p ∈ ps, (1 - epsilon) * b.radius - h.length * (4 * (2 * E + 2 ^ (-51 : ℤ)) * M) ≤ eucl (Fl.stepPoint r h p).elem (Fl.stepBall r h b).center.elem) ∧
    (∀ R, (1 + epsilon) * b.radius + h.length * (4 * (2 * E + 2 ^ (-51 : ℤ)) * M) ≤ R → ∀ p ∈ ps,
      Fl.interBallP r (Fl.stepBall r h ⟨b.center, R⟩) (Fl.stepPoint r h p) false = true) := by
  have hn' : n < 2 ^ 52 := by omega
  refine ⟨(Fl.stepBall_eq r h b).1, fun p hm => ?_, ?_, fun R hR p hm => ?_⟩
  · have d := (_root_.abs_le.1 (Fl.sphere_moved r hn' h E M h0 h1 hf b p hb (hp p hm))).2
    have e := (C150_encloses r hn fuel ps b hs p hm).1
    generalize (h.length : ℝ) * (4 * (2 * E + 2 ^ (-51 : ℤ)) * M) = δ at d ⊢
    linarith
  · obtain ⟨p, hm, e⟩ := C150_touches r hn fuel ps b hs
    refine ⟨p, hm, ?_⟩
    have d := (_root_.abs_le.1 (Fl.sphere_moved r hn' h E M h0 h1 hf b p hb (hp p hm))).1
    generalize (h.length : ℝ) * (4 * (2 * E + 2 ^ (-51 : ℤ)) * M) = δ at d ⊢
    linarith
  · have e := (C150_encloses r hn fuel ps b hs p hm).1
    have M0 : 0 ≤ M := (len_nonneg _).trans (hb 0 (Nat.zero_le _))
    have E0 : 0 ≤ E := le_trans (by positivity) h0
    have d0 : 0 ≤ (h.length : ℝ) * (4 * (2 * E + 2 ^ (-51 : ℤ)) * M) := by positivity
    have R0 : 0 ≤ R := ((eucl_nonneg _ _).trans (e.trans (le_add_of_nonneg_right d0))).trans hR
    exact (C159_ball r (by omega) h E M h0 h1 hf ⟨b.center, R⟩ p R0 hb (hp p hm)).1 ((add_le_add e le_rfl).trans hR)

/-- C163, `BoundingSphereSloppy` in two and three dimensions: the sphere moved with the points keeps its radius and has the moved points in it, up to the rounding of the sphere and
the drift of the history. `M` bounds the points and the centre at the start and after every call. -/
theorem C163_sloppy (r : Rounding 53) (check : Bool) (E M : ℝ) (h1 : E ≤ 1 / 10) :
    (∀ (h : List (Fl.Step 2)) (ps : List (Pt 2)) (b : Ball 2), 12 * 2 ^ (-52 : ℤ) ≤ E → (∀ s ∈ h, s.Fits E M) → ps.length < 2 ^ 40 → (∀ p ∈ ps, ∀ i, IsFl 53 (p.elem i)) →
      Fl.boundingSphereSloppy2 r check ps = some b → Fl.Remains r M h b.center → (∀ p ∈ ps, Fl.Remains r M h p) → (Fl.stepBall r h b).radius = b.radius ∧
      ∀ p ∈ ps, eucl (Fl.stepPoint r h p).elem (Fl.stepBall r h b).center.elem ≤ b.radius + (ps.length + 1) * (2 ^ (-44 : ℤ) * M) + h.length * (4 * (2 * E + 2 ^ (-51 : ℤ)) * M)) ∧
    (∀ (h : List (Fl.Step 3)) (ps : List (Pt 3)) (b : Ball 3), 24 * 2 ^ (-52 : ℤ) ≤ E → (∀ s ∈ h, s.Fits E M) → ps.length < 2 ^ 40 → (∀ p ∈ ps, ∀ i, IsFl 53 (p.elem i)) →
      Fl.boundingSphereSloppy3 r check ps = some b → Fl.Remains r M h b.center → (∀ p ∈ ps, Fl.Remains r M h p) → (Fl.stepBall r h b).radius = b.radius ∧
      ∀ p ∈ ps, eucl (Fl.stepPoint r h p).elem (Fl.stepBall r h b).center.elem ≤ b.radius + (ps.length + 1) * (2 ^ (-44 : ℤ) * M) + h.length * (4 * (2 * E + 2 ^ (-51 : ℤ)) * M)) := by
  have z : ∀ {m : Nat} (x : Fin m → ℝ), eucl x 0 = len x := fun x => by rw [eucl_eq_len, sub_zero]
  constructor
  all_goals
    intro h ps b h0 hf hk hfl hs hb hp
    refine ⟨(Fl.stepBall_eq r h b).1, fun p hm => ?_⟩
    have hM : ∀ p ∈ ps, eucl p.elem 0 ≤ M := fun p hm => by rw [z]; exact hp p hm 0 (Nat.zero_le _)
    have d := (_root_.abs_le.1 (Fl.sphere_moved r (by norm_num) h E M (le_trans (by norm_num) h0) h1 hf b p hb (hp p hm))).2
  · have e := ((C129_dim2_partial r check ps (List.ne_nil_of_mem hm) hk hfl M hM).2 b hs).2.1 p hm
    exact (sub_le_iff_le_add'.1 d).trans (add_le_add e le_rfl)
  · have e := ((C129_dim3_partial r check ps (List.ne_nil_of_mem hm) hk hfl M hM).2 b hs).2.1 p hm
    exact (sub_le_iff_le_add'.1 d).trans (add_le_add e le_rfl)

end WFMath
