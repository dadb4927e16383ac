/- Cases of further theorems: their hypotheses hold for concrete objects. -/
import Verif.Cases.Polygons
import Verif.Props.Random
import Verif.Props.SeedStreams
import Verif.Props.RotMatrix
import Verif.Props.RoundBuild
import Verif.Props.RoundPolyFalse
import Verif.Props.VectorAngles

namespace WFMath.Cases
open WFMath Spec Matrix MT

example (h : containsPolyPoly2 unitSquare [⟨![1 / 2, 1 / 2], true⟩, ⟨![3 / 4, 1 / 2], true⟩, ⟨![1 / 2, 3 / 4], true⟩] true = some true) :
    (![1 / 2, 1 / 2] : Fin 2 → ℝ) ∈ inside unitSquare := C101_contains_partial unitSquare _ ⟨![1 / 2, 1 / 2], true⟩ _ rfl unitSquare_far h

/-- The point of the plane of the flat square below or above a given point. -/
theorem flat_nearest {p : Fin 3 → ℝ} {y : Fin 2 → ℝ} (h : ∀ y', eucl p (spacePoint flatSquare y) ≤ eucl p (spacePoint flatSquare y')) : y = ![p 0, p 1] := by
  have := pow_le_pow_left₀ (eucl_nonneg _ _) (h ![p 0, p 1]) 2
  rw [eucl_sq, eucl_sq, flatSquare_point, flatSquare_point, Fin.sum_univ_three, Fin.sum_univ_three] at this
  simp at this
  have h0 : p 0 - y 0 = 0 := by nlinarith [sq_nonneg (p 0 - y 0), sq_nonneg (p 1 - y 1)]
  have h1 : p 1 - y 1 = 0 := by nlinarith [sq_nonneg (p 0 - y 0), sq_nonneg (p 1 - y 1)]
  apply ext2 <;> simp <;> linarith

/-- The middle of the square is on it, and `C103_near` finds a point of the square by it. -/
example : ∃ x ∈ spaceInside flatSquare, eucl ![1 / 2, 1 / 2, 0] x < Real.sqrt epsilon * len ![1 / 2, 1 / 2, 0] := by
  have hp : ProjExact flatSquare.orient ⟨![1 / 2, 1 / 2, 0], true⟩ :=
    flat_proj (fun i => by fin_cases i <;> norm_num [abs_le]) (by norm_num [abs_of_pos]) (by norm_num [abs_of_pos])
  obtain ⟨b, hb, hiff⟩ := C103_plane_partial flatSquare flatSquare_spans ⟨![1 / 2, 1 / 2, 0], true⟩ hp ![1 / 2, 1 / 2]
    (by rw [flatSquare_point]; rfl) (fun h => by have := congrFun h 0; norm_num at this) unitSquare_far true
  have hbt : b = true := hiff.2 ⟨![1 / 2, 1 / 2], unitSquare_inside (by norm_num) (by norm_num) (by norm_num) (by norm_num), by rw [flatSquare_point]; rfl⟩
  refine C103_near flatSquare flatSquare_spans ⟨![1 / 2, 1 / 2, 0], true⟩ hp true (by rw [hb, hbt]) fun y hy => ?_
  rw [flat_nearest hy]
  exact unitSquare_far

example (p : Pt 3) (proper : Bool) : containsPPolyN p threeCorners proper ≠ some true := by
  refine C104_rejects_partial p threeCorners ![1, 0, 0] (mem_polyCornerSet.2 ⟨⟨![1, 0], true⟩, by simp [threeCorners], _, convert_eq rfl (Or.inl rfl) (Or.inl rfl), ?_⟩) proper
  unfold Orient.at threeCorners; funext i; fin_cases i <;> simp

/-- A ball of radius 2 above the middle of the square. -/
example : (interPolyBallN flatSquare ⟨⟨![1 / 2, 1 / 2, 1], true⟩, 2⟩ false = some true →
    (spaceFilled flatSquare ∩ ballSet (grown ⟨⟨![1 / 2, 1 / 2, 1], true⟩, 2⟩)).Nonempty) := by
  refine (C105_rejects flatSquare flatSquare_spans ⟨⟨![1 / 2, 1 / 2, 1], true⟩, 2⟩ (by norm_num)
    (flat_proj (fun i => by fin_cases i <;> norm_num [abs_le]) (by norm_num [abs_of_pos]) (by norm_num [abs_of_pos])) fun y hy => ?_).1
  have he := epsilon_lt
  norm_num at he
  rw [flat_nearest hy]
  refine ⟨?_, fun c hc v => ?_⟩
  · rintro ⟨e, he', -, x, hx, h⟩
    have := unitSquare_far e he' x hx
    have h' : equal ((![1 / 2, 1 / 2] : Fin 2 → ℝ) 0) x epsilon = true := h
    rw [this] at h'
    exact absurd h' (by simp)
  · refine not_flushed (M := 1) (fun i => by fin_cases i <;> norm_num [abs_of_pos]) le_rfl ?_
    rw [eucl_sq, Fin.sum_univ_two]
    have hc' : c ∈ unitSquare := hc
    simp only [unitSquare, List.mem_cons, List.not_mem_nil, or_false] at hc'
    rcases hc' with rfl | rfl | rfl | rfl <;> norm_num <;> linarith

/-- A segment up through the middle of the square. -/
example (proper : Bool) : ∃ b, interPolySn flatSquare ⟨⟨![1 / 2, 1 / 2, -1], true⟩, ⟨![1 / 2, 1 / 2, 2], true⟩⟩ proper = some b ∧
    (b = true ↔ (spaceInside flatSquare ∩ segSet (⟨⟨![1 / 2, 1 / 2, -1], true⟩, ⟨![1 / 2, 1 / 2, 2], true⟩⟩ : Seg 3)).Nonempty) := by
  have he := epsilon_lt
  norm_num at he
  refine C106_normal_partial flatSquare flatSquare_spans _
    (flat_proj (fun i => by fin_cases i <;> norm_num [abs_le]) (by norm_num [abs_of_pos]) (by norm_num [abs_of_pos]))
    (flat_proj (fun i => by fin_cases i <;> norm_num [abs_le]) (by norm_num [abs_of_pos]) (by norm_num [abs_of_pos])) (w := ![0, 0, 1])
    (y1 := ![1 / 2, 1 / 2]) (y2 := ![1 / 2, 1 / 2]) (k1 := -1) (k2 := 2) ?_ ?_ ?_ ?_ ?_ (Or.inl (by norm_num; linarith)) ?_ proper
  · simp [dotProduct, Fin.sum_univ_three]
  · simp [dotProduct, Fin.sum_univ_three, flatSquare, threeCorners]
  · simp [dotProduct, Fin.sum_univ_three, flatSquare, threeCorners]
  · rw [flatSquare_point]; funext i; fin_cases i <;> simp
  · rw [flatSquare_point]; funext i; fin_cases i <;> simp
  · rintro z ⟨t, -, -, h⟩
    rw [flatSquare_point] at h
    have e0 := congrFun h 0
    have e1 := congrFun h 1
    simp at e0 e1
    have : z = ![1 / 2, 1 / 2] := by apply ext2 <;> simp <;> linarith
    rw [this]
    exact unitSquare_far

/-- `randInt(n)` returns for some seeds: with `C11_uses_draws` and `C11_mask`, whenever the first word drawn is at most `n`. -/
example (n w : BitVec 32) (g g' : MTRand) (h : draws 1 g = some ([w], g')) (hw : w ≤ n) : ∃ g'', randIntN n 1 g = some (some w, g'') ∧ w ≤ n := by
  obtain ⟨g'', e⟩ := C11_uses_draws n 1 g g' [w] h
  rw [(C11_mask n).2.2.2 w hw] at e
  exact ⟨g'', e, C11_in_range n 1 g g'' w e⟩

/-- Two generators that differ in the low bits of their first word. -/
example (f : Fin 624 → BitVec 32) (h0 : f 0 = 0) (k : Nat) : ∃ us g2 g2', draws k ⟨f, 624⟩ = some (us, g2) ∧ draws k ⟨Function.update f 0 5, 624⟩ = some (us, g2') := by
  obtain ⟨us, a, b, e1, e2⟩ := C127_low_bits ⟨f, 624⟩ ⟨Function.update f 0 5, 624⟩ rfl rfl (by simp [h0]) (fun i hi => by simp [Function.update_of_ne hi]) 624
  exact C127_window _ _ us a b e1 e2 k

example : (⟨![3, 4, 0], true⟩ : Vec 3).perpendicular ⟨![4, -3, 7], true⟩ = true :=
  C92_perp_zero _ _ (by simp [dotProduct, Fin.sum_univ_three]; norm_num)

example (r : Rounding 53) := C130_plane (Fl.roundTrig r) (0 : Fin 3) 2 (by decide) (3 / 4)
example (r : Rounding 53) := C130_vector r (Fl.roundTrig r) ⟨![1, 2, 3], true⟩ 0 2 (by decide) (3 / 4)
example (r : Rounding 53) := C130_index r (Fl.roundTrig r) Quat.default (3 / 4) ⟨3, -2, by norm_num, by norm_num⟩
example (r : Rounding 53) := C136_in_ball r ballM unitSquare (by norm_num [ballM])

/-- A ball of radius 2 about (1, 0) and a segment through its middle. -/
example (r : Rounding 53) (proper : Bool) : Fl.interSBall r ⟨⟨![0, 0], true⟩, ⟨![2, 0], true⟩⟩ ballA proper = true := by
  have he := epsilon_lt
  have he0 := epsilon_pos
  norm_num at he
  refine C134_ball_complete r _ _ (by norm_num) proper ⟨![1, 0], ⟨1 / 2, by norm_num, by norm_num, by apply ext2 <;> simp⟩, ?_⟩
  have h1 : eucl ![1, 0] ballA.center.elem = 0 := eucl_eq_zero.2 rfl
  have h2 : eucl ballA.center.elem ![0, 0] ≤ 1 := by
    rw [← abs_of_nonneg (eucl_nonneg _ _), ← abs_of_pos (by norm_num : (0 : ℝ) < 1), ← sq_le_sq, eucl_sq]
    simp [Fin.sum_univ_two, ballA]
  have h3 : (2 : ℝ) ^ (-43 : ℤ) ≤ 1 / 1000 := by norm_num
  have h4 : (0 : ℝ) < 2 ^ (-43 : ℤ) := by positivity
  rw [h1]
  show (0 + (2 : ℝ) ^ (-43 : ℤ) * eucl ballA.center.elem ![0, 0] + 3 * epsilon) * (1 + epsilon) ≤ 2
  have h0 := eucl_nonneg ballA.center.elem ![0, 0]
  generalize (2 : ℝ) ^ (-43 : ℤ) = w at *
  generalize eucl ballA.center.elem ![0, 0] = d at *
  nlinarith [mul_le_mul h3 h2 h0 (by norm_num)]

/-- Opposite vectors in the plane. -/
example : ∃ m, RotMat.rotationFromTo (⟨![1, 0], true⟩ : Vec 2) ⟨![-1, 0], true⟩ = .ok m ∧ IsRotation m ∧ ![1, 0] ᵥ* m.elem = -![1, 0] := by
  have he := epsilon_lt
  have he0 := epsilon_pos
  norm_num at he
  have hd : (⟨![1, 0], true⟩ : Vec 2).dot ⟨![-1, 0], true⟩ = -1 := by
    rw [dot_of_le (M := 1) (fun i => by fin_cases i <;> simp) (by simp [dotProduct, Fin.sum_univ_two]; linarith)]
    simp [dotProduct, Fin.sum_univ_two]
  have hq : (⟨![1, 0], true⟩ : Vec 2).sqrMag = 1 := by rw [Vec.sqrMag_eq]; simp [dotProduct, Fin.sum_univ_two]
  have hq' : (⟨![-1, 0], true⟩ : Vec 2).sqrMag = 1 := by rw [Vec.sqrMag_eq]; simp [dotProduct, Fin.sum_univ_two]
  have hm : ∀ v : Vec 2, v.sqrMag = 1 → v.mag = 1 := fun v h => by unfold Vec.mag; rw [h, Real.sqrt_one]
  have hok : ∃ m, RotMat.rotationFromTo (⟨![1, 0], true⟩ : Vec 2) ⟨![-1, 0], true⟩ = .ok m := by
    unfold RotMat.rotationFromTo
    rw [if_neg (by rw [hq]; norm_num), if_neg (by rw [hq']; norm_num)]
    simp only [hq, hq', hd]
    rw [if_pos (by norm_num; exact he0), dif_pos trivial]
    exact ⟨_, rfl⟩
  obtain ⟨m, h⟩ := hok
  obtain ⟨h1, -, h2⟩ := C43_opposite _ _ m (by unfold DotExact; rw [hd]; simp [dotProduct, Fin.sum_univ_two])
    (by rw [hm _ hq, hm _ hq']; simp [dotProduct, Fin.sum_univ_two]) h
  exact ⟨m, h, h1, h2⟩

end WFMath.Cases
