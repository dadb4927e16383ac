/- Property theorems C159: distances, balls and points after any history of motions in floating point. -/
import Verif.Model.RoundedSteps
import Verif.Props.RoundMatrix
import Verif.Props.RoundMore
import Verif.Props.RoundBall
import Verif.Props.RoundRBox

namespace WFMath
open Spec Matrix Rounding
open scoped Quaternion
variable {n : Nat}

/-- The data of a call: its vector, pivot or frame origin is within `M` of the origin; a matrix is a rotation or reflection up to `E`, a quaternion a unit quaternion up to
`(E - 20 epsilon) / 13`. -/
def Fl.Step.Fits (E M : ℝ) : {n : Nat} → Fl.Step n → Prop
  | _, .shift v => len v.elem ≤ M
  | n, .rotate m p => len p.elem ≤ M ∧ ∃ R : Matrix (Fin n) (Fin n) ℝ, Rᵀ * R = 1 ∧ Stands m.elem R (E - 2 * n * (n + 1) * 2 ^ (-52 : ℤ))
  | n, .toParent o m => len o.elem ≤ M ∧ ∃ R : Matrix (Fin n) (Fin n) ℝ, Rᵀ * R = 1 ∧ Stands m.elem R (E - 2 * n * (n + 1) * 2 ^ (-52 : ℤ))
  | n, .toLocal o m => len o.elem ≤ M ∧ ∃ R : Matrix (Fin n) (Fin n) ℝ, Rᵀ * R = 1 ∧ Stands m.elem R (E - 2 * n * (n + 1) * 2 ^ (-52 : ℤ))
  | _, .rotateQ q p => len p.elem ≤ M ∧ ∃ u : ℍ[ℝ], ‖u‖ = 1 ∧ 13 * ‖toH q - u‖ + 20 * epsilon ≤ E
  | _, .toParentQ o q => len o.elem ≤ M ∧ ∃ u : ℍ[ℝ], ‖u‖ = 1 ∧ 13 * ‖toH q - u‖ + 20 * epsilon ≤ E
  | _, .toLocalQ o q => len o.elem ≤ M ∧ ∃ u : ℍ[ℝ], ‖u‖ = 1 ∧ 13 * ‖toH q - u‖ + 20 * epsilon ≤ E

/-- The call is a rotation about `p`. -/
def Fl.Step.About : {n : Nat} → Pt n → Fl.Step n → Prop
  | _, p, .rotate _ p' => p' = p
  | _, p, .rotateQ _ p' => p' = p
  | _, _, _ => False

/-- The point stays within `M` of the origin: at the start and after every call. -/
def Fl.Remains (r : Rounding 53) (M : ℝ) (h : List (Fl.Step n)) (x : Pt n) : Prop := ∀ k ≤ h.length, len (Fl.stepPoint r (h.take k) x).elem ≤ M

namespace Fl

/-- One call is an exact isometry, up to the rounding. -/
theorem Step.near (r : Rounding 53) (hn : n < 2 ^ 52) {E M : ℝ} (h0 : 2 * n * (n + 1) * 2 ^ (-52 : ℤ) ≤ E) (h1 : E ≤ 1 / 10) (M0 : 0 ≤ M) {s : Step n} (h : s.Fits E M) :
    ∃ T : (Fin n → ℝ) → (Fin n → ℝ), (∀ x y, len (T x - T y) = len (x - y)) ∧
      ∀ x : Pt n, len x.elem ≤ M → len ((s.point r x).elem - T x.elem) ≤ (2 * E + 2 ^ (-51 : ℤ)) * (2 * M) := by
  have E0 : 0 ≤ E := le_trans (by positivity) h0
  have h4 : E ≤ 1 / 4 := by linarith
  have he := epsilon_pos
  have apart : ∀ {x p : Fin n → ℝ}, len x ≤ M → len p ≤ M → len (x - p) ≤ 2 * M := fun {x p} hx hp => (len_sub_le _ _).trans (by linarith)
  have fin : ∀ {F a d p : ℝ}, a ≤ (2 * F + 3 * 2 ^ (-53 : ℤ)) * d + 2 ^ (-53 : ℤ) * p → 0 ≤ F → F ≤ E → d ≤ 2 * M → p ≤ M →
      a ≤ (2 * E + 2 ^ (-51 : ℤ)) * (2 * M) := by
    intro F a d p ha F0 hF hd hp
    have k1 := mul_le_mul_of_nonneg_left hd (show 0 ≤ 2 * F + 3 * 2 ^ (-53 : ℤ) by positivity)
    have k2 := mul_le_mul_of_nonneg_left hp (show (0 : ℝ) ≤ 2 ^ (-53 : ℤ) by positivity)
    have k3 := mul_le_mul_of_nonneg_right hF M0
    refine ha.trans ((add_le_add k1 k2).trans ?_)
    norm_num; linarith
  have fin0 : ∀ {F a d : ℝ}, a ≤ (2 * F + 3 * 2 ^ (-53 : ℤ)) * d → 0 ≤ F → F ≤ E → d ≤ 2 * M → a ≤ (2 * E + 2 ^ (-51 : ℤ)) * (2 * M) :=
    fun {F a d} ha F0 hF hd => fin (p := 0) (by simpa using ha) F0 hF hd M0
  cases s with
  | shift v =>
    refine ⟨fun x => x + v.elem, fun x y => by rw [add_sub_add_right_eq_sub], fun x hx => ?_⟩
    have hv : len v.elem ≤ M := h
    have hb : len (x.elem + v.elem) ≤ 2 * M := (len_add_le _ _).trans (by linarith)
    refine (len_round r (x.elem + v.elem)).trans ((mul_le_mul_of_nonneg_left hb (by positivity)).trans (mul_le_mul_of_nonneg_right ?_ (by linarith)))
    norm_num; linarith
  | rotate m p =>
    obtain ⟨hp, R, hR, hm⟩ := h
    have hR' : Rᵀᵀ * Rᵀ = 1 := by rw [transpose_transpose]; exact mul_eq_one_comm.1 hR
    have lA : ∀ v, len (v ᵥ* R) = len v := fun v => by rw [← mulVec_transpose, len_orth hR']
    exact ⟨fun x => p.elem + (x - p.elem) ᵥ* R, fun x y => by rw [add_sub_add_left_eq_sub, ← sub_vecMul, sub_sub_sub_cancel_right, lA],
      fun x hx => fin (C125_about r m R E hn hR h0 h4 hm x p) E0 le_rfl (apart hx hp) hp⟩
  | toParent o m =>
    obtain ⟨ho, R, hR, hm⟩ := h
    have hR' : Rᵀᵀ * Rᵀ = 1 := by rw [transpose_transpose]; exact mul_eq_one_comm.1 hR
    have lA : ∀ v, len (v ᵥ* R) = len v := fun v => by rw [← mulVec_transpose, len_orth hR']
    exact ⟨fun x => o.elem + x ᵥ* R, fun x y => by rw [add_sub_add_left_eq_sub, ← sub_vecMul, lA],
      fun x hx => fin (C125_matrix r m R E hn hR h0 h4 hm x o).1 E0 le_rfl (by linarith) ho⟩
  | toLocal o m =>
    obtain ⟨ho, R, hR, hm⟩ := h
    exact ⟨fun x => R *ᵥ (x - o.elem), fun x y => by rw [← mulVec_sub, sub_sub_sub_cancel_right, len_orth hR],
      fun x hx => fin0 (C125_matrix r m R E hn hR h0 h4 hm x o).2.1 E0 le_rfl (apart hx ho)⟩
  | rotateQ q p =>
    obtain ⟨hp, u, hu, hq⟩ := h
    have hu' := normSq_eq_one.2 hu
    have d0 := norm_nonneg (toH q - u)
    exact ⟨fun x => p.elem + act u (x - p.elem), fun x y => by rw [add_sub_add_left_eq_sub, ← act_sub hu', sub_sub_sub_cancel_right, len_act hu'],
      fun x hx => fin (C125_about_quaternion r q u _ hu le_rfl (by linarith) x p).1 (by linarith) hq (apart hx hp) hp⟩
  | toParentQ o q =>
    obtain ⟨ho, u, hu, hq⟩ := h
    have hu' := normSq_eq_one.2 hu
    have d0 := norm_nonneg (toH q - u)
    exact ⟨fun x => o.elem + act u x, fun x y => by rw [add_sub_add_left_eq_sub, ← act_sub hu', len_act hu'],
      fun x hx => fin (C125_quaternion r q u _ hu le_rfl (by linarith) x o).1 (by linarith) hq (by linarith) ho⟩
  | toLocalQ o q =>
    obtain ⟨ho, u, hu, hq⟩ := h
    have hi : u⁻¹ = star u := inv_of_unit (normSq_eq_one.2 hu)
    have hs' := star_unit (normSq_eq_one.2 hu)
    have d0 := norm_nonneg (toH q - u)
    exact ⟨fun x => act u⁻¹ (x - o.elem), fun x y => by rw [hi, ← act_sub hs', sub_sub_sub_cancel_right, len_act hs'],
      fun x hx => fin0 (C125_quaternion r q u _ hu le_rfl (by linarith) x o).2.1 (by linarith) hq (apart hx ho)⟩

/-- A history is an exact isometry, up to the roundings of all calls. -/
theorem steps_near (r : Rounding 53) (hn : n < 2 ^ 52) {E M : ℝ} (h0 : 2 * n * (n + 1) * 2 ^ (-52 : ℤ) ≤ E) (h1 : E ≤ 1 / 10) (M0 : 0 ≤ M) (h : List (Step n))
    (hf : ∀ s ∈ h, s.Fits E M) :
    ∃ T : (Fin n → ℝ) → (Fin n → ℝ), (∀ x y, len (T x - T y) = len (x - y)) ∧
      ∀ x : Pt n, Remains r M h x → len ((stepPoint r h x).elem - T x.elem) ≤ h.length * ((2 * E + 2 ^ (-51 : ℤ)) * (2 * M)) := by
  induction h using List.reverseRecOn with
  | nil => exact ⟨id, fun x y => rfl, fun x _ => by simp [stepPoint, len]⟩
  | append_singleton ms s ih =>
    obtain ⟨T, hT, hx⟩ := ih fun m hm => hf m (List.mem_append_left _ hm)
    obtain ⟨S, hS, hy⟩ := Step.near r hn h0 h1 M0 (hf s (by simp))
    refine ⟨fun x => S (T x), fun x y => by rw [hS, hT], fun x st => ?_⟩
    have st' : Remains r M ms x := fun k hk => by
      have := st k (by rw [List.length_append]; omega)
      rwa [List.take_append_of_le_length hk] at this
    have hl : len (stepPoint r ms x).elem ≤ M := by have := st' ms.length le_rfl; rwa [List.take_length] at this
    have e : stepPoint r (ms ++ [s]) x = s.point r (stepPoint r ms x) := by simp [stepPoint]
    have t := len_triangle (s.point r (stepPoint r ms x)).elem (S (stepPoint r ms x).elem) (S (T x.elem))
    rw [hS (stepPoint r ms x).elem] at t
    rw [e, List.length_append, List.length_singleton]
    refine t.trans ((add_le_add (hy _ hl) (hx x st')).trans (le_of_eq ?_))
    push_cast; ring

theorem stepBall_eq (r : Rounding 53) (h : List (Step n)) (b : Ball n) : (stepBall r h b).radius = b.radius ∧ (stepBall r h b).center.elem = (stepPoint r h b.center).elem := by
  have pt : ∀ (s : Step n) (x y : Pt n), x.elem = y.elem → (s.point r x).elem = (s.point r y).elem := by
    rintro s ⟨x, a⟩ ⟨y, b⟩ (rfl : x = y)
    cases s <;> rfl
  have one : ∀ (s : Step n) (c : Ball n), (s.ball r c).radius = c.radius ∧ (s.ball r c).center.elem = (s.point r c.center).elem := by
    intro s c
    have mk : ∀ (p : Pt n) (R : ℝ), (Ball.mk' p R).center.elem = p.elem := fun p R => by unfold Ball.mk'; split <;> rfl
    cases s with
    | toParent o m => exact ⟨rfl, mk _ _⟩
    | toLocal o m => exact ⟨rfl, mk _ _⟩
    | toParentQ o m => exact ⟨rfl, mk _ _⟩
    | toLocalQ o m => exact ⟨rfl, mk _ _⟩
    | _ => exact ⟨rfl, rfl⟩
  have main : ∀ (h : List (Step n)) (c : Ball n) (x : Pt n), c.center.elem = x.elem → (stepBall r h c).radius = c.radius ∧ (stepBall r h c).center.elem = (stepPoint r h x).elem := by
    intro h
    induction h with
    | nil => exact fun c x hx => ⟨rfl, hx⟩
    | cons s ms ih =>
      intro c x hx
      have := ih (s.ball r c) (s.point r x) ((one s c).2.trans (pt s _ _ hx))
      exact ⟨this.1.trans (one s c).1, this.2⟩
  exact main h b b.center rfl

/-- Rotations about one point do not carry a point far away. -/
theorem remains_turning (r : Rounding 53) (hn : n < 2 ^ 52) (p : Pt n) (h : List (Step n)) (E D : ℝ) (h0 : 2 * n * (n + 1) * 2 ^ (-52 : ℤ) ≤ E) (h1 : E ≤ 1 / 10)
    (hN : h.length * (2 * E + 2 ^ (-51 : ℤ)) ≤ 1 / 4) (ha : ∀ s ∈ h, s.About p) (hf : ∀ s ∈ h, s.Fits E D)
    (hp : len p.elem ≤ D) (x : Pt n) (hx : eucl x.elem p.elem ≤ D) : Remains r (3 * D) h x := by
  have E0 : 0 ≤ E := le_trans (by positivity) h0
  have he := epsilon_pos
  have D0 : 0 ≤ D := (len_nonneg _).trans hp
  have one : ∀ s ∈ h, ∀ y : Pt n, eucl y.elem p.elem ≤ 2 * D → eucl (s.point r y).elem p.elem ≤ eucl y.elem p.elem + (2 * E + 2 ^ (-51 : ℤ)) * (2 * D) := by
    intro s hs y hy
    have fin : ∀ {F : ℝ} {w z : Fin n → ℝ}, len (z - (p.elem + w)) ≤ (2 * F + 3 * 2 ^ (-53 : ℤ)) * len (y.elem - p.elem) + 2 ^ (-53 : ℤ) * len p.elem → 0 ≤ F → F ≤ E →
        len w = len (y.elem - p.elem) → eucl z p.elem ≤ eucl y.elem p.elem + (2 * E + 2 ^ (-51 : ℤ)) * (2 * D) := by
      intro F w z h F0 hF hw
      rw [eucl_eq_len] at hy
      have k1 := mul_le_mul_of_nonneg_left hy (show 0 ≤ 2 * F + 3 * 2 ^ (-53 : ℤ) by positivity)
      have k2 := mul_le_mul_of_nonneg_left hp (show (0 : ℝ) ≤ 2 ^ (-53 : ℤ) by positivity)
      have k3 := mul_le_mul_of_nonneg_right hF D0
      have k4 : (2 * F + 3 * 2 ^ (-53 : ℤ)) * (2 * D) + 2 ^ (-53 : ℤ) * D ≤ (2 * E + 2 ^ (-51 : ℤ)) * (2 * D) := by norm_num; linarith
      have t := len_triangle z (p.elem + w) p.elem
      rw [add_sub_cancel_left, hw] at t
      rw [eucl_eq_len, eucl_eq_len y.elem p.elem, add_comm (len _)]
      exact t.trans (add_le_add (h.trans ((add_le_add k1 k2).trans k4)) le_rfl)
    have a := ha s hs
    have f := hf s hs
    cases s with
    | rotate m p' =>
      obtain rfl : p' = p := a
      obtain ⟨_, R, hR, hm⟩ := f
      have hR' : Rᵀᵀ * Rᵀ = 1 := by rw [transpose_transpose]; exact mul_eq_one_comm.1 hR
      exact fin (C125_about r m R E hn hR h0 (by linarith) hm y p') E0 le_rfl (by rw [← mulVec_transpose, len_orth hR'])
    | rotateQ q p' =>
      obtain rfl : p' = p := a
      obtain ⟨_, u, hu, hq⟩ := f
      have d0 := norm_nonneg (toH q - u)
      exact fin (C125_about_quaternion r q u _ hu le_rfl (by linarith) y p').1 (by linarith) hq (len_act (normSq_eq_one.2 hu) _)
    | shift => exact a.elim
    | toParent => exact a.elim
    | toLocal => exact a.elim
    | toParentQ => exact a.elim
    | toLocalQ => exact a.elim
  have K0 : 0 ≤ 2 * E + 2 ^ (-51 : ℤ) := by positivity
  generalize 2 * E + 2 ^ (-51 : ℤ) = K at hN K0 one
  have half : ∀ {k : Nat}, k ≤ h.length → D + k * (K * (2 * D)) ≤ 2 * D := fun {k} hk => by
    have kN : k * K ≤ 1 / 4 := (mul_le_mul_of_nonneg_right (by exact_mod_cast hk) K0).trans hN
    have := mul_le_mul_of_nonneg_right kN (show 0 ≤ 2 * D by linarith)
    rw [mul_assoc] at this
    linarith
  have main : ∀ k ≤ h.length, eucl (stepPoint r (h.take k) x).elem p.elem ≤ D + k * (K * (2 * D)) := by
    intro k
    induction k with
    | zero => intro _; simpa [stepPoint] using hx
    | succ k ih =>
      intro hk
      have hk' : k < h.length := hk
      have e : stepPoint r (h.take (k + 1)) x = h[k].point r (stepPoint r (h.take k) x) := by
        rw [List.take_succ_eq_append_getElem hk', stepPoint, List.foldl_append]; rfl
      have a := ih hk'.le
      rw [e]
      refine (one _ (List.getElem_mem hk') _ (a.trans (half hk'.le))).trans ((add_le_add a le_rfl).trans (le_of_eq ?_))
      push_cast; ring
  intro k hk
  have b := (main k hk).trans (half hk)
  rw [eucl_eq_len] at b
  have t := len_add_le ((stepPoint r (h.take k) x).elem - p.elem) p.elem
  rw [sub_add_cancel] at t
  linarith

end Fl

/-- C159, distances: two points go through the same history of calls in doubles (`shift`, `rotatePoint`, `toParentCoords`, `toLocalCoords`, with matrices or, in space, quaternions).
As long as everything stays within `M` of the origin, each call changes their distance by at most `4 (2 E + 2^-51) M`. -/
theorem C159_distance (r : Rounding 53) (hn : n < 2 ^ 52) (h : List (Fl.Step n)) (E M : ℝ) (h0 : 2 * n * (n + 1) * 2 ^ (-52 : ℤ) ≤ E) (h1 : E ≤ 1 / 10)
    (hf : ∀ s ∈ h, s.Fits E M) (x y : Pt n) (hx : Fl.Remains r M h x) (hy : Fl.Remains r M h y) :
    |eucl (Fl.stepPoint r h x).elem (Fl.stepPoint r h y).elem - eucl x.elem y.elem| ≤ h.length * (4 * (2 * E + 2 ^ (-51 : ℤ)) * M) := by
  have M0 : 0 ≤ M := (len_nonneg _).trans (hx 0 (Nat.zero_le _))
  obtain ⟨T, hT, er⟩ := Fl.steps_near r hn h0 h1 M0 h hf
  have a := er x hx
  have b := er y hy
  rw [eucl_eq_len, eucl_eq_len x.elem y.elem, ← hT x.elem y.elem]
  generalize (Fl.stepPoint r h x).elem = x' at *
  generalize (Fl.stepPoint r h y).elem = y' at *
  have c : |len (x' - y') - len (T x.elem - T y.elem)| ≤ len (x' - T x.elem) + len (y' - T y.elem) := by
    have t1 := len_triangle x' (T x.elem) y'
    have t2 := len_triangle (T x.elem) (T y.elem) y'
    have t3 := len_triangle (T x.elem) x' (T y.elem)
    have t4 := len_triangle x' y' (T y.elem)
    rw [len_sub_comm (T y.elem) y'] at t2
    rw [len_sub_comm (T x.elem) x'] at t3
    exact _root_.abs_le.2 ⟨by linarith, by linarith⟩
  refine c.trans ((add_le_add a b).trans (le_of_eq ?_))
  ring

/-- C159, ball and point: after the history the library finds the point in the ball when the point was in it by more than the drift of the distance, and when it finds it there, the
point was in the ball enlarged by the factor `1 + epsilon` and the drift, unless the moved point is so near to the moved centre that the squared distance is set to 0. -/
theorem C159_ball (r : Rounding 53) (hn : n ≤ 50) (h : List (Fl.Step n)) (E M : ℝ) (h0 : 2 * n * (n + 1) * 2 ^ (-52 : ℤ) ≤ E) (h1 : E ≤ 1 / 10)
    (hf : ∀ s ∈ h, s.Fits E M) (b : Ball n) (p : Pt n) (hR : 0 ≤ b.radius) (hb : Fl.Remains r M h b.center) (hp : Fl.Remains r M h p) :
    (eucl p.elem b.center.elem + h.length * (4 * (2 * E + 2 ^ (-51 : ℤ)) * M) ≤ b.radius → Fl.interBallP r (Fl.stepBall r h b) (Fl.stepPoint r h p) false = true) ∧
    (eucl p.elem b.center.elem + h.length * (4 * (2 * E + 2 ^ (-51 : ℤ)) * M) < b.radius → Fl.interBallP r (Fl.stepBall r h b) (Fl.stepPoint r h p) true = true) ∧
    (∀ proper, Fl.interBallP r (Fl.stepBall r h b) (Fl.stepPoint r h p) proper = true →
      eucl p.elem b.center.elem ≤ b.radius * (1 + epsilon) + h.length * (4 * (2 * E + 2 ^ (-51 : ℤ)) * M) ∨ NearlyFlushed (Fl.stepPoint r h b.center) (Fl.stepPoint r h p)) := by
  have d := _root_.abs_le.1 (C159_distance r (by omega) h E M h0 h1 hf p b.center hp hb)
  obtain ⟨e1, e2⟩ := Fl.stepBall_eq r h b
  have t := C119_point r (Fl.stepBall r h b) (Fl.stepPoint r h p) hn (by rw [e1]; exact hR)
  refine ⟨fun hh => t.1 ?_, fun hh => t.2.1 ?_, fun proper hh => ?_⟩
  · show eucl _ _ ≤ _
    rw [e1, e2]; linarith
  · show eucl _ _ < _
    rw [e1, e2]; linarith
  · rcases t.2.2 proper hh with h' | h'
    · left
      have h'' : eucl _ _ ≤ _ := h'
      rw [e1, e2] at h''
      linarith
    · right
      unfold NearlyFlushed at h' ⊢
      rwa [e2] at h'

/-- C159, two balls that go through the same history: the library finds them meeting after it when the distance of their centres was smaller than the sum of the radii by the
drift and the factor `1 + epsilon`; when it finds them meeting, the distance was at most the sum of the radii, up to the factor and the drift, unless the moved centres are so near
to each other that the squared distance is set to 0. -/
theorem C159_balls (r : Rounding 53) (hn : n ≤ 50) (h : List (Fl.Step n)) (E M : ℝ) (h0 : 2 * n * (n + 1) * 2 ^ (-52 : ℤ) ≤ E) (h1 : E ≤ 1 / 10)
    (hf : ∀ s ∈ h, s.Fits E M) (a b : Ball n) (ha : 0 < a.radius) (hb : 0 < b.radius) (ra : Fl.Remains r M h a.center) (rb : Fl.Remains r M h b.center) (proper : Bool) :
    ((eucl a.center.elem b.center.elem + h.length * (4 * (2 * E + 2 ^ (-51 : ℤ)) * M)) * (1 + epsilon) ≤ a.radius + b.radius →
      Fl.interBallBall r (Fl.stepBall r h a) (Fl.stepBall r h b) proper = true) ∧
    (Fl.interBallBall r (Fl.stepBall r h a) (Fl.stepBall r h b) proper = true →
      eucl a.center.elem b.center.elem ≤ (a.radius + b.radius) * (1 + epsilon) + h.length * (4 * (2 * E + 2 ^ (-51 : ℤ)) * M) ∨
      NearlyFlushed (Fl.stepPoint r h a.center) (Fl.stepPoint r h b.center)) := by
  have he := epsilon_pos
  have hE : (0 : ℝ) < 1 + epsilon := by linarith
  have d := _root_.abs_le.1 (C159_distance r (by omega) h E M h0 h1 hf a.center b.center ra rb)
  obtain ⟨e1, e2⟩ := Fl.stepBall_eq r h a
  obtain ⟨f1, f2⟩ := Fl.stepBall_eq r h b
  have t := C119_balls r (Fl.stepBall r h a) (Fl.stepBall r h b) hn (by rw [e1]; exact ha.le) (by rw [f1]; exact hb.le) proper
  refine ⟨fun hh => t.1 ?_ (.inl (by rwa [e1])), fun hh => ?_⟩
  · rw [ballSet_inter _ _ (div_nonneg (by rw [e1]; exact ha.le) hE.le) (div_nonneg (by rw [f1]; exact hb.le) hE.le)]
    show eucl _ _ ≤ _ / _ + _ / _
    rw [e1, e2, f1, f2, ← add_div, le_div_iff₀ hE]
    exact (mul_le_mul_of_nonneg_right (by linarith) hE.le).trans hh
  · rcases t.2.1 hh with h' | h'
    · left
      rw [ballSet_inter _ _ (mul_nonneg (by rw [e1]; exact ha.le) hE.le) (mul_nonneg (by rw [f1]; exact hb.le) hE.le)] at h'
      have h'' : eucl _ _ ≤ _ * _ + _ * _ := h'
      rw [e1, e2, f1, f2, ← add_mul] at h''
      linarith
    · right
      unfold NearlyFlushed at h' ⊢
      rwa [e2, f2] at h'

/-- C159, turns: any number of rotations about one point `p`, by matrices or quaternions. Here only the start is bounded: `p` is within `D` of the origin, and the two points are
within `D` of `p`. -/
theorem C159_turns (r : Rounding 53) (hn : n < 2 ^ 52) (p : Pt n) (h : List (Fl.Step n)) (E D : ℝ) (h0 : 2 * n * (n + 1) * 2 ^ (-52 : ℤ) ≤ E) (h1 : E ≤ 1 / 10)
    (hN : h.length * (2 * E + 2 ^ (-51 : ℤ)) ≤ 1 / 4) (ha : ∀ s ∈ h, s.About p) (hf : ∀ s ∈ h, s.Fits E D) (hp : len p.elem ≤ D)
    (x y : Pt n) (hx : eucl x.elem p.elem ≤ D) (hy : eucl y.elem p.elem ≤ D) :
    |eucl (Fl.stepPoint r h x).elem (Fl.stepPoint r h y).elem - eucl x.elem y.elem| ≤ h.length * (12 * (2 * E + 2 ^ (-51 : ℤ)) * D) := by
  have D0 : 0 ≤ D := (len_nonneg _).trans hp
  have st := Fl.remains_turning r hn p h E D h0 h1 hN ha hf hp
  have hf' : ∀ s ∈ h, s.Fits E (3 * D) := by
    intro s hs
    have a := ha s hs
    have f := hf s hs
    cases s with
    | rotate m p' => exact ⟨f.1.trans (by linarith), f.2⟩
    | rotateQ q p' => exact ⟨f.1.trans (by linarith), f.2⟩
    | shift => exact a.elim
    | toParent => exact a.elim
    | toLocal => exact a.elim
    | toParentQ => exact a.elim
    | toLocalQ => exact a.elim
  refine (C159_distance r hn h E (3 * D) h0 h1 hf' x y (st x hx) (st y hy)).trans (le_of_eq ?_)
  ring

end WFMath
