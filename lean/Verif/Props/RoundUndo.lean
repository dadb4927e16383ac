/- Property theorems C164: histories of motions that are taken back in floating point. -/
import Verif.Model.RoundedUndo
import Verif.Props.RoundSegSteps

namespace WFMath
open Spec Matrix Rounding
open scoped Quaternion
variable {n : Nat}

namespace Fl

/-- A call and the call that takes it back are exact isometries, each the other's inverse, up to the rounding. -/
theorem Step.near_undo (r : Rounding 53) (hn : n < 2 ^ 52) {E M : ℝ} (h0 : 2 * n * (n + 1) * 2 ^ (-52 : ℤ) ≤ E) (h1 : E ≤ 1 / 10) (M0 : 0 ≤ M) {s : Step n} (h : s.Fits E M) :
    ∃ T S : (Fin n → ℝ) → (Fin n → ℝ), (∀ x y, len (T x - T y) = len (x - y)) ∧ (∀ x y, len (S x - S y) = len (x - y)) ∧ (∀ x, S (T x) = x) ∧
      (∀ x : Pt n, len x.elem ≤ M → len ((s.point r x).elem - T x.elem) ≤ (2 * E + 2 ^ (-51 : ℤ)) * (2 * M)) ∧
      ∀ x : Pt n, len x.elem ≤ M → len ((s.undo.point r x).elem - S x.elem) ≤ (2 * E + 2 ^ (-51 : ℤ)) * (2 * M) := by
  have E0 : 0 ≤ E := le_trans (by positivity) h0
  have h4 : E ≤ 1 / 4 := by linarith
  have he := epsilon_pos
  have apart : ∀ {x p : Fin n → ℝ}, len x ≤ M → len p ≤ M → len (x - p) ≤ 2 * M := fun {x p} hx hp => (len_sub_le _ _).trans (by linarith)
  have fin : ∀ {F a d p : ℝ}, a ≤ (2 * F + 3 * 2 ^ (-53 : ℤ)) * d + 2 ^ (-53 : ℤ) * p → 0 ≤ F → F ≤ E → d ≤ 2 * M → p ≤ M →
      a ≤ (2 * E + 2 ^ (-51 : ℤ)) * (2 * M) := by
    intro F a d p ha F0 hF hd hp
    have k1 := mul_le_mul_of_nonneg_left hd (show 0 ≤ 2 * F + 3 * 2 ^ (-53 : ℤ) by positivity)
    have k2 := mul_le_mul_of_nonneg_left hp (show (0 : ℝ) ≤ 2 ^ (-53 : ℤ) by positivity)
    have k3 := mul_le_mul_of_nonneg_right hF M0
    refine ha.trans ((add_le_add k1 k2).trans ?_)
    norm_num; linarith
  have fin0 : ∀ {F a d : ℝ}, a ≤ (2 * F + 3 * 2 ^ (-53 : ℤ)) * d → 0 ≤ F → F ≤ E → d ≤ 2 * M → a ≤ (2 * E + 2 ^ (-51 : ℤ)) * (2 * M) :=
    fun {F a d} ha F0 hF hd => fin (p := 0) (by simpa using ha) F0 hF hd M0
  have ortho : ∀ {R : Matrix (Fin n) (Fin n) ℝ}, Rᵀ * R = 1 → Rᵀᵀ * Rᵀ = 1 := fun hR => by rw [transpose_transpose]; exact mul_eq_one_comm.1 hR
  have lA : ∀ {R : Matrix (Fin n) (Fin n) ℝ}, Rᵀ * R = 1 → ∀ v, len (v ᵥ* R) = len v := fun hR v => by rw [← mulVec_transpose, len_orth (ortho hR)]
  cases s with
  | shift v =>
    have hv : len v.elem ≤ M := h
    have hv' : len (-v.elem) ≤ M := by
      have := len_sub_comm 0 v.elem
      rw [zero_sub, sub_zero] at this
      rwa [this]
    have one : ∀ {w : Fin n → ℝ}, len w ≤ M → ∀ x : Pt n, len x.elem ≤ M → len ((fun i => r (x.elem i + w i)) - (x.elem + w)) ≤ (2 * E + 2 ^ (-51 : ℤ)) * (2 * M) := by
      intro w hw x hx
      have hb : len (x.elem + w) ≤ 2 * M := (len_add_le _ _).trans (by linarith)
      refine (len_round r (x.elem + w)).trans ((mul_le_mul_of_nonneg_left hb (by positivity)).trans (mul_le_mul_of_nonneg_right ?_ (by linarith)))
      norm_num; linarith
    exact ⟨fun x => x + v.elem, fun x => x + -v.elem, fun x y => by rw [add_sub_add_right_eq_sub], fun x y => by rw [add_sub_add_right_eq_sub], fun x => add_neg_cancel_right _ _,
      one hv, one hv'⟩
  | rotate m p =>
    obtain ⟨hp, R, hR, hm⟩ := h
    have hm' : Stands m.inverse.elem Rᵀ (E - 2 * n * (n + 1) * 2 ^ (-52 : ℤ)) := stands_transpose (sub_nonneg.2 h0) hm
    refine ⟨fun x => p.elem + (x - p.elem) ᵥ* R, fun x => p.elem + (x - p.elem) ᵥ* Rᵀ,
      fun x y => by rw [add_sub_add_left_eq_sub, ← sub_vecMul, sub_sub_sub_cancel_right, lA hR],
      fun x y => by rw [add_sub_add_left_eq_sub, ← sub_vecMul, sub_sub_sub_cancel_right, lA (ortho hR)], fun x => ?_,
      fun x hx => fin (C125_about r m R E hn hR h0 h4 hm x p) E0 le_rfl (apart hx hp) hp,
      fun x hx => fin (C125_about r m.inverse Rᵀ E hn (ortho hR) h0 h4 hm' x p) E0 le_rfl (apart hx hp) hp⟩
    simp only [add_sub_cancel_left, vecMul_vecMul]
    rw [mul_eq_one_comm.1 hR, vecMul_one, add_sub_cancel]
  | toParent o m =>
    obtain ⟨ho, R, hR, hm⟩ := h
    refine ⟨fun x => o.elem + x ᵥ* R, fun x => R *ᵥ (x - o.elem), fun x y => by rw [add_sub_add_left_eq_sub, ← sub_vecMul, lA hR],
      fun x y => by rw [← mulVec_sub, sub_sub_sub_cancel_right, len_orth hR], fun x => ?_,
      fun x hx => fin (C125_matrix r m R E hn hR h0 h4 hm x o).1 E0 le_rfl (by linarith) ho,
      fun x hx => fin0 (C125_matrix r m R E hn hR h0 h4 hm x o).2.1 E0 le_rfl (apart hx ho)⟩
    simp only [add_sub_cancel_left]
    rw [← mulVec_transpose, mulVec_mulVec, mul_eq_one_comm.1 hR, one_mulVec]
  | toLocal o m =>
    obtain ⟨ho, R, hR, hm⟩ := h
    refine ⟨fun x => R *ᵥ (x - o.elem), fun x => o.elem + x ᵥ* R, fun x y => by rw [← mulVec_sub, sub_sub_sub_cancel_right, len_orth hR],
      fun x y => by rw [add_sub_add_left_eq_sub, ← sub_vecMul, lA hR], fun x => ?_,
      fun x hx => fin0 (C125_matrix r m R E hn hR h0 h4 hm x o).2.1 E0 le_rfl (apart hx ho),
      fun x hx => fin (C125_matrix r m R E hn hR h0 h4 hm x o).1 E0 le_rfl (by linarith) ho⟩
    dsimp only
    rw [← mulVec_transpose, mulVec_mulVec, hR, one_mulVec, add_sub_cancel]
  | rotateQ q p =>
    obtain ⟨hp, u, hu, hq⟩ := h
    have hu' := normSq_eq_one.2 hu
    have hs' := star_unit hu'
    have hq' : ‖toH q.inverse - star u‖ = ‖toH q - u‖ := by rw [toH_inverse, ← star_sub, _root_.norm_star]
    have d0 := norm_nonneg (toH q - u)
    refine ⟨fun x => p.elem + act u (x - p.elem), fun x => p.elem + act (star u) (x - p.elem),
      fun x y => by rw [add_sub_add_left_eq_sub, ← act_sub hu', sub_sub_sub_cancel_right, len_act hu'],
      fun x y => by rw [add_sub_add_left_eq_sub, ← act_sub hs', sub_sub_sub_cancel_right, len_act hs'], fun x => ?_,
      fun x hx => fin (C125_about_quaternion r q u _ hu le_rfl (by linarith) x p).1 (by linarith) hq (apart hx hp) hp,
      fun x hx => fin (C125_about_quaternion r q.inverse (star u) _ (by rw [_root_.norm_star, hu]) hq'.le (by linarith) x p).1 (by linarith) hq (apart hx hp) hp⟩
    simp only [add_sub_cancel_left]
    rw [act_star_act hu', add_sub_cancel]
  | toParentQ o q =>
    obtain ⟨ho, u, hu, hq⟩ := h
    have hu' := normSq_eq_one.2 hu
    have hi : u⁻¹ = star u := inv_of_unit hu'
    have hs' := star_unit hu'
    have d0 := norm_nonneg (toH q - u)
    refine ⟨fun x => o.elem + act u x, fun x => act u⁻¹ (x - o.elem), fun x y => by rw [add_sub_add_left_eq_sub, ← act_sub hu', len_act hu'],
      fun x y => by rw [hi, ← act_sub hs', sub_sub_sub_cancel_right, len_act hs'], fun x => ?_,
      fun x hx => fin (C125_quaternion r q u _ hu le_rfl (by linarith) x o).1 (by linarith) hq (by linarith) ho,
      fun x hx => fin0 (C125_quaternion r q u _ hu le_rfl (by linarith) x o).2.1 (by linarith) hq (apart hx ho)⟩
    simp only [add_sub_cancel_left]
    rw [hi, act_star_act hu']
  | toLocalQ o q =>
    obtain ⟨ho, u, hu, hq⟩ := h
    have hu' := normSq_eq_one.2 hu
    have hi : u⁻¹ = star u := inv_of_unit hu'
    have hs' := star_unit hu'
    have d0 := norm_nonneg (toH q - u)
    refine ⟨fun x => act u⁻¹ (x - o.elem), fun x => o.elem + act u x, fun x y => by rw [hi, ← act_sub hs', sub_sub_sub_cancel_right, len_act hs'],
      fun x y => by rw [add_sub_add_left_eq_sub, ← act_sub hu', len_act hu'], fun x => ?_,
      fun x hx => fin0 (C125_quaternion r q u _ hu le_rfl (by linarith) x o).2.1 (by linarith) hq (apart hx ho),
      fun x hx => fin (C125_quaternion r q u _ hu le_rfl (by linarith) x o).1 (by linarith) hq (by linarith) ho⟩
    dsimp only
    rw [hi, act_act_star hu', add_sub_cancel]

/-- The call that takes back a rotation about `p` is one too, and its data fits as well. -/
theorem Step.about_undo {E M : ℝ} (h0 : 2 * n * (n + 1) * 2 ^ (-52 : ℤ) ≤ E) {p : Pt n} {s : Step n} (ha : s.About p) (hf : s.Fits E M) : s.undo.About p ∧ s.undo.Fits E M := by
  cases s with
  | rotate m p' =>
    obtain ⟨hp, R, hR, hm⟩ := hf
    exact ⟨ha, hp, Rᵀ, by rw [transpose_transpose]; exact mul_eq_one_comm.1 hR, stands_transpose (sub_nonneg.2 h0) hm⟩
  | rotateQ q p' =>
    obtain ⟨hp, u, hu, hq⟩ := hf
    exact ⟨ha, hp, star u, by rw [_root_.norm_star, hu], by rw [toH_inverse, ← star_sub, _root_.norm_star]; exact hq⟩
  | shift => exact ha.elim
  | toParent => exact ha.elim
  | toLocal => exact ha.elim
  | toParentQ => exact ha.elim
  | toLocalQ => exact ha.elim

/-- A history and the calls that take it back are exact isometries, each the other's inverse, up to the roundings of all calls. -/
theorem steps_near_undo (r : Rounding 53) (hn : n < 2 ^ 52) {E M : ℝ} (h0 : 2 * n * (n + 1) * 2 ^ (-52 : ℤ) ≤ E) (h1 : E ≤ 1 / 10) (M0 : 0 ≤ M) (h : List (Step n))
    (hf : ∀ s ∈ h, s.Fits E M) :
    ∃ T S : (Fin n → ℝ) → (Fin n → ℝ), (∀ x y, len (T x - T y) = len (x - y)) ∧ (∀ x y, len (S x - S y) = len (x - y)) ∧ (∀ x, S (T x) = x) ∧
      (∀ x : Pt n, Remains r M h x → len ((stepPoint r h x).elem - T x.elem) ≤ h.length * ((2 * E + 2 ^ (-51 : ℤ)) * (2 * M))) ∧
      ∀ x : Pt n, Remains r M (undoAll h) x → len ((stepPoint r (undoAll h) x).elem - S x.elem) ≤ h.length * ((2 * E + 2 ^ (-51 : ℤ)) * (2 * M)) := by
  induction h with
  | nil => exact ⟨id, id, fun x y => rfl, fun x y => rfl, fun x => rfl, fun x _ => by simp [stepPoint, len], fun x _ => by simp [stepPoint, undoAll, len]⟩
  | cons s ms ih =>
    obtain ⟨T, S, hT, hS, hST, eT, eS⟩ := ih fun m hm => hf m (List.mem_cons_of_mem _ hm)
    obtain ⟨T', S', hT', hS', hST', eT', eS'⟩ := Step.near_undo r hn h0 h1 M0 (hf s (by simp))
    have eu : undoAll (s :: ms) = undoAll ms ++ [s.undo] := by simp [undoAll]
    have lu : (undoAll ms).length = ms.length := by simp [undoAll]
    refine ⟨fun x => T (T' x), fun x => S' (S x), fun x y => by rw [hT, hT'], fun x y => by rw [hS', hS], fun x => (congrArg S' (hST _)).trans (hST' x), fun x st => ?_, fun x st => ?_⟩
    · have st' : Remains r M ms (s.point r x) := fun k hk => st (k + 1) (by rw [List.length_cons]; omega)
      have a := eT _ st'
      have b := eT' x (st 0 (Nat.zero_le _))
      have e : stepPoint r (s :: ms) x = stepPoint r ms (s.point r x) := rfl
      have t := len_triangle (stepPoint r ms (s.point r x)).elem (T (s.point r x).elem) (T (T' x.elem))
      rw [hT (s.point r x).elem] at t
      rw [e, List.length_cons]
      refine t.trans ((add_le_add a b).trans (le_of_eq ?_))
      push_cast; ring
    · rw [eu] at st ⊢
      have st' : Remains r M (undoAll ms) x := fun k hk => by
        have := st k (by rw [List.length_append]; omega)
        rwa [List.take_append_of_le_length hk] at this
      have hl : len (stepPoint r (undoAll ms) x).elem ≤ M := by have := st' _ le_rfl; rwa [List.take_length] at this
      have e : stepPoint r (undoAll ms ++ [s.undo]) x = s.undo.point r (stepPoint r (undoAll ms) x) := by simp [stepPoint]
      have t := len_triangle (s.undo.point r (stepPoint r (undoAll ms) x)).elem (S' (stepPoint r (undoAll ms) x).elem) (S' (S x.elem))
      rw [hS' (stepPoint r (undoAll ms) x).elem] at t
      rw [e, List.length_cons]
      refine t.trans ((add_le_add (eS' _ hl) (eS x st')).trans (le_of_eq ?_))
      push_cast; ring

end Fl

/-- C164, points: a point goes through a history of calls in doubles and then through the calls that take them back, the last one first. As long as everything stays within `M` of the
origin, it comes back to where it was, up to `4 (2 E + 2^-51) M` for each call of the history. -/
theorem C164_point (r : Rounding 53) (hn : n < 2 ^ 52) (h : List (Fl.Step n)) (E M : ℝ) (h0 : 2 * n * (n + 1) * 2 ^ (-52 : ℤ) ≤ E) (h1 : E ≤ 1 / 10)
    (hf : ∀ s ∈ h, s.Fits E M) (x : Pt n) (hx : Fl.Remains r M (h ++ Fl.undoAll h) x) :
    eucl (Fl.stepPoint r (h ++ Fl.undoAll h) x).elem x.elem ≤ h.length * (4 * (2 * E + 2 ^ (-51 : ℤ)) * M) := by
  have M0 : 0 ≤ M := (len_nonneg _).trans (hx 0 (Nat.zero_le _))
  obtain ⟨T, S, -, hS, hST, eT, eS⟩ := Fl.steps_near_undo r hn h0 h1 M0 h hf
  have e : ∀ k, Fl.stepPoint r (h ++ (Fl.undoAll h).take k) x = Fl.stepPoint r ((Fl.undoAll h).take k) (Fl.stepPoint r h x) := fun k => by simp [Fl.stepPoint]
  have st : Fl.Remains r M h x := fun k hk => by
    have := hx k (by rw [List.length_append]; omega)
    rwa [List.take_append_of_le_length hk] at this
  have st' : Fl.Remains r M (Fl.undoAll h) (Fl.stepPoint r h x) := fun k hk => by
    have := hx (h.length + k) (by rw [List.length_append]; omega)
    rwa [List.take_length_add_append, e] at this
  have a := eT x st
  have b := eS _ st'
  have e' := e (Fl.undoAll h).length
  rw [List.take_length] at e'
  have t := len_triangle (Fl.stepPoint r (Fl.undoAll h) (Fl.stepPoint r h x)).elem (S (Fl.stepPoint r h x).elem) (S (T x.elem))
  rw [hS (Fl.stepPoint r h x).elem, hST] at t
  rw [e', eucl_eq_len]
  refine t.trans ((add_le_add b a).trans (le_of_eq ?_))
  ring

/-- C164, balls: the radius comes back exactly and the centre as a point does. -/
theorem C164_ball (r : Rounding 53) (hn : n < 2 ^ 52) (h : List (Fl.Step n)) (E M : ℝ) (h0 : 2 * n * (n + 1) * 2 ^ (-52 : ℤ) ≤ E) (h1 : E ≤ 1 / 10)
    (hf : ∀ s ∈ h, s.Fits E M) (b : Ball n) (hb : Fl.Remains r M (h ++ Fl.undoAll h) b.center) :
    (Fl.stepBall r (h ++ Fl.undoAll h) b).radius = b.radius ∧
    eucl (Fl.stepBall r (h ++ Fl.undoAll h) b).center.elem b.center.elem ≤ h.length * (4 * (2 * E + 2 ^ (-51 : ℤ)) * M) := by
  obtain ⟨e1, e2⟩ := Fl.stepBall_eq r (h ++ Fl.undoAll h) b
  rw [e1, e2]
  exact ⟨rfl, C164_point r hn h E M h0 h1 hf _ hb⟩

/-- C164, segments: each end comes back as a point does. -/
theorem C164_segment (r : Rounding 53) (hn : n < 2 ^ 52) (h : List (Fl.Step n)) (E M : ℝ) (h0 : 2 * n * (n + 1) * 2 ^ (-52 : ℤ) ≤ E) (h1 : E ≤ 1 / 10)
    (hf : ∀ s ∈ h, s.Fits E M) (g : Seg n) (g1 : Fl.Remains r M (h ++ Fl.undoAll h) g.p1) (g2 : Fl.Remains r M (h ++ Fl.undoAll h) g.p2) :
    eucl (Fl.stepSeg r (h ++ Fl.undoAll h) g).p1.elem g.p1.elem ≤ h.length * (4 * (2 * E + 2 ^ (-51 : ℤ)) * M) ∧
    eucl (Fl.stepSeg r (h ++ Fl.undoAll h) g).p2.elem g.p2.elem ≤ h.length * (4 * (2 * E + 2 ^ (-51 : ℤ)) * M) := by
  rw [Fl.stepSeg_eq]
  exact ⟨C164_point r hn h E M h0 h1 hf _ g1, C164_point r hn h E M h0 h1 hf _ g2⟩

/-- C164, rotations about one point: a point is turned any number of times about one point, by matrices or quaternions, and turned back. It comes back to where it was; that it stays
near is no longer assumed but follows. -/
theorem C164_turns (r : Rounding 53) (hn : n < 2 ^ 52) (p : Pt n) (h : List (Fl.Step n)) (E D : ℝ) (h0 : 2 * n * (n + 1) * 2 ^ (-52 : ℤ) ≤ E) (h1 : E ≤ 1 / 10)
    (hN : h.length * (2 * E + 2 ^ (-51 : ℤ)) ≤ 1 / 8) (ha : ∀ s ∈ h, s.About p) (hf : ∀ s ∈ h, s.Fits E D) (hp : len p.elem ≤ D) (x : Pt n) (hx : eucl x.elem p.elem ≤ D) :
    eucl (Fl.stepPoint r (h ++ Fl.undoAll h) x).elem x.elem ≤ h.length * (12 * (2 * E + 2 ^ (-51 : ℤ)) * D) := by
  have D0 : 0 ≤ D := (len_nonneg _).trans hp
  have all : ∀ s ∈ h ++ Fl.undoAll h, s.About p ∧ s.Fits E D := by
    intro s hs
    rcases List.mem_append.1 hs with hs | hs
    · exact ⟨ha s hs, hf s hs⟩
    · unfold Fl.undoAll at hs
      rw [List.mem_reverse] at hs
      obtain ⟨t, ht, rfl⟩ := List.mem_map.1 hs
      exact Fl.Step.about_undo h0 (ha t ht) (hf t ht)
  have ll : ((h ++ Fl.undoAll h).length : ℝ) = 2 * h.length := by simp [Fl.undoAll]; ring
  have st := Fl.remains_turning r hn p (h ++ Fl.undoAll h) E D h0 h1 (by rw [ll, mul_assoc]; linarith) (fun s hs => (all s hs).1) (fun s hs => (all s hs).2) hp x hx
  have hf' : ∀ s ∈ h, s.Fits E (3 * D) := by
    intro s hs
    have a := ha s hs
    have f := hf s hs
    cases s with
    | rotate m p' => exact ⟨f.1.trans (by linarith), f.2⟩
    | rotateQ q p' => exact ⟨f.1.trans (by linarith), f.2⟩
    | shift => exact a.elim
    | toParent => exact a.elim
    | toLocal => exact a.elim
    | toParentQ => exact a.elim
    | toLocalQ => exact a.elim
  refine (C164_point r hn h E (3 * D) h0 h1 hf' x st).trans (le_of_eq ?_)
  ring

end WFMath
