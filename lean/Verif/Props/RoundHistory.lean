/- Property theorems C158: plane polygons and points after any history of motions in floating point. -/
import Verif.Model.RoundedHistory
import Verif.Props.RoundPolyMoved

namespace WFMath
open Spec Matrix Rounding

/-- The data of a call: its vector, pivot or frame origin is within `M` of the origin, and its matrix is a rotation or reflection up to `E`. -/
def Fl.Motion.Fits (E M : ℝ) : Fl.Motion → Prop
  | .shift v => len v.elem ≤ M
  | .rotate m p => len p.elem ≤ M ∧ ∃ R : Matrix (Fin 2) (Fin 2) ℝ, Rᵀ * R = 1 ∧ Stands m.elem R (E - 12 * 2 ^ (-52 : ℤ))
  | .toParent o m => len o.elem ≤ M ∧ ∃ R : Matrix (Fin 2) (Fin 2) ℝ, Rᵀ * R = 1 ∧ Stands m.elem R (E - 12 * 2 ^ (-52 : ℤ))
  | .toLocal o m => len o.elem ≤ M ∧ ∃ R : Matrix (Fin 2) (Fin 2) ℝ, Rᵀ * R = 1 ∧ Stands m.elem R (E - 12 * 2 ^ (-52 : ℤ))

/-- The point stays within `M` of the origin: at the start and after every call. -/
def Fl.StaysIn (r : Rounding 53) (M : ℝ) (h : List Fl.Motion) (x : Pt 2) : Prop := ∀ k ≤ h.length, len (Fl.movePoint r (h.take k) x).elem ≤ M

namespace Fl

/-- One call is an exact rotation or reflection and shift, up to the rounding. -/
theorem Motion.near (r : Rounding 53) {E M : ℝ} (h0 : 12 * 2 ^ (-52 : ℤ) ≤ E) (h1 : E ≤ 1 / 4) (M0 : 0 ≤ M) {mo : Motion} (h : mo.Fits E M) :
    ∃ (A : Matrix (Fin 2) (Fin 2) ℝ) (T : V2 → V2), Aᵀ * A = 1 ∧ (∀ x y, T x - T y = A *ᵥ (x - y)) ∧
      ∀ x : Pt 2, len x.elem ≤ M → len ((mo.point r x).elem - T x.elem) ≤ (E + 5 * 2 ^ (-53 : ℤ)) * (2 * M) := by
  have E0 : 0 ≤ E := le_trans (by positivity) h0
  have apart : ∀ {x p : Pt 2}, len x.elem ≤ M → len p.elem ≤ M → eucl x.elem p.elem ≤ 2 * M := fun {x p} hx hp => by
    rw [eucl_eq_len]; exact (len_sub_le _ _).trans (by linarith)
  have wide : ∀ {a : ℝ}, a ≤ M → a ≤ 2 * M := fun {a} ha => by linarith
  cases mo with
  | shift v =>
    refine ⟨1, fun x => x + v.elem, by simp, fun x y => by rw [add_sub_add_right_eq_sub, one_mulVec], fun x hx => ?_⟩
    refine (len_round r (x.elem + v.elem)).trans ?_
    have hv : len v.elem ≤ M := h
    have hb : len (x.elem + v.elem) ≤ 2 * M := (len_add_le _ _).trans (by linarith)
    have k1 := mul_le_mul_of_nonneg_left hb (show (0 : ℝ) ≤ 2 ^ (-53 : ℤ) by positivity)
    refine k1.trans (mul_le_mul_of_nonneg_right ?_ (by linarith))
    norm_num; linarith
  | rotate m p =>
    obtain ⟨hp, R, hR, hm⟩ := h
    have hR' : Rᵀᵀ * Rᵀ = 1 := by rw [transpose_transpose]; exact mul_eq_one_comm.1 hR
    refine ⟨Rᵀ, fun x => p.elem + (x - p.elem) ᵥ* R, hR', fun x y => by
      rw [add_sub_add_left_eq_sub, ← sub_vecMul, sub_sub_sub_cancel_right, mulVec_transpose], fun x hx => ?_⟩
    exact rotate_err r p m R E (2 * M) hR h0 h1 hm (wide hp) _ _ (len_round r (x.elem - p.elem)) (by have := apart hx hp; rwa [eucl_eq_len] at this)
  | toParent o m =>
    obtain ⟨ho, R, hR, hm⟩ := h
    have hR' : Rᵀᵀ * Rᵀ = 1 := by rw [transpose_transpose]; exact mul_eq_one_comm.1 hR
    exact ⟨Rᵀ, fun x => o.elem + x ᵥ* R, hR', fun x y => by rw [add_sub_add_left_eq_sub, ← sub_vecMul, mulVec_transpose],
      fun x hx => parent2_err r x o m R E (2 * M) hR h0 h1 hm (wide ho) (wide hx)⟩
  | toLocal o m =>
    obtain ⟨ho, R, hR, hm⟩ := h
    exact ⟨R, fun x => R *ᵥ (x - o.elem), hR, fun x y => by rw [← mulVec_sub, sub_sub_sub_cancel_right],
      fun x hx => local2_err r x o m R E (2 * M) hR h0 h1 hm (apart hx ho)⟩

/-- A history is an exact rotation or reflection and shift, up to the roundings of all calls. -/
theorem history_near (r : Rounding 53) {E M : ℝ} (h0 : 12 * 2 ^ (-52 : ℤ) ≤ E) (h1 : E ≤ 1 / 4) (M0 : 0 ≤ M) (h : List Motion) (hf : ∀ mo ∈ h, mo.Fits E M) :
    ∃ (A : Matrix (Fin 2) (Fin 2) ℝ) (T : V2 → V2), Aᵀ * A = 1 ∧ (∀ x y, T x - T y = A *ᵥ (x - y)) ∧
      ∀ x : Pt 2, StaysIn r M h x → len ((movePoint r h x).elem - T x.elem) ≤ h.length * (E + 5 * 2 ^ (-53 : ℤ)) * (2 * M) := by
  induction h using List.reverseRecOn with
  | nil => exact ⟨1, id, by simp, fun x y => by simp, fun x _ => by simp [movePoint, len]⟩
  | append_singleton ms mo ih =>
    obtain ⟨A, T, hA, hT, hx⟩ := ih fun m hm => hf m (List.mem_append_left _ hm)
    obtain ⟨B, S, hB, hS, hy⟩ := Motion.near r h0 h1 M0 (hf mo (by simp))
    refine ⟨B * A, fun x => S (T x), ?_, fun x y => by rw [hS, hT, mulVec_mulVec], fun x st => ?_⟩
    · rw [transpose_mul, Matrix.mul_assoc, ← Matrix.mul_assoc Bᵀ, hB, Matrix.one_mul, hA]
    · have st' : StaysIn r M ms x := fun k hk => by
        have := st k (by rw [List.length_append]; omega)
        rwa [List.take_append_of_le_length hk] at this
      have hl : len (movePoint r ms x).elem ≤ M := by have := st' ms.length le_rfl; rwa [List.take_length] at this
      have e : movePoint r (ms ++ [mo]) x = mo.point r (movePoint r ms x) := by simp [movePoint]
      have t := len_triangle (mo.point r (movePoint r ms x)).elem (S (movePoint r ms x).elem) (S (T x.elem))
      rw [hS (movePoint r ms x).elem, len_orth hB] at t
      rw [e, List.length_append, List.length_singleton]
      refine t.trans ((add_le_add (hy _ hl) (hx x st')).trans (le_of_eq ?_))
      push_cast; ring

theorem movePoly_eq (r : Rounding 53) (h : List Motion) (ps : Corners 2) : movePoly r h ps = ps.map (movePoint r h) := by
  induction h generalizing ps with
  | nil => exact (List.map_id ps).symm
  | cons mo ms ih =>
    have e : mo.poly r ps = ps.map (mo.point r) := by cases mo <;> rfl
    have := ih (mo.poly r ps)
    rw [e, List.map_map] at this
    exact (congrArg _ e).trans this

/-- Rotations about one point do not carry a point far away. -/
theorem stays_turning (r : Rounding 53) (p : Pt 2) (ms : List (RotMat 2)) (E D : ℝ) (h0 : 12 * 2 ^ (-52 : ℤ) ≤ E)
    (hN : ms.length * (E + 5 * 2 ^ (-53 : ℤ)) ≤ 1 / 4) (hm : ∀ m ∈ ms, ∃ R : Matrix (Fin 2) (Fin 2) ℝ, Rᵀ * R = 1 ∧ Stands m.elem R (E - 12 * 2 ^ (-52 : ℤ)))
    (hp : len p.elem ≤ D) (x : Pt 2) (hx : eucl x.elem p.elem ≤ D) : StaysIn r (3 * D) (ms.map (.rotate · p)) x := by
  have E0 : 0 ≤ E := le_trans (by positivity) h0
  have D0 : 0 ≤ D := (len_nonneg _).trans hp
  have KE : E ≤ E + 5 * 2 ^ (-53 : ℤ) := by norm_num
  have K0 : 0 ≤ E + 5 * 2 ^ (-53 : ℤ) := by positivity
  generalize hK : E + 5 * 2 ^ (-53 : ℤ) = K at hN KE K0
  have main : ∀ k ≤ ms.length, eucl (movePoint r ((ms.map (.rotate · p)).take k) x).elem p.elem ≤ D + k * K * (2 * D) := by
    intro k
    induction k with
    | zero => intro _; simpa [movePoint] using hx
    | succ k ih =>
      intro hk
      have hk' : k < ms.length := hk
      have a := ih hk'.le
      have kN : k * K ≤ 1 / 4 := (mul_le_mul_of_nonneg_right (by exact_mod_cast hk'.le) K0).trans hN
      have b : eucl (movePoint r ((ms.map (.rotate · p)).take k) x).elem p.elem ≤ 2 * D := by nlinarith
      obtain ⟨R, hR, hS⟩ := hm _ (List.getElem_mem hk')
      have h1 : E ≤ 1 / 4 := by
        have : (1 : ℝ) ≤ ms.length := by exact_mod_cast (show 1 ≤ ms.length by omega)
        nlinarith
      have e : movePoint r ((ms.map (.rotate · p)).take (k + 1)) x = ptRotate r (movePoint r ((ms.map (.rotate · p)).take k) x) ms[k] p := by
        rw [List.take_succ_eq_append_getElem (by simpa using hk'), movePoint, List.foldl_append]
        simp [movePoint, Motion.point]
      rw [e]
      generalize movePoint r ((ms.map (.rotate · p)).take k) x = y at a b
      have er := rotate_err r p ms[k] R E (2 * D) hR h0 h1 hS (by linarith) (ptSub r y p) _ (len_round r (y.elem - p.elem)) (by rwa [eucl_eq_len] at b)
      rw [hK] at er
      have hR' : Rᵀᵀ * Rᵀ = 1 := by rw [transpose_transpose]; exact mul_eq_one_comm.1 hR
      have lA : len ((y.elem - p.elem) ᵥ* R) = eucl y.elem p.elem := by rw [← mulVec_transpose, len_orth hR', eucl_eq_len]
      have t := len_triangle (ptRotate r y ms[k] p).elem (p.elem + (y.elem - p.elem) ᵥ* R) p.elem
      rw [add_sub_cancel_left, lA, ← eucl_eq_len (ptRotate r y ms[k] p).elem p.elem] at t
      refine t.trans ((add_le_add er a).trans (le_of_eq ?_))
      push_cast; ring
  intro k hk
  rw [List.length_map] at hk
  have a := main k hk
  have kN : k * K ≤ 1 / 4 := (mul_le_mul_of_nonneg_right (by exact_mod_cast hk) K0).trans hN
  have b : eucl (movePoint r ((ms.map (.rotate · p)).take k) x).elem p.elem ≤ 2 * D := by nlinarith
  rw [eucl_eq_len] at b
  have t := len_add_le ((movePoint r ((ms.map (.rotate · p)).take k) x).elem - p.elem) p.elem
  rw [sub_add_cancel] at t
  linarith

end Fl

/-- C158: a polygon of the plane and a point are moved together by any number of calls in doubles (`shift`, `rotatePoint`, `toParentCoords`, `toLocalCoords`, in any order). All
vectors, pivots and frames are within `M` of the origin, and so are the corners and the point, at the start and after every call; the matrices are rotations or reflections up
to `E`. If the point is farther from the sides than a margin that grows with the number of calls, the library finds the point in the polygon after all the calls exactly when the
point was inside the polygon before them. -/
theorem C158_history (r : Rounding 53) (ps : Corners 2) (q : Pt 2) (h : List Fl.Motion) (proper : Bool) (E M : ℝ) (h0 : 12 * 2 ^ (-52 : ℤ) ≤ E)
    (hN : h.length * (E + 5 * 2 ^ (-53 : ℤ)) ≤ 1 / 4) (hf : ∀ mo ∈ h, mo.Fits E M) (hq : Fl.StaysIn r M h q) (hc : ∀ c ∈ ps, Fl.StaysIn r M h c)
    (hclear : ∀ x ∈ boundary ps, 2 ^ (-47 : ℤ) + (2 * (h.length * (E + 5 * 2 ^ (-53 : ℤ))) + 2 ^ (-43 : ℤ)) * (2 * M) < eucl x q.elem) :
    Fl.interPolyP r (Fl.movePoly r h ps) (Fl.movePoint r h q) proper = true ↔ q.elem ∈ inside ps := by
  have E0 : 0 ≤ E := le_trans (by positivity) h0
  have M0 : 0 ≤ M := (len_nonneg _).trans (hq 0 (Nat.zero_le _))
  set K : ℝ := E + 5 * 2 ^ (-53 : ℤ) with hK
  have K0 : 0 ≤ K := by positivity
  set N : ℝ := h.length * K with hNK
  have N0 : 0 ≤ N := by positivity
  have near : ∃ (A : Matrix (Fin 2) (Fin 2) ℝ) (T : V2 → V2), Aᵀ * A = 1 ∧ (∀ x y, T x - T y = A *ᵥ (x - y)) ∧
      ∀ x : Pt 2, Fl.StaysIn r M h x → len ((Fl.movePoint r h x).elem - T x.elem) ≤ N * (2 * M) := by
    by_cases hz : h = []
    · subst hz
      exact ⟨1, id, by simp, fun x y => by simp, fun x _ => by simp [Fl.movePoint, len, hNK]⟩
    · have h1 : E ≤ 1 / 4 := by
        have : (1 : ℝ) ≤ h.length := by exact_mod_cast List.length_pos_iff.2 hz
        have k : 1 * K ≤ N := mul_le_mul_of_nonneg_right this K0
        have : E ≤ K := by rw [hK]; norm_num
        linarith
      exact Fl.history_near r h0 h1 M0 h hf
  obtain ⟨A, T, hA, hT, er⟩ := near
  have er' : ∀ x : Pt 2, Fl.StaysIn r M h x → len ((Fl.movePoint r h x).elem - T x.elem) ≤ (N + 5 * 2 ^ (-53 : ℤ)) * (2 * M) := fun x hx =>
    (er x hx).trans (mul_le_mul_of_nonneg_right (by norm_num) (by linarith))
  have bd : ∀ x : Pt 2, Fl.StaysIn r M h x → len (T x.elem) ≤ 2 * (2 * M) := fun x hx => by
    have a := hx h.length le_rfl
    rw [List.take_length] at a
    have b := len_sub_le (Fl.movePoint r h x).elem ((Fl.movePoint r h x).elem - T x.elem)
    rw [sub_sub_cancel] at b
    have c : N * (2 * M) ≤ 1 / 4 * (2 * M) := mul_le_mul_of_nonneg_right hN (by linarith)
    linarith [er x hx]
  rw [Fl.movePoly_eq]
  exact Fl.moved_point r proper hA hT hN (by linarith) (fun c hm => er' c (hc c hm)) (er' q hq) (fun c hm => bd c (hc c hm)) (bd q hq) hclear

/-- C158, turns: any number of rotations about the same point `p`. Here only the start is bounded: `p` is within `D` of the origin, the corners and the point within `D` of `p`. -/
theorem C158_turns (r : Rounding 53) (ps : Corners 2) (q p : Pt 2) (ms : List (RotMat 2)) (proper : Bool) (E D : ℝ) (h0 : 12 * 2 ^ (-52 : ℤ) ≤ E)
    (hN : ms.length * (E + 5 * 2 ^ (-53 : ℤ)) ≤ 1 / 4) (hm : ∀ m ∈ ms, ∃ R : Matrix (Fin 2) (Fin 2) ℝ, Rᵀ * R = 1 ∧ Stands m.elem R (E - 12 * 2 ^ (-52 : ℤ)))
    (hp : len p.elem ≤ D) (hq : eucl q.elem p.elem ≤ D) (hc : ∀ c ∈ ps, eucl c.elem p.elem ≤ D)
    (hclear : ∀ x ∈ boundary ps, 2 ^ (-47 : ℤ) + (2 * (ms.length * (E + 5 * 2 ^ (-53 : ℤ))) + 2 ^ (-43 : ℤ)) * (6 * D) < eucl x q.elem) :
    Fl.interPolyP r (Fl.movePoly r (ms.map (.rotate · p)) ps) (Fl.movePoint r (ms.map (.rotate · p)) q) proper = true ↔ q.elem ∈ inside ps := by
  have E0 : 0 ≤ E := le_trans (by positivity) h0
  have D0 : 0 ≤ D := (len_nonneg _).trans hp
  have st : ∀ x : Pt 2, eucl x.elem p.elem ≤ D → Fl.StaysIn r (3 * D) (ms.map (.rotate · p)) x := fun x hx => Fl.stays_turning r p ms E D h0 hN hm hp x hx
  refine C158_history r ps q (ms.map (.rotate · p)) proper E (3 * D) h0 (by rwa [List.length_map]) (fun mo hmo => ?_) (st q hq) (fun c h => st c (hc c h)) (fun x hx => ?_)
  · obtain ⟨m, hm', rfl⟩ := List.mem_map.1 hmo
    exact ⟨by linarith, hm m hm'⟩
  · rw [List.length_map, show 2 * (3 * D) = 6 * D by ring]
    exact hclear x hx

end WFMath
