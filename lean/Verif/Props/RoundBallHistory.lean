/- Property theorems C161: plane polygons and balls after any history of motions in floating point. -/
import Verif.Model.RoundedBallHistory
import Verif.Props.RoundHistory

namespace WFMath
open Spec Matrix Rounding

namespace Fl

/-- When the corners move by no more than `η`, each point of the polygon has a point of the moved polygon within `2 η`. -/
theorem filled_moved {ps : Corners 2} {f g : Pt 2 → Pt 2} {η : ℝ} (h0 : 0 ≤ η) (h : ∀ c ∈ ps, len ((f c).elem - (g c).elem) ≤ η) {x : V2}
    (hx : x ∈ filled (ps.map f)) : ∃ y ∈ filled (ps.map g), len (x - y) ≤ 2 * η := by
  by_cases hn : ∃ z ∈ boundary (ps.map f), len (z - x) ≤ η
  · obtain ⟨z, hz, hl⟩ := hn
    obtain ⟨y, hy, hl'⟩ := boundary_moved h hz
    refine ⟨y, .inr hy, ?_⟩
    have t := len_triangle x z y
    rw [len_sub_comm x z] at t
    linarith
  · push Not at hn
    have hxx : len (x - x) = 0 := by simp [len]
    rcases hx with hx | hx
    · exact ⟨x, .inl ((inside_stable h hn).2 hx), by rw [hxx]; linarith⟩
    · exact absurd (hn x hx) (by rw [hxx]; linarith)

/-- When the corners move by no more than `η` and every point within `2 η` is inside the polygon, the point is inside the moved polygon. -/
theorem inside_moved {ps : Corners 2} {f g : Pt 2 → Pt 2} {η : ℝ} (h0 : 0 ≤ η) (h : ∀ c ∈ ps, len ((f c).elem - (g c).elem) ≤ η) {x : V2}
    (hx : ∀ z, len (z - x) ≤ 2 * η → z ∈ inside (ps.map f)) : x ∈ inside (ps.map g) := by
  refine (inside_stable h fun z hz => ?_).2 (hx x (by simpa [len] using h0))
  by_contra hl
  exact (hx z (by linarith)).1 hz

/-- The data that a polygon and a point keep in a history: an exact motion, near to what is computed. -/
theorem moved_sets {ps : Corners 2} {g : Pt 2 → Pt 2} {T : V2 → V2} {A : Matrix (Fin 2) (Fin 2) ℝ} (hA : Aᵀ * A = 1) (hT : ∀ x y, T x - T y = A *ᵥ (x - y))
    {c c' : V2} {δ : ℝ} (h0 : 0 ≤ δ) (hg : ∀ p ∈ ps, len ((g p).elem - T p.elem) ≤ δ) (hc : len (c' - T c) ≤ δ) (ρ : ℝ) :
    ((∃ x ∈ filled ps, len (x - c) ≤ ρ - 3 * δ) → ∃ y ∈ filled (ps.map g), len (y - c') ≤ ρ) ∧
    ((∃ y ∈ filled (ps.map g), len (y - c') ≤ ρ) → ∃ x ∈ filled ps, len (x - c) ≤ ρ + 3 * δ) ∧
    ((∀ y, len (y - c') ≤ ρ → y ∈ inside (ps.map g)) → ∀ x, len (x - c) ≤ ρ - 3 * δ → x ∈ inside ps) ∧
    ((∀ x, len (x - c) ≤ ρ + 3 * δ → x ∈ inside ps) → ∀ y, len (y - c') ≤ ρ → y ∈ inside (ps.map g)) := by
  let f : Pt 2 → Pt 2 := fun c => ⟨T c.elem, c.valid⟩
  have det : A.det ≠ 0 := view_det hA
  have hlen : ∀ x y, len (T x - T y) = len (x - y) := fun x y => by rw [hT, len_orth hA]
  have surj : ∀ y, ∃ x, T x = y := by
    intro y
    refine ⟨Aᵀ *ᵥ (y - T 0), ?_⟩
    have := hT (Aᵀ *ᵥ (y - T 0)) 0
    rw [sub_zero, mulVec_mulVec, mul_eq_one_comm.1 hA, one_mulVec] at this
    exact sub_left_inj.1 this
  have hg' : ∀ p ∈ ps, len ((f p).elem - (g p).elem) ≤ δ := fun p hp => by rw [len_sub_comm]; exact hg p hp
  have hfi := affine_filled det hT (f := f) (fun _ => rfl) ps
  have hin := affine_inside det hT (f := f) (fun _ => rfl) ps
  refine ⟨?_, ?_, ?_, ?_⟩
  · rintro ⟨x, hx, hl⟩
    obtain ⟨y, hy, hd⟩ := filled_moved h0 hg' ((hfi x).2 hx)
    refine ⟨y, hy, ?_⟩
    have t1 := len_triangle y (T x) c'
    have t2 := len_triangle (T x) (T c) c'
    rw [len_sub_comm y (T x)] at t1
    rw [hlen, len_sub_comm (T c)] at t2
    linarith
  · rintro ⟨y, hy, hl⟩
    obtain ⟨z, hz, hd⟩ := filled_moved h0 (f := g) (g := f) hg hy
    obtain ⟨x, rfl⟩ := surj z
    refine ⟨x, (hfi x).1 hz, ?_⟩
    have t1 := len_triangle (T x) y (T c)
    have t2 := len_triangle y c' (T c)
    rw [len_sub_comm (T x) y, hlen] at t1
    linarith
  · intro h x hl
    refine (hin x).1 (inside_moved h0 (f := g) (g := f) hg fun z hz => h z ?_)
    have t1 := len_triangle z (T x) c'
    have t2 := len_triangle (T x) (T c) c'
    rw [hlen, len_sub_comm (T c)] at t2
    linarith
  · intro h y hl
    refine inside_moved h0 hg' fun z hz => ?_
    obtain ⟨x, rfl⟩ := surj z
    refine (hin x).2 (h x ?_)
    have t1 := len_triangle (T x) y (T c)
    have t2 := len_triangle y c' (T c)
    rw [hlen] at t1
    linarith

theorem moveBall_eq (r : Rounding 53) (h : List Motion) (b : Ball 2) : (moveBall r h b).radius = b.radius ∧ (moveBall r h b).center.elem = (movePoint r h b.center).elem := by
  have pt : ∀ (s : Motion) (x y : Pt 2), x.elem = y.elem → (s.point r x).elem = (s.point r y).elem := by
    rintro s ⟨x, a⟩ ⟨y, b⟩ (rfl : x = y)
    cases s <;> rfl
  have one : ∀ (s : Motion) (c : Ball 2), (s.ball r c).radius = c.radius ∧ (s.ball r c).center.elem = (s.point r c.center).elem := by
    intro s c
    have mk : ∀ (p : Pt 2) (R : ℝ), (Ball.mk' p R).center.elem = p.elem := fun p R => by unfold Ball.mk'; split <;> rfl
    cases s with
    | toParent o m => exact ⟨rfl, mk _ _⟩
    | toLocal o m => exact ⟨rfl, mk _ _⟩
    | _ => exact ⟨rfl, rfl⟩
  have main : ∀ (h : List Motion) (c : Ball 2) (x : Pt 2), c.center.elem = x.elem → (moveBall r h c).radius = c.radius ∧ (moveBall r h c).center.elem = (movePoint r h x).elem := by
    intro h
    induction h with
    | nil => exact fun c x hx => ⟨rfl, hx⟩
    | cons s ms ih =>
      intro c x hx
      have := ih (s.ball r c) (s.point r x) ((one s c).2.trans (pt s _ _ hx))
      exact ⟨this.1.trans (one s c).1, this.2⟩
  exact main h b b.center rfl

theorem stays_end {r : Rounding 53} {M : ℝ} {h : List Motion} {x : Pt 2} (hx : StaysIn r M h x) : len (movePoint r h x).elem ≤ M := by
  have a := hx h.length le_rfl
  rwa [List.take_length] at a

theorem margin_moved {q M : ℝ} (hq : |q| ≤ M) : sideMargin q M ≤ 2 ^ (-47 : ℤ) + 2 ^ (-44 : ℤ) * M := by
  have M0 : 0 ≤ M := (abs_nonneg q).trans hq
  refine le_trans ?_ (margin_le (q := q) (M := M) (by linarith) M0)
  unfold sideMargin
  have := mul_le_mul_of_nonneg_left (show M ≤ 3 * M by linarith) (show (0 : ℝ) ≤ 2 ^ (-48 : ℤ) by positivity)
  linarith

theorem moved_eucl {r : Rounding 53} {M : ℝ} {h : List Motion} {x y : Pt 2} (hx : StaysIn r M h x) (hy : StaysIn r M h y) :
    eucl (movePoint r h x).elem (movePoint r h y).elem ≤ 2 * M := by
  rw [eucl_eq_len]
  exact (len_sub_le _ _).trans (by linarith [stays_end hx, stays_end hy])

/-- Two points keep their distance in a history, up to the drift. -/
theorem moved_distance (r : Rounding 53) {h : List Motion} {E M δ : ℝ} (h0 : 12 * 2 ^ (-52 : ℤ) ≤ E) (h1 : E ≤ 1 / 4) (hδ : δ = h.length * (E + 5 * 2 ^ (-53 : ℤ)) * (2 * M))
    (hf : ∀ mo ∈ h, mo.Fits E M) {x y : Pt 2} (hx : StaysIn r M h x) (hy : StaysIn r M h y) :
    |eucl (movePoint r h x).elem (movePoint r h y).elem - eucl x.elem y.elem| ≤ 2 * δ := by
  have M0 : 0 ≤ M := (len_nonneg _).trans (hx 0 (Nat.zero_le _))
  obtain ⟨A, T, hA, hT, er⟩ := history_near r h0 h1 M0 h hf
  rw [← hδ] at er
  have a1 := er x hx
  have a2 := er y hy
  have hl : len (x.elem - y.elem) = len (T x.elem - T y.elem) := by rw [hT, len_orth hA]
  rw [eucl_eq_len, eucl_eq_len x.elem y.elem, hl]
  generalize (movePoint r h x).elem = x' at *
  generalize (movePoint r h y).elem = y' at *
  have t1 := len_triangle x' (T x.elem) y'
  have t2 := len_triangle (T x.elem) (T y.elem) y'
  have t3 := len_triangle (T x.elem) x' (T y.elem)
  have t4 := len_triangle x' y' (T y.elem)
  rw [len_sub_comm (T y.elem) y'] at t2
  rw [len_sub_comm (T x.elem) x'] at t3
  exact _root_.abs_le.2 ⟨by linarith, by linarith⟩

end Fl

/-- C161, polygon and ball: both go through the same history of calls in doubles. When the polygon had a point in the smaller ball of radius `ρ - 3 δ`, the library finds after the
history that they meet; when it finds the ball in the polygon, the smaller ball was inside the polygon. Here `δ` is the drift of a point, and the margins are relative to `M`, the
bound for all coordinates. -/
theorem C161_ball (r : Rounding 53) (ps : Corners 2) (b : Ball 2) (h : List Fl.Motion) (proper : Bool) (E M δ ρ : ℝ) (h0 : 12 * 2 ^ (-52 : ℤ) ≤ E) (h1 : E ≤ 1 / 4)
    (hδ : δ = h.length * (E + 5 * 2 ^ (-53 : ℤ)) * (2 * M)) (hf : ∀ mo ∈ h, mo.Fits E M) (hb : Fl.StaysIn r M h b.center) (hc : ∀ c ∈ ps, Fl.StaysIn r M h c)
    (hρ : 2 ^ (-47 : ℤ) + 2 ^ (-44 : ℤ) * M ≤ ρ) (hR : (ρ + 2 ^ (-42 : ℤ) * M + 3 * epsilon) * (1 + epsilon) ≤ b.radius) :
    ((filled ps ∩ ballSet ⟨b.center, ρ - 3 * δ⟩).Nonempty → Fl.interPolyBall r (Fl.movePoly r h ps) (Fl.moveBall r h b) proper = some true) ∧
    (Fl.containsPolyBall r (Fl.movePoly r h ps) (Fl.moveBall r h b) proper = some true → ballSet ⟨b.center, ρ - 3 * δ⟩ ⊆ inside ps) := by
  have E0 : 0 ≤ E := le_trans (by positivity) h0
  have M0 : 0 ≤ M := (len_nonneg _).trans (hb 0 (Nat.zero_le _))
  have he := epsilon_pos
  have d0 : 0 ≤ δ := by rw [hδ]; positivity
  obtain ⟨A, T, hA, hT, er⟩ := Fl.history_near r h0 h1 M0 h hf
  rw [← hδ] at er
  obtain ⟨e1, e2⟩ := Fl.moveBall_eq r h b
  have s := Fl.moved_sets hA hT d0 (fun c hm => er c (hc c hm)) (er _ hb) ρ
  have t := C136_ball r (ps.map (Fl.movePoint r h)) (Fl.moveBall r h b) proper (M := M) (ρ := ρ) ?_ ?_ ?_
  · rw [Fl.movePoly_eq]
    constructor
    · rintro ⟨x, hx, hl⟩
      refine t.1 ?_
      have hl' : eucl x b.center.elem ≤ ρ - 3 * δ := hl
      rw [eucl_eq_len] at hl'
      obtain ⟨y, hy, hl⟩ := s.1 ⟨x, hx, hl'⟩
      refine ⟨y, hy, ?_⟩
      show eucl y _ ≤ ρ
      rwa [e2, eucl_eq_len]
    · intro hh x hl
      have hl' : eucl x b.center.elem ≤ ρ - 3 * δ := hl
      rw [eucl_eq_len] at hl'
      refine s.2.2.1 (fun y hy => t.2 hh ?_) x hl'
      show eucl y _ ≤ ρ
      rwa [e2, eucl_eq_len]
  · intro c hm
    obtain ⟨c, hp, rfl⟩ := List.mem_map.1 hm
    exact (abs_le_len _ 0).trans (Fl.stays_end (hc c hp))
  · rw [e2]
    exact (Fl.margin_moved ((abs_le_len _ 0).trans (Fl.stays_end hb))).trans hρ
  · intro c hm
    obtain ⟨c, hp, rfl⟩ := List.mem_map.1 hm
    rw [e1, e2]
    refine (mul_le_mul_of_nonneg_right ?_ (by linarith)).trans hR
    have k := mul_le_mul_of_nonneg_left (Fl.moved_eucl hb (hc c hp)) (show (0 : ℝ) ≤ 2 ^ (-43 : ℤ) by positivity)
    rw [show (2 : ℝ) ^ (-43 : ℤ) * (2 * M) = 2 ^ (-42 : ℤ) * M by norm_num; ring] at k
    linarith

/-- C161, polygon and ball, the other direction: when the library finds after the history that they meet, the polygon had a point in the larger ball of radius `ρ + 3 δ`; when the
larger ball was inside the polygon, it finds the ball in the polygon. Both unless a moved corner is so near to the moved centre that the squared distance is set to 0. -/
theorem C161_ball_converse (r : Rounding 53) (ps : Corners 2) (b : Ball 2) (h : List Fl.Motion) (proper : Bool) (E M δ ρ : ℝ) (h0 : 12 * 2 ^ (-52 : ℤ) ≤ E) (h1 : E ≤ 1 / 4)
    (hδ : δ = h.length * (E + 5 * 2 ^ (-53 : ℤ)) * (2 * M)) (hf : ∀ mo ∈ h, mo.Fits E M) (hb : Fl.StaysIn r M h b.center) (hc : ∀ c ∈ ps, Fl.StaysIn r M h c)
    (hr : 0 ≤ b.radius) (hρ : 2 ^ (-47 : ℤ) + 2 ^ (-44 : ℤ) * M ≤ ρ) (hR : b.radius * (1 + epsilon) + 2 ^ (-48 : ℤ) * M ≤ ρ)
    (hn : ∀ c ∈ ps, ¬ NearlyFlushed (Fl.movePoint r h b.center) (Fl.movePoint r h c)) :
    (Fl.interPolyBall r (Fl.movePoly r h ps) (Fl.moveBall r h b) proper = some true → (filled ps ∩ ballSet ⟨b.center, ρ + 3 * δ⟩).Nonempty) ∧
    (ballSet ⟨b.center, ρ + 3 * δ⟩ ⊆ inside ps → Fl.containsPolyBall r (Fl.movePoly r h ps) (Fl.moveBall r h b) proper = some true) := by
  have E0 : 0 ≤ E := le_trans (by positivity) h0
  have M0 : 0 ≤ M := (len_nonneg _).trans (hb 0 (Nat.zero_le _))
  have d0 : 0 ≤ δ := by rw [hδ]; positivity
  have ρ0 : 0 ≤ ρ := le_trans (by positivity) hρ
  obtain ⟨A, T, hA, hT, er⟩ := Fl.history_near r h0 h1 M0 h hf
  rw [← hδ] at er
  obtain ⟨e1, e2⟩ := Fl.moveBall_eq r h b
  have s := Fl.moved_sets hA hT d0 (fun c hm => er c (hc c hm)) (er _ hb) ρ
  have t := C136_ball_converse r (ps.map (Fl.movePoint r h)) (Fl.moveBall r h b) proper (M := M) (ρ := ρ) (by rw [e1]; exact hr) ?_ ?_ ?_ ?_
  · rw [Fl.movePoly_eq]
    constructor
    · intro hh
      obtain ⟨y, hy, hl⟩ := t.1 hh
      have hl' : eucl y (Fl.moveBall r h b).center.elem ≤ ρ := hl
      rw [e2, eucl_eq_len] at hl'
      obtain ⟨x, hx, hl⟩ := s.2.1 ⟨y, hy, hl'⟩
      refine ⟨x, hx, ?_⟩
      show eucl x _ ≤ ρ + 3 * δ
      rwa [eucl_eq_len]
    · intro hh
      refine t.2 ρ0 fun y hl => ?_
      have hl' : eucl y (Fl.moveBall r h b).center.elem ≤ ρ := hl
      rw [e2, eucl_eq_len] at hl'
      refine s.2.2.2 (fun x hx => hh ?_) y hl'
      show eucl x _ ≤ ρ + 3 * δ
      rwa [eucl_eq_len]
  · intro c hm
    obtain ⟨c, hp, rfl⟩ := List.mem_map.1 hm
    exact (abs_le_len _ 0).trans (Fl.stays_end (hc c hp))
  · rw [e2]
    exact (Fl.margin_moved ((abs_le_len _ 0).trans (Fl.stays_end hb))).trans hρ
  · intro c hm
    obtain ⟨c, hp, rfl⟩ := List.mem_map.1 hm
    rw [e1, e2]
    have k := mul_le_mul_of_nonneg_left (Fl.moved_eucl hb (hc c hp)) (show (0 : ℝ) ≤ 2 ^ (-49 : ℤ) by positivity)
    rw [show (2 : ℝ) ^ (-49 : ℤ) * (2 * M) = 2 ^ (-48 : ℤ) * M by norm_num; ring] at k
    linarith
  · intro c hm
    obtain ⟨c, hp, rfl⟩ := List.mem_map.1 hm
    have := hn c hp
    unfold NearlyFlushed at this ⊢
    rwa [e2]

/-- C161, ball containing a polygon: when the polygon was in the ball made smaller by the factor `1 + epsilon` and `2 δ`, the library finds it in the ball after the history; when it
finds it there, the corners were in the ball enlarged by the factor, `2 δ` and, without `proper`, the tolerance of the comparison of squares, unless the moved corner is so near to
the moved centre that the squared distance is set to 0. -/
theorem C161_in_ball (r : Rounding 53) (ps : Corners 2) (b : Ball 2) (h : List Fl.Motion) (E M δ : ℝ) (h0 : 12 * 2 ^ (-52 : ℤ) ≤ E) (h1 : E ≤ 1 / 4)
    (hδ : δ = h.length * (E + 5 * 2 ^ (-53 : ℤ)) * (2 * M)) (hf : ∀ mo ∈ h, mo.Fits E M) (hb : Fl.StaysIn r M h b.center) (hc : ∀ c ∈ ps, Fl.StaysIn r M h c)
    (hr : 0 < b.radius) :
    (∀ proper, convexHull ℝ (cornerSet ps) ⊆ ballSet ⟨b.center, b.radius / (1 + epsilon) - 2 * δ⟩ →
      Fl.containsBallPoly r (Fl.moveBall r h b) (Fl.movePoly r h ps) proper = true) ∧
    (Fl.containsBallPoly r (Fl.moveBall r h b) (Fl.movePoly r h ps) true = true →
      ∀ c ∈ ps, c.elem ∈ ballSet ⟨b.center, b.radius * (1 + epsilon) + 2 * δ⟩ ∨ NearlyFlushed (Fl.movePoint r h b.center) (Fl.movePoint r h c)) ∧
    (Fl.containsBallPoly r (Fl.moveBall r h b) (Fl.movePoly r h ps) false = true →
      ∀ c ∈ ps, c.elem ∈ ballSet ⟨b.center, Real.sqrt (b.radius ^ 2 + epsilon) * (1 + epsilon) + 2 * δ⟩ ∨
        NearlyFlushed (Fl.movePoint r h b.center) (Fl.movePoint r h c)) := by
  obtain ⟨e1, e2⟩ := Fl.moveBall_eq r h b
  have t := C136_in_ball r (Fl.moveBall r h b) (ps.map (Fl.movePoint r h)) (by rw [e1]; exact hr.le)
  have d : ∀ c ∈ ps, |eucl (Fl.movePoint r h c).elem (Fl.movePoint r h b.center).elem - eucl c.elem b.center.elem| ≤ 2 * δ := fun c hm =>
    Fl.moved_distance r h0 h1 hδ hf (hc c hm) hb
  have back : ∀ {ρ : ℝ}, (∀ c ∈ ps.map (Fl.movePoint r h), c.elem ∈ ballSet ⟨(Fl.moveBall r h b).center, ρ⟩ ∨ NearlyFlushed (Fl.moveBall r h b).center c) →
      ∀ c ∈ ps, c.elem ∈ ballSet ⟨b.center, ρ + 2 * δ⟩ ∨ NearlyFlushed (Fl.movePoint r h b.center) (Fl.movePoint r h c) := by
    intro ρ hh c hm
    rcases hh _ (List.mem_map_of_mem hm) with h' | h'
    · left
      have h'' : eucl _ _ ≤ ρ := h'
      rw [e2] at h''
      show eucl _ _ ≤ ρ + 2 * δ
      linarith [(_root_.abs_le.1 (d c hm)).1]
    · right
      unfold NearlyFlushed at h' ⊢
      rwa [e2] at h'
  rw [Fl.movePoly_eq]
  refine ⟨fun proper hh => t.1 proper (.inl (by rw [e1]; exact hr)) (convexHull_min ?_ (convex_ballSet _)), fun hh => ?_, fun hh => ?_⟩
  · intro x hx
    obtain ⟨c, hm, rfl⟩ := mem_cornerSet.1 hx
    obtain ⟨c, hp, rfl⟩ := List.mem_map.1 hm
    have h' := hull_corner hh hp
    show eucl _ _ ≤ _ / _
    rw [e1, e2]
    have h'' : eucl c.elem b.center.elem ≤ b.radius / (1 + epsilon) - 2 * δ := h'
    linarith [(_root_.abs_le.1 (d c hp)).2]
  · have := back (t.2.1 hh)
    rwa [e1] at this
  · have := back (t.2.2 hh)
    rwa [e1] at this

end WFMath
