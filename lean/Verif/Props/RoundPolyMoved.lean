/- Property theorems C157: plane polygons and points moved together in floating point. -/
import Verif.Props.RoundPolyRBox
import Verif.Model.RoundedMove

namespace WFMath
open Spec Matrix Rounding

namespace Fl

/-- The answer for a polygon and a point, both moved and computed with errors up to `δ`. -/
theorem moved_point (r : Rounding 53) (proper : Bool) {ps : Corners 2} {g : Pt 2 → Pt 2} {T : V2 → V2} {A : Matrix (Fin 2) (Fin 2) ℝ} (hA : Aᵀ * A = 1)
    (hT : ∀ x y, T x - T y = A *ᵥ (x - y)) {q : V2} {q' : Pt 2} {E M : ℝ} (hE : E ≤ 1 / 4) (M0 : 0 ≤ M)
    (hg : ∀ c ∈ ps, len ((g c).elem - T c.elem) ≤ (E + 5 * 2 ^ (-53 : ℤ)) * M) (hq : len (q'.elem - T q) ≤ (E + 5 * 2 ^ (-53 : ℤ)) * M)
    (hcM : ∀ c ∈ ps, len (T c.elem) ≤ 2 * M) (hqM : len (T q) ≤ 2 * M)
    (hclear : ∀ x ∈ boundary ps, 2 ^ (-47 : ℤ) + (2 * E + 2 ^ (-43 : ℤ)) * M < eucl x q) :
    Fl.interPolyP r (ps.map g) q' proper = true ↔ q ∈ inside ps := by
  set δ := (E + 5 * 2 ^ (-53 : ℤ)) * M with hδ
  have hd : δ ≤ 1 / 2 * M := by
    have : E + 5 * 2 ^ (-53 : ℤ) ≤ 1 / 2 := by norm_num; linarith
    rw [hδ]; nlinarith
  have hK : 2 * δ + 2 ^ (-44 : ℤ) * M ≤ (2 * E + 2 ^ (-43 : ℤ)) * M := by
    rw [hδ]; norm_num; nlinarith
  have hM : ∀ c ∈ ps.map g, |c.elem 0| ≤ 3 * M := by
    intro c hc
    obtain ⟨c, hp, rfl⟩ := List.mem_map.1 hc
    have h1 := len_add_le ((g c).elem - T c.elem) (T c.elem)
    rw [sub_add_cancel] at h1
    have := (abs_le_len (g c).elem 0)
    linarith [hg c hp, hcM c hp]
  have hq0 : |q'.elem 0| ≤ 5 / 2 * M := by
    have h1 := len_add_le (q'.elem - T q) (T q)
    rw [sub_add_cancel] at h1
    have := (abs_le_len q'.elem 0)
    linarith
  have m0 := margin_le hq0 M0
  let f : Pt 2 → Pt 2 := fun c => ⟨T c.elem, c.valid⟩
  have det : A.det ≠ 0 := view_det hA
  have hlen : ∀ x y, len (T x - T y) = len (x - y) := fun x y => by rw [hT, len_orth hA]
  have surj : ∀ y, ∃ x, T x = y := by
    intro y
    refine ⟨Aᵀ *ᵥ (y - T 0), ?_⟩
    have := hT (Aᵀ *ᵥ (y - T 0)) 0
    rw [sub_zero, mulVec_mulVec, mul_eq_one_comm.1 hA, one_mulVec] at this
    exact sub_left_inj.1 this
  have far : ∀ z ∈ boundary (ps.map f), 2 ^ (-47 : ℤ) + 2 ^ (-44 : ℤ) * M + 2 * δ < len (z - T q) := by
    intro z hz
    obtain ⟨x, rfl⟩ := surj z
    have hx := (affine_boundary det hT (f := f) (fun _ => rfl) ps x).1 hz
    have := hclear x hx
    rw [eucl_eq_len] at this
    rw [hlen]
    linarith
  have clr : ClearOfSides (ps.map g) q'.elem (sideMargin (q'.elem 0) (3 * M)) := by
    intro e he x hx
    obtain ⟨z, hz, hl⟩ := boundary_moved (f := g) (g := f) hg (x := ![x, q'.elem 1]) ⟨e, he, hx⟩
    have h1 := far z hz
    have e1 : len (q'.elem - ![x, q'.elem 1]) = |q'.elem 0 - x| := by
      unfold len; rw [← Real.sqrt_sq_eq_abs]; congr 1; simp [dotProduct, Fin.sum_univ_two]; ring
    have t1 := len_triangle z ![x, q'.elem 1] (T q)
    have t2 := len_triangle ![x, q'.elem 1] q'.elem (T q)
    rw [len_sub_comm z ![x, q'.elem 1]] at t1
    rw [len_sub_comm _ q'.elem, e1] at t2
    linarith
  rw [C136_point r _ q' proper hM clr]
  -- the point as computed in the polygon as computed, against the exact ones
  let e : V2 := T q - q'.elem
  let h : Pt 2 → Pt 2 := fun c => ⟨c.elem + e, c.valid⟩
  have a1 := affine_inside (M := 1) (by simp) (T := fun x => x + e) (f := h) (by intro x y; simp) (fun _ => rfl) (ps.map g) q'.elem
  rw [show q'.elem + e = T q by simp [e], List.map_map] at a1
  have hpos : (0 : ℝ) ≤ 2 ^ (-47 : ℤ) + 2 ^ (-44 : ℤ) * M := by positivity
  rw [← a1, inside_stable (f := f) (η := 2 * δ) (fun c hc => ?_) (fun z hz => by linarith [far z hz])]
  · exact affine_inside det hT (f := f) (fun _ => rfl) ps q
  · show len (T c.elem - ((g c).elem + (T q - q'.elem))) ≤ 2 * δ
    rw [show T c.elem - ((g c).elem + (T q - q'.elem)) = (q'.elem - T q) - ((g c).elem - T c.elem) by abel]
    exact (len_sub_le _ _).trans (by linarith [hg c hc])

theorem rotate_err (r : Rounding 53) (p : Pt 2) (m : RotMat 2) (R : Matrix (Fin 2) (Fin 2) ℝ) (E M : ℝ) (hR : Rᵀ * R = 1) (h0 : 12 * 2 ^ (-52 : ℤ) ≤ E) (h1 : E ≤ 1 / 4)
    (hm : Stands m.elem R (E - 12 * 2 ^ (-52 : ℤ))) (hp : len p.elem ≤ M) (v : Vec 2) (w : V2) (hv : len (v.elem - w) ≤ 2 ^ (-53 : ℤ) * len w) (hw : len w ≤ M) :
    len ((addVec r p (vecMat r m v)).elem - (p.elem + w ᵥ* R)) ≤ (E + 5 * 2 ^ (-53 : ℤ)) * M := by
  have E0 : 0 ≤ E := le_trans (by positivity) h0
  have := turned_err r ⟨p, ⟨0, true⟩, m⟩ R E (by norm_num) hR (by norm_num at h0 ⊢; linarith) h1 (by norm_num at hm ⊢; exact hm) v w hv
  refine this.trans ?_
  have k1 := mul_le_mul_of_nonneg_left hw (show 0 ≤ E + 2 ^ (-51 : ℤ) by positivity)
  have k2 := mul_le_mul_of_nonneg_left hp (show (0 : ℝ) ≤ 2 ^ (-53 : ℤ) by positivity)
  norm_num at k1 k2 ⊢
  linarith

theorem parent2_err (r : Rounding 53) (x o : Pt 2) (m : RotMat 2) (R : Matrix (Fin 2) (Fin 2) ℝ) (E M : ℝ) (hR : Rᵀ * R = 1) (h0 : 12 * 2 ^ (-52 : ℤ) ≤ E) (h1 : E ≤ 1 / 4)
    (hm : Stands m.elem R (E - 12 * 2 ^ (-52 : ℤ))) (ho : len o.elem ≤ M) (hx : len x.elem ≤ M) :
    len ((toParent r x o m).elem - (o.elem + x.elem ᵥ* R)) ≤ (E + 5 * 2 ^ (-53 : ℤ)) * M :=
  rotate_err r o m R E M hR h0 h1 hm ho _ _ (by
    have := len_round r (x.elem - (Pt.origin : Pt 2).elem)
    rw [show (Pt.origin : Pt 2).elem = 0 from rfl, sub_zero] at this
    convert this using 3
    ext i; simp [ptSub, Pt.origin]) hx

theorem local2_err (r : Rounding 53) (x o : Pt 2) (m : RotMat 2) (R : Matrix (Fin 2) (Fin 2) ℝ) (E M : ℝ) (hR : Rᵀ * R = 1) (h0 : 12 * 2 ^ (-52 : ℤ) ≤ E) (h1 : E ≤ 1 / 4)
    (hm : Stands m.elem R (E - 12 * 2 ^ (-52 : ℤ))) (hx : eucl x.elem o.elem ≤ M) :
    len ((toLocal r x o m).elem - R *ᵥ (x.elem - o.elem)) ≤ (E + 5 * 2 ^ (-53 : ℤ)) * M := by
  have E0 : 0 ≤ E := le_trans (by positivity) h0
  have h := Fl.shift_err r m R E (by norm_num) hR (by norm_num at h0 ⊢; linarith) h1 (by norm_num at hm ⊢; exact hm) x o
  have a3 : len ((Fl.toLocal r x o m).elem - (Fl.matVec r m (Fl.ptSub r x o)).elem) ≤ 2 ^ (-53 : ℤ) * len (Fl.matVec r m (Fl.ptSub r x o)).elem := by
    have := Fl.len_round r (Fl.matVec r m (Fl.ptSub r x o)).elem
    convert this using 3
    ext i; simp [Fl.toLocal, Fl.addVec, Pt.origin]
  have hr := Fl.len_orth hR (x.elem - o.elem)
  have hD := eucl_nonneg x.elem o.elem
  have t := len_triangle (Fl.toLocal r x o m).elem (Fl.matVec r m (Fl.ptSub r x o)).elem (R *ᵥ (x.elem - o.elem))
  have t2 := len_add_le ((Fl.matVec r m (Fl.ptSub r x o)).elem - R *ᵥ (x.elem - o.elem)) (R *ᵥ (x.elem - o.elem))
  rw [sub_add_cancel, hr, ← eucl_eq_len x.elem o.elem] at t2
  have k1 := mul_le_mul_of_nonneg_left hx (show 0 ≤ E + 2 ^ (-52 : ℤ) by positivity)
  have k2 : (E + 2 ^ (-52 : ℤ)) * M ≤ 1 / 2 * M := mul_le_mul_of_nonneg_right (by norm_num; linarith) (hD.trans hx)
  have hh := h.trans (k1.trans k2)
  have l2 : len (Fl.matVec r m (Fl.ptSub r x o)).elem ≤ 2 * M := by clear h k1 k2; linarith
  have k3 := mul_le_mul_of_nonneg_left l2 (show (0 : ℝ) ≤ 2 ^ (-53 : ℤ) by positivity)
  have k4 : 2 ^ (-53 : ℤ) * (2 * M) + (E + 2 ^ (-52 : ℤ)) * M ≤ (E + 5 * 2 ^ (-53 : ℤ)) * M := by norm_num; nlinarith [hD.trans hx]
  exact t.trans ((add_le_add (a3.trans k3) (h.trans k1)).trans k4)

end Fl

/-- C157, rotation: a polygon of the plane and a point, both rotated by `m` about `p` in doubles. `R` is an exact rotation or reflection for which `m` stands up to `E`; `M`
bounds the distance of `p` from the origin and those of the corners and of the point from `p`. If the point is farther than `2^-47 + (2 E + 2^-43) M` from the sides, the
library finds the rotated point in the rotated polygon exactly when the point is inside the polygon. -/
theorem C157_rotate (r : Rounding 53) (ps : Corners 2) (q p : Pt 2) (m : RotMat 2) (proper : Bool) (R : Matrix (Fin 2) (Fin 2) ℝ) (E M : ℝ) (hR : Rᵀ * R = 1)
    (h0 : 12 * 2 ^ (-52 : ℤ) ≤ E) (h1 : E ≤ 1 / 4) (hm : Stands m.elem R (E - 12 * 2 ^ (-52 : ℤ))) (hp : len p.elem ≤ M) (hq : eucl q.elem p.elem ≤ M)
    (hc : ∀ c ∈ ps, eucl c.elem p.elem ≤ M) (hclear : ∀ x ∈ boundary ps, 2 ^ (-47 : ℤ) + (2 * E + 2 ^ (-43 : ℤ)) * M < eucl x q.elem) :
    Fl.interPolyP r (Fl.lineRotate r ps m p) (Fl.ptRotate r q m p) proper = true ↔ q.elem ∈ inside ps := by
  have hR' : Rᵀᵀ * Rᵀ = 1 := by rw [transpose_transpose]; exact mul_eq_one_comm.1 hR
  have lA : ∀ v, len (v ᵥ* R) = len v := fun v => by rw [← mulVec_transpose, Fl.len_orth hR']
  have er : ∀ x : Pt 2, eucl x.elem p.elem ≤ M → len ((Fl.ptRotate r x m p).elem - (p.elem + (x.elem - p.elem) ᵥ* R)) ≤ (E + 5 * 2 ^ (-53 : ℤ)) * M := fun x hx =>
    Fl.rotate_err r p m R E M hR h0 h1 hm hp _ _ (Fl.len_round r (x.elem - p.elem)) (by rwa [eucl_eq_len] at hx)
  have bd : ∀ x : Pt 2, eucl x.elem p.elem ≤ M → len (p.elem + (x.elem - p.elem) ᵥ* R) ≤ 2 * M := fun x hx => by
    refine (len_add_le _ _).trans ?_
    rw [lA, ← eucl_eq_len]; linarith
  exact Fl.moved_point r proper hR' (T := fun x => p.elem + (x - p.elem) ᵥ* R) (fun x y => by
      rw [add_sub_add_left_eq_sub, ← sub_vecMul, sub_sub_sub_cancel_right, mulVec_transpose])
    h1 ((len_nonneg _).trans hp) (fun c h => er c (hc c h)) (er q hq) (fun c h => bd c (hc c h)) (bd q hq) hclear

/-- C157, shift: a polygon and a point, both shifted by `v` in doubles; `M` bounds `v`, the corners and the point. -/
theorem C157_shift (r : Rounding 53) (ps : Corners 2) (q : Pt 2) (v : Vec 2) (proper : Bool) (M : ℝ) (hv : len v.elem ≤ M) (hq : len q.elem ≤ M)
    (hc : ∀ c ∈ ps, len c.elem ≤ M) (hclear : ∀ x ∈ boundary ps, 2 ^ (-47 : ℤ) + 2 ^ (-43 : ℤ) * M < eucl x q.elem) :
    Fl.interPolyP r (Fl.lineShift r ps v) (Fl.addVec r q v) proper = true ↔ q.elem ∈ inside ps := by
  have M0 : 0 ≤ M := (len_nonneg _).trans hv
  have bd : ∀ x : Pt 2, len x.elem ≤ M → len (x.elem + v.elem) ≤ 2 * M := fun x hx => (len_add_le _ _).trans (by linarith)
  have er : ∀ x : Pt 2, len x.elem ≤ M → len ((Fl.addVec r x v).elem - (x.elem + v.elem)) ≤ (0 + 5 * 2 ^ (-53 : ℤ)) * M := fun x hx => by
    refine (Fl.len_round r (x.elem + v.elem)).trans ?_
    have := mul_le_mul_of_nonneg_left (bd x hx) (show (0 : ℝ) ≤ 2 ^ (-53 : ℤ) by positivity)
    norm_num at this ⊢
    linarith
  exact Fl.moved_point r proper (A := 1) (by simp) (T := fun x => x + v.elem) (fun x y => by rw [add_sub_add_right_eq_sub, one_mulVec])
    (by norm_num) M0 (fun c h => er c (hc c h)) (er q hq) (fun c h => bd c (hc c h)) (bd q hq) (fun x hx => by simpa using hclear x hx)

/-- C157, coordinates: a polygon and a point given in the coordinates of a frame with origin `o` and orientation `m`, both expressed in the coordinates outside. `M` bounds `o`,
the corners and the point. -/
theorem C157_parent (r : Rounding 53) (ps : Corners 2) (q o : Pt 2) (m : RotMat 2) (proper : Bool) (R : Matrix (Fin 2) (Fin 2) ℝ) (E M : ℝ) (hR : Rᵀ * R = 1)
    (h0 : 12 * 2 ^ (-52 : ℤ) ≤ E) (h1 : E ≤ 1 / 4) (hm : Stands m.elem R (E - 12 * 2 ^ (-52 : ℤ))) (ho : len o.elem ≤ M) (hq : len q.elem ≤ M)
    (hc : ∀ c ∈ ps, len c.elem ≤ M) (hclear : ∀ x ∈ boundary ps, 2 ^ (-47 : ℤ) + (2 * E + 2 ^ (-43 : ℤ)) * M < eucl x q.elem) :
    Fl.interPolyP r (Fl.polyToParent r ps o m) (Fl.toParent r q o m) proper = true ↔ q.elem ∈ inside ps := by
  have hR' : Rᵀᵀ * Rᵀ = 1 := by rw [transpose_transpose]; exact mul_eq_one_comm.1 hR
  have lA : ∀ v, len (v ᵥ* R) = len v := fun v => by rw [← mulVec_transpose, Fl.len_orth hR']
  have er := fun (x : Pt 2) hx => Fl.parent2_err r x o m R E M hR h0 h1 hm ho hx
  have bd : ∀ x : Pt 2, len x.elem ≤ M → len (o.elem + x.elem ᵥ* R) ≤ 2 * M := fun x hx => by
    refine (len_add_le _ _).trans ?_
    rw [lA]; linarith
  exact Fl.moved_point r proper hR' (T := fun x => o.elem + x ᵥ* R) (fun x y => by rw [add_sub_add_left_eq_sub, ← sub_vecMul, mulVec_transpose])
    h1 ((len_nonneg _).trans ho) (fun c h => er c (hc c h)) (er q hq) (fun c h => bd c (hc c h)) (bd q hq) hclear

/-- C157, coordinates: the other way, from the coordinates outside to those of the frame. `M` bounds the distances of the corners and of the point from the origin of the frame. -/
theorem C157_local (r : Rounding 53) (ps : Corners 2) (q o : Pt 2) (m : RotMat 2) (proper : Bool) (R : Matrix (Fin 2) (Fin 2) ℝ) (E M : ℝ) (hR : Rᵀ * R = 1)
    (h0 : 12 * 2 ^ (-52 : ℤ) ≤ E) (h1 : E ≤ 1 / 4) (hm : Stands m.elem R (E - 12 * 2 ^ (-52 : ℤ))) (hq : eucl q.elem o.elem ≤ M)
    (hc : ∀ c ∈ ps, eucl c.elem o.elem ≤ M) (hclear : ∀ x ∈ boundary ps, 2 ^ (-47 : ℤ) + (2 * E + 2 ^ (-43 : ℤ)) * M < eucl x q.elem) :
    Fl.interPolyP r (Fl.polyToLocal r ps o m) (Fl.toLocal r q o m) proper = true ↔ q.elem ∈ inside ps := by
  have er := fun (x : Pt 2) hx => Fl.local2_err r x o m R E M hR h0 h1 hm hx
  have M0 : 0 ≤ M := (eucl_nonneg _ _).trans hq
  have bd : ∀ x : Pt 2, eucl x.elem o.elem ≤ M → len (R *ᵥ (x.elem - o.elem)) ≤ 2 * M := fun x hx => by
    rw [Fl.len_orth hR, ← eucl_eq_len]; linarith
  exact Fl.moved_point r proper hR (T := fun x => R *ᵥ (x - o.elem)) (fun x y => by rw [← mulVec_sub, sub_sub_sub_cancel_right])
    h1 M0 (fun c h => er c (hc c h)) (er q hq) (fun c h => bd c (hc c h)) (bd q hq) hclear

end WFMath
