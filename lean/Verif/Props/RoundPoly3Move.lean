/- Property theorems C144: moving and turning polygons in space in floating point arithmetic. -/
import Verif.Lemmas.RoundPoly3Move
import Verif.Props.RoundPoly3
import Verif.Props.RoundShapeMove

namespace WFMath
open Spec Matrix Rounding
open scoped Quaternion
variable {n : Nat}

/-- The polygon `s'` has as many corners as `s`; every corner that could be read can be read again, is as valid as before, and comes out where `F` takes what was read before,
up to an error `B` that may depend on how far the corner is from the origin of the plane. -/
def Spec.MovedBy (r : Rounding 53) (s s' : Poly n) (F : (Fin n → ℝ) → Fin n → ℝ) (B : ℝ → ℝ) : Prop :=
  s'.numCorners = s.numCorners ∧ ∀ (i : Nat) (q : Pt 2) (c : Pt n), s.poly.getCorner i = some q → Fl.polyCorner r s i = some c →
    ∃ c', Fl.polyCorner r s' i = some c' ∧ c'.valid = c.valid ∧ len (c'.elem - F c.elem) ≤ B (reach q)

theorem polyCorner_of {r : Rounding 53} {s : Poly n} {i : Nat} {q : Pt 2} (h : s.poly.getCorner i = some q) : Fl.polyCorner r s i = Fl.convert r s.orient q := by
  unfold Fl.polyCorner; rw [h]; rfl

/-- C144: a polygon made by adding corners has a plane with nearly perpendicular axes of nearly unit length, and the distance of a corner from the origin of
the plane is that of the point it was made from, up to a factor of 6. -/
theorem C144_built (r : Rounding 53) (hn : n ≤ 3) (eps : ℝ) (he : epsilon ≤ eps) (s : Poly n) (ps : List (Pt n)) (f : Pt n) (h : Built3 r eps s ps (some f)) :
    NearBasis s.orient (2 ^ (-22 : ℤ)) ∧ (ps ≠ [] → s.orient.origin.elem = f.elem) ∧
    ∀ i q p, s.poly.getCorner i = some q → ps[i]? = some p → reach q ≤ 6 * eucl p.elem f.elem := by
  have hI := built3_inv r hn (epsilon_pos.le.trans he) h
  obtain ⟨b1, b2, b3⟩ := C140_basis r hn eps he s ps _ h
  have e : (2 : ℝ) ^ (-48 : ℤ) ≤ 2 ^ (-22 : ℤ) := by norm_num
  have ho : s.orient.origin.valid = true → s.orient.origin.elem = f.elem := fun hv => by
    obtain ⟨f', hf, hfe⟩ := hI.some_iff hv
    cases hf; exact hfe
  refine ⟨⟨b1, fun v => (b2 v).trans e, fun v => (b3 v).1.trans e, fun v => (b3 v).2⟩, fun hne => ?_, fun i q p hq hp => ?_⟩
  · cases hv : s.orient.origin.valid with
    | true => exact ho hv
    | false => exact absurd (hI.none_iff hv).1 hne
  · unfold Corners.getCorner at hq
    obtain ⟨l1, e1⟩ := List.getElem?_eq_some_iff.1 hq
    obtain ⟨l2, e2⟩ := List.getElem?_eq_some_iff.1 hp
    obtain ⟨-, a2, -, -, ⟨a6, a7⟩, -⟩ := List.Forall₂.get hI.close l1 l2
    simp only [List.get_eq_getElem, e1, e2] at a6 a7
    rw [ho a2] at a6 a7
    rw [eucl_eq_len]
    unfold reach
    linarith

theorem orShift_turned (r : Rounding 53) (o : Orient n) (v : Vec n) (hv : v.valid = true) : Fl.Turned (fun x => x) 0 o (Fl.orShift r o v) := by
  unfold Fl.orShift
  split_ifs with h
  · exact ⟨rfl, rfl, fun _ => by simp [Fl.addVec, h, hv], fun _ => by simp [len_zero], fun _ => by simp [len_zero]⟩
  · exact ⟨rfl, rfl, fun h' => h', fun _ => by simp [len_zero], fun _ => by simp [len_zero]⟩

/-- C144, `shift`: every corner is moved by the vector, up to rounding; the axes of the plane stay as they are. -/
theorem C144_shift (r : Rounding 53) (s : Poly n) (η : ℝ) (hη : η ≤ 1 / 10) (hb : NearBasis s.orient η) (v : Vec n) (hv : v.valid = true) :
    NearBasis (Fl.poly3Shift r s v).orient η ∧
    MovedBy r s (Fl.poly3Shift r s v) (fun x => x + v.elem) fun ρ => 2 ^ (-49 : ℤ) * (len s.orient.origin.elem + len v.elem + ρ) := by
  have hT := orShift_turned r s.orient v hv
  refine ⟨by have := hT.basis Fl.rigid_id le_rfl (by norm_num) hη hb; rwa [mul_zero, add_zero] at this, rfl, fun i q c hq hc => ?_⟩
  rw [polyCorner_of hq] at hc
  have w := (Fl.convert_some r hc).1
  have h0 : len ((Fl.orShift r s.orient v).origin.elem - (v.elem + s.orient.origin.elem)) ≤ u 53 * len (v.elem + s.orient.origin.elem) := by
    unfold Fl.orShift
    rw [if_pos w, Fl.u53, add_comm v.elem]
    exact Fl.len_round r (s.orient.origin.elem + v.elem)
  obtain ⟨c', k1, k2, k3⟩ := Fl.read_moved r Fl.rigid_id le_rfl (by norm_num) hη hT hb (b := v.elem) h0 hc
  refine ⟨c', (polyCorner_of (s := Fl.poly3Shift r s v) hq).trans k1, k2, ?_⟩
  beta_reduce
  rw [add_comm c.elem]
  have hu0 : 0 < u 53 := u_pos
  have hu : u 53 ≤ 1 / 1000000 := by rw [Fl.u53]; norm_num
  have e49 : (2 : ℝ) ^ (-49 : ℤ) = 16 * u 53 := by rw [Fl.u53]; norm_num
  rw [e49]
  have t := mul_le_mul_of_nonneg_left (len_add_le v.elem s.orient.origin.elem) hu0.le
  have t0 := mul_nonneg hu0.le (len_nonneg (v.elem + s.orient.origin.elem))
  have t1 := mul_le_mul_of_nonneg_right hu t0
  have t2 := mul_nonneg hu0.le (len_nonneg v.elem)
  have t3 := mul_nonneg hu0.le (len_nonneg s.orient.origin.elem)
  have t4 := mul_nonneg hu0.le (reach_nonneg q)
  linarith

/-- Moving so that what is read as `c` comes to `p`. -/
theorem poly3_move (r : Rounding 53) (s : Poly n) (η : ℝ) (hη : η ≤ 1 / 10) (hb : NearBasis s.orient η) (p c : Pt n) (hp : p.valid = true) (hc : c.valid = true) :
    NearBasis (Fl.poly3Shift r s (Fl.ptSub r p c)).orient η ∧
    MovedBy r s (Fl.poly3Shift r s (Fl.ptSub r p c)) (fun x => x + (p.elem - c.elem)) fun ρ => 2 ^ (-48 : ℤ) * (len s.orient.origin.elem + eucl p.elem c.elem + ρ) := by
  obtain ⟨h1, h2, h3⟩ := C144_shift r s η hη hb (Fl.ptSub r p c) (by simp [Fl.ptSub, hp, hc])
  refine ⟨h1, h2, fun i q x hq hx => ?_⟩
  obtain ⟨x', k1, k2, k3⟩ := h3 i q x hq hx
  refine ⟨x', k1, k2, ?_⟩
  beta_reduce
  rw [eucl_eq_len]
  have e49 : (2 : ℝ) ^ (-49 : ℤ) = 16 * u 53 := by rw [Fl.u53]; norm_num
  have e48 : (2 : ℝ) ^ (-48 : ℤ) = 32 * u 53 := by rw [Fl.u53]; norm_num
  simp only [e49] at k3
  simp only [e48]
  have hu0 : 0 < u 53 := u_pos
  have hu : u 53 ≤ 1 / 1000000 := by rw [Fl.u53]; norm_num
  have d : len ((Fl.ptSub r p c).elem - (p.elem - c.elem)) ≤ u 53 * len (p.elem - c.elem) := by rw [Fl.u53]; exact Fl.len_round r (p.elem - c.elem)
  have l := len_triangle (Fl.ptSub r p c).elem (p.elem - c.elem) 0
  rw [sub_zero, sub_zero] at l
  have t := len_triangle x'.elem (x.elem + (Fl.ptSub r p c).elem) (x.elem + (p.elem - c.elem))
  rw [add_sub_add_left_eq_sub] at t
  have L := len_nonneg (p.elem - c.elem)
  have t1 := mul_le_mul_of_nonneg_right hu L
  have t2 : len (Fl.ptSub r p c).elem ≤ 1.1 * len (p.elem - c.elem) := by linarith
  have t3 := mul_le_mul_of_nonneg_left t2 hu0.le
  have t4 := mul_nonneg hu0.le L
  have t5 := mul_nonneg hu0.le (len_nonneg s.orient.origin.elem)
  have t6 := mul_nonneg hu0.le (reach_nonneg q)
  linarith

/-- C144, `moveCornerTo`: where `c` is read for corner `i`, every corner is moved by `p - c` up to rounding, so that corner `i` comes next to `p`. A corner that is not there
is refused. -/
theorem C144_move_corner (r : Rounding 53) (s : Poly n) (η : ℝ) (hη : η ≤ 1 / 10) (hb : NearBasis s.orient η) (p : Pt n) (i : Nat) :
    (s.numCorners ≤ i → Fl.poly3MoveCorner r s p i = none) ∧
    ∀ c, Fl.polyCorner r s i = some c → p.valid = true → c.valid = true → ∃ t, Fl.poly3MoveCorner r s p i = some t ∧ NearBasis t.orient η ∧
      MovedBy r s t (fun x => x + (p.elem - c.elem)) fun ρ => 2 ^ (-48 : ℤ) * (len s.orient.origin.elem + eucl p.elem c.elem + ρ) := by
  refine ⟨fun h => ?_, fun c hc hp hv => ⟨_, by unfold Fl.poly3MoveCorner; rw [hc]; rfl, poly3_move r s η hη hb p c hp hv⟩⟩
  have : s.poly.getCorner i = none := List.getElem?_eq_none h
  unfold Fl.poly3MoveCorner Fl.polyCorner
  rw [this]; rfl

/-- C144, `moveCenterTo`: where `g` is read for the centre, every corner is moved by `p - g` up to rounding. -/
theorem C144_move_center (r : Rounding 53) (s : Poly n) (η : ℝ) (hη : η ≤ 1 / 10) (hb : NearBasis s.orient η) (p g : Pt n) (hg : Fl.polyCenter r s = some g)
    (hp : p.valid = true) (hv : g.valid = true) : ∃ t, Fl.poly3MoveCenter r s p = some t ∧ NearBasis t.orient η ∧
      MovedBy r s t (fun x => x + (p.elem - g.elem)) fun ρ => 2 ^ (-48 : ℤ) * (len s.orient.origin.elem + eucl p.elem g.elem + ρ) :=
  ⟨_, by unfold Fl.poly3MoveCenter; rw [hg]; rfl, poly3_move r s η hη hb p g hp hv⟩

/-- The bounds for turning about `p`. -/
theorem about_bound {T Op P O ρ E : ℝ} (hE : 0 ≤ E) (hT : T = 2 * E + 3 * u 53) (hE1 : E ≤ 1 / 100) (h1 : 0 ≤ Op) (h2 : 0 ≤ P) (h4 : 0 ≤ ρ)
    (hO : O ≤ Op + P) :
    (1 + 3 * u 53) * (T * Op + u 53 * P) + 3 * u 53 * (P + Op) + 3 * u 53 * O + (11 / 10 * E + 10 * u 53) * ρ ≤ (2 * E + 10 * u 53) * (Op + ρ) + 8 * u 53 * P := by
  subst hT
  have hu0 : 0 < u 53 := u_pos
  have hu : u 53 ≤ 1 / 1000000 := by rw [Fl.u53]; norm_num
  have a1 := mul_nonneg hu0.le h1
  have a2 := mul_nonneg hu0.le h2
  have a3 := mul_nonneg hE h4
  have a4 : u 53 * (E * Op) ≤ 1 / 100 * (u 53 * Op) := by have := mul_le_mul_of_nonneg_right hE1 a1; linarith
  have a5 : u 53 * (u 53 * Op) ≤ 1 / 1000000 * (u 53 * Op) := mul_le_mul_of_nonneg_right hu a1
  have a6 : u 53 * (u 53 * P) ≤ 1 / 1000000 * (u 53 * P) := mul_le_mul_of_nonneg_right hu a2
  have a7 := mul_le_mul_of_nonneg_left hO hu0.le
  linarith

/-- C144, `rotatePoint` with a matrix that stands for the orthogonal matrix `R`: every corner comes out next to its exact rotation about `p`. The axes of the plane stay nearly
perpendicular and nearly of unit length: each rotation adds at most `3 E` to their error. -/
theorem C144_rotate (r : Rounding 53) (m : RotMat n) (R : Matrix (Fin n) (Fin n) ℝ) (E : ℝ) (hn : n < 2 ^ 52) (hR : Rᵀ * R = 1)
    (h0 : 2 * n * (n + 1) * 2 ^ (-52 : ℤ) ≤ E) (h1 : E ≤ 1 / 100) (hm : Stands m.elem R (E - 2 * n * (n + 1) * 2 ^ (-52 : ℤ))) (hv : m.valid = true)
    (s : Poly n) (η : ℝ) (hη : η ≤ 1 / 10) (hb : NearBasis s.orient η) (p : Pt n) (hp : p.valid = true) :
    NearBasis (Fl.poly3Rotate r s m p).orient (η + 3 * E) ∧
    MovedBy r s (Fl.poly3Rotate r s m p) (fun x => p.elem + (x - p.elem) ᵥ* R) fun ρ =>
      (2 * E + 10 * 2 ^ (-53 : ℤ)) * (eucl s.orient.origin.elem p.elem + ρ) + 2 ^ (-50 : ℤ) * len p.elem := by
  have hκ : (0 : ℝ) ≤ 2 * n * (n + 1) * 2 ^ (-52 : ℤ) := by positivity
  have hE : 0 ≤ E := hκ.trans h0
  have hV := fun v => (C124_vector r m R _ hn (sub_nonneg.2 h0) (by linarith) hR hm v).2
  simp only [sub_add_cancel] at hV
  have hA := Fl.rigid_matT hR
  have hT : Fl.Turned (fun v => v ᵥ* R) E s.orient (Fl.poly3Rotate r s m p).orient :=
    ⟨by simp [Fl.poly3Rotate, Fl.orRotate, Fl.vecMat, hv], by simp [Fl.poly3Rotate, Fl.orRotate, Fl.vecMat, hv],
      fun h => by simp [Fl.poly3Rotate, Fl.orRotate, Fl.ptRotate, Fl.addVec, Fl.vecMat, Fl.ptSub, hv, hp, h], fun _ => hV _, fun _ => hV _⟩
  refine ⟨hT.basis hA hE h1 hη hb, rfl, fun i q c hq hc => ?_⟩
  rw [polyCorner_of hq] at hc
  have ho := C125_about r m R E hn hR h0 (by linarith) hm s.orient.origin p
  have e : ∀ x, p.elem + (x - p.elem) ᵥ* R = (p.elem - p.elem ᵥ* R) + x ᵥ* R := fun x => by rw [sub_vecMul]; abel
  rw [e] at ho
  obtain ⟨c', k1, k2, k3⟩ := Fl.read_moved r hA hE h1 hη hT hb (b := p.elem - p.elem ᵥ* R) ho hc
  refine ⟨c', (polyCorner_of (s := Fl.poly3Rotate r s m p) hq).trans k1, k2, ?_⟩
  beta_reduce
  rw [e]
  refine k3.trans ?_
  have e50 : (2 : ℝ) ^ (-50 : ℤ) = 8 * u 53 := by rw [Fl.u53]; norm_num
  rw [eucl_eq_len, ← Fl.u53, e50]
  have l1 : len (p.elem - p.elem ᵥ* R + s.orient.origin.elem ᵥ* R) ≤ len p.elem + len (s.orient.origin.elem - p.elem) := by
    rw [← e]
    refine (len_add_le _ _).trans (le_of_eq ?_)
    rw [hA.len_eq]
  have l2 := len_triangle s.orient.origin.elem p.elem 0
  rw [sub_zero, sub_zero] at l2
  have hu0 : 0 < u 53 := u_pos
  have l3 := mul_le_mul_of_nonneg_left l1 hu0.le
  have := about_bound hE rfl h1 (len_nonneg (s.orient.origin.elem - p.elem)) (len_nonneg p.elem) (reach_nonneg q) l2
  linarith

/-- C144, `rotatePoint` with a quaternion that stands for the unit quaternion `u`. -/
theorem C144_quaternion (r : Rounding 53) (w : Quat) (u : ℍ[ℝ]) (δ E : ℝ) (hu : ‖u‖ = 1) (hq : ‖toH w - u‖ ≤ δ) (hδ : δ ≤ 1 / 2000) (hE : E = 13 * δ + 20 * epsilon)
    (hv : w.vec.valid = true) (s : Poly 3) (η : ℝ) (hη : η ≤ 1 / 10) (hb : NearBasis s.orient η) (p : Pt 3) (hp : p.valid = true) :
    NearBasis (Fl.poly3RotateQ r s w p).orient (η + 3 * E) ∧
    MovedBy r s (Fl.poly3RotateQ r s w p) (fun x => p.elem + act u (x - p.elem)) fun ρ =>
      (2 * E + 10 * 2 ^ (-53 : ℤ)) * (eucl s.orient.origin.elem p.elem + ρ) + 2 ^ (-50 : ℤ) * len p.elem := by
  have he := epsilon_pos
  have he2 := epsilon_lt
  norm_num at he2
  have δ0 := (norm_nonneg _).trans hq
  have hE0 : 0 ≤ E := by rw [hE]; positivity
  have h1 : E ≤ 1 / 100 := by rw [hE]; linarith
  have hV := fun v => C123_rotate r v w u δ hu hq (by linarith)
  rw [← hE] at hV
  have hA := Fl.rigid_act (normSq_eq_one.2 hu)
  have hQ : ∀ v : Vec 3, (Fl.rotateQ r v w).valid = v.valid := fun v => by
    simp [Fl.rotateQ, Fl.add, Fl.scale, Fl.cross3, hv]
  have hT : Fl.Turned (act u) E s.orient (Fl.poly3RotateQ r s w p).orient :=
    ⟨hQ _, hQ _, fun h => by
      show (Fl.addVec r p (Fl.rotateQ r (Fl.ptSub r s.orient.origin p) w)).valid = true
      simp [Fl.addVec, hQ, Fl.ptSub, hp, h], fun _ => hV _, fun _ => hV _⟩
  refine ⟨hT.basis hA hE0 h1 hη hb, rfl, fun i q c hq' hc => ?_⟩
  rw [polyCorner_of hq'] at hc
  have ho := (C125_about_quaternion r w u δ hu hq (by linarith) s.orient.origin p).1
  rw [← hE] at ho
  have e : ∀ x, p.elem + act u (x - p.elem) = (p.elem - act u p.elem) + act u x := fun x => by rw [hA.sub]; abel
  rw [e] at ho
  obtain ⟨c', k1, k2, k3⟩ := Fl.read_moved r hA hE0 h1 hη hT hb (b := p.elem - act u p.elem) ho hc
  refine ⟨c', (polyCorner_of (s := Fl.poly3RotateQ r s w p) hq').trans k1, k2, ?_⟩
  beta_reduce
  rw [e]
  refine k3.trans ?_
  have e50 : (2 : ℝ) ^ (-50 : ℤ) = 8 * Rounding.u 53 := by rw [Fl.u53]; norm_num
  rw [eucl_eq_len, ← Fl.u53, e50]
  have l1 : len (p.elem - act u p.elem + act u s.orient.origin.elem) ≤ len p.elem + len (s.orient.origin.elem - p.elem) := by
    rw [← e]
    refine (len_add_le _ _).trans (le_of_eq ?_)
    rw [hA.len_eq]
  have l2 := len_triangle s.orient.origin.elem p.elem 0
  rw [sub_zero, sub_zero] at l2
  have hu0 : 0 < Rounding.u 53 := u_pos
  have l3 := mul_le_mul_of_nonneg_left l1 hu0.le
  have := about_bound hE0 rfl h1 (len_nonneg (s.orient.origin.elem - p.elem)) (len_nonneg p.elem) (reach_nonneg q) l2
  linarith

/-- C144, `rotateCorner` with a matrix: where `g` is read for corner `k`, every corner comes out next to its exact rotation about `g`; so corner `k` itself stays where it is up
to rounding. A corner that is not there is refused. -/
theorem C144_rotate_corner (r : Rounding 53) (m : RotMat n) (R : Matrix (Fin n) (Fin n) ℝ) (E : ℝ) (hn : n < 2 ^ 52) (hR : Rᵀ * R = 1)
    (h0 : 2 * n * (n + 1) * 2 ^ (-52 : ℤ) ≤ E) (h1 : E ≤ 1 / 100) (hm : Stands m.elem R (E - 2 * n * (n + 1) * 2 ^ (-52 : ℤ))) (hv : m.valid = true)
    (s : Poly n) (η : ℝ) (hη : η ≤ 1 / 10) (hb : NearBasis s.orient η) (k : Nat) :
    (s.numCorners ≤ k → Fl.poly3RotateCorner r s m k = none) ∧
    ∀ z g, s.poly.getCorner k = some z → Fl.polyCorner r s k = some g → ∃ t, Fl.poly3RotateCorner r s m k = some t ∧ NearBasis t.orient (η + 3 * E) ∧
      MovedBy r s t (fun x => g.elem + (x - g.elem) ᵥ* R) fun ρ => (2 * E + 2 ^ (-48 : ℤ)) * (reach z + ρ) + 2 ^ (-49 : ℤ) * len s.orient.origin.elem := by
  have hκ : (0 : ℝ) ≤ 2 * n * (n + 1) * 2 ^ (-52 : ℤ) := by positivity
  have hE : 0 ≤ E := hκ.trans h0
  have hV := fun v => (C124_vector r m R _ hn (sub_nonneg.2 h0) (by linarith) hR hm v).2
  simp only [sub_add_cancel] at hV
  have hA := Fl.rigid_matT hR
  refine ⟨fun h => ?_, fun z g hz hg => ?_⟩
  · have : s.poly.getCorner k = none := List.getElem?_eq_none h
    unfold Fl.poly3RotateCorner
    rw [this]; rfl
  · rw [polyCorner_of hz] at hg
    obtain ⟨o', a1, a2, a3⟩ := Fl.rotate2_spec r m hv hA hE h1 hη hV hb hg
    refine ⟨⟨o', s.poly⟩, by unfold Fl.poly3RotateCorner; rw [hz, Option.bind_some, a1]; rfl, a2, rfl, fun i q c hq hc => ?_⟩
    rw [polyCorner_of hq] at hc
    obtain ⟨c', b1, b2, b3⟩ := a3 q c hc
    refine ⟨c', (polyCorner_of (s := ⟨o', s.poly⟩) hq).trans b1, b2, b3.trans ?_⟩
    have e49 : (2 : ℝ) ^ (-49 : ℤ) = 16 * u 53 := by rw [Fl.u53]; norm_num
    have e48 : (2 : ℝ) ^ (-48 : ℤ) = 32 * u 53 := by rw [Fl.u53]; norm_num
    simp only [e49, e48]
    have := mul_nonneg hE (add_nonneg (reach_nonneg z) (reach_nonneg q))
    linarith

/-- C144, `rotateCenter` with a matrix: where `g` is read for the centre, every corner comes out next to its exact rotation about `g`. A polygon without corners stays as it is. -/
theorem C144_rotate_center (r : Rounding 53) (m : RotMat n) (R : Matrix (Fin n) (Fin n) ℝ) (E : ℝ) (hn : n < 2 ^ 52) (hR : Rᵀ * R = 1)
    (h0 : 2 * n * (n + 1) * 2 ^ (-52 : ℤ) ≤ E) (h1 : E ≤ 1 / 100) (hm : Stands m.elem R (E - 2 * n * (n + 1) * 2 ^ (-52 : ℤ))) (hv : m.valid = true)
    (s : Poly n) (η : ℝ) (hη : η ≤ 1 / 10) (hb : NearBasis s.orient η) :
    (s.numCorners = 0 → Fl.poly3RotateCenter r s m = some s) ∧
    ∀ g, 0 < s.numCorners → Fl.polyCenter r s = some g → ∃ t, Fl.poly3RotateCenter r s m = some t ∧ NearBasis t.orient (η + 3 * E) ∧
      MovedBy r s t (fun x => g.elem + (x - g.elem) ᵥ* R) fun ρ =>
        (2 * E + 2 ^ (-48 : ℤ)) * (reach (Fl.barycenter r s.poly) + ρ) + 2 ^ (-49 : ℤ) * len s.orient.origin.elem := by
  have hκ : (0 : ℝ) ≤ 2 * n * (n + 1) * 2 ^ (-52 : ℤ) := by positivity
  have hE : 0 ≤ E := hκ.trans h0
  have hV := fun v => (C124_vector r m R _ hn (sub_nonneg.2 h0) (by linarith) hR hm v).2
  simp only [sub_add_cancel] at hV
  have hA := Fl.rigid_matT hR
  refine ⟨fun h => ?_, fun g hl hg => ?_⟩
  · have h' : s.poly.length = 0 := h
    unfold Fl.poly3RotateCenter
    rw [h', if_neg (by omega)]
  · obtain ⟨o', a1, a2, a3⟩ := Fl.rotate2_spec r m hv hA hE h1 hη hV hb hg
    have hl' : s.poly.length > 0 := hl
    refine ⟨⟨o', s.poly⟩, by unfold Fl.poly3RotateCenter; rw [if_pos hl', a1]; rfl, a2, rfl, fun i q c hq hc => ?_⟩
    rw [polyCorner_of hq] at hc
    obtain ⟨c', b1, b2, b3⟩ := a3 q c hc
    refine ⟨c', (polyCorner_of (s := ⟨o', s.poly⟩) hq).trans b1, b2, b3.trans ?_⟩
    have e49 : (2 : ℝ) ^ (-49 : ℤ) = 16 * u 53 := by rw [Fl.u53]; norm_num
    have e48 : (2 : ℝ) ^ (-48 : ℤ) = 32 * u 53 := by rw [Fl.u53]; norm_num
    simp only [e49, e48]
    have := mul_nonneg hE (add_nonneg (reach_nonneg (Fl.barycenter r s.poly)) (reach_nonneg q))
    linarith

end WFMath
