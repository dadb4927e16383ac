/- Property theorems C144, continued: centres of polygons in space, changes of coordinates, and turning about a corner by a quaternion, in floating point arithmetic. -/
import Verif.Props.RoundPoly3Move

namespace WFMath
open Spec Matrix Rounding
open scoped Quaternion
variable {n : Nat}

/-- C144, `toParentCoords` and `toLocalCoords` with an origin `o` and a matrix that stands for the orthogonal matrix `R`: every corner comes out next to its exact coordinates in
the other frame. -/
theorem C144_frames (r : Rounding 53) (m : RotMat n) (R : Matrix (Fin n) (Fin n) ℝ) (E : ℝ) (hn : n < 2 ^ 52) (hR : Rᵀ * R = 1)
    (h0 : 2 * n * (n + 1) * 2 ^ (-52 : ℤ) ≤ E) (h1 : E ≤ 1 / 100) (hm : Stands m.elem R (E - 2 * n * (n + 1) * 2 ^ (-52 : ℤ))) (hv : m.valid = true)
    (s : Poly n) (η : ℝ) (hη : η ≤ 1 / 10) (hb : NearBasis s.orient η) (o : Pt n) (ho : o.valid = true) :
    NearBasis (Fl.poly3ToParent r s o m).orient (η + 3 * E) ∧ NearBasis (Fl.poly3ToLocal r s o m).orient (η + 3 * E) ∧
    (MovedBy r s (Fl.poly3ToParent r s o m) (fun x => o.elem + x ᵥ* R) fun ρ =>
      (2 * E + 10 * 2 ^ (-53 : ℤ)) * (len s.orient.origin.elem + ρ) + 2 ^ (-50 : ℤ) * len o.elem) ∧
    MovedBy r s (Fl.poly3ToLocal r s o m) (fun x => R *ᵥ (x - o.elem)) fun ρ =>
      (2 * E + 10 * 2 ^ (-53 : ℤ)) * (eucl s.orient.origin.elem o.elem + ρ) + 2 ^ (-50 : ℤ) * len o.elem := by
  have hκ : (0 : ℝ) ≤ 2 * n * (n + 1) * 2 ^ (-52 : ℤ) := by positivity
  have hE : 0 ≤ E := hκ.trans h0
  have hV := fun v => C124_vector r m R _ hn (sub_nonneg.2 h0) (by linarith) hR hm v
  simp only [sub_add_cancel] at hV
  obtain ⟨p1, p2, -⟩ := C125_matrix r m R E hn hR h0 (by linarith) hm s.orient.origin o
  have hA := Fl.rigid_matT hR
  have hB := Fl.rigid_mat hR
  have hu0 : 0 < u 53 := u_pos
  have e50 : (2 : ℝ) ^ (-50 : ℤ) = 8 * u 53 := by rw [Fl.u53]; norm_num
  have TA : Fl.Turned (fun v => v ᵥ* R) E s.orient (Fl.poly3ToParent r s o m).orient :=
    ⟨by simp [Fl.poly3ToParent, Fl.orToParent, Fl.vecMat, hv], by simp [Fl.poly3ToParent, Fl.orToParent, Fl.vecMat, hv],
      fun h => by simp [Fl.poly3ToParent, Fl.orToParent, Fl.toParent, Fl.addVec, Fl.vecMat, Fl.ptSub, Pt.origin, hv, ho, h], fun _ => (hV _).2, fun _ => (hV _).2⟩
  have TB : Fl.Turned (fun v => R *ᵥ v) E s.orient (Fl.poly3ToLocal r s o m).orient :=
    ⟨by simp [Fl.poly3ToLocal, Fl.orToLocal, Fl.matVec, hv], by simp [Fl.poly3ToLocal, Fl.orToLocal, Fl.matVec, hv],
      fun h => by simp [Fl.poly3ToLocal, Fl.orToLocal, Fl.toLocal, Fl.addVec, Fl.matVec, Fl.ptSub, Pt.origin, hv, ho, h], fun _ => (hV _).1, fun _ => (hV _).1⟩
  refine ⟨TA.basis hA hE h1 hη hb, TB.basis hB hE h1 hη hb, ⟨rfl, fun i q c hq hc => ?_⟩, rfl, fun i q c hq hc => ?_⟩
  · rw [polyCorner_of hq] at hc
    obtain ⟨c', k1, k2, k3⟩ := Fl.read_moved r hA hE h1 hη TA hb (b := o.elem) p1 hc
    refine ⟨c', (polyCorner_of (s := Fl.poly3ToParent r s o m) hq).trans k1, k2, k3.trans ?_⟩
    beta_reduce
    rw [← Fl.u53, e50]
    have l1 := len_add_le o.elem (s.orient.origin.elem ᵥ* R)
    rw [hA.len_eq] at l1
    have l3 := mul_le_mul_of_nonneg_left l1 hu0.le
    have := about_bound (O := len s.orient.origin.elem) hE rfl h1 (len_nonneg s.orient.origin.elem) (len_nonneg o.elem) (reach_nonneg q) (by have := len_nonneg o.elem; linarith)
    linarith
  · rw [polyCorner_of hq] at hc
    have e : ∀ x, R *ᵥ (x - o.elem) = -(R *ᵥ o.elem) + R *ᵥ x := fun x => by rw [mulVec_sub]; abel
    rw [e] at p2
    obtain ⟨c', k1, k2, k3⟩ := Fl.read_moved r hB hE h1 hη TB hb (b := -(R *ᵥ o.elem)) p2 hc
    refine ⟨c', (polyCorner_of (s := Fl.poly3ToLocal r s o m) hq).trans k1, k2, ?_⟩
    beta_reduce
    rw [e]
    refine k3.trans ?_
    rw [← Fl.u53, e50, ← e, hB.len_eq, eucl_eq_len]
    have l2 := len_triangle s.orient.origin.elem o.elem 0
    rw [sub_zero, sub_zero] at l2
    have := about_bound hE rfl h1 (len_nonneg (s.orient.origin.elem - o.elem)) (len_nonneg o.elem) (reach_nonneg q) l2
    have t0 := mul_nonneg hu0.le (len_nonneg o.elem)
    have t1 : 0 ≤ (1 + 3 * u 53) * (u 53 * len o.elem) := by positivity
    linarith

/-- Two steps that round a coordinate. -/
theorem twice_round (r : Rounding 53) (a b : Fin n → ℝ) : len ((fun i => r (a i + r (b i))) - (a + b)) ≤ 3 * u 53 * (len a + len b) := by
  have hu0 : 0 < u 53 := u_pos
  have hu : u 53 ≤ 1 / 1000000 := by rw [Fl.u53]; norm_num
  have h1 := Fl.len_round r b
  have h2 := Fl.len_round r (a + fun i => r (b i))
  rw [← Fl.u53] at h1 h2
  have h3 := len_triangle (fun i => r (a i + r (b i))) (a + fun i => r (b i)) (a + b)
  rw [add_sub_add_left_eq_sub] at h3
  have h4 := len_add_le a (fun i => r (b i))
  have h5 := len_triangle (fun i => r (b i)) b 0
  rw [sub_zero, sub_zero] at h5
  have L := len_nonneg b
  have La := len_nonneg a
  have h6 := mul_le_mul_of_nonneg_right hu L
  have h7 := mul_le_mul_of_nonneg_left (h4.trans (add_le_add_right (show len (fun i => r (b i)) ≤ 1.1 * len b by linarith) _)) hu0.le
  have h8 := mul_nonneg hu0.le L
  have h9 := mul_nonneg hu0.le La
  have h2' : len ((fun i => r (a i + r (b i))) - (a + fun i => r (b i))) ≤ u 53 * len (a + fun i => r (b i)) := h2
  linarith

/-- C144, `toParentCoords` and `toLocalCoords` with an axis box: every corner is moved by the lower corner of the box, or back, up to rounding. -/
theorem C144_box_frames (r : Rounding 53) (s : Poly n) (η : ℝ) (hη : η ≤ 1 / 10) (hb : NearBasis s.orient η) (c : Box n) (hc : c.low.valid = true) :
    NearBasis (Fl.poly3ToParentBox r s c).orient η ∧ NearBasis (Fl.poly3ToLocalBox r s c).orient η ∧
    (MovedBy r s (Fl.poly3ToParentBox r s c) (fun x => c.low.elem + x) fun ρ => 2 ^ (-49 : ℤ) * (len s.orient.origin.elem + len c.low.elem + ρ)) ∧
    MovedBy r s (Fl.poly3ToLocalBox r s c) (fun x => x - c.low.elem) fun ρ => 2 ^ (-49 : ℤ) * (len s.orient.origin.elem + len c.low.elem + ρ) := by
  have hu0 : 0 < u 53 := u_pos
  have hu : u 53 ≤ 1 / 1000000 := by rw [Fl.u53]; norm_num
  have e49 : (2 : ℝ) ^ (-49 : ℤ) = 16 * u 53 := by rw [Fl.u53]; norm_num
  have hO := len_nonneg s.orient.origin.elem
  have hL := len_nonneg c.low.elem
  have t1 := mul_nonneg hu0.le hO
  have t2 := mul_nonneg hu0.le hL
  have t3 := mul_le_mul_of_nonneg_right hu t1
  have t4 := mul_le_mul_of_nonneg_right hu t2
  have TA : Fl.Turned (fun v => v) 0 s.orient (Fl.poly3ToParentBox r s c).orient :=
    ⟨rfl, rfl, fun h => by simp [Fl.poly3ToParentBox, Fl.toParentBox, Fl.addVec, Fl.ptSub, Pt.origin, hc, h],
      fun _ => by simp [Fl.poly3ToParentBox, len_zero], fun _ => by simp [Fl.poly3ToParentBox, len_zero]⟩
  have TB : Fl.Turned (fun v => v) 0 s.orient (Fl.poly3ToLocalBox r s c).orient :=
    ⟨rfl, rfl, fun h => by simp [Fl.poly3ToLocalBox, Fl.toLocalBox, Fl.addVec, Fl.ptSub, Pt.origin, hc, h],
      fun _ => by simp [Fl.poly3ToLocalBox, len_zero], fun _ => by simp [Fl.poly3ToLocalBox, len_zero]⟩
  have p1 : len ((Fl.poly3ToParentBox r s c).orient.origin.elem - (c.low.elem + s.orient.origin.elem)) ≤ 3 * u 53 * (len c.low.elem + len s.orient.origin.elem) := by
    have e : (Fl.poly3ToParentBox r s c).orient.origin.elem = fun i => r (c.low.elem i + r (s.orient.origin.elem i)) := by
      funext i
      show r (c.low.elem i + r (s.orient.origin.elem i - 0)) = _
      rw [sub_zero]
    rw [e]; exact twice_round r _ _
  have p2 : len ((Fl.poly3ToLocalBox r s c).orient.origin.elem - (-c.low.elem + s.orient.origin.elem)) ≤ 3 * u 53 * (len c.low.elem + len s.orient.origin.elem) := by
    have e : (Fl.poly3ToLocalBox r s c).orient.origin.elem = fun i => r ((0 : Fin n → ℝ) i + r ((-c.low.elem + s.orient.origin.elem) i)) := by
      funext i
      show r (0 + r (s.orient.origin.elem i - c.low.elem i)) = r (0 + r (-c.low.elem i + s.orient.origin.elem i))
      rw [show s.orient.origin.elem i - c.low.elem i = -c.low.elem i + s.orient.origin.elem i by ring]
    have k := twice_round r (0 : Fin n → ℝ) (-c.low.elem + s.orient.origin.elem)
    rw [← e, zero_add, len_zero, zero_add] at k
    have l := len_add_le (-c.low.elem) s.orient.origin.elem
    rw [len_neg] at l
    exact k.trans (mul_le_mul_of_nonneg_left l (by positivity))
  refine ⟨by have := TA.basis Fl.rigid_id le_rfl (by norm_num) hη hb; rwa [mul_zero, add_zero] at this,
    by have := TB.basis Fl.rigid_id le_rfl (by norm_num) hη hb; rwa [mul_zero, add_zero] at this, ⟨rfl, fun i q x hq hx => ?_⟩, rfl, fun i q x hq hx => ?_⟩
  · rw [polyCorner_of hq] at hx
    obtain ⟨c', k1, k2, k3⟩ := Fl.read_moved r Fl.rigid_id le_rfl (by norm_num) hη TA hb (b := c.low.elem) p1 hx
    refine ⟨c', (polyCorner_of (s := Fl.poly3ToParentBox r s c) hq).trans k1, k2, k3.trans ?_⟩
    simp only [e49]
    have l := mul_le_mul_of_nonneg_left (len_add_le c.low.elem s.orient.origin.elem) hu0.le
    have t5 := mul_nonneg hu0.le (reach_nonneg q)
    linarith
  · rw [polyCorner_of hq] at hx
    obtain ⟨c', k1, k2, k3⟩ := Fl.read_moved r Fl.rigid_id le_rfl (by norm_num) hη TB hb (b := -c.low.elem) p2 hx
    refine ⟨c', (polyCorner_of (s := Fl.poly3ToLocalBox r s c) hq).trans k1, k2, ?_⟩
    simp only [e49]
    rw [show x.elem - c.low.elem = -c.low.elem + x.elem by abel]
    refine k3.trans ?_
    have l := mul_le_mul_of_nonneg_left (len_add_le (-c.low.elem) s.orient.origin.elem) hu0.le
    rw [len_neg] at l
    have t5 := mul_nonneg hu0.le (reach_nonneg q)
    linarith

theorem rotate2Q_moved (r : Rounding 53) (w : Quat) (u : ℍ[ℝ]) (δ E : ℝ) (hu : ‖u‖ = 1) (hq : ‖toH w - u‖ ≤ δ) (hδ : δ ≤ 1 / 2000)
    (hE : E = 13 * δ + 20 * epsilon) (hv : w.vec.valid = true) (s : Poly 3) (η : ℝ) (hη : η ≤ 1 / 10) (hb : NearBasis s.orient η) (z : Pt 2) (g : Pt 3)
    (hg : Fl.convert r s.orient z = some g) (h0 : s.orient.ax0.valid = true) :
    ∃ o, Fl.orRotate2Q r s.orient w z = some o ∧ NearBasis o (η + 3 * E) ∧
      MovedBy r s ⟨o, s.poly⟩ (fun x => s.orient.origin.elem + act u (x - s.orient.origin.elem)) fun ρ => (2 * E + 10 * 2 ^ (-53 : ℤ)) * ρ + 2 ^ (-50 : ℤ) * len s.orient.origin.elem := by
  have he := epsilon_pos
  have he2 := epsilon_lt
  norm_num at he2
  have δ0 := (norm_nonneg _).trans hq
  have hE0 : 0 ≤ E := by rw [hE]; positivity
  have h1 : E ≤ 1 / 100 := by rw [hE]; linarith
  have hV := fun v => C123_rotate r v w u δ hu hq (by linarith)
  rw [← hE] at hV
  have hA := Fl.rigid_act (normSq_eq_one.2 hu)
  have hQ : ∀ v : Vec 3, (Fl.rotateQ r v w).valid = v.valid := fun v => by simp [Fl.rotateQ, Fl.add, Fl.scale, Fl.cross3, hv]
  have hu0 : 0 < Rounding.u 53 := u_pos
  have hus : Rounding.u 53 ≤ 1 / 1000000 := by rw [Fl.u53]; norm_num
  have e50 : (2 : ℝ) ^ (-50 : ℤ) = 8 * Rounding.u 53 := by rw [Fl.u53]; norm_num
  obtain ⟨w0, w1, w2⟩ := Fl.convert_some r hg
  have key : ∀ (sh a1 : Vec 3), sh.valid = true → a1.valid = s.orient.ax1.valid →
      (s.orient.ax1.valid = true → len (a1.elem - act u s.orient.ax1.elem) ≤ E * len s.orient.ax1.elem) →
      NearBasis (⟨Fl.addVec r s.orient.origin (Fl.sub r sh sh), Fl.rotateQ r s.orient.ax0 w, a1⟩ : Orient 3) (η + 3 * E) ∧
      MovedBy r s ⟨⟨Fl.addVec r s.orient.origin (Fl.sub r sh sh), Fl.rotateQ r s.orient.ax0 w, a1⟩, s.poly⟩
        (fun x => s.orient.origin.elem + act u (x - s.orient.origin.elem)) fun ρ => (2 * E + 10 * 2 ^ (-53 : ℤ)) * ρ + 2 ^ (-50 : ℤ) * len s.orient.origin.elem := by
    intro sh a1 hs ha ha'
    have hT : Fl.Turned (act u) E s.orient ⟨Fl.addVec r s.orient.origin (Fl.sub r sh sh), Fl.rotateQ r s.orient.ax0 w, a1⟩ :=
      ⟨hQ _, ha, fun _ => by simp [Fl.addVec, Fl.sub, hs, w0], fun _ => hV _, ha'⟩
    have ho : len ((Fl.addVec r s.orient.origin (Fl.sub r sh sh)).elem - ((s.orient.origin.elem - act u s.orient.origin.elem) + act u s.orient.origin.elem)) ≤
        Rounding.u 53 * len s.orient.origin.elem := by
      rw [sub_add_cancel]
      have e : (Fl.addVec r s.orient.origin (Fl.sub r sh sh)).elem = fun i => r (s.orient.origin.elem i) := by
        funext i
        show r (s.orient.origin.elem i + r (sh.elem i - sh.elem i)) = _
        rw [sub_self, r.zero, add_zero]
      rw [e, Fl.u53]
      exact Fl.len_round r _
    refine ⟨hT.basis hA hE0 h1 hη hb, rfl, fun i q c hq' hc => ?_⟩
    rw [polyCorner_of hq'] at hc
    obtain ⟨c', k1, k2, k3⟩ := Fl.read_moved r hA hE0 h1 hη hT hb (b := s.orient.origin.elem - act u s.orient.origin.elem) ho hc
    refine ⟨c', (polyCorner_of (s := ⟨⟨Fl.addVec r s.orient.origin (Fl.sub r sh sh), Fl.rotateQ r s.orient.ax0 w, a1⟩, s.poly⟩) hq').trans k1, k2, ?_⟩
    beta_reduce
    rw [show s.orient.origin.elem + act u (c.elem - s.orient.origin.elem) = s.orient.origin.elem - act u s.orient.origin.elem + act u c.elem by rw [hA.sub]; abel]
    refine k3.trans ?_
    rw [sub_add_cancel, ← Fl.u53, e50]
    have t1 := mul_nonneg hu0.le (len_nonneg s.orient.origin.elem)
    have t2 := mul_le_mul_of_nonneg_right hus t1
    have t3 := mul_nonneg hE0 (reach_nonneg q)
    linarith
  unfold Fl.orRotate2Q
  rw [if_neg (by simp [w0]), if_neg (by simp [h0])]
  by_cases h2 : s.orient.ax1.valid = true
  · rw [if_pos h2]
    obtain ⟨a1, a2⟩ := key (Fl.rotateQ r (Fl.add r (Fl.scale r s.orient.ax0 (z.elem 0)) (Fl.scale r s.orient.ax1 (z.elem 1))) w) (Fl.rotateQ r s.orient.ax1 w)
      (by rw [hQ]; simp [Fl.add, Fl.scale, h0, h2]) (hQ _) (fun _ => hV _)
    exact ⟨_, rfl, a1, a2⟩
  · rw [if_neg h2, if_neg (by simp [w2.resolve_left h2])]
    obtain ⟨a1, a2⟩ := key (Fl.rotateQ r (Fl.scale r s.orient.ax0 (z.elem 0)) w) s.orient.ax1 (by rw [hQ]; simp [Fl.scale, h0]) rfl (fun h => absurd h h2)
    exact ⟨_, rfl, a1, a2⟩

/-- C144, `rotateCorner` with a quaternion, what the code does: whatever corner `k` is named, the polygon is turned about the origin of its plane, which is the point that was
accepted first (`C144_built`). For that corner this is the property; for the others it is not, see `C144_false`. -/
theorem C144_quaternion_corner_partial (r : Rounding 53) (w : Quat) (u : ℍ[ℝ]) (δ E : ℝ) (hu : ‖u‖ = 1) (hq : ‖toH w - u‖ ≤ δ) (hδ : δ ≤ 1 / 2000)
    (hE : E = 13 * δ + 20 * epsilon) (hv : w.vec.valid = true) (s : Poly 3) (η : ℝ) (hη : η ≤ 1 / 10) (hb : NearBasis s.orient η) (k : Nat) (g : Pt 3)
    (hg : Fl.polyCorner r s k = some g) (h0 : s.orient.ax0.valid = true) :
    ∃ t, Fl.poly3RotateCornerQ r s w k = some t ∧ NearBasis t.orient (η + 3 * E) ∧
      MovedBy r s t (fun x => s.orient.origin.elem + act u (x - s.orient.origin.elem)) fun ρ => (2 * E + 10 * 2 ^ (-53 : ℤ)) * ρ + 2 ^ (-50 : ℤ) * len s.orient.origin.elem := by
  cases hz : s.poly.getCorner k with
  | none => unfold Fl.polyCorner at hg; rw [hz] at hg; simp at hg
  | some z =>
    rw [polyCorner_of hz] at hg
    obtain ⟨o, h1, h2, h3⟩ := rotate2Q_moved r w u δ E hu hq hδ hE hv s η hη hb z g hg h0
    exact ⟨⟨o, s.poly⟩, by unfold Fl.poly3RotateCornerQ; rw [hz, Option.bind_some, h1]; rfl, h2, h3⟩

/-- C144, `rotateCenter` with a quaternion. As with a corner the polygon is turned about the origin of its plane, whatever its centre is. A polygon without corners stays as it is.
Missing: that it is turned about its centre. -/
theorem C144_quaternion_center_partial (r : Rounding 53) (w : Quat) (u : ℍ[ℝ]) (δ E : ℝ) (hu : ‖u‖ = 1) (hq : ‖toH w - u‖ ≤ δ) (hδ : δ ≤ 1 / 2000)
    (hE : E = 13 * δ + 20 * epsilon) (hv : w.vec.valid = true) (s : Poly 3) (η : ℝ) (hη : η ≤ 1 / 10) (hb : NearBasis s.orient η) :
    (s.numCorners = 0 → Fl.poly3RotateCenterQ r s w = some s) ∧
    ∀ g, 0 < s.numCorners → Fl.polyCenter r s = some g → s.orient.ax0.valid = true → ∃ t, Fl.poly3RotateCenterQ r s w = some t ∧ NearBasis t.orient (η + 3 * E) ∧
      MovedBy r s t (fun x => s.orient.origin.elem + act u (x - s.orient.origin.elem)) fun ρ => (2 * E + 10 * 2 ^ (-53 : ℤ)) * ρ + 2 ^ (-50 : ℤ) * len s.orient.origin.elem := by
  refine ⟨fun h => ?_, fun g hl hg h0 => ?_⟩
  · have h' : s.poly.length = 0 := h
    unfold Fl.poly3RotateCenterQ
    rw [if_neg (by omega)]
  · obtain ⟨o, h1, h2, h3⟩ := rotate2Q_moved r w u δ E hu hq hδ hE hv s η hη hb _ g hg h0
    have hl' : s.poly.length > 0 := hl
    exact ⟨⟨o, s.poly⟩, by unfold Fl.poly3RotateCenterQ; rw [if_pos hl', h1]; rfl, h2, h3⟩

/-- C144, `toParentCoords` and `toLocalCoords` with a rotated box whose orientation stands for the orthogonal matrix `R`. -/
theorem C144_rotbox_frames (r : Rounding 53) (c : RBox n) (R : Matrix (Fin n) (Fin n) ℝ) (E : ℝ) (hn : n < 2 ^ 52) (hR : Rᵀ * R = 1)
    (h0 : 2 * n * (n + 1) * 2 ^ (-52 : ℤ) ≤ E) (h1 : E ≤ 1 / 100) (hm : Stands c.orient.elem R (E - 2 * n * (n + 1) * 2 ^ (-52 : ℤ))) (hv : c.orient.valid = true)
    (s : Poly n) (η : ℝ) (hη : η ≤ 1 / 10) (hb : NearBasis s.orient η) (ho : c.corner.valid = true) :
    NearBasis (Fl.poly3ToParentRBox r s c).orient (η + 3 * E) ∧ NearBasis (Fl.poly3ToLocalRBox r s c).orient (η + 3 * E) ∧
    (MovedBy r s (Fl.poly3ToParentRBox r s c) (fun x => c.corner.elem + x ᵥ* R) fun ρ =>
      (2 * E + 10 * 2 ^ (-53 : ℤ)) * (len s.orient.origin.elem + ρ) + 2 ^ (-50 : ℤ) * len c.corner.elem) ∧
    MovedBy r s (Fl.poly3ToLocalRBox r s c) (fun x => R *ᵥ (x - c.corner.elem)) fun ρ =>
      (2 * E + 10 * 2 ^ (-53 : ℤ)) * (eucl s.orient.origin.elem c.corner.elem + ρ) + 2 ^ (-50 : ℤ) * len c.corner.elem :=
  C144_frames r c.orient R E hn hR h0 h1 hm hv s η hη hb c.corner ho

/-- The plane when its first axis is turned twice by `A` and its second is left, and its origin comes within `e0` of `O'`. -/
theorem read_twice (r : Rounding 53) {A : (Fin 3 → ℝ) → Fin 3 → ℝ} (hA : Fl.Rigid A) {F : Vec 3 → Vec 3} {E η e0 : ℝ} (hE : 0 ≤ E) (hE1 : E ≤ 1 / 100) (hη : η ≤ 1 / 10)
    (hF : ∀ v, (F v).valid = v.valid ∧ len ((F v).elem - A v.elem) ≤ E * len v.elem) {o : Orient 3} (hb : NearBasis o η) {o' : Pt 3} (ho : o'.valid = true) {O' : Fin 3 → ℝ}
    (h0 : len (o'.elem - O') ≤ e0) {q : Pt 2} {c : Pt 3} (hc : Fl.convert r o q = some c) :
    ∃ c', Fl.convert r ⟨o', F (F o.ax0), o.ax1⟩ q = some c' ∧ c'.valid = c.valid ∧
      len (c'.elem - (O' + q.elem 0 • A (A o.ax0.elem) + q.elem 1 • o.ax1.elem)) ≤ 3 * u 53 * len O' + (1 + 3 * u 53) * e0 + (5 * u 53 + 11 / 5 * E) * reach q := by
  have hu0 : 0 < u 53 := u_pos
  have L0 := fun v => len_of_near (hb.unit0 v) hη
  have L1 := fun v => len_of_near (hb.unit1 v) hη
  obtain ⟨w0, w1, w2⟩ := Fl.convert_some r hc
  have hcv : c.valid = q.valid := by
    obtain ⟨c1, e1, f1, -⟩ := Fl.convert_near r (fun v => (L0 v).trans (by norm_num)) (fun v => (L1 v).trans (by norm_num)) w0 w1 w2
    rw [hc] at e1; cases e1; exact f1
  have hV : (F (F o.ax0)).valid = o.ax0.valid := by rw [(hF _).1, (hF _).1]
  have tw : o.ax0.valid = true → len ((F (F o.ax0)).elem - A (A o.ax0.elem)) ≤ 11 / 5 * E := fun v => by
    have k0 := L0 v
    have k1 := (hF o.ax0).2
    have k2 := (hF (F o.ax0)).2
    have k3 := len_triangle (F (F o.ax0)).elem (A (F o.ax0).elem) (A (A o.ax0.elem))
    rw [← hA.sub, hA.len_eq] at k3
    have k4 := len_triangle (F o.ax0).elem (A o.ax0.elem) 0
    rw [sub_zero, sub_zero, hA.len_eq] at k4
    have k5 := mul_le_mul_of_nonneg_left k0 hE
    have k6 := mul_le_mul_of_nonneg_left (k4.trans (add_le_add (k1.trans k5) k0)) hE
    have k7 := mul_le_mul_of_nonneg_left hE1 hE
    nlinarith
  have ln : o.ax0.valid = true → len (F (F o.ax0)).elem ≤ 11 / 10 := fun v => by
    have k0 := L0 v
    have k1 := tw v
    have k3 := len_triangle (F (F o.ax0)).elem (A (A o.ax0.elem)) 0
    rw [sub_zero, sub_zero, hA.len_eq, hA.len_eq] at k3
    linarith
  obtain ⟨c', e1, f1, g1⟩ := Fl.convert_near r (o := ⟨o', F (F o.ax0), o.ax1⟩) (p := q) (fun v => ln (by rwa [hV] at v)) (fun v => (L1 v).trans (by norm_num)) ho
    (by show (F (F o.ax0)).valid = true ∨ _; rw [hV]; exact w1) w2
  refine ⟨c', e1, f1.trans hcv.symm, ?_⟩
  have g2 := len_triangle c'.elem ((⟨o', F (F o.ax0), o.ax1⟩ : Orient 3).at (q.elem 0) (q.elem 1)) (O' + q.elem 0 • A (A o.ax0.elem) + q.elem 1 • o.ax1.elem)
  have g3 : len ((⟨o', F (F o.ax0), o.ax1⟩ : Orient 3).at (q.elem 0) (q.elem 1) - (O' + q.elem 0 • A (A o.ax0.elem) + q.elem 1 • o.ax1.elem)) ≤ e0 + 11 / 5 * E * reach q := by
    have e : (⟨o', F (F o.ax0), o.ax1⟩ : Orient 3).at (q.elem 0) (q.elem 1) - (O' + q.elem 0 • A (A o.ax0.elem) + q.elem 1 • o.ax1.elem) =
        (o'.elem - O') + q.elem 0 • ((F (F o.ax0)).elem - A (A o.ax0.elem)) := by unfold Orient.at; module
    rw [e]
    refine (len_add_le _ _).trans (add_le_add h0 ?_)
    rw [Fl.len_smul']
    have hr : |q.elem 0| ≤ reach q := by unfold reach; linarith [abs_nonneg (q.elem 1)]
    rcases w1 with v | v
    · rw [mul_comm]
      exact mul_le_mul (tw v) hr (abs_nonneg _) (by positivity)
    · rw [v, abs_zero, zero_mul]; exact mul_nonneg (by positivity) (reach_nonneg q)
  have g4 := len_triangle o'.elem O' 0
  rw [sub_zero, sub_zero] at g4
  have g5 := mul_le_mul_of_nonneg_left (g4.trans (add_le_add_left h0 _)) hu0.le
  linarith

/-- C144, `toParentCoords` and `toLocalCoords` with an origin and a quaternion. The origin of the plane is changed as it should be; the first axis is turned twice and the second
not at all, so a corner with plane coordinates `x`, `y` comes to be read at the new origin plus `x` times the first axis turned twice plus `y` times the second axis as it was.
Missing: that the corner is changed as a point is. -/
theorem C144_quaternion_frames_partial (r : Rounding 53) (w : Quat) (u : ℍ[ℝ]) (δ E : ℝ) (hu : ‖u‖ = 1) (hq : ‖toH w - u‖ ≤ δ) (hδ : δ ≤ 1 / 2000)
    (hE : E = 13 * δ + 20 * epsilon) (hv : w.vec.valid = true) (s : Poly 3) (η : ℝ) (hη : η ≤ 1 / 10) (hb : NearBasis s.orient η) (o : Pt 3) (ho : o.valid = true)
    (i : Nat) (q : Pt 2) (c : Pt 3) (hi : s.poly.getCorner i = some q) (hc : Fl.polyCorner r s i = some c) :
    (∃ c', Fl.polyCorner r (Fl.poly3ToParentQ r s o w) i = some c' ∧ c'.valid = c.valid ∧
      len (c'.elem - (o.elem + act u s.orient.origin.elem + q.elem 0 • act u (act u s.orient.ax0.elem) + q.elem 1 • s.orient.ax1.elem)) ≤
        (3 * E + 10 * 2 ^ (-53 : ℤ)) * (len s.orient.origin.elem + reach q) + 2 ^ (-50 : ℤ) * len o.elem) ∧
    ∃ c', Fl.polyCorner r (Fl.poly3ToLocalQ r s o w) i = some c' ∧ c'.valid = c.valid ∧
      len (c'.elem - (act u⁻¹ (s.orient.origin.elem - o.elem) + q.elem 0 • act u⁻¹ (act u⁻¹ s.orient.ax0.elem) + q.elem 1 • s.orient.ax1.elem)) ≤
        (3 * E + 10 * 2 ^ (-53 : ℤ)) * (eucl s.orient.origin.elem o.elem + reach q) := by
  have he := epsilon_pos
  have he2 := epsilon_lt
  norm_num at he2
  have δ0 := (norm_nonneg _).trans hq
  have hE0 : 0 ≤ E := by rw [hE]; positivity
  have h1 : E ≤ 1 / 100 := by rw [hE]; linarith
  have hu' := normSq_eq_one.2 hu
  have hui : ‖u⁻¹‖ = 1 := by rw [norm_inv, hu, inv_one]
  have hst : star u = u⁻¹ := by rw [Quaternion.inv_def, hu', inv_one, one_smul]
  have hF : ∀ v, (Fl.rotateQ r v w).valid = v.valid ∧ len ((Fl.rotateQ r v w).elem - act u v.elem) ≤ E * len v.elem := fun v =>
    ⟨by simp [Fl.rotateQ, Fl.add, Fl.scale, Fl.cross3, hv], by have := C123_rotate r v w u δ hu hq (by linarith); rwa [← hE] at this⟩
  have hG : ∀ v, (Fl.rotateQ r v w.inverse).valid = v.valid ∧ len ((Fl.rotateQ r v w.inverse).elem - act u⁻¹ v.elem) ≤ E * len v.elem := fun v =>
    ⟨by simp [Fl.rotateQ, Fl.add, Fl.scale, Fl.cross3, Quat.inverse, hv], by
      have := C123_rotate r v w.inverse u⁻¹ δ hui (by rw [toH_inverse, ← hst, ← star_sub, _root_.norm_star]; exact hq) (by linarith)
      rwa [← hE] at this⟩
  obtain ⟨p1, p2, -⟩ := C125_quaternion r w u δ hu hq (by linarith) s.orient.origin o
  rw [← hE] at p1 p2
  have hu0 : 0 < Rounding.u 53 := u_pos
  have hus : Rounding.u 53 ≤ 1 / 1000000 := by rw [Fl.u53]; norm_num
  have e50 : (2 : ℝ) ^ (-50 : ℤ) = 8 * Rounding.u 53 := by rw [Fl.u53]; norm_num
  rw [polyCorner_of hi] at hc
  have hov := (Fl.convert_some r hc).1
  rw [← Fl.u53] at p1 p2 ⊢
  have hR := reach_nonneg q
  constructor
  · obtain ⟨c', k1, k2, k3⟩ := read_twice r (Fl.rigid_act hu') hE0 h1 hη hF hb (o' := Fl.toParentQ r s.orient.origin o w)
      (by simp [Fl.toParentQ, Fl.addVec, (hF _).1, Fl.ptSub, Pt.origin, ho, hov]) p1 hc
    refine ⟨c', (polyCorner_of (s := Fl.poly3ToParentQ r s o w) hi).trans k1, k2, k3.trans ?_⟩
    have l1 := len_add_le o.elem (act u s.orient.origin.elem)
    rw [(Fl.rigid_act hu').len_eq] at l1
    have l2 := mul_le_mul_of_nonneg_left l1 hu0.le
    rw [e50]
    have hO := len_nonneg s.orient.origin.elem
    have ho' := len_nonneg o.elem
    have t1 := mul_nonneg hu0.le hO
    have t2 := mul_nonneg hu0.le ho'
    have t3 := mul_nonneg hE0 hO
    have t4 := mul_nonneg hE0 hR
    have t5 := mul_nonneg hu0.le hR
    have s1 := mul_le_mul_of_nonneg_right hus t1
    have s2 := mul_le_mul_of_nonneg_right hus t2
    have s3 := mul_le_mul_of_nonneg_right hus t3
    linarith
  · obtain ⟨c', k1, k2, k3⟩ := read_twice r (Fl.rigid_act (normSq_eq_one.2 hui)) hE0 h1 hη hG hb (o' := Fl.toLocalQ r s.orient.origin o w)
      (by simp [Fl.toLocalQ, Fl.addVec, (hG _).1, Fl.ptSub, Pt.origin, ho, hov]) p2 hc
    refine ⟨c', (polyCorner_of (s := Fl.poly3ToLocalQ r s o w) hi).trans k1, k2, k3.trans ?_⟩
    rw [(Fl.rigid_act (normSq_eq_one.2 hui)).len_eq, eucl_eq_len]
    have hO := len_nonneg (s.orient.origin.elem - o.elem)
    have t1 := mul_nonneg hu0.le hO
    have t3 := mul_nonneg hE0 hO
    have t4 := mul_nonneg hE0 hR
    have t5 := mul_nonneg hu0.le hR
    have s1 := mul_le_mul_of_nonneg_right hus t1
    have s3 := mul_le_mul_of_nonneg_right hus t3
    linarith

theorem sum_corners (o : Orient n) (a b : ℝ) {qs : Corners 2} {cs : List (Pt n)} (h : List.Forall₂ (fun (q : Pt 2) (c : Pt n) => len (c.elem - o.at (q.elem 0) (q.elem 1)) ≤ a + b * reach q) qs cs) :
    len ((fun k => (cs.map fun c => c.elem k).sum) - ((qs.length : ℝ) • o.origin.elem + (qs.map fun q => q.elem 0).sum • o.ax0.elem + (qs.map fun q => q.elem 1).sum • o.ax1.elem)) ≤
      qs.length * a + b * (qs.map reach).sum := by
  induction h with
  | nil =>
    have : ((fun k : Fin n => (([] : List (Pt n)).map fun c => c.elem k).sum) - (((([] : Corners 2).length : ℕ) : ℝ) • o.origin.elem + (([] : Corners 2).map fun q => q.elem 0).sum • o.ax0.elem +
        (([] : Corners 2).map fun q => q.elem 1).sum • o.ax1.elem)) = 0 := by
      funext k; simp
    rw [this, len_zero]; simp
  | @cons q c qs cs h1 _ ih =>
    have e : (fun k => (((c :: cs).map fun c => c.elem k).sum)) - ((((q :: qs).length : ℕ) : ℝ) • o.origin.elem + ((q :: qs).map fun q => q.elem 0).sum • o.ax0.elem +
        ((q :: qs).map fun q => q.elem 1).sum • o.ax1.elem) = (c.elem - o.at (q.elem 0) (q.elem 1)) + ((fun k => (cs.map fun c => c.elem k).sum) -
        ((qs.length : ℝ) • o.origin.elem + (qs.map fun q => q.elem 0).sum • o.ax0.elem + (qs.map fun q => q.elem 1).sum • o.ax1.elem)) := by
      funext k
      simp [Orient.at]; ring
    rw [e]
    refine (len_add_le _ _).trans ((add_le_add h1 ih).trans (le_of_eq ?_))
    simp only [List.length_cons, List.map_cons, List.sum_cons]
    push_cast; ring

/-- The centre of the plane polygon, one coordinate. -/
theorem bary_coord (r : Rounding 53) (qs : Corners 2) (hne : qs ≠ []) (hl : qs.length ≤ 2 ^ 52) (j : Fin 2) (v : Bool) (hv : v = true ∨ ∀ q ∈ qs, q.elem j = 0) :
    v = true ∨ (Fl.barycenter r qs).elem j = 0 ∧ (qs.map fun q => q.elem j).sum = 0 := by
  refine hv.imp id fun h => ?_
  have k1 : (qs.map fun q => q.elem j).sum = 0 := List.sum_eq_zero (by simpa using h)
  have k2 : (qs.map fun q => |q.elem j|).sum = 0 := List.sum_eq_zero (by simpa using h)
  have := (C126_mean r qs hne hl).1 j
  rw [k1, k2, mul_zero, zero_div, sub_zero, abs_nonpos_iff] at this
  exact ⟨this, k1⟩

/-- C144, `getCenter`: the centre that is read is the mean of the corners that are read, up to rounding; it is valid when all the corners are. -/
theorem C144_center (r : Rounding 53) (s : Poly n) (η : ℝ) (hη : η ≤ 1 / 10) (hb : NearBasis s.orient η) (cs : List (Pt n)) (hne : cs ≠ []) (hl : cs.length ≤ 2 ^ 52)
    (hn : s.numCorners = cs.length) (hcs : ∀ i c, cs[i]? = some c → Fl.polyCorner r s i = some c) :
    ∃ g, Fl.polyCenter r s = some g ∧ (g.valid = true ↔ ∀ c ∈ cs, c.valid = true) ∧
      len (g.elem - fun k => (cs.map fun c => c.elem k).sum / cs.length) ≤ 2 ^ (-49 : ℤ) * (len s.orient.origin.elem + (s.poly.map reach).sum) := by
  have hu0 : 0 < u 53 := u_pos
  have hu : u 53 ≤ 1 / 1000000 := by rw [Fl.u53]; norm_num
  have e49 : (2 : ℝ) ^ (-49 : ℤ) = 16 * u 53 := by rw [Fl.u53]; norm_num
  have L0 := fun v => len_of_near (hb.unit0 v) hη
  have L1 := fun v => len_of_near (hb.unit1 v) hη
  have hn' : s.poly.length = cs.length := hn
  have hF : List.Forall₂ (fun (q : Pt 2) (c : Pt n) => Fl.convert r s.orient q = some c) s.poly cs := by
    refine List.forall₂_iff_get.2 ⟨hn', fun i h1 h2 => ?_⟩
    have := hcs i (cs.get ⟨i, h2⟩) (List.getElem?_eq_getElem h2)
    rwa [polyCorner_of (q := s.poly.get ⟨i, h1⟩) (List.getElem?_eq_getElem h1)] at this
  have hk : 1 ≤ s.poly.length := by rw [hn']; exact List.length_pos_iff.2 hne
  have hne' : s.poly ≠ [] := List.length_pos_iff.1 hk
  have hkR : (1 : ℝ) ≤ s.poly.length := by exact_mod_cast hk
  have hall : ∀ q ∈ s.poly, ∃ c ∈ cs, Fl.convert r s.orient q = some c := by
    intro q hq
    obtain ⟨i, hi, rfl⟩ := List.mem_iff_getElem.1 hq
    have hi' : i < cs.length := by rw [← hn']; exact hi
    exact ⟨cs[i], List.getElem_mem _, List.Forall₂.get hF hi hi'⟩
  have hall' : ∀ c ∈ cs, ∃ q ∈ s.poly, Fl.convert r s.orient q = some c := by
    intro c hc
    obtain ⟨i, hi, rfl⟩ := List.mem_iff_getElem.1 hc
    have hi' : i < s.poly.length := by rw [hn']; exact hi
    exact ⟨s.poly[i], List.getElem_mem _, List.Forall₂.get hF hi' hi⟩
  have hval : ∀ {q c}, Fl.convert r s.orient q = some c → c.valid = q.valid := by
    intro q c h
    obtain ⟨x0, x1, x2⟩ := Fl.convert_some r h
    obtain ⟨c1, e1, f1, -⟩ := Fl.convert_near r (fun v => (L0 v).trans (by norm_num)) (fun v => (L1 v).trans (by norm_num)) x0 x1 x2
    rw [h] at e1; cases e1; exact f1
  have w0 : s.orient.origin.valid = true := by
    obtain ⟨q, hq⟩ := List.exists_mem_of_ne_nil _ hne'
    obtain ⟨c, -, hc⟩ := hall q hq
    exact (Fl.convert_some r hc).1
  have y0 := bary_coord r s.poly hne' (by omega) 0 s.orient.ax0.valid (by
    by_cases h : s.orient.ax0.valid = true
    · exact .inl h
    · exact .inr fun q hq => by obtain ⟨c, -, hc⟩ := hall q hq; exact (Fl.convert_some r hc).2.1.resolve_left h)
  have y1 := bary_coord r s.poly hne' (by omega) 1 s.orient.ax1.valid (by
    by_cases h : s.orient.ax1.valid = true
    · exact .inl h
    · exact .inr fun q hq => by obtain ⟨c, -, hc⟩ := hall q hq; exact (Fl.convert_some r hc).2.2.resolve_left h)
  obtain ⟨M1, M2⟩ := C126_mean r s.poly hne' (by omega)
  obtain ⟨g, e1, f1, g1⟩ := Fl.convert_near r (o := s.orient) (p := Fl.barycenter r s.poly) (fun v => (L0 v).trans (by norm_num)) (fun v => (L1 v).trans (by norm_num)) w0
    (y0.imp id fun h => h.1) (y1.imp id fun h => h.1)
  refine ⟨g, e1, ?_, ?_⟩
  · rw [f1, M2]
    constructor
    · intro h c hc
      obtain ⟨q, hq, hqc⟩ := hall' c hc
      rw [hval hqc]; exact h q hq
    · intro h q hq
      obtain ⟨c, hc, hqc⟩ := hall q hq
      rw [← hval hqc]; exact h c hc
  -- sums
  have S := sum_corners s.orient (3 * u 53 * len s.orient.origin.elem) (5 * u 53) (qs := s.poly) (cs := cs) (hF.imp fun q c h => by
    obtain ⟨x0, x1, x2⟩ := Fl.convert_some r h
    obtain ⟨c1, e1, -, k1⟩ := Fl.convert_near r (fun v => (L0 v).trans (by norm_num)) (fun v => (L1 v).trans (by norm_num)) x0 x1 x2
    rw [h] at e1; cases e1; exact k1)
  have B0 : (s.poly.map fun q => |q.elem 0|).sum + (s.poly.map fun q => |q.elem 1|).sum = (s.poly.map reach).sum := by
    rw [← List.sum_map_add]; rfl
  have P0 := Fl.listSum_abs_nonneg s.poly fun q => q.elem 0
  have P1 := Fl.listSum_abs_nonneg s.poly fun q => q.elem 1
  have Q0 := Fl.listSum_abs_le s.poly fun q => q.elem 0
  have Q1 := Fl.listSum_abs_le s.poly fun q => q.elem 1
  have M0 := M1 0
  have M1' := M1 1
  rw [Fl.two_u] at M0 M1'
  rw [← hn', e49]
  have hz : reach (Fl.barycenter r s.poly) = |(Fl.barycenter r s.poly).elem 0| + |(Fl.barycenter r s.poly).elem 1| := rfl
  rw [hz] at g1
  generalize (Fl.barycenter r s.poly).elem 0 = z0 at *
  generalize (Fl.barycenter r s.poly).elem 1 = z1 at *
  have C0 : len ((z0 - (s.poly.map fun q => q.elem 0).sum / s.poly.length) • s.orient.ax0.elem) ≤ 3 * u 53 * (s.poly.map fun q => |q.elem 0|).sum := by
    rcases y0 with v | ⟨v1, v2⟩
    · rw [Fl.len_smul']
      have := mul_le_mul M0 (L0 v) (len_nonneg _) (by positivity)
      have := mul_nonneg hu0.le P0
      linarith
    · rw [v1, v2, zero_div, sub_zero, zero_smul, len_zero]; positivity
  have C1 : len ((z1 - (s.poly.map fun q => q.elem 1).sum / s.poly.length) • s.orient.ax1.elem) ≤ 3 * u 53 * (s.poly.map fun q => |q.elem 1|).sum := by
    rcases y1 with v | ⟨v1, v2⟩
    · rw [Fl.len_smul']
      have := mul_le_mul M1' (L1 v) (len_nonneg _) (by positivity)
      have := mul_nonneg hu0.le P1
      linarith
    · rw [v1, v2, zero_div, sub_zero, zero_smul, len_zero]; positivity
  have hk0 : (0 : ℝ) < s.poly.length := by linarith
  have Z : ∀ {S P z : ℝ}, |S| ≤ P → |z - S / s.poly.length| ≤ 2 * u 53 * P → |z| ≤ 1.1 * P := by
    intro S P z h1 h2
    have p0 := (abs_nonneg S).trans h1
    have t1 : |S / s.poly.length| ≤ P := by
      rw [abs_div, abs_of_pos hk0]
      exact (div_le_self (abs_nonneg _) hkR).trans h1
    have t2 := abs_sub_le z (S / s.poly.length) 0
    rw [sub_zero, sub_zero] at t2
    have t3 := mul_le_mul_of_nonneg_right hu p0
    linarith
  have Z0 := Z Q0 M0
  have Z1 := Z Q1 M1'
  have D : g.elem - (fun k => (cs.map fun c => c.elem k).sum / (s.poly.length : ℝ)) = (g.elem - s.orient.at z0 z1) +
      ((z0 - (s.poly.map fun q => q.elem 0).sum / s.poly.length) • s.orient.ax0.elem + (z1 - (s.poly.map fun q => q.elem 1).sum / s.poly.length) • s.orient.ax1.elem) -
      ((s.poly.length : ℝ)⁻¹) • ((fun k => (cs.map fun c => c.elem k).sum) - ((s.poly.length : ℝ) • s.orient.origin.elem + (s.poly.map fun q => q.elem 0).sum • s.orient.ax0.elem +
        (s.poly.map fun q => q.elem 1).sum • s.orient.ax1.elem)) := by
    funext k
    simp only [Orient.at, Pi.sub_apply, Pi.add_apply, Pi.smul_apply, smul_eq_mul]
    field_simp
    ring
  rw [D]
  have d1 := len_sub_le ((g.elem - s.orient.at z0 z1) +
      ((z0 - (s.poly.map fun q => q.elem 0).sum / s.poly.length) • s.orient.ax0.elem + (z1 - (s.poly.map fun q => q.elem 1).sum / s.poly.length) • s.orient.ax1.elem))
      (((s.poly.length : ℝ)⁻¹) • ((fun k => (cs.map fun c => c.elem k).sum) - ((s.poly.length : ℝ) • s.orient.origin.elem + (s.poly.map fun q => q.elem 0).sum • s.orient.ax0.elem +
        (s.poly.map fun q => q.elem 1).sum • s.orient.ax1.elem)))
  have d2 := len_add_le (g.elem - s.orient.at z0 z1)
      ((z0 - (s.poly.map fun q => q.elem 0).sum / s.poly.length) • s.orient.ax0.elem + (z1 - (s.poly.map fun q => q.elem 1).sum / s.poly.length) • s.orient.ax1.elem)
  have d3 := len_add_le ((z0 - (s.poly.map fun q => q.elem 0).sum / s.poly.length) • s.orient.ax0.elem) ((z1 - (s.poly.map fun q => q.elem 1).sum / s.poly.length) • s.orient.ax1.elem)
  have PR : 0 ≤ (s.poly.map reach).sum := by rw [← B0]; positivity
  have d4 : len (((s.poly.length : ℝ)⁻¹) • ((fun k => (cs.map fun c => c.elem k).sum) - ((s.poly.length : ℝ) • s.orient.origin.elem + (s.poly.map fun q => q.elem 0).sum • s.orient.ax0.elem +
        (s.poly.map fun q => q.elem 1).sum • s.orient.ax1.elem))) ≤ 3 * u 53 * len s.orient.origin.elem + 5 * u 53 * (s.poly.map reach).sum := by
    rw [Fl.len_smul', abs_of_pos (inv_pos.2 hk0)]
    refine (mul_le_mul_of_nonneg_left S (inv_nonneg.2 hk0.le)).trans ?_
    rw [mul_add, ← mul_assoc, inv_mul_cancel₀ hk0.ne', one_mul]
    refine add_le_add_right ?_ _
    exact (mul_le_mul_of_nonneg_right (inv_le_one_of_one_le₀ hkR) (by positivity)).trans (le_of_eq (one_mul _))
  have t0 := mul_nonneg hu0.le (len_nonneg s.orient.origin.elem)
  have t1 := mul_le_mul_of_nonneg_left Z0 hu0.le
  have t2 := mul_le_mul_of_nonneg_left Z1 hu0.le
  have t3 := mul_nonneg hu0.le P0
  have t4 := mul_nonneg hu0.le P1
  rw [← B0] at d4 ⊢
  linarith

/-- Turning the triangle (0,0,0), (1,0,0), (0,1,0) about its corner (1,0,0) by a half turn given as a quaternion, with nothing rounded: the corner does not stay but goes to (-1,0,0). -/
theorem C144_false (r : Rounding 53) :
    Fl.polyCorner r threeCorners 1 = some ⟨![1, 0, 0], true⟩ ∧ Fl.polyCorner r threeCorners 2 = some ⟨![0, 1, 0], true⟩ ∧
    ∃ t, Fl.poly3RotateCornerQ r threeCorners ⟨0, ⟨![0, 0, 1], true⟩, true, 1⟩ 1 = some t ∧ Fl.polyCorner r t 1 = some ⟨![-1, 0, 0], true⟩ := by
  have r1 : r 1 = 1 := r.of_fl (IsFl.one Fl.pos53)
  have rm : r (-1) = -1 := r.of_fl (IsFl.one Fl.pos53).neg
  have r0 := r.zero
  have d : ∀ v : Vec 3, v.elem 2 = 0 → Fl.dot r (⟨![0, 0, 1], true⟩ : Vec 3) v = 0 := fun v hv => by
    rw [Fl.dot_of_sum r _ _ (by simp [r0]) (by simp [r0]) (by simp [r0, hv]) (by simp [r0]) (by simp [r0, hv])]
    exact Vec.dot_of_exact_zero (by simp [dotProduct, Fin.sum_univ_three, hv])
  have rot : ∀ v : Vec 3, v.elem 2 = 0 → (∀ i, r (-v.elem i) = -v.elem i) → Fl.rotateQ r v ⟨0, ⟨![0, 0, 1], true⟩, true, 1⟩ = ⟨fun i => -v.elem i, v.valid⟩ := fun v hv hr => by
    unfold Fl.rotateQ
    simp only [d v hv]
    ext i
    · simp [Fl.add, Fl.scale, Fl.cross3, r0, rm, hr]
    · simp [Fl.add, Fl.scale, Fl.cross3]
  have m0 : ∀ i, r (-(![1, 0, 0] : Fin 3 → ℝ) i) = -(![1, 0, 0] : Fin 3 → ℝ) i := fun i => by fin_cases i <;> simp [r0, rm]
  have m1 : ∀ i, r (-(![0, 1, 0] : Fin 3 → ℝ) i) = -(![0, 1, 0] : Fin 3 → ℝ) i := fun i => by fin_cases i <;> simp [r0, rm]
  refine ⟨?_, ?_, ?_⟩
  · show Fl.convert r ⟨⟨0, true⟩, ⟨![1, 0, 0], true⟩, ⟨![0, 1, 0], true⟩⟩ ⟨![1, 0], true⟩ = _
    unfold Fl.convert
    simp [Fl.addVec, Fl.scale, r0]
    funext i; fin_cases i <;> simp [r1, r0]
  · show Fl.convert r ⟨⟨0, true⟩, ⟨![1, 0, 0], true⟩, ⟨![0, 1, 0], true⟩⟩ ⟨![0, 1], true⟩ = _
    unfold Fl.convert
    simp [Fl.addVec, Fl.scale, r0]
    funext i; fin_cases i <;> simp [r1, r0]
  · refine ⟨⟨⟨⟨0, true⟩, ⟨fun i => -(![1, 0, 0] : Fin 3 → ℝ) i, true⟩, ⟨fun i => -(![0, 1, 0] : Fin 3 → ℝ) i, true⟩⟩, threeCorners.poly⟩, ?_, ?_⟩
    · have a0 := rot ⟨![1, 0, 0], true⟩ (by simp) m0
      have a1 := rot ⟨![0, 1, 0], true⟩ (by simp) m1
      show (Fl.orRotate2Q r ⟨⟨0, true⟩, ⟨![1, 0, 0], true⟩, ⟨![0, 1, 0], true⟩⟩ ⟨0, ⟨![0, 0, 1], true⟩, true, 1⟩ ⟨![1, 0], true⟩).map (fun o => (⟨o, threeCorners.poly⟩ : Poly 3)) = _
      unfold Fl.orRotate2Q
      rw [if_neg (by simp), if_neg (by simp), if_pos rfl]
      simp only [a0, a1, Option.map_some]
      have hv : ∀ v : Vec 3, (Fl.rotateQ r v ⟨0, ⟨![0, 0, 1], true⟩, true, 1⟩).valid = v.valid := fun v => by simp [Fl.rotateQ, Fl.add, Fl.scale, Fl.cross3]
      have o : ∀ sh : Vec 3, sh.valid = true → Fl.addVec r (⟨0, true⟩ : Pt 3) (Fl.sub r sh sh) = ⟨0, true⟩ := fun sh h => by
        ext i
        · simp [Fl.addVec, Fl.sub, r0]
        · simp [Fl.addVec, Fl.sub, h]
      rw [o _ (by rw [hv]; rfl)]
    · show Fl.convert r ⟨⟨0, true⟩, ⟨fun i => -(![1, 0, 0] : Fin 3 → ℝ) i, true⟩, ⟨fun i => -(![0, 1, 0] : Fin 3 → ℝ) i, true⟩⟩ ⟨![1, 0], true⟩ = _
      unfold Fl.convert
      simp [Fl.addVec, Fl.scale, r0]
      funext i; fin_cases i <;> simp [r0, rm]

/-- `toParentCoords` with the origin (0,0,0) and a half turn about (0,0,1) given as a quaternion, with nothing rounded, takes the point (1,0,0) to (-1,0,0) and the point (0,1,0) to
(0,-1,0), but leaves all three corners of the triangle (0,0,0), (1,0,0), (0,1,0) where they are. -/
theorem C144_frames_false (r : Rounding 53) :
    (∀ i, Fl.polyCorner r (Fl.poly3ToParentQ r threeCorners ⟨0, true⟩ ⟨0, ⟨![0, 0, 1], true⟩, true, 1⟩) i = Fl.polyCorner r threeCorners i) ∧
    Fl.polyCorner r threeCorners 1 = some ⟨![1, 0, 0], true⟩ ∧ Fl.toParentQ r ⟨![1, 0, 0], true⟩ ⟨0, true⟩ ⟨0, ⟨![0, 0, 1], true⟩, true, 1⟩ = ⟨![-1, 0, 0], true⟩ ∧
    Fl.polyCorner r threeCorners 2 = some ⟨![0, 1, 0], true⟩ ∧ Fl.toParentQ r ⟨![0, 1, 0], true⟩ ⟨0, true⟩ ⟨0, ⟨![0, 0, 1], true⟩, true, 1⟩ = ⟨![0, -1, 0], true⟩ := by
  have r1 : r 1 = 1 := r.of_fl (IsFl.one Fl.pos53)
  have rm : r (-1) = -1 := r.of_fl (IsFl.one Fl.pos53).neg
  have r0 := r.zero
  have d : ∀ v : Vec 3, v.elem 2 = 0 → Fl.dot r (⟨![0, 0, 1], true⟩ : Vec 3) v = 0 := fun v hv => by
    rw [Fl.dot_of_sum r _ _ (by simp [r0]) (by simp [r0]) (by simp [r0, hv]) (by simp [r0]) (by simp [r0, hv])]
    exact Vec.dot_of_exact_zero (by simp [dotProduct, Fin.sum_univ_three, hv])
  have rot : ∀ v : Vec 3, v.elem 2 = 0 → (∀ i, r (-v.elem i) = -v.elem i) → Fl.rotateQ r v ⟨0, ⟨![0, 0, 1], true⟩, true, 1⟩ = ⟨fun i => -v.elem i, v.valid⟩ := fun v hv hr => by
    unfold Fl.rotateQ
    simp only [d v hv]
    ext i
    · simp [Fl.add, Fl.scale, Fl.cross3, r0, rm, hr]
    · simp [Fl.add, Fl.scale, Fl.cross3]
  have m0 : ∀ i, r (-(![1, 0, 0] : Fin 3 → ℝ) i) = -(![1, 0, 0] : Fin 3 → ℝ) i := fun i => by fin_cases i <;> simp [r0, rm]
  have m1 : ∀ i, r (-(![0, 1, 0] : Fin 3 → ℝ) i) = -(![0, 1, 0] : Fin 3 → ℝ) i := fun i => by fin_cases i <;> simp [r0, rm]
  have pt : ∀ v : Fin 3 → ℝ, v 2 = 0 → (∀ i, r (v i) = v i) → (∀ i, r (-v i) = -v i) →
      Fl.toParentQ r ⟨v, true⟩ ⟨0, true⟩ ⟨0, ⟨![0, 0, 1], true⟩, true, 1⟩ = ⟨fun i => -v i, true⟩ := fun v h2 h h' => by
    have e : Fl.ptSub r ⟨v, true⟩ Pt.origin = ⟨v, true⟩ := by ext i <;> simp [Fl.ptSub, Pt.origin, h]
    unfold Fl.toParentQ
    rw [e, rot ⟨v, true⟩ h2 h']
    ext i <;> simp [Fl.addVec, h']
  have a0 := rot ⟨![1, 0, 0], true⟩ (by simp) m0
  refine ⟨fun i => ?_, (C144_false r).1, ?_, (C144_false r).2.1, ?_⟩
  · have : Fl.poly3ToParentQ r threeCorners ⟨0, true⟩ ⟨0, ⟨![0, 0, 1], true⟩, true, 1⟩ = threeCorners := by
      show (⟨⟨Fl.toParentQ r ⟨0, true⟩ ⟨0, true⟩ ⟨0, ⟨![0, 0, 1], true⟩, true, 1⟩, Fl.rotateQ r (Fl.rotateQ r ⟨![1, 0, 0], true⟩ ⟨0, ⟨![0, 0, 1], true⟩, true, 1⟩) ⟨0, ⟨![0, 0, 1], true⟩, true, 1⟩,
        ⟨![0, 1, 0], true⟩⟩, threeCorners.poly⟩ : Poly 3) = ⟨⟨⟨0, true⟩, ⟨![1, 0, 0], true⟩, ⟨![0, 1, 0], true⟩⟩, threeCorners.poly⟩
      rw [pt 0 rfl (by simp [r0]) (by simp [r0]), a0, rot _ (by simp) (fun i => by fin_cases i <;> simp [r0, r1])]
      simp
      rfl
    rw [this]
  · rw [pt _ (by simp) (fun i => by fin_cases i <;> simp [r0, r1]) m0]
    congr 1; funext i; fin_cases i <;> simp
  · rw [pt _ (by simp) (fun i => by fin_cases i <;> simp [r0, r1]) m1]
    congr 1; funext i; fin_cases i <;> simp

end WFMath
