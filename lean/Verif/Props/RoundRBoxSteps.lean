/- Property theorems C166: rotated boxes after any history of motions in floating point. -/
import Verif.Model.RoundedRBoxSteps
import Verif.Props.RoundSteps
import Verif.Props.RoundRBoxFrame

namespace WFMath
open Spec Matrix Rounding
open scoped Quaternion
variable {n : Nat}

/-- The call is not `toLocalCoords` with a matrix, which is wrong for rotated boxes (`C147_false`). -/
def Fl.Step.Sound : {n : Nat} → Fl.Step n → Prop
  | _, .toLocal _ _ => False
  | _, _ => True

namespace Fl

/-- One call moves points and turns orientations by one rotation, up to the rounding. -/
theorem Step.near_rbox (r : Rounding 53) (hn : n < 2 ^ 52) {E M : ℝ} (h0 : 2 * n * (n + 1) * 2 ^ (-52 : ℤ) ≤ E) (h1 : E ≤ 1 / 10) (M0 : 0 ≤ M) {s : Step n} (h : s.Fits E M)
    (hs : s.Sound) :
    ∃ (S : Matrix (Fin n) (Fin n) ℝ) (t : Fin n → ℝ), Sᵀ * S = 1 ∧
      (∀ x : Pt n, len x.elem ≤ M → len ((s.point r x).elem - (x.elem ᵥ* S + t)) ≤ (2 * E + 2 ^ (-51 : ℤ)) * (2 * M)) ∧
      ∀ (b : RBox n) (R : Matrix (Fin n) (Fin n) ℝ) (α : ℝ), Rᵀ * R = 1 → 0 ≤ α → α ≤ 1 / 4 → Stands b.orient.elem R α →
        Stands (s.rbox r b).orient.elem (R * S) ((1 + α) * (1 + 4 * E) - 1) := by
  have E0 : 0 ≤ E := le_trans (by positivity) h0
  have h4 : E ≤ 1 / 4 := by linarith
  have he := epsilon_pos
  have hκ : (0 : ℝ) ≤ 2 * n * (n + 1) * 2 ^ (-52 : ℤ) := by positivity
  have apart : ∀ {x p : Fin n → ℝ}, len x ≤ M → len p ≤ M → len (x - p) ≤ 2 * M := fun {x p} hx hp => (len_sub_le _ _).trans (by linarith)
  have fin : ∀ {F a d p : ℝ}, a ≤ (2 * F + 3 * 2 ^ (-53 : ℤ)) * d + 2 ^ (-53 : ℤ) * p → 0 ≤ F → F ≤ E → d ≤ 2 * M → p ≤ M →
      a ≤ (2 * E + 2 ^ (-51 : ℤ)) * (2 * M) := by
    intro F a d p ha F0 hF hd hp
    have k1 := mul_le_mul_of_nonneg_left hd (show 0 ≤ 2 * F + 3 * 2 ^ (-53 : ℤ) by positivity)
    have k2 := mul_le_mul_of_nonneg_left hp (show (0 : ℝ) ≤ 2 ^ (-53 : ℤ) by positivity)
    have k3 := mul_le_mul_of_nonneg_right hF M0
    refine ha.trans ((add_le_add k1 k2).trans ?_)
    norm_num; linarith
  have fin0 : ∀ {F a d : ℝ}, a ≤ (2 * F + 3 * 2 ^ (-53 : ℤ)) * d → 0 ≤ F → F ≤ E → d ≤ 2 * M → a ≤ (2 * E + 2 ^ (-51 : ℤ)) * (2 * M) :=
    fun {F a d} ha F0 hF hd => fin (p := 0) (by simpa using ha) F0 hF hd M0
  have weaken : ∀ {A X : Matrix (Fin n) (Fin n) ℝ} {x y : ℝ}, x ≤ y → Stands A X x → Stands A X y := fun h hs v => (hs v).trans (mul_le_mul_of_nonneg_right h (len_nonneg v))
  have turn : ∀ (m : RotMat n) (S : Matrix (Fin n) (Fin n) ℝ), Sᵀ * S = 1 → Stands m.elem S (E - 2 * n * (n + 1) * 2 ^ (-52 : ℤ)) →
      ∀ (a : RotMat n) (R : Matrix (Fin n) (Fin n) ℝ) (α : ℝ), Rᵀ * R = 1 → 0 ≤ α → α ≤ 1 / 4 → Stands a.elem R α →
        Stands (prod r a m).elem (R * S) ((1 + α) * (1 + 4 * E) - 1) := by
    intro m S hS hm a R α hR a0 a1 ha
    refine weaken ?_ (C124_product r a m R S α _ hn a0 (sub_nonneg.2 h0) a1 ((sub_le_self E hκ).trans h4) hR hS ha hm).1
    generalize 2 * (n : ℝ) * (n + 1) * 2 ^ (-52 : ℤ) = κ at *
    have k1 := mul_nonneg a0 hκ
    have k2 := mul_nonneg a0 E0
    linarith
  have about : ∀ (S : Matrix (Fin n) (Fin n) ℝ) (x p : Fin n → ℝ), x ᵥ* S + (p - p ᵥ* S) = p + (x - p) ᵥ* S := fun S x p => by rw [sub_vecMul]; abel
  cases s with
  | shift v =>
    refine ⟨1, v.elem, by simp, fun x hx => ?_, fun b R α hR a0 a1 ha => ?_⟩
    · have hv : len v.elem ≤ M := h
      have hb : len (x.elem + v.elem) ≤ 2 * M := (len_add_le _ _).trans (by linarith)
      rw [vecMul_one]
      refine (len_round r (x.elem + v.elem)).trans ((mul_le_mul_of_nonneg_left hb (by positivity)).trans (mul_le_mul_of_nonneg_right ?_ (by linarith)))
      norm_num; linarith
    · rw [Matrix.mul_one]
      refine weaken ?_ ha
      have := mul_nonneg a0 E0
      linarith
  | rotate m p =>
    obtain ⟨hp, S, hS, hm⟩ := h
    refine ⟨S, p.elem - p.elem ᵥ* S, hS, fun x hx => ?_, fun b => turn m S hS hm b.orient⟩
    rw [about]
    exact fin (C125_about r m S E hn hS h0 h4 hm x p) E0 le_rfl (apart hx hp) hp
  | toParent o m =>
    obtain ⟨ho, S, hS, hm⟩ := h
    refine ⟨S, o.elem, hS, fun x hx => ?_, fun b => turn m S hS hm b.orient⟩
    rw [add_comm]
    exact fin (C125_matrix r m S E hn hS h0 h4 hm x o).1 E0 le_rfl (by linarith) ho
  | toLocal o m => exact hs.elim
  | rotateQ q p =>
    obtain ⟨hp, u, hu, hq⟩ := h
    have d0 := norm_nonneg (toH q - u)
    obtain ⟨S, hS, -, hact, -⟩ := row_matrix u hu
    refine ⟨S, p.elem - p.elem ᵥ* S, hS, fun x hx => ?_, fun b R α hR a0 a1 ha => ?_⟩
    · rw [about, hact]
      exact fin (C125_about_quaternion r q u _ hu le_rfl (by linarith) x p).1 (by linarith) hq (apart hx hp) hp
    · refine weaken ?_ (matRotateQ_stands r b.orient q u R S α _ hu le_rfl (by linarith) a0 (by linarith) hR ha hact)
      have := mul_nonneg a0 E0
      linarith
  | toParentQ o q =>
    obtain ⟨ho, u, hu, hq⟩ := h
    have d0 := norm_nonneg (toH q - u)
    obtain ⟨S, hS, -, hact, -⟩ := row_matrix u hu
    refine ⟨S, o.elem, hS, fun x hx => ?_, fun b R α hR a0 a1 ha => ?_⟩
    · rw [add_comm, hact]
      exact fin (C125_quaternion r q u _ hu le_rfl (by linarith) x o).1 (by linarith) hq (by linarith) ho
    · refine weaken ?_ (matRotateQ_stands r b.orient q u R S α _ hu le_rfl (by linarith) a0 (by linarith) hR ha hact)
      have := mul_nonneg a0 E0
      linarith
  | toLocalQ o q =>
    obtain ⟨ho, u, hu, hq⟩ := h
    have d0 := norm_nonneg (toH q - u)
    have hu' := normSq_eq_one.2 hu
    have hq' : ‖toH q.inverse - u⁻¹‖ ≤ ‖toH q - u‖ := by rw [inv_of_unit hu', toH_inverse, ← star_sub, _root_.norm_star]
    have hui : ‖u⁻¹‖ = 1 := by rw [norm_inv, hu, inv_one]
    obtain ⟨S, hS, -, hact, -⟩ := row_matrix u⁻¹ hui
    refine ⟨S, -(o.elem ᵥ* S), hS, fun x hx => ?_, fun b R α hR a0 a1 ha => ?_⟩
    · rw [← sub_eq_add_neg, ← sub_vecMul, hact]
      exact fin0 (C125_quaternion r q u _ hu le_rfl (by linarith) x o).2.1 (by linarith) hq (apart hx ho)
    · refine weaken ?_ (matRotateQ_stands r b.orient q.inverse u⁻¹ R S α _ hui hq' (by linarith) a0 (by linarith) hR ha hact)
      have := mul_nonneg a0 E0
      linarith

theorem stepRBox_eq (r : Rounding 53) (h : List (Step n)) (b : RBox n) : (stepRBox r h b).corner = stepPoint r h b.corner ∧ (stepRBox r h b).size = b.size := by
  have one : ∀ (s : Step n) (c : RBox n), (s.rbox r c).corner = s.point r c.corner ∧ (s.rbox r c).size = c.size := by
    intro s c; cases s <;> exact ⟨rfl, rfl⟩
  induction h generalizing b with
  | nil => exact ⟨rfl, rfl⟩
  | cons s ms ih =>
    obtain ⟨k1, k2⟩ := ih (s.rbox r b)
    obtain ⟨l1, l2⟩ := one s b
    refine ⟨k1.trans ?_, k2.trans l2⟩
    rw [l1]; rfl

/-- A history moves rotated boxes by one exact motion, up to the roundings of all calls. -/
theorem steps_near_rbox (r : Rounding 53) (hn : n < 2 ^ 52) {E M : ℝ} (h0 : 2 * n * (n + 1) * 2 ^ (-52 : ℤ) ≤ E) (h1 : E ≤ 1 / 10) (M0 : 0 ≤ M) (h : List (Step n))
    (hf : ∀ s ∈ h, s.Fits E M) (hs : ∀ s ∈ h, s.Sound) :
    ∃ (S : Matrix (Fin n) (Fin n) ℝ) (t : Fin n → ℝ), Sᵀ * S = 1 ∧
      (∀ x : Pt n, Remains r M h x → len ((stepPoint r h x).elem - (x.elem ᵥ* S + t)) ≤ h.length * ((2 * E + 2 ^ (-51 : ℤ)) * (2 * M))) ∧
      ∀ (b : RBox n) (R : Matrix (Fin n) (Fin n) ℝ) (A : ℝ), Rᵀ * R = 1 → 0 ≤ A → (1 + A) * (1 + 4 * E) ^ h.length ≤ 5 / 4 → Stands b.orient.elem R A →
        Stands (stepRBox r h b).orient.elem (R * S) ((1 + A) * (1 + 4 * E) ^ h.length - 1) := by
  have E0 : 0 ≤ E := le_trans (by positivity) h0
  induction h using List.reverseRecOn with
  | nil =>
    exact ⟨1, 0, by simp, fun x _ => by simp [stepPoint, len], fun b R A _ _ _ hb => by simpa [stepRBox] using hb⟩
  | append_singleton ms s ih =>
    obtain ⟨S, t, hS, hx, hb⟩ := ih (fun m hm => hf m (List.mem_append_left _ hm)) fun m hm => hs m (List.mem_append_left _ hm)
    obtain ⟨Q, w, hQ, hy, hc⟩ := Step.near_rbox r hn h0 h1 M0 (hf s (by simp)) (hs s (by simp))
    have orth : ∀ A B : Matrix (Fin n) (Fin n) ℝ, Aᵀ * A = 1 → Bᵀ * B = 1 → (A * B)ᵀ * (A * B) = 1 := fun A B hA hB => by
      rw [transpose_mul, Matrix.mul_assoc, ← Matrix.mul_assoc Aᵀ, hA, Matrix.one_mul, hB]
    refine ⟨S * Q, t ᵥ* Q + w, orth S Q hS hQ, fun x st => ?_, fun b R A hR A0 hA hb0 => ?_⟩
    · have st' : Remains r M ms x := fun k hk => by
        have := st k (by rw [List.length_append]; omega)
        rwa [List.take_append_of_le_length hk] at this
      have hl : len (stepPoint r ms x).elem ≤ M := by have := st' ms.length le_rfl; rwa [List.take_length] at this
      have e : stepPoint r (ms ++ [s]) x = s.point r (stepPoint r ms x) := by simp [stepPoint]
      have hQ' : Qᵀᵀ * Qᵀ = 1 := by rw [transpose_transpose]; exact mul_eq_one_comm.1 hQ
      have lQ : ∀ v, len (v ᵥ* Q) = len v := fun v => by rw [← mulVec_transpose, len_orth hQ']
      have t := len_triangle (s.point r (stepPoint r ms x)).elem ((stepPoint r ms x).elem ᵥ* Q + w) ((x.elem ᵥ* S + t) ᵥ* Q + w)
      rw [add_sub_add_right_eq_sub, ← sub_vecMul, lQ] at t
      rw [e, List.length_append, List.length_singleton, ← vecMul_vecMul, ← add_assoc, ← add_vecMul]
      refine t.trans ((add_le_add (hy _ hl) (hx x st')).trans (le_of_eq ?_))
      push_cast; ring
    · rw [List.length_append, List.length_singleton, pow_succ, ← mul_assoc (1 + A)] at hA ⊢
      have p1 : 1 ≤ (1 + 4 * E) ^ ms.length := one_le_pow₀ (by linarith)
      have p0 : 1 ≤ (1 + A) * (1 + 4 * E) ^ ms.length := one_le_mul_of_one_le_of_one_le (by linarith) p1
      have p2 : (1 + A) * (1 + 4 * E) ^ ms.length ≤ 5 / 4 := (le_mul_of_one_le_right (by linarith) (by linarith)).trans hA
      have e : stepRBox r (ms ++ [s]) b = s.rbox r (stepRBox r ms b) := by simp [stepRBox]
      have := hc (stepRBox r ms b) (R * S) _ (orth R S hR hS) (by linarith) (by linarith) (hb b R A hR A0 p2 hb0)
      rw [e, ← Matrix.mul_assoc]
      rwa [add_sub_cancel] at this

end Fl

/-- C166: after any history of shifts, rotations about points and changes of frame, made by matrices or in space by quaternions (`toLocalCoords` with a matrix apart), the corners
and the centre computed for a rotated box are the exact corners and centre of the box at the start, all carried along by one exact rotation or reflection and shift, up to the
sum of the roundings; the sizes are as they were, and the orientation stands for the one at the start followed by that rotation. The motion depends on the history alone. -/
theorem C166_corners (r : Rounding 53) (E M : ℝ) (h : List (Fl.Step n)) (hn : n < 2 ^ 52) (h0 : 2 * n * (n + 1) * 2 ^ (-52 : ℤ) ≤ E) (h1 : E ≤ 1 / 10) (M0 : 0 ≤ M)
    (hf : ∀ s ∈ h, s.Fits E M) (hs : ∀ s ∈ h, s.Sound) :
    ∃ (S : Matrix (Fin n) (Fin n) ℝ) (t : Fin n → ℝ), Sᵀ * S = 1 ∧
      ∀ (b : RBox n) (R : Matrix (Fin n) (Fin n) ℝ) (A G D : ℝ), Rᵀ * R = 1 → 0 ≤ A → Stands b.orient.elem R A → Fl.Remains r M h b.corner →
        G = (1 + A) * (1 + 4 * E) ^ h.length - 1 + 2 * n * (n + 1) * 2 ^ (-52 : ℤ) → G ≤ 1 / 4 → D = h.length * ((2 * E + 2 ^ (-51 : ℤ)) * (2 * M)) →
        (Fl.stepRBox r h b).size = b.size ∧ Stands (Fl.stepRBox r h b).orient.elem (R * S) G ∧
        (∀ i < 2 ^ n, ∃ p, Fl.rbCorner r (Fl.stepRBox r h b) i = some p ∧
          len (p.elem - (turnedCorner b.corner.elem b.size.elem R i ᵥ* S + t)) ≤ D + (G + 2 ^ (-51 : ℤ)) * len b.size.elem + 2 ^ (-53 : ℤ) * M) ∧
        len ((Fl.rbCenter r (Fl.stepRBox r h b)).elem - (turnedCenter b.corner.elem b.size.elem R ᵥ* S + t)) ≤
          D + (G + 2 ^ (-51 : ℤ)) * (len b.size.elem / 2) + 2 ^ (-53 : ℤ) * M := by
  obtain ⟨S, t, hS, hx, hb⟩ := Fl.steps_near_rbox r hn h0 h1 M0 h hf hs
  refine ⟨S, t, hS, fun b R A G D hR A0 hA hst hG G1 hD => ?_⟩
  have E0 : 0 ≤ E := le_trans (by positivity) h0
  have hκ : (0 : ℝ) ≤ 2 * n * (n + 1) * 2 ^ (-52 : ℤ) := by positivity
  obtain ⟨ec, es⟩ := Fl.stepRBox_eq r h b
  have orth : (R * S)ᵀ * (R * S) = 1 := by rw [transpose_mul, Matrix.mul_assoc, ← Matrix.mul_assoc Rᵀ, hR, Matrix.one_mul, hS]
  have p1 : 1 ≤ (1 + A) * (1 + 4 * E) ^ h.length := one_le_mul_of_one_le_of_one_le (by linarith) (one_le_pow₀ (by linarith))
  have ho := hb b R A hR A0 (by linarith) hA
  have hG' : (1 + A) * (1 + 4 * E) ^ h.length - 1 = G - 2 * n * (n + 1) * 2 ^ (-52 : ℤ) := by rw [hG]; ring
  rw [hG'] at ho
  have hc := hx b.corner hst
  have hl : len (Fl.stepPoint r h b.corner).elem ≤ M := by have := hst h.length le_rfl; rwa [List.take_length] at this
  have hl' := mul_le_mul_of_nonneg_left hl (show (0 : ℝ) ≤ 2 ^ (-53 : ℤ) by positivity)
  rw [← hD] at hc
  obtain ⟨-, kc, km⟩ := C135_corner r (Fl.stepRBox r h b) (R * S) G hn orth (by linarith) G1 ho
  rw [ec, es] at km
  simp only [ec, es] at kc
  have moved : ∀ w : Fin n → ℝ, (Fl.stepPoint r h b.corner).elem + w ᵥ* (R * S) - ((b.corner.elem + w ᵥ* R) ᵥ* S + t) = (Fl.stepPoint r h b.corner).elem - (b.corner.elem ᵥ* S + t) :=
    fun w => by rw [← vecMul_vecMul, add_vecMul]; abel
  refine ⟨es, fun v => (ho v).trans (mul_le_mul_of_nonneg_right (by linarith) (len_nonneg v)), fun i hi => ?_, ?_⟩
  · obtain ⟨p, hp, hd⟩ := kc i hi
    refine ⟨p, hp, ?_⟩
    have hd' : len (p.elem - turnedCorner (Fl.stepPoint r h b.corner).elem b.size.elem (R * S) i) ≤ _ := hd
    have tr := len_triangle p.elem (turnedCorner (Fl.stepPoint r h b.corner).elem b.size.elem (R * S) i) (turnedCorner b.corner.elem b.size.elem R i ᵥ* S + t)
    rw [Fl.turnedCorner_eq, Fl.turnedCorner_eq, moved] at tr
    rw [Fl.turnedCorner_eq] at hd' ⊢
    linarith
  · have e : ∀ (c : Fin n → ℝ) (X : Matrix (Fin n) (Fin n) ℝ), turnedCenter c b.size.elem X = c + (fun j => b.size.elem j / 2) ᵥ* X := fun c X => by
      funext k; simp [turnedCenter, vecMul, dotProduct]
    have km' : len ((Fl.rbCenter r (Fl.stepRBox r h b)).elem - turnedCenter (Fl.stepPoint r h b.corner).elem b.size.elem (R * S)) ≤ _ := km
    have tr := len_triangle (Fl.rbCenter r (Fl.stepRBox r h b)).elem (turnedCenter (Fl.stepPoint r h b.corner).elem b.size.elem (R * S)) (turnedCenter b.corner.elem b.size.elem R ᵥ* S + t)
    rw [e, e, moved] at tr
    rw [e] at km' ⊢
    linarith

end WFMath
