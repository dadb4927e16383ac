/- Property theorems C147: rotated boxes turned by quaternions and taken to other frames, in floating point arithmetic. -/
import Verif.Props.RoundShapeCoords
import Verif.Props.RoundBuild
import Verif.Model.RoundedRBoxMove
import Verif.Props.RotBox

namespace WFMath
open Spec Matrix Rounding
open scoped Quaternion
variable {n : Nat}

namespace Fl

/-- A unit quaternion acts on rows as a rotation matrix, its inverse as the transpose. -/
theorem row_matrix (u : ℍ[ℝ]) (hu : ‖u‖ = 1) :
    ∃ S : Matrix (Fin 3) (Fin 3) ℝ, Sᵀ * S = 1 ∧ S.det = 1 ∧ (∀ v, v ᵥ* S = act u v) ∧ ∀ v, S *ᵥ v = act u⁻¹ v := by
  obtain ⟨R, h1, h2, h3⟩ := unit_matrix u hu
  refine ⟨Rᵀ, by rw [transpose_transpose]; exact mul_eq_one_comm.1 h1, by rw [det_transpose, h2], fun v => by rw [vecMul_transpose, h3], fun v => ?_⟩
  have hu' := normSq_eq_one.2 hu
  rw [inv_of_unit hu']
  have : v = R *ᵥ act (star u) v := by rw [h3, act_act_star hu']
  conv_lhs => rw [this]
  rw [mulVec_mulVec, h1, one_mulVec]

theorem matRotateQ_stands (r : Rounding 53) (m : RotMat 3) (q : Quat) (u : ℍ[ℝ]) (S T : Matrix (Fin 3) (Fin 3) ℝ) (α δ : ℝ) (hu : ‖u‖ = 1) (hq : ‖toH q - u‖ ≤ δ)
    (hδ : δ ≤ 1 / 100) (hα0 : 0 ≤ α) (hα : α ≤ 1) (hS : Sᵀ * S = 1) (hm : Stands m.elem S α) (hT : ∀ v, v ᵥ* T = act u v) :
    Stands (matRotateQ r m q).elem (S * T) (α + 52 * δ + 80 * epsilon) := by
  obtain ⟨R, h1, -, h3, h4, -⟩ := C130_rotate r m q u S α δ hu hq hδ hα0 hα hS hm
  have : R⁻¹ = T := by
    rw [inv_eq_left_inv h1]
    have h : R = Tᵀ := by
      refine Matrix.ext_of_mulVec_single fun i => ?_
      rw [h3, ← hT, mulVec_transpose]
    rw [h, transpose_transpose]
  rwa [this] at h4

theorem corner_moved (b : RBox n) (R S : Matrix (Fin n) (Fin n) ℝ) (c x y : Fin n → ℝ) (j : Nat) :
    turnedCorner c b.size.elem (R * S) j - (y + (turnedCorner b.corner.elem b.size.elem R j - x) ᵥ* S) = c - (y + (b.corner.elem - x) ᵥ* S) := by
  rw [turnedCorner_eq, turnedCorner_eq, ← vecMul_vecMul]
  generalize (fun k : Fin n => if j.testBit k then b.size.elem k else 0) ᵥ* R = w
  rw [show b.corner.elem + w - x = (b.corner.elem - x) + w by abel, add_vecMul]
  abel

theorem corner_same (c d s : Fin n → ℝ) (R : Matrix (Fin n) (Fin n) ℝ) (j : Nat) : turnedCorner c s R j - turnedCorner d s R j = c - d := by
  rw [turnedCorner_eq, turnedCorner_eq]; abel

end Fl

/-- C147, turning a rotated box by a quaternion that stands for the unit quaternion `u`: the sizes stay, the new orientation stands for the old one followed by the rotation
by `u`, and the exact corners of the box that comes out lie next to the exact corners turned about the point, corner or centre asked for. -/
theorem C147_quaternion (r : Rounding 53) (b : RBox 3) (q : Quat) (u : ℍ[ℝ]) (R : Matrix (Fin 3) (Fin 3) ℝ) (E δ T : ℝ) (hR : Rᵀ * R = 1)
    (h0 : 2 * (3 : ℕ) * ((3 : ℕ) + 1) * 2 ^ (-52 : ℤ) ≤ E) (h1 : E ≤ 1 / 4) (hb : Stands b.orient.elem R (E - 2 * (3 : ℕ) * ((3 : ℕ) + 1) * 2 ^ (-52 : ℤ)))
    (hu : ‖u‖ = 1) (hq : ‖toH q - u‖ ≤ δ) (hδ : δ ≤ 1 / 100) (hT : T = 2 * (13 * δ + 20 * epsilon) + 3 * 2 ^ (-53 : ℤ)) :
    ∃ S : Matrix (Fin 3) (Fin 3) ℝ, Sᵀ * S = 1 ∧ S.det = 1 ∧ (∀ v, v ᵥ* S = act u v) ∧
    (∀ p, (Fl.rbRotateQ r b q p).size = b.size ∧ Stands (Fl.rbRotateQ r b q p).orient.elem (R * S) (E + 52 * δ + 80 * epsilon) ∧
      ∀ j, len (turnedCorner (Fl.rbRotateQ r b q p).corner.elem b.size.elem (R * S) j - (p.elem + act u (turnedCorner b.corner.elem b.size.elem R j - p.elem))) ≤
        T * eucl b.corner.elem p.elem + 2 ^ (-53 : ℤ) * len p.elem) ∧
    (∀ i, 2 ^ 3 ≤ i → Fl.rbRotateCornerQ r b q i = none) ∧
    (∀ i < 2 ^ 3, ∀ g d, g = turnedCorner b.corner.elem b.size.elem R i → d = (E + 2 ^ (-51 : ℤ)) * len b.size.elem + 2 ^ (-53 : ℤ) * len b.corner.elem →
      ∃ b', Fl.rbRotateCornerQ r b q i = some b' ∧ b'.size = b.size ∧ Stands b'.orient.elem (R * S) (E + 52 * δ + 80 * epsilon) ∧
      ∀ j, len (turnedCorner b'.corner.elem b.size.elem (R * S) j - (g + act u (turnedCorner b.corner.elem b.size.elem R j - g))) ≤
        T * (eucl b.corner.elem g + d) + 2 ^ (-53 : ℤ) * (len g + d) + 2 * d) ∧
    (∀ g d, g = turnedCenter b.corner.elem b.size.elem R → d = (E + 2 ^ (-51 : ℤ)) * (len b.size.elem / 2) + 2 ^ (-53 : ℤ) * len b.corner.elem →
      (Fl.rbRotateCenterQ r b q).size = b.size ∧ Stands (Fl.rbRotateCenterQ r b q).orient.elem (R * S) (E + 52 * δ + 80 * epsilon) ∧
      ∀ j, len (turnedCorner (Fl.rbRotateCenterQ r b q).corner.elem b.size.elem (R * S) j - (g + act u (turnedCorner b.corner.elem b.size.elem R j - g))) ≤
        T * (eucl b.corner.elem g + d) + 2 ^ (-53 : ℤ) * (len g + d) + 2 * d) := by
  obtain ⟨S, hS, hdet, hact, -⟩ := Fl.row_matrix u hu
  have hκ : (0 : ℝ) ≤ 2 * (3 : ℕ) * ((3 : ℕ) + 1) * 2 ^ (-52 : ℤ) := by positivity
  have he := epsilon_pos
  have hδ0 := (norm_nonneg _).trans hq
  have hT0 : 0 ≤ T := by rw [hT]; positivity
  have ht : (0 : ℝ) ≤ 2 ^ (-53 : ℤ) := by positivity
  have key : ∀ p : Pt 3, len ((Fl.ptRotateQ r b.corner q p).elem - (p.elem + (b.corner.elem - p.elem) ᵥ* S)) ≤ T * len (b.corner.elem - p.elem) + 2 ^ (-53 : ℤ) * len p.elem :=
    fun p => by rw [hact, hT]; exact (C125_about_quaternion r q u δ hu hq hδ b.corner p).1
  have ho : Stands (Fl.matRotateQ r b.orient q).elem (R * S) (E + 52 * δ + 80 * epsilon) := by
    intro v
    refine (Fl.matRotateQ_stands r b.orient q u R S _ δ hu hq hδ (sub_nonneg.2 h0) ((sub_le_self E hκ).trans (by linarith)) hR hb hact v).trans
      (mul_le_mul_of_nonneg_right ?_ (len_nonneg v))
    linarith
  obtain ⟨-, hcr, hcc⟩ := C135_corner r b R E (by norm_num) hR h0 h1 hb
  refine ⟨S, hS, hdet, hact, ?_⟩
  simp only [← hact, Fl.corner_moved, eucl_eq_len]
  refine ⟨fun p => ⟨rfl, ho, fun _ => key p⟩, fun i hi => ?_, fun i hi g d hg hd => ?_, fun g d hg hd => ⟨rfl, ho, fun _ => ?_⟩⟩
  · unfold Fl.rbRotateCornerQ Fl.rbCorner; rw [if_neg (by omega)]; rfl
  · obtain ⟨z, hz1, hz2⟩ := hcr i hi
    refine ⟨Fl.rbRotateQ r b q z, by unfold Fl.rbRotateCornerQ; rw [hz1]; rfl, rfl, ho, fun _ => ?_⟩
    have hz2 : len (z.elem - g) ≤ d := by rw [hg, hd]; exact hz2
    exact Fl.about_near hS hT0 ht hz2 (key z)
  · have hcc : len ((Fl.rbCenter r b).elem - g) ≤ d := by rw [hg, hd]; exact hcc
    exact Fl.about_near hS hT0 ht hcc (key _)

/-- C147, frames given by a point and a quaternion: the exact corners of the box in the parent or local frame lie next to the exact corners carried there, with the sizes as
before and the orientation turned along, and going to the frame and back returns the box up to rounding. -/
theorem C147_quaternion_frames (r : Rounding 53) (b : RBox 3) (o : Pt 3) (q : Quat) (u : ℍ[ℝ]) (R : Matrix (Fin 3) (Fin 3) ℝ) (E δ D : ℝ) (hR : Rᵀ * R = 1)
    (h0 : 0 ≤ E) (h1 : E ≤ 1 / 4) (hb : Stands b.orient.elem R E) (hu : ‖u‖ = 1) (hq : ‖toH q - u‖ ≤ δ) (hδ : δ ≤ 1 / 100) (hD : D = 13 * δ + 20 * epsilon) :
    ∃ S : Matrix (Fin 3) (Fin 3) ℝ, Sᵀ * S = 1 ∧ S.det = 1 ∧ (∀ v, v ᵥ* S = act u v) ∧
    ((Fl.rbToParentQ r b o q).size = b.size ∧ Stands (Fl.rbToParentQ r b o q).orient.elem (R * S) (E + 4 * D) ∧
      ∀ j, len (turnedCorner (Fl.rbToParentQ r b o q).corner.elem b.size.elem (R * S) j - (o.elem + act u (turnedCorner b.corner.elem b.size.elem R j))) ≤
        (2 * D + 3 * 2 ^ (-53 : ℤ)) * len b.corner.elem + 2 ^ (-53 : ℤ) * len o.elem) ∧
    ((Fl.rbToLocalQ r b o q).size = b.size ∧ Stands (Fl.rbToLocalQ r b o q).orient.elem (R * Sᵀ) (E + 4 * D) ∧
      ∀ j, len (turnedCorner (Fl.rbToLocalQ r b o q).corner.elem b.size.elem (R * Sᵀ) j - act u⁻¹ (turnedCorner b.corner.elem b.size.elem R j - o.elem)) ≤
        (2 * D + 3 * 2 ^ (-53 : ℤ)) * eucl b.corner.elem o.elem) ∧
    ((Fl.rbToLocalQ r (Fl.rbToParentQ r b o q) o q).size = b.size ∧ Stands (Fl.rbToLocalQ r (Fl.rbToParentQ r b o q) o q).orient.elem R (E + 8 * D) ∧
      ∀ j, eucl (turnedCorner (Fl.rbToLocalQ r (Fl.rbToParentQ r b o q) o q).corner.elem b.size.elem R j) (turnedCorner b.corner.elem b.size.elem R j) ≤
        (3 * D + 6 * 2 ^ (-53 : ℤ)) * len b.corner.elem + 2 * 2 ^ (-53 : ℤ) * len o.elem) ∧
    ((Fl.rbToParentQ r (Fl.rbToLocalQ r b o q) o q).size = b.size ∧ Stands (Fl.rbToParentQ r (Fl.rbToLocalQ r b o q) o q).orient.elem R (E + 8 * D) ∧
      ∀ j, eucl (turnedCorner (Fl.rbToParentQ r (Fl.rbToLocalQ r b o q) o q).corner.elem b.size.elem R j) (turnedCorner b.corner.elem b.size.elem R j) ≤
        (6 * D + 8 * 2 ^ (-53 : ℤ)) * eucl b.corner.elem o.elem + 2 ^ (-53 : ℤ) * len o.elem) := by
  obtain ⟨S, hS, hdet, hact, hinv⟩ := Fl.row_matrix u hu
  have hS2 : S * Sᵀ = 1 := mul_eq_one_comm.1 hS
  have he := epsilon_pos
  have he2 := epsilon_lt
  norm_num at he2
  have hδ0 := (norm_nonneg _).trans hq
  have hu' := normSq_eq_one.2 hu
  have hq' : ‖toH q.inverse - u⁻¹‖ ≤ δ := by rw [inv_of_unit hu', toH_inverse, ← star_sub, _root_.norm_star]; exact hq
  have hui : ‖u⁻¹‖ = 1 := by rw [norm_inv, hu, inv_one]
  have hactT : ∀ v, v ᵥ* Sᵀ = act u⁻¹ v := fun v => by rw [vecMul_transpose, hinv]
  have orth : ∀ A B : Matrix (Fin 3) (Fin 3) ℝ, Aᵀ * A = 1 → Bᵀ * B = 1 → (A * B)ᵀ * (A * B) = 1 := fun A B hA hB => by
    rw [transpose_mul, Matrix.mul_assoc, ← Matrix.mul_assoc Aᵀ, hA, Matrix.one_mul, hB]
  have weaken : ∀ {M X : Matrix (Fin 3) (Fin 3) ℝ} {x y : ℝ}, x ≤ y → Stands M X x → Stands M X y := fun h hs v => (hs v).trans (mul_le_mul_of_nonneg_right h (len_nonneg v))
  have fwd : ∀ (m : RotMat 3) (X : Matrix (Fin 3) (Fin 3) ℝ) (α : ℝ), 0 ≤ α → α ≤ 1 → Xᵀ * X = 1 → Stands m.elem X α → Stands (Fl.matRotateQ r m q).elem (X * S) (α + 4 * D) :=
    fun m X α a0 a1 hX hm => weaken (by rw [hD]; linarith) (Fl.matRotateQ_stands r m q u X S α δ hu hq hδ a0 a1 hX hm hact)
  have bwd : ∀ (m : RotMat 3) (X : Matrix (Fin 3) (Fin 3) ℝ) (α : ℝ), 0 ≤ α → α ≤ 1 → Xᵀ * X = 1 → Stands m.elem X α → Stands (Fl.matRotateQ r m q.inverse).elem (X * Sᵀ) (α + 4 * D) :=
    fun m X α a0 a1 hX hm => weaken (by rw [hD]; linarith) (Fl.matRotateQ_stands r m q.inverse u⁻¹ X Sᵀ α δ hui hq' hδ a0 a1 hX hm hactT)
  have hD0 : 0 ≤ D := by rw [hD]; positivity
  have hD1 : E + 4 * D ≤ 1 := by rw [hD]; linarith
  have hE1 : E ≤ 1 := by linarith
  have key := C125_quaternion r q u δ hu hq hδ b.corner o
  rw [← hD] at key
  obtain ⟨k1, k2, k3, k4⟩ := key
  refine ⟨S, hS, hdet, hact, ⟨rfl, fwd _ _ _ h0 hE1 hR hb, fun j => ?_⟩, ⟨rfl, bwd _ _ _ h0 hE1 hR hb, fun j => ?_⟩, ⟨rfl, ?_, fun j => ?_⟩, ⟨rfl, ?_, fun j => ?_⟩⟩
  · have := Fl.corner_moved b R S (Fl.rbToParentQ r b o q).corner.elem 0 o.elem j
    rw [sub_zero, sub_zero] at this
    rw [← hact, this, hact]
    exact k1
  · have := Fl.corner_moved b R Sᵀ (Fl.rbToLocalQ r b o q).corner.elem o.elem 0 j
    rw [zero_add, zero_add] at this
    rw [← hactT, this, hactT, eucl_eq_len]
    exact k2
  · have := bwd _ _ _ (by positivity) hD1 (orth R S hR hS) (fwd _ _ _ h0 hE1 hR hb)
    rw [Matrix.mul_assoc, hS2, Matrix.mul_one] at this
    exact weaken (by linarith) this
  · rw [eucl_eq_len, Fl.corner_same]; exact k3
  · have := fwd _ _ _ (by positivity) hD1 (orth R Sᵀ hR (by rw [transpose_transpose]; exact hS2)) (bwd _ _ _ h0 hE1 hR hb)
    rw [Matrix.mul_assoc, hS, Matrix.mul_one] at this
    exact weaken (by linarith) this
  · rw [eucl_eq_len, Fl.corner_same, eucl_eq_len]; exact k4

/-- C147, frames given by a point and a matrix that stands for the rotation `S`, or by another rotated box: in the parent frame the exact corners lie next to the exact corners
carried there, the sizes stay and the orientation is turned along. -/
theorem C147_parent (r : Rounding 53) (b : RBox n) (o : Pt n) (m : RotMat n) (R S : Matrix (Fin n) (Fin n) ℝ) (E F : ℝ) (hn : n < 2 ^ 52) (hR : Rᵀ * R = 1) (hS : Sᵀ * S = 1)
    (h0 : 2 * n * (n + 1) * 2 ^ (-52 : ℤ) ≤ E) (h1 : E ≤ 1 / 4) (hb : Stands b.orient.elem R (E - 2 * n * (n + 1) * 2 ^ (-52 : ℤ)))
    (f0 : 2 * n * (n + 1) * 2 ^ (-52 : ℤ) ≤ F) (f1 : F ≤ 1 / 4) (hm : Stands m.elem S (F - 2 * n * (n + 1) * 2 ^ (-52 : ℤ))) :
    (Fl.rbToParent r b o m).size = b.size ∧ Stands (Fl.rbToParent r b o m).orient.elem (R * S) (E + F + E * F) ∧
    (∀ j, len (turnedCorner (Fl.rbToParent r b o m).corner.elem b.size.elem (R * S) j - (o.elem + turnedCorner b.corner.elem b.size.elem R j ᵥ* S)) ≤
      (2 * F + 3 * 2 ^ (-53 : ℤ)) * len b.corner.elem + 2 ^ (-53 : ℤ) * len o.elem) ∧
    ∀ c : RBox n, c.corner = o → c.orient = m → Fl.rbToParentRBox r b c = Fl.rbToParent r b o m := by
  have hκ : (0 : ℝ) ≤ 2 * n * (n + 1) * 2 ^ (-52 : ℤ) := by positivity
  refine ⟨rfl, fun v => ?_, fun j => ?_, fun c hc hm => by subst hc hm; rfl⟩
  · refine ((C124_product r b.orient m R S _ _ hn (sub_nonneg.2 h0) (sub_nonneg.2 f0) ((sub_le_self E hκ).trans h1) ((sub_le_self F hκ).trans f1) hR hS hb hm).1 v).trans
      (mul_le_mul_of_nonneg_right ?_ (len_nonneg v))
    have hE := hκ.trans h0
    generalize 2 * (n : ℝ) * (n + 1) * 2 ^ (-52 : ℤ) = κ at *
    have : (E - κ) * (F - κ) ≤ E * F := mul_le_mul (by linarith) (by linarith) (by linarith) hE
    linarith
  · have := Fl.corner_moved b R S (Fl.rbToParent r b o m).corner.elem 0 o.elem j
    rw [sub_zero, sub_zero] at this
    rw [this]
    exact (C125_matrix r m S F hn hS f0 f1 hm b.corner o).1

/-- C147, what `toLocalCoords` with a matrix, or another rotated box, gives: the first corner and the sizes are right, and the orientation stands for the product `S R`, not
for `R Sᵀ` as it should. -/
theorem C147_local_partial (r : Rounding 53) (b : RBox n) (o : Pt n) (m : RotMat n) (R S : Matrix (Fin n) (Fin n) ℝ) (E F : ℝ) (hn : n < 2 ^ 52) (hR : Rᵀ * R = 1)
    (hS : Sᵀ * S = 1) (h0 : 2 * n * (n + 1) * 2 ^ (-52 : ℤ) ≤ E) (h1 : E ≤ 1 / 4) (hb : Stands b.orient.elem R (E - 2 * n * (n + 1) * 2 ^ (-52 : ℤ)))
    (f0 : 2 * n * (n + 1) * 2 ^ (-52 : ℤ) ≤ F) (f1 : F ≤ 1 / 4) (hm : Stands m.elem S (F - 2 * n * (n + 1) * 2 ^ (-52 : ℤ))) :
    (Fl.rbToLocal r b o m).size = b.size ∧ Stands (Fl.rbToLocal r b o m).orient.elem (S * R) (E + F + E * F) ∧
    len ((Fl.rbToLocal r b o m).corner.elem - S *ᵥ (b.corner.elem - o.elem)) ≤ (2 * F + 3 * 2 ^ (-53 : ℤ)) * eucl b.corner.elem o.elem ∧
    eucl (Fl.rbToLocal r (Fl.rbToParent r b o m) o m).corner.elem b.corner.elem ≤ (3 * F + 6 * 2 ^ (-53 : ℤ)) * len b.corner.elem + 2 * 2 ^ (-53 : ℤ) * len o.elem ∧
    eucl (Fl.rbToParent r (Fl.rbToLocal r b o m) o m).corner.elem b.corner.elem ≤ (6 * F + 8 * 2 ^ (-53 : ℤ)) * eucl b.corner.elem o.elem + 2 ^ (-53 : ℤ) * len o.elem ∧
    ∀ c : RBox n, c.corner = o → c.orient = m → Fl.rbToLocalRBox r b c = Fl.rbToLocal r b o m := by
  have hκ : (0 : ℝ) ≤ 2 * n * (n + 1) * 2 ^ (-52 : ℤ) := by positivity
  obtain ⟨-, k2, k3, k4⟩ := C125_matrix r m S F hn hS f0 f1 hm b.corner o
  simp only [eucl_eq_len]
  refine ⟨rfl, fun v => ?_, k2, k3, k4, fun c hc hm => by subst hc hm; rfl⟩
  refine ((C124_product r m b.orient S R _ _ hn (sub_nonneg.2 f0) (sub_nonneg.2 h0) ((sub_le_self F hκ).trans f1) ((sub_le_self E hκ).trans h1) hS hR hm hb).1 v).trans
    (mul_le_mul_of_nonneg_right ?_ (len_nonneg v))
  have hE := hκ.trans h0
  generalize 2 * (n : ℝ) * (n + 1) * 2 ^ (-52 : ℤ) = κ at *
  have : (F - κ) * (E - κ) ≤ F * E := mul_le_mul (by linarith) (by linarith) (by linarith) (by linarith)
  linarith

/-- C147, axis-aligned boxes as frames: sizes and orientation stay, and every coordinate of the first corner, and so of every exact corner, is moved by the lower corner of the
frame with one rounding. -/
theorem C147_box_frame (r : Rounding 53) (b : RBox n) (c : Box n) (R : Matrix (Fin n) (Fin n) ℝ) (hx : ∀ i, IsFl 53 (b.corner.elem i)) :
    (Fl.rbToParentBox r b c).size = b.size ∧ (Fl.rbToParentBox r b c).orient = b.orient ∧ (Fl.rbToLocalBox r b c).size = b.size ∧ (Fl.rbToLocalBox r b c).orient = b.orient ∧
    ∀ i j, |turnedCorner (Fl.rbToParentBox r b c).corner.elem b.size.elem R j i - (c.low.elem i + turnedCorner b.corner.elem b.size.elem R j i)| ≤
        2 ^ (-53 : ℤ) * |c.low.elem i + b.corner.elem i| ∧
      |turnedCorner (Fl.rbToLocalBox r b c).corner.elem b.size.elem R j i - (turnedCorner b.corner.elem b.size.elem R j i - c.low.elem i)| ≤
        2 ^ (-53 : ℤ) * |b.corner.elem i - c.low.elem i| ∧
      |turnedCorner (Fl.rbToParentBox r (Fl.rbToLocalBox r b c) c).corner.elem b.size.elem R j i - turnedCorner b.corner.elem b.size.elem R j i| ≤
        2 ^ (-52 : ℤ) * |b.corner.elem i - c.low.elem i| + 2 ^ (-53 : ℤ) * |b.corner.elem i| := by
  refine ⟨rfl, rfl, rfl, rfl, fun i j => ?_⟩
  obtain ⟨h1, h2, h3⟩ := C141_box_frame r c b.corner hx i
  have e := r.err Fl.pos53
  rw [Fl.u53] at e
  simp only [Fl.turnedCorner_eq, Pi.add_apply]
  generalize ((fun k : Fin n => if j.testBit k then b.size.elem k else 0) ᵥ* R) i = w
  refine ⟨?_, ?_, ?_⟩
  · have := e (c.low.elem i + b.corner.elem i)
    rw [← h1] at this
    rw [show (Fl.rbToParentBox r b c).corner.elem i + w - (c.low.elem i + (b.corner.elem i + w)) = (Fl.toParentBox r b.corner c).elem i - (c.low.elem i + b.corner.elem i) by
      show (Fl.toParentBox r b.corner c).elem i + w - _ = _; ring]
    exact this
  · have := e (b.corner.elem i - c.low.elem i)
    rw [← h2] at this
    rw [show (Fl.rbToLocalBox r b c).corner.elem i + w - (b.corner.elem i + w - c.low.elem i) = (Fl.toLocalBox r b.corner c).elem i - (b.corner.elem i - c.low.elem i) by
      show (Fl.toLocalBox r b.corner c).elem i + w - _ = _; ring]
    exact this
  · rw [add_sub_add_right_eq_sub]
    exact h3

/-- C147 is false for `toLocalCoords` with a matrix: the unit square at the origin, taken to the parent frame by a quarter turn and back, comes back turned by half a turn, so
that its corner (1, 1) has become (-1, -1). -/
theorem C147_false : ∃ (b : RBox 2) (o : Pt 2) (m : RotMat 2), IsRotation m ∧ IsRotation b.orient ∧ ∀ r : Rounding 53, ∃ p p', Fl.rbCorner r b 3 = some p ∧ p.elem = ![1, 1] ∧
    Fl.rbCorner r (Fl.rbToLocal r (Fl.rbToParent r b o m) o m) 3 = some p' ∧ p'.elem = ![-1, -1] := by
  refine ⟨⟨⟨0, true⟩, ⟨1, true⟩, RotMat.identity⟩, ⟨0, true⟩, quarter, quarter_isRotation, isRotation_identity, fun r => ?_⟩
  have z : r 0 = 0 := r.zero
  have o1 : r 1 = 1 := r.of_fl ⟨1, 0, by norm_num, by norm_num⟩
  have o2 : r (-1) = -1 := r.of_fl ⟨-1, 0, by norm_num, by norm_num⟩
  have t0 : Nat.testBit 3 0 = true := by decide
  have t1 : Nat.testBit 3 1 = true := by decide
  refine ⟨_, _, by unfold Fl.rbCorner; rw [if_pos (by norm_num), if_neg (by norm_num)], ?_, by unfold Fl.rbCorner; rw [if_pos (by norm_num), if_neg (by norm_num)], ?_⟩
  · funext i
    fin_cases i <;>
      simp [Fl.addVec, Fl.vecMat, Fl.sum, List.finRange_succ, RotMat.identity, z, o1, o2, t0, t1]
  · funext i
    fin_cases i <;>
      simp [Fl.rbToLocal, Fl.rbToParent, Fl.toLocal, Fl.toParent, Fl.matVec, Fl.ptSub, Fl.prod, Pt.origin, Fl.addVec, Fl.vecMat, Fl.sum, List.finRange_succ, RotMat.identity, quarter, z, o1, o2, t0, t1]

end WFMath
